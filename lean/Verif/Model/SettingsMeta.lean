import Verif.Model.Py

/-!
# Structured settings values and settings schemas (`src/ezmsg/core/settingsmeta.py`)

* Values are trees. Every object is of one of the kinds that the code distinguishes; an object of two kinds, e.g. a
  dataclass that is also a `Mapping`, is not modelled, and neither is one that contains itself.
* `repr(value)` is a parameter. `str(key)` is part of the key.
* `dataclasses.asdict` is modelled after the standard library (`_asdict_inner`). A `defaultdict`, which `asdict` cannot
  rebuild before Python 3.12, is not modelled.
* Schemas: of dataclasses; for the other sources see `Model/Schema.lean`.
-/

namespace Ez
namespace SettingsMeta

/-- `None` and the values of `bool`, `int`, `float` (by a number that stands for it) and `str`. -/
inductive Scalar where
  | none
  | bool (b : Bool)
  | int (i : Int)
  | float (i : Int)
  | str (s : String)
deriving DecidableEq

/-- A key of a mapping: `str(key)`, whether it is a `str` itself, and whether `asdict` can make a key of it (it cannot
if the key is a dataclass object, of which it makes a `dict`). -/
structure Key where
  text : String
  isStr : Bool
  copies : Bool
deriving DecidableEq

/-- A key that is a `str`. -/
def strKey (s : String) : Key := ⟨s, true, true⟩

/-- Python values.

* `scalar s cls`: `cls` is `none` if the type is the one of `s`, else the subclass (e.g. an `IntEnum`, `numpy.float64`)
* `enum`: an `Enum` that is not an instance of `int` or `str`
* `dict`: a `dict` or an object of a subclass
* `mapping`: any other `Mapping`; `copies`: whether `copy.deepcopy` accepts the mapping itself
* `set`: `set` or `frozenset`, in the order of iteration
* `data`: an object of a dataclass with its fields
* `obj`: anything else -/
inductive Val where
  | scalar (s : Scalar) (cls : Option String)
  | enum (cls : String) (value : Val)
  | dict (es : List (Key × Val))
  | mapping (es : List (Key × Val)) (copies : Bool)
  | list (xs : List Val)
  | tuple (xs : List Val)
  | set (xs : List Val)
  | data (cls : String) (fs : List (String × Val))
  | obj (text : String) (copies : Bool)

mutual
/-- Whether `copy.deepcopy(value)` succeeds (standard library). -/
def Val.copies : Val → Bool
  | .scalar _ _ => true
  | .enum _ _ => true
  | .dict es => copiesE es
  | .mapping es c => c && copiesE es
  | .list xs => copiesL xs
  | .tuple xs => copiesL xs
  | .set xs => copiesL xs
  | .data _ fs => copiesF fs
  | .obj _ c => c
def copiesL : List Val → Bool
  | [] => true
  | x :: xs => x.copies && copiesL xs
def copiesE : List (Key × Val) → Bool
  | [] => true
  | (_, x) :: xs => x.copies && copiesE xs
def copiesF : List (String × Val) → Bool
  | [] => true
  | (_, x) :: xs => x.copies && copiesF xs
end

mutual
/-- `dataclasses._asdict_inner(value, dict)` (standard library); `none` for an exception. -/
def Val.asdict : Val → Option Val
  | .data _ fs => (asdictF fs).map .dict
  | .list xs => (asdictL xs).map .list
  | .tuple xs => (asdictL xs).map .tuple
  | .dict es => (asdictE es).map .dict
  | .scalar s c => some (.scalar s c)
  | .enum c v => some (.enum c v)
  | .mapping es c => if (Val.mapping es c).copies then some (.mapping es c) else none
  | .set xs => if (Val.set xs).copies then some (.set xs) else none
  | .obj t c => if c then some (.obj t c) else none
def asdictL : List Val → Option (List Val)
  | [] => some []
  | x :: xs => match x.asdict, asdictL xs with
    | some y, some ys => some (y :: ys)
    | _, _ => none
def asdictE : List (Key × Val) → Option (List (Key × Val))
  | [] => some []
  | (k, x) :: xs => match x.asdict, asdictE xs with
    | some y, some ys => if k.copies then some ((k, y) :: ys) else none
    | _, _ => none
def asdictF : List (String × Val) → Option (List (Key × Val))
  | [] => some []
  | (n, x) :: xs => match x.asdict, asdictF xs with
    | some y, some ys => some ((strKey n, y) :: ys)
    | _, _ => none
end

mutual
/-- The number of dataclass objects in a value; for the termination of `sanitize`. -/
def Val.datas : Val → Nat
  | .scalar _ _ => 0
  | .enum _ v => v.datas
  | .dict es => datasE es
  | .mapping es _ => datasE es
  | .list xs => datasL xs
  | .tuple xs => datasL xs
  | .set xs => datasL xs
  | .data _ fs => 1 + datasF fs
  | .obj _ _ => 0
def datasL : List Val → Nat
  | [] => 0
  | x :: xs => x.datas + datasL xs
def datasE : List (Key × Val) → Nat
  | [] => 0
  | (_, x) :: xs => x.datas + datasE xs
def datasF : List (String × Val) → Nat
  | [] => 0
  | (_, x) :: xs => x.datas + datasF xs
end

mutual
theorem datas_asdict : ∀ (v w : Val), v.asdict = some w → w.datas ≤ v.datas
  | .data _ fs, w, h => by
    simp only [Val.asdict, Option.map_eq_some_iff] at h
    obtain ⟨a, ha, rfl⟩ := h
    have := datas_asdictF fs a ha
    simp only [Val.datas]; omega
  | .list xs, w, h => by
    simp only [Val.asdict, Option.map_eq_some_iff] at h
    obtain ⟨a, ha, rfl⟩ := h
    exact datas_asdictL xs a ha
  | .tuple xs, w, h => by
    simp only [Val.asdict, Option.map_eq_some_iff] at h
    obtain ⟨a, ha, rfl⟩ := h
    exact datas_asdictL xs a ha
  | .dict es, w, h => by
    simp only [Val.asdict, Option.map_eq_some_iff] at h
    obtain ⟨a, ha, rfl⟩ := h
    exact datas_asdictE es a ha
  | .scalar _ _, w, h => by simp only [Val.asdict, Option.some.injEq] at h; subst h; exact Nat.le_refl _
  | .enum _ _, w, h => by simp only [Val.asdict, Option.some.injEq] at h; subst h; exact Nat.le_refl _
  | .mapping _ _, w, h => by
    simp only [Val.asdict] at h
    split at h
    · cases h; exact Nat.le_refl _
    · cases h
  | .set _, w, h => by
    simp only [Val.asdict] at h
    split at h
    · cases h; exact Nat.le_refl _
    · cases h
  | .obj _ _, w, h => by
    simp only [Val.asdict] at h
    split at h
    · cases h; exact Nat.le_refl _
    · cases h
theorem datas_asdictL : ∀ (xs ys : List Val), asdictL xs = some ys → datasL ys ≤ datasL xs
  | [], ys, h => by simp only [asdictL, Option.some.injEq] at h; subst h; exact Nat.le_refl _
  | x :: xs, ys, h => by
    simp only [asdictL] at h
    split at h
    · rename_i y zs h1 h2
      cases h
      have := datas_asdict x y h1
      have := datas_asdictL xs zs h2
      simp only [datasL]; omega
    · cases h
theorem datas_asdictE : ∀ (xs ys : List (Key × Val)), asdictE xs = some ys → datasE ys ≤ datasE xs
  | [], ys, h => by simp only [asdictE, Option.some.injEq] at h; subst h; exact Nat.le_refl _
  | (k, x) :: xs, ys, h => by
    simp only [asdictE] at h
    split at h
    · rename_i y zs h1 h2
      split at h
      · cases h
        have := datas_asdict x y h1
        have := datas_asdictE xs zs h2
        simp only [datasE]; omega
      · cases h
    · cases h
theorem datas_asdictF : ∀ (xs : List (String × Val)) (ys : List (Key × Val)), asdictF xs = some ys → datasE ys ≤ datasF xs
  | [], ys, h => by simp only [asdictF, Option.some.injEq] at h; subst h; exact Nat.le_refl _
  | (n, x) :: xs, ys, h => by
    simp only [asdictF] at h
    split at h
    · rename_i y zs h1 h2
      cases h
      have := datas_asdict x y h1
      have := datas_asdictF xs zs h2
      simp only [datasE, datasF]; omega
    · cases h
end

theorem datas_mem {x : Val} : ∀ {xs : List Val}, x ∈ xs → x.datas ≤ datasL xs
  | [], h => by simp at h
  | y :: ys, h => by
    simp only [datasL]
    rcases List.mem_cons.1 h with rfl | h
    · omega
    · have := datas_mem h; omega

theorem datas_memE {x : Key × Val} : ∀ {xs : List (Key × Val)}, x ∈ xs → x.2.datas ≤ datasE xs
  | [], h => by simp at h
  | y :: ys, h => by
    simp only [datasE]
    rcases List.mem_cons.1 h with rfl | h
    · omega
    · have := datas_memE h; omega

/-- `{str(key): ... for ...}`: later entries replace earlier ones with the same `str(key)`. -/
def collect (es : List (Key × Val)) : List (Key × Val) :=
  es.foldl (fun d e => PyDict.set d (strKey e.1.text) e.2) []

/-- `_sanitize`: settingsmeta.py:17-32. -/
def sanitize (repr : Val → String) (v : Val) : Val :=
  match v with
  | .scalar s c => .scalar s c
  | .enum _ w => sanitize repr w
  | .dict es => .dict (collect (es.attach.map fun e => (e.1.1, sanitize repr e.1.2)))
  | .mapping es _ => .dict (collect (es.attach.map fun e => (e.1.1, sanitize repr e.1.2)))
  | .list xs => .list (xs.attach.map fun x => sanitize repr x.1)
  | .tuple xs => .list (xs.attach.map fun x => sanitize repr x.1)
  | .set xs => .list (xs.attach.map fun x => sanitize repr x.1)
  | .data c fs =>
    match _h : (Val.data c fs).asdict with
    | some w => sanitize repr w
    | none => .scalar (.str (repr (.data c fs))) none
  | .obj t c => .scalar (.str (repr (.obj t c))) none
termination_by (v.datas, sizeOf v)
decreasing_by
  · simp only [Val.datas]; apply Prod.Lex.right; simp only [Val.enum.sizeOf_spec]; omega
  · have h1 := datas_memE e.2
    have h2 := List.sizeOf_lt_of_mem e.2
    have h3 : sizeOf e.1 = 1 + sizeOf e.1.1 + sizeOf e.1.2 := by cases e.1; rfl
    simp only [Val.datas]
    rcases Nat.lt_or_eq_of_le h1 with h | h
    · exact Prod.Lex.left _ _ h
    · rw [h]; apply Prod.Lex.right; simp only [Val.dict.sizeOf_spec]; omega
  · have h1 := datas_memE e.2
    have h2 := List.sizeOf_lt_of_mem e.2
    have h3 : sizeOf e.1 = 1 + sizeOf e.1.1 + sizeOf e.1.2 := by cases e.1; rfl
    simp only [Val.datas]
    rcases Nat.lt_or_eq_of_le h1 with h | h
    · exact Prod.Lex.left _ _ h
    · rw [h]; apply Prod.Lex.right; simp only [Val.mapping.sizeOf_spec]; omega
  · have h1 := datas_mem x.2
    have h2 := List.sizeOf_lt_of_mem x.2
    simp only [Val.datas]
    rcases Nat.lt_or_eq_of_le h1 with h | h
    · exact Prod.Lex.left _ _ h
    · rw [h]; apply Prod.Lex.right; simp only [Val.list.sizeOf_spec]; omega
  · have h1 := datas_mem x.2
    have h2 := List.sizeOf_lt_of_mem x.2
    simp only [Val.datas]
    rcases Nat.lt_or_eq_of_le h1 with h | h
    · exact Prod.Lex.left _ _ h
    · rw [h]; apply Prod.Lex.right; simp only [Val.tuple.sizeOf_spec]; omega
  · have h1 := datas_mem x.2
    have h2 := List.sizeOf_lt_of_mem x.2
    simp only [Val.datas]
    rcases Nat.lt_or_eq_of_le h1 with h | h
    · exact Prod.Lex.left _ _ h
    · rw [h]; apply Prod.Lex.right; simp only [Val.set.sizeOf_spec]; omega
  · apply Prod.Lex.left
    have h := _h
    simp only [Val.asdict, Option.map_eq_some_iff] at h
    obtain ⟨a, ha, rfl⟩ := h
    have := datas_asdictF fs a ha
    simp only [Val.datas]; omega

/-- `settings_structured_value`; `dumped` are the dictionaries which `model_dump`, `dict` and `param.values` of the
value give, `none` if there is no such method, it raises an exception or gives something else; `none` stands for
`None`: settingsmeta.py:35-73. -/
def structured (repr : Val → String) (v : Val) (modelDump dictCall paramValues : Option (List (Key × Val))) : Option Val :=
  match v with
  | .scalar .none _ => none
  | _ =>
    match (match v with | .data _ _ => v.asdict | _ => none), modelDump, dictCall with
    | some w, _, _ => some (sanitize repr w)
    | none, some d, _ => some (sanitize repr (.dict d))
    | none, none, some d => some (sanitize repr (.dict d))
    | none, none, none =>
      match v with
      | .dict es => some (sanitize repr (.dict es))
      | .mapping es _ => some (sanitize repr (.dict es))
      | _ => paramValues.map fun d => sanitize repr (.dict d)

/-- `settings_repr_value`: settingsmeta.py:76-80. -/
def reprValue (repr : Val → String) (v : Val) (modelDump dictCall paramValues : Option (List (Key × Val))) : Val :=
  (structured repr v modelDump dictCall paramValues).getD (.scalar (.str (repr v)) none)

/-! ## Schemas -/

/-- What a field is annotated with: a class with its module and name, `Literal[...]`, or anything else with its text
(e.g. a generic, or the text of an annotation that has not been evaluated). -/
inductive Ann where
  | cls (module name : String)
  | literal (vals : List Val) (text : String)
  | other (text : String)

/-- A field of a dataclass; `factory`: what `default_factory` gives, `some none` for an exception. The rest is its
`metadata`. -/
structure Field where
  name : String
  type : Ann
  default : Option Val
  factory : Option (Option Val)
  description : Option Val
  choices : Option Val
  ge : Option Val
  min : Option Val
  le : Option Val
  max : Option Val

/-- `SettingsFieldMetadata`: graphmeta.py:87-96. Bounds are given by the values that are converted to `float`. -/
structure FieldMeta where
  name : String
  fieldType : String
  required : Bool
  default : Val
  description : Option String
  bounds : Option (Option Val × Option Val)
  choices : Option (List Val)
  hint : Option String

/-- `None`. -/
def pyNone : Val := .scalar .none none

/-- `_type_name`: settingsmeta.py:11-14. -/
def typeName : Ann → String
  | .cls m n => m ++ "." ++ n
  | .literal _ t => t
  | .other t => t

/-- `_choices_from_annotation`: settingsmeta.py:107-114. -/
def choicesOf (repr : Val → String) : Ann → Option (List Val)
  | .literal vs _ => some (vs.map (sanitize repr))
  | _ => none

/-- `s in t` for strings. -/
def hasSub (s t : String) : Bool := (List.range (t.toList.length + 1)).any fun i => s.toList.isPrefixOf (t.toList.drop i)

/-- `_widget_hint`: settingsmeta.py:83-104. -/
def widgetHint (fieldType : String) (choices : Option (List Val)) (bounds : Option (Option Val × Option Val)) : Option String :=
  let t := fieldType.toLower
  if choices.any (fun c => !c.isEmpty) then some "select"
  else if hasSub "bool" t then some "checkbox"
  else if bounds.isSome && (hasSub "int" t || hasSub "float" t) then some "slider"
  else if hasSub "int" t then some "int_input"
  else if hasSub "float" t then some "float_input"
  else if hasSub "str" t then some "text_input"
  else none

/-- `isinstance(value, (int, float))`; `bool` is a subclass of `int`. -/
def Val.isNumber : Val → Bool
  | .scalar (.bool _) _ => true
  | .scalar (.int _) _ => true
  | .scalar (.float _) _ => true
  | _ => false

/-- `metadata.get(a, metadata.get(b))` if it is a number: settingsmeta.py:167-173. -/
def boundOf (a b : Option Val) : Option Val := (a.or b).filter Val.isNumber

/-- The metadata of a field of a dataclass: settingsmeta.py:144-191. -/
def fieldMeta (repr : Val → String) (f : Field) : FieldMeta :=
  let required := f.default.isNone && f.factory.isNone
  let default := match f.default, f.factory with
    | some v, _ => sanitize repr v
    | none, some (some v) => sanitize repr v
    | none, some none => .scalar (.str "<factory>") none
    | none, none => pyNone
  let choices := match f.choices with
    | some (.list xs) => some (xs.map (sanitize repr))
    | some (.tuple xs) => some (xs.map (sanitize repr))
    | some (.set xs) => some (xs.map (sanitize repr))
    | _ => choicesOf repr f.type
  let lo := boundOf f.ge f.min
  let hi := boundOf f.le f.max
  let bounds := if lo.isSome || hi.isSome then some (lo, hi) else none
  { name := f.name
    fieldType := typeName f.type
    required := required
    default := default
    description := match f.description with | some (.scalar (.str s) _) => some s | _ => none
    bounds := bounds
    choices := choices
    hint := widgetHint (typeName f.type) choices bounds }

/-- `settings_schema_from_type` for a dataclass: settingsmeta.py:138-197. -/
def schema (repr : Val → String) (fs : List Field) : List FieldMeta := fs.map (fieldMeta repr)

end SettingsMeta
end Ez
