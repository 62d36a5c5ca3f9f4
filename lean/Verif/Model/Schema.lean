import Verif.Model.SettingsMeta

/-!
# Settings schemas of pydantic and param classes (`src/ezmsg/core/settingsmeta.py`)

* Field objects of pydantic and parameters of param are given by their attributes; whether these libraries set them is
  not part of the model.
* Exceptions of `is_required()` and of `float(...)` (an integer too large) are not modelled. Bounds are given by the
  values that are converted to `float`.
* The keys of a mapping of choices are strings. A `frozenset` of choices, which is no `set`, is not distinguished from a `set`.
-/

namespace Ez
namespace SettingsMeta

/-- The attributes of an object: `getattr(obj, name)`, `none` if there is none. -/
abbrev Attrs := String → Option Val

/-- The first of the attributes that is a number, one loop of `_extract_bounds`: settingsmeta.py:120-125, 126-131. -/
def firstNumber (o : Attrs) : List String → Option Val
  | [] => none
  | n :: ns =>
    match o n with
    | some v => if v.isNumber then some v else firstNumber o ns
    | none => firstNumber o ns

/-- `_extract_bounds`: settingsmeta.py:117-134. -/
def extractBounds (o : Attrs) : Option (Option Val × Option Val) :=
  let lower := firstNumber o ["ge", "gt", "min_length"]
  let upper := firstNumber o ["le", "lt", "max_length"]
  if lower.isNone && upper.isNone then none else some (lower, upper)

/-- `description if isinstance(description, str) else None`. -/
def textOf : Option Val → Option String
  | some (.scalar (.str s) _) => some s
  | _ => none

/-- `is_required` of a field: no such attribute, a value (by its truth), or a method (by the truth of its answer). -/
inductive Flag where
  | absent
  | value (b : Bool)
  | call (b : Bool)

/-- `bool(is_required())` or `bool(is_required)`; `bool(None)` without: settingsmeta.py:198-203. -/
def Flag.holds : Flag → Bool
  | .absent => false
  | .value b => b
  | .call b => b

/-- `typing.Any`. -/
def anyType : Ann := .other "typing.Any"

/-- An entry of `model_fields` (pydantic 2). -/
structure Info2 where
  annotation : Option Ann
  isRequired : Flag
  attrs : Attrs

/-- The metadata of an entry of `model_fields`: settingsmeta.py:196-225. -/
def fieldMeta2 (repr : Val → String) (name : String) (i : Info2) : FieldMeta :=
  let annotation := i.annotation.getD anyType
  let required := i.isRequired.holds
  let default := if required then pyNone else sanitize repr ((i.attrs "default").getD pyNone)
  let choices := choicesOf repr annotation
  let bounds := extractBounds i.attrs
  { name := name
    fieldType := typeName annotation
    required := required
    default := default
    description := textOf (i.attrs "description")
    bounds := bounds
    choices := choices
    hint := widgetHint (typeName annotation) choices bounds }

/-- An entry of `__fields__` (pydantic 1); `info` are the attributes of its `field_info`. -/
structure Info1 where
  outer : Option Ann
  required : Option Bool
  attrs : Attrs
  info : Option Attrs

/-- The metadata of an entry of `__fields__`: settingsmeta.py:236-258. -/
def fieldMeta1 (repr : Val → String) (name : String) (i : Info1) : FieldMeta :=
  let annotation := i.outer.getD anyType
  let required := i.required.getD false
  let default := if required then pyNone else sanitize repr ((i.attrs "default").getD pyNone)
  let choices := choicesOf repr annotation
  let bounds := extractBounds (i.info.getD i.attrs)
  { name := name
    fieldType := typeName annotation
    required := required
    default := default
    description := textOf (i.info.bind fun a => a "description")
    bounds := bounds
    choices := choices
    hint := widgetHint (typeName annotation) choices bounds }

/-- A parameter of param: its class and its attributes. -/
structure Param where
  module : String
  cls : String
  attrs : Attrs

/-- `getattr(param_obj, "objects", None)` as choices: the keys of a mapping, or the elements: settingsmeta.py:279-284. -/
def paramChoices (repr : Val → String) : Option Val → Option (List Val)
  | some (.dict es) => some (es.map fun e => .scalar (.str e.1.text) none)
  | some (.mapping es _) => some (es.map fun e => .scalar (.str e.1.text) none)
  | some (.list xs) => some (xs.map (sanitize repr))
  | some (.tuple xs) => some (xs.map (sanitize repr))
  | some (.set xs) => some (xs.map (sanitize repr))
  | _ => none

/-- `bound is None`. -/
def Val.isNone : Val → Bool
  | .scalar .none _ => true
  | _ => false

/-- `getattr(param_obj, "bounds", None)` as bounds: settingsmeta.py:285-298. -/
def paramBounds : Option Val → Option (Option Val × Option Val)
  | some (.tuple [l, u]) =>
    if (l.isNone || l.isNumber) && (u.isNone || u.isNumber) then
      some (if l.isNumber then some l else none, if u.isNumber then some u else none)
    else none
  | _ => none

/-- The metadata of a parameter: settingsmeta.py:276-315. -/
def fieldMetaP (repr : Val → String) (name : String) (p : Param) : FieldMeta :=
  let choices := paramChoices repr (p.attrs "objects")
  let bounds := paramBounds (p.attrs "bounds")
  let fieldType := typeName (.cls p.module p.cls)
  { name := name
    fieldType := fieldType
    required := false
    default := sanitize repr ((p.attrs "default").getD pyNone)
    description := textOf (p.attrs "doc")
    bounds := bounds
    choices := choices
    hint := widgetHint fieldType choices bounds }

/-- What a call of `param_ns.objects` does: raise, give a dictionary, or give something else. -/
inductive Objects where
  | raises
  | dict (ps : List (String × Param))
  | other

/-- A settings class: the fields if it is a dataclass; `model_fields` and `__fields__` if they are dictionaries; what
`param.objects("existing")` and `param.objects()` do, if there is such a method. -/
structure Cls where
  module : String
  name : String
  dataclass : Option (List Field)
  modelFields : Option (List (String × Info2))
  fields : Option (List (String × Info1))
  objects : Option (Objects × Objects)

/-- `SettingsSchemaMetadata`: graphmeta.py:99-103. -/
structure Schema where
  provider : String
  settingsType : String
  fields : List FieldMeta

/-- `param_ns.objects("existing")`, and `param_ns.objects()` if it raises: settingsmeta.py:265-274. -/
def objectsOf : Objects × Objects → Option (List (String × Param))
  | (.dict ps, _) => some ps
  | (.raises, .dict ps) => some ps
  | _ => none

/-- `settings_schema_from_type`; `none` for something that is not a class: settingsmeta.py:137-322. -/
def schemaFromType (repr : Val → String) (c : Option Cls) : Option Schema :=
  match c with
  | none => none
  | some c =>
    let n := typeName (.cls c.module c.name)
    match c.dataclass, c.modelFields, c.fields, c.objects.bind objectsOf with
    | some fs, _, _, _ => some ⟨"dataclass", n, schema repr fs⟩
    | none, some fs, _, _ => some ⟨"pydantic", n, fs.map fun f => fieldMeta2 repr f.1 f.2⟩
    | none, none, some fs, _ => some ⟨"pydantic", n, fs.map fun f => fieldMeta1 repr f.1 f.2⟩
    | none, none, none, some ps =>
      some ⟨"param", n, (ps.filter fun p => p.1 ≠ "name").map fun p => fieldMetaP repr p.1 p.2⟩
    | none, none, none, none => none

/-- `settings_schema_from_value`; `none` for `None`, else the class of the value: settingsmeta.py:325-328. -/
def schemaFromValue (repr : Val → String) (c : Option Cls) : Option Schema := c.bind fun c => schemaFromType repr (some c)

end SettingsMeta
end Ez
