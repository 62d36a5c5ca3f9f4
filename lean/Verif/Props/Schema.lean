import Verif.Model.Schema
import Verif.Props.SettingsMeta

/-!
# C127: settings schemas of pydantic and param classes
-/

namespace Ez
namespace SettingsMeta
variable (repr : Val → String)

/-- Specification: `v` is the first of the named attributes that is a number: it is one of them, and the ones named
before it are no numbers. -/
def IsFirst (o : Attrs) (names : List String) (v : Val) : Prop :=
  ∃ before n after, names = before ++ n :: after ∧ o n = some v ∧ Number v ∧
    ∀ m ∈ before, ∀ w, o m = some w → ¬ Number w

theorem firstNumber_some (o : Attrs) : ∀ (ns : List String) (v : Val), firstNumber o ns = some v → IsFirst o ns v
  | [], v, h => by simp [firstNumber] at h
  | n :: ns, v, h => by
    simp only [firstNumber] at h
    have rest : firstNumber o ns = some v → (∀ w, o n = some w → ¬ Number w) → IsFirst o (n :: ns) v := by
      intro h hn
      obtain ⟨b, m, a, rfl, h1, h2, h3⟩ := firstNumber_some o ns v h
      refine ⟨n :: b, m, a, rfl, h1, h2, ?_⟩
      intro k hk
      rcases List.mem_cons.1 hk with rfl | hk
      · exact hn
      · exact h3 k hk
    cases e : o n with
    | none => rw [e] at h; exact rest h (by simp [e])
    | some w =>
      rw [e] at h
      simp only at h
      by_cases hw : w.isNumber = true
      · rw [if_pos hw] at h
        cases h
        exact ⟨[], n, ns, rfl, e, (isNumber_iff _).1 hw, by simp⟩
      · rw [if_neg hw] at h
        exact rest h (by rw [e]; intro x hx; cases hx; rw [← isNumber_iff]; exact hw)

theorem firstNumber_none (o : Attrs) : ∀ (ns : List String), firstNumber o ns = none ↔
    ∀ n ∈ ns, ∀ w, o n = some w → ¬ Number w
  | [] => by simp [firstNumber]
  | n :: ns => by
    simp only [firstNumber, List.forall_mem_cons, ← firstNumber_none o ns]
    cases e : o n with
    | none => simp
    | some w => by_cases hw : w.isNumber = true <;> simp [hw, ← isNumber_iff]

theorem first_iff (o : Attrs) (ns : List String) (v : Val) : firstNumber o ns = some v ↔ IsFirst o ns v := by
  refine ⟨firstNumber_some o ns v, ?_⟩
  induction ns with
  | nil => rintro ⟨b, n, a, h, _⟩; simp at h
  | cons m ns ih =>
    rintro ⟨b, n, a, h, h1, h2, h3⟩
    cases b with
    | nil =>
      simp only [List.nil_append, List.cons.injEq] at h
      obtain ⟨rfl, rfl⟩ := h
      simp [firstNumber, h1, (isNumber_iff v).2 h2]
    | cons k b =>
      simp only [List.cons_append, List.cons.injEq] at h
      obtain ⟨rfl, rfl⟩ := h
      have ih := ih ⟨b, n, a, rfl, h1, h2, fun x hx => h3 x (.tail _ hx)⟩
      have hk := h3 m (.head _)
      simp only [firstNumber]
      cases e : o m with
      | none => exact ih
      | some w => simp only; rw [if_neg (fun hw => hk w e ((isNumber_iff _).1 hw))]; exact ih

/-- C127: the source of a schema. A dataclass is described by its fields, whatever else it has; otherwise `model_fields`,
then `__fields__`, then the parameters. Something without any of them, and something that is not a class, has no schema.
The schema of a value is the one of its class. -/
theorem C127_source (c : Cls) :
    (∀ fs, c.dataclass = some fs → schemaFromType repr (some c) = some ⟨"dataclass", c.module ++ "." ++ c.name, schema repr fs⟩) ∧
    (∀ fs, c.dataclass = none → c.modelFields = some fs →
      ∃ ms, schemaFromType repr (some c) = some ⟨"pydantic", c.module ++ "." ++ c.name, ms⟩ ∧ ms.map (·.name) = fs.map (·.1)) ∧
    (∀ fs, c.dataclass = none → c.modelFields = none → c.fields = some fs →
      ∃ ms, schemaFromType repr (some c) = some ⟨"pydantic", c.module ++ "." ++ c.name, ms⟩ ∧ ms.map (·.name) = fs.map (·.1)) ∧
    (∀ ps o, c.dataclass = none → c.modelFields = none → c.fields = none →
      c.objects = some (.dict ps, o) ∨ c.objects = some (.raises, .dict ps) →
      ∃ ms, schemaFromType repr (some c) = some ⟨"param", c.module ++ "." ++ c.name, ms⟩ ∧
        ms.map (·.name) = (ps.map (·.1)).filter (· ≠ "name")) ∧
    (schemaFromType repr (some c) = none ↔ c.dataclass = none ∧ c.modelFields = none ∧ c.fields = none ∧
      ∀ ps, (∀ o, c.objects ≠ some (.dict ps, o)) ∧ c.objects ≠ some (.raises, .dict ps)) ∧
    schemaFromType repr none = none ∧ schemaFromValue repr none = none ∧
    schemaFromValue repr (some c) = schemaFromType repr (some c) := by
  refine ⟨?_, ?_, ?_, ?_, ?_, rfl, rfl, rfl⟩
  · intro fs h; simp [schemaFromType, h, typeName]
  · intro fs h h'
    exact ⟨_, by simp only [schemaFromType, h, h', typeName]; rfl, by simp [fieldMeta2, List.map_map, Function.comp_def]⟩
  · intro fs h h' h2
    exact ⟨_, by simp only [schemaFromType, h, h', h2, typeName]; rfl, by simp [fieldMeta1, List.map_map, Function.comp_def]⟩
  · intro ps o h h' h2 h3
    have e : c.objects.bind objectsOf = some ps := by rcases h3 with h3 | h3 <;> simp [h3, objectsOf]
    refine ⟨_, by simp only [schemaFromType, h, h', h2, e, typeName]; rfl, ?_⟩
    simp [fieldMetaP, List.map_map, Function.comp_def, List.filter_map]
  · simp only [schemaFromType]
    rcases c with ⟨m, n, d, mf, f, o⟩
    rcases d with _ | d <;> rcases mf with _ | mf <;> rcases f with _ | f <;> simp
    rcases o with _ | ⟨a, b⟩
    · simp
    · rcases a with _ | a | _ <;> rcases b with _ | b | _ <;> simp [objectsOf]

/-- C127: the entries of pydantic classes. A field is required exactly if the class says so, its default is the given one
(`None` for a required field), its type is the annotation's, `typing.Any` without one, and its description is the given text. -/
theorem C127_pydantic (name : String) (i : Info2) (j : Info1) :
    ((fieldMeta2 repr name i).required = true ↔ i.isRequired = .value true ∨ i.isRequired = .call true) ∧
    ((fieldMeta1 repr name j).required = true ↔ j.required = some true) ∧
    (∀ v, (fieldMeta2 repr name i).required = false → i.attrs "default" = some v → (fieldMeta2 repr name i).default = sanitize repr v) ∧
    (∀ v, (fieldMeta1 repr name j).required = false → j.attrs "default" = some v → (fieldMeta1 repr name j).default = sanitize repr v) ∧
    ((fieldMeta2 repr name i).required = true ∨ i.attrs "default" = none → (fieldMeta2 repr name i).default = .scalar .none none) ∧
    ((fieldMeta1 repr name j).required = true ∨ j.attrs "default" = none → (fieldMeta1 repr name j).default = .scalar .none none) ∧
    (∀ m n, i.annotation = some (.cls m n) → (fieldMeta2 repr name i).fieldType = m ++ "." ++ n) ∧
    (∀ m n, j.outer = some (.cls m n) → (fieldMeta1 repr name j).fieldType = m ++ "." ++ n) ∧
    (i.annotation = none → (fieldMeta2 repr name i).fieldType = "typing.Any") ∧
    (j.outer = none → (fieldMeta1 repr name j).fieldType = "typing.Any") ∧
    (∀ s, (fieldMeta2 repr name i).description = some s ↔ ∃ k, i.attrs "description" = some (.scalar (.str s) k)) ∧
    (∀ s, (fieldMeta1 repr name j).description = some s ↔ ∃ a k, j.info = some a ∧ a "description" = some (.scalar (.str s) k)) := by
  have text : ∀ (o : Option Val) s, textOf o = some s ↔ ∃ k, o = some (.scalar (.str s) k) := by
    intro o s
    unfold textOf
    split
    · rename_i t k; simp
    · rename_i h
      constructor
      · intro h; cases h
      · rintro ⟨k, e⟩; exact absurd e (h s k)
  have none' : sanitize repr pyNone = .scalar .none none := sanitize_scalar repr _ _
  refine ⟨?_, ?_, ?_, ?_, ?_, ?_, ?_, ?_, ?_, ?_, ?_, ?_⟩
  · simp only [fieldMeta2]; cases i.isRequired <;> simp [Flag.holds]
  · simp only [fieldMeta1]; cases j.required <;> simp
  · intro v h h'; simp only [fieldMeta2] at h ⊢; simp [h, h']
  · intro v h h'; simp only [fieldMeta1] at h ⊢; simp [h, h']
  · rintro (h | h) <;> simp only [fieldMeta2] at h ⊢ <;> simp [h, pyNone] <;> intro _ <;> exact none'
  · rintro (h | h) <;> simp only [fieldMeta1] at h ⊢ <;> simp [h, pyNone] <;> intro _ <;> exact none'
  · intro m n h; simp [fieldMeta2, h, typeName]
  · intro m n h; simp [fieldMeta1, h, typeName]
  · intro h; simp [fieldMeta2, h, typeName, anyType]
  · intro h; simp [fieldMeta1, h, typeName, anyType]
  · intro s; exact text _ s
  · intro s
    refine (text _ s).trans ?_
    cases j.info <;> simp

theorem extract_iff (o : Attrs) (l u : Option Val) : extractBounds o = some (l, u) ↔
    (l ≠ none ∨ u ≠ none) ∧ (∀ v, l = some v ↔ IsFirst o ["ge", "gt", "min_length"] v) ∧
    (∀ v, u = some v ↔ IsFirst o ["le", "lt", "max_length"] v) := by
  simp only [extractBounds, ← first_iff]
  generalize firstNumber o ["ge", "gt", "min_length"] = a
  generalize firstNumber o ["le", "lt", "max_length"] = b
  have ext : ∀ x y : Option Val, (∀ v, x = some v ↔ y = some v) ↔ x = y := fun x y =>
    ⟨fun h => Option.ext h, fun h => by simp [h]⟩
  rw [ext, ext]
  cases a <;> cases b <;> simp <;> grind

/-- C127: the bounds of pydantic fields. The lower bound is the first of `ge`, `gt` and `min_length` that is a number, the
upper bound the first of `le`, `lt` and `max_length`; for `__fields__` those of the field's own information. There are no
bounds if none of them is a number. -/
theorem C127_bounds (name : String) (i : Info2) (j : Info1) :
    (∀ l u, (fieldMeta2 repr name i).bounds = some (l, u) ↔ (l ≠ none ∨ u ≠ none) ∧
      (∀ v, l = some v ↔ IsFirst i.attrs ["ge", "gt", "min_length"] v) ∧
      (∀ v, u = some v ↔ IsFirst i.attrs ["le", "lt", "max_length"] v)) ∧
    (∀ a l u, j.info = some a ∨ (j.info = none ∧ j.attrs = a) → ((fieldMeta1 repr name j).bounds = some (l, u) ↔
      (l ≠ none ∨ u ≠ none) ∧ (∀ v, l = some v ↔ IsFirst a ["ge", "gt", "min_length"] v) ∧
      (∀ v, u = some v ↔ IsFirst a ["le", "lt", "max_length"] v))) := by
  refine ⟨fun l u => extract_iff _ l u, ?_⟩
  intro a l u h
  have e : j.info.getD j.attrs = a := by rcases h with h | ⟨h, h'⟩ <;> simp [h]; exact h'
  simp only [fieldMeta1, e]
  exact extract_iff a l u

/-- C127: a `Literal` is shown as a list of choices. -/
theorem C127_choices (name : String) (i : Info2) (j : Info1) (vs : List Val) (t : String) (hv : vs ≠ []) :
    (i.annotation = some (.literal vs t) → (fieldMeta2 repr name i).choices = some (vs.map (sanitize repr)) ∧
      (fieldMeta2 repr name i).hint = some "select") ∧
    (j.outer = some (.literal vs t) → (fieldMeta1 repr name j).choices = some (vs.map (sanitize repr)) ∧
      (fieldMeta1 repr name j).hint = some "select") := by
  constructor <;> intro h
  · simp [fieldMeta2, h, choicesOf, widgetHint, hv]
  · simp [fieldMeta1, h, choicesOf, widgetHint, hv]

/-- C127: the entries of param classes. No parameter is required; default, description and the name of the parameter's class
are shown; choices are the names or the elements of `objects`. Bounds are the two of the parameter if each is a number or
`None`, and there are none otherwise. -/
theorem C127_param (name : String) (p : Param) :
    (fieldMetaP repr name p).required = false ∧
    (fieldMetaP repr name p).fieldType = p.module ++ "." ++ p.cls ∧
    (∀ v, p.attrs "default" = some v → (fieldMetaP repr name p).default = sanitize repr v) ∧
    (∀ s k, p.attrs "doc" = some (.scalar (.str s) k) → (fieldMetaP repr name p).description = some s) ∧
    (∀ vs, p.attrs "objects" = some (.list vs) ∨ p.attrs "objects" = some (.tuple vs) ∨ p.attrs "objects" = some (.set vs) →
      (fieldMetaP repr name p).choices = some (vs.map (sanitize repr)) ∧
      (vs ≠ [] → (fieldMetaP repr name p).hint = some "select")) ∧
    (∀ es, p.attrs "objects" = some (.dict es) → (fieldMetaP repr name p).choices = some (es.map fun e => .scalar (.str e.1.text) none) ∧
      (es ≠ [] → (fieldMetaP repr name p).hint = some "select")) ∧
    (∀ l u, (fieldMetaP repr name p).bounds = some (l, u) ↔
      ∃ x y, p.attrs "bounds" = some (.tuple [x, y]) ∧ ((∃ k, x = .scalar .none k) ∧ l = none ∨ Number x ∧ l = some x) ∧
        ((∃ k, y = .scalar .none k) ∧ u = none ∨ Number y ∧ u = some y)) := by
  refine ⟨rfl, rfl, ?_, ?_, ?_, ?_, ?_⟩
  · intro v h; simp [fieldMetaP, h]
  · intro s k h; simp [fieldMetaP, h, textOf]
  · rintro vs (h | h | h) <;> simp [fieldMetaP, h, paramChoices, widgetHint] <;> intro h' h2 <;> exact absurd h2 h'
  · intro es h; simp [fieldMetaP, h, paramChoices, widgetHint]; intro h' h2; exact absurd h2 h'
  · intro l u
    have isNone : ∀ v : Val, v.isNone = true ↔ ∃ k, v = .scalar .none k := by
      intro v
      unfold Val.isNone
      split
      · simp
      · rename_i h
        constructor
        · intro h; cases h
        · rintro ⟨k, rfl⟩; exact absurd rfl (h k)
    have apart : ∀ v : Val, v.isNone = true → v.isNumber = false := by
      intro v h
      obtain ⟨k, rfl⟩ := (isNone v).1 h
      rfl
    simp only [fieldMetaP, ← isNone, ← isNumber_iff]
    generalize p.attrs "bounds" = b
    unfold paramBounds
    split
    · rename_i x y
      have hx := apart x
      have hy := apart y
      constructor
      · intro h
        refine ⟨x, y, rfl, ?_⟩
        split at h <;> grind
      · rintro ⟨x', y', e, h1, h2⟩
        simp only [Option.some.injEq, Val.tuple.injEq, List.cons.injEq, and_true] at e
        obtain ⟨rfl, rfl⟩ := e
        grind
    · rename_i h
      constructor
      · intro h; cases h
      · rintro ⟨x, y, e, _⟩; exact absurd e (h x y)

theorem hint_builtin (b : Option (Option Val × Option Val)) :
    widgetHint "builtins.bool" none b = some "checkbox" ∧
    widgetHint "builtins.int" none b = some (if b.isSome then "slider" else "int_input") ∧
    widgetHint "builtins.float" none b = some (if b.isSome then "slider" else "float_input") ∧
    widgetHint "builtins.str" none b = some "text_input" := by
  have low : ∀ t, String.toLower t = t → widgetHint t none b =
      if hasSub "bool" t then some "checkbox"
      else if b.isSome && (hasSub "int" t || hasSub "float" t) then some "slider"
      else if hasSub "int" t then some "int_input"
      else if hasSub "float" t then some "float_input"
      else if hasSub "str" t then some "text_input"
      else none := by
    intro t ht; simp [widgetHint, ht]
  refine ⟨?_, ?_, ?_, ?_⟩
  · rw [low _ (by decide +kernel), if_pos (by decide +kernel)]
  · rw [low _ (by decide +kernel), if_neg (by decide +kernel)]
    cases b with
    | none => rw [if_neg (by simp), if_pos (by decide +kernel)]; rfl
    | some b => rw [if_pos (by simp only [Option.isSome_some, Bool.true_and]; decide +kernel)]; rfl
  · rw [low _ (by decide +kernel), if_neg (by decide +kernel)]
    cases b with
    | none => rw [if_neg (by simp), if_neg (by decide +kernel), if_pos (by decide +kernel)]; rfl
    | some b => rw [if_pos (by simp only [Option.isSome_some, Bool.true_and]; decide +kernel)]; rfl
  · rw [low _ (by decide +kernel), if_neg (by decide +kernel), if_neg (by
      rw [Bool.and_eq_true]; intro h; exact absurd h.2 (by decide +kernel)), if_neg (by decide +kernel),
      if_neg (by decide +kernel), if_pos (by decide +kernel)]

/-- C127 (partial): fields of pydantic classes annotated with `bool`, `int`, `float` and `str` get the widget for their type,
and so do the booleans, integers and texts of param.
Missing: other types (`C85_hint_wrong`), and numbers of param (`C127_number_without_widget`). -/
theorem C127_hint_partial (name : String) :
    (∀ (i : Info2) (n : String), i.annotation = some (.cls "builtins" n) →
      (n = "bool" → (fieldMeta2 repr name i).hint = some "checkbox") ∧
      (n = "int" → (fieldMeta2 repr name i).hint = some (if (fieldMeta2 repr name i).bounds.isSome then "slider" else "int_input")) ∧
      (n = "float" → (fieldMeta2 repr name i).hint = some (if (fieldMeta2 repr name i).bounds.isSome then "slider" else "float_input")) ∧
      (n = "str" → (fieldMeta2 repr name i).hint = some "text_input")) ∧
    (∀ (j : Info1) (n : String), j.outer = some (.cls "builtins" n) →
      (n = "bool" → (fieldMeta1 repr name j).hint = some "checkbox") ∧
      (n = "int" → (fieldMeta1 repr name j).hint = some (if (fieldMeta1 repr name j).bounds.isSome then "slider" else "int_input")) ∧
      (n = "float" → (fieldMeta1 repr name j).hint = some (if (fieldMeta1 repr name j).bounds.isSome then "slider" else "float_input")) ∧
      (n = "str" → (fieldMeta1 repr name j).hint = some "text_input")) ∧
    (∀ p : Param, p.module = "param.parameters" → p.attrs "objects" = none →
      (p.cls = "Boolean" → (fieldMetaP repr name p).hint = some "checkbox") ∧
      (p.cls = "Integer" → (fieldMetaP repr name p).hint = some (if (fieldMetaP repr name p).bounds.isSome then "slider" else "int_input")) ∧
      (p.cls = "String" → (fieldMetaP repr name p).hint = some "text_input")) := by
  refine ⟨?_, ?_, ?_⟩
  · intro i n h
    have e : ∀ m, n = m → (fieldMeta2 repr name i).hint = widgetHint ("builtins" ++ "." ++ m) none (fieldMeta2 repr name i).bounds := by
      rintro m rfl; simp [fieldMeta2, h, choicesOf, typeName]
    have k := hint_builtin (fieldMeta2 repr name i).bounds
    exact ⟨fun h => (e _ h).trans k.1, fun h => (e _ h).trans k.2.1, fun h => (e _ h).trans k.2.2.1, fun h => (e _ h).trans k.2.2.2⟩
  · intro j n h
    have e : ∀ m, n = m → (fieldMeta1 repr name j).hint = widgetHint ("builtins" ++ "." ++ m) none (fieldMeta1 repr name j).bounds := by
      rintro m rfl; simp [fieldMeta1, h, choicesOf, typeName]
    have k := hint_builtin (fieldMeta1 repr name j).bounds
    exact ⟨fun h => (e _ h).trans k.1, fun h => (e _ h).trans k.2.1, fun h => (e _ h).trans k.2.2.1, fun h => (e _ h).trans k.2.2.2⟩
  · intro p hm ho
    have e : ∀ c, p.cls = c → (fieldMetaP repr name p).hint =
        widgetHint ("param.parameters" ++ "." ++ c) none (fieldMetaP repr name p).bounds := by
      rintro c rfl; simp [fieldMetaP, hm, ho, paramChoices, typeName]
    generalize (fieldMetaP repr name p).bounds = b at e ⊢
    refine ⟨fun h => (e _ h).trans ?_, fun h => (e _ h).trans ?_, fun h => (e _ h).trans ?_⟩
    · have h : (("param.parameters" ++ "." ++ "Boolean").toLower) = "param.parameters.boolean" := by decide +kernel
      simp only [widgetHint, h]
      rw [if_neg (by simp), if_pos (by decide +kernel)]
    · have h : (("param.parameters" ++ "." ++ "Integer").toLower) = "param.parameters.integer" := by decide +kernel
      simp only [widgetHint, h]
      rw [if_neg (by simp), if_neg (by decide +kernel)]
      cases b with
      | none => rw [if_neg (by simp), if_pos (by decide +kernel)]; rfl
      | some b => rw [if_pos (by simp only [Option.isSome_some, Bool.true_and]; decide +kernel)]; rfl
    · have h : (("param.parameters" ++ "." ++ "String").toLower) = "param.parameters.string" := by decide +kernel
      simp only [widgetHint, h]
      rw [if_neg (by simp), if_neg (by decide +kernel), if_neg (by
        rw [Bool.and_eq_true]; intro h; exact absurd h.2 (by decide +kernel)), if_neg (by decide +kernel),
        if_neg (by decide +kernel), if_pos (by decide +kernel)]

/-- C127 fails for numbers of param: a `param.Number`, with bounds or without, gets no widget at all. -/
theorem C127_number_without_widget (name : String) (p : Param) (hm : p.module = "param.parameters") (hc : p.cls = "Number")
    (ho : p.attrs "objects" = none) : (fieldMetaP repr name p).hint = none := by
  have e : (fieldMetaP repr name p).hint = widgetHint "param.parameters.Number" none (fieldMetaP repr name p).bounds := by
    simp [fieldMetaP, hm, hc, ho, paramChoices, typeName]
  rw [e]
  generalize (fieldMetaP repr name p).bounds = b
  have h : ("param.parameters.Number".toLower) = "param.parameters.number" := by decide +kernel
  simp only [widgetHint, h]
  rw [if_neg (by simp), if_neg (by decide +kernel), if_neg (by rw [Bool.and_eq_true]; intro h; exact absurd h.2 (by decide +kernel)),
    if_neg (by decide +kernel), if_neg (by decide +kernel), if_neg (by decide +kernel)]

/-- The same object with another attribute. -/
def Attrs.with (o : Attrs) (n : String) (v : Val) : Attrs := fun m => if m = n then some v else o m

/-- C127 fails where pydantic 2 keeps what it is told elsewhere: neither a factory of defaults nor the list of constraints
(`metadata`) makes a difference. -/
theorem C127_factory_ignored (name : String) (i : Info2) (v : Val) :
    fieldMeta2 repr name { i with attrs := i.attrs.with "default_factory" v } = fieldMeta2 repr name i ∧
    fieldMeta2 repr name { i with attrs := i.attrs.with "metadata" v } = fieldMeta2 repr name i := by
  constructor <;> simp [fieldMeta2, extractBounds, firstNumber, Attrs.with]

/-! ## Examples -/

/-- A number with `ge=None`, `gt=0` and `le=10`. -/
def exampleInfo : Info2 :=
  { annotation := some (.cls "builtins" "int"), isRequired := .call false
    attrs := fun n =>
      if n = "default" then some (.scalar (.int 3) none)
      else if n = "ge" then some (.scalar .none none)
      else if n = "gt" then some (.scalar (.int 0) none)
      else if n = "le" then some (.scalar (.int 10) none)
      else if n = "lt" then some (.scalar (.int 99) none)
      else none }

/-- A class of pydantic with two fields. -/
def exampleCls : Cls :=
  { module := "app", name := "Settings", dataclass := none, modelFields := some [("rate", exampleInfo), ("gain", exampleInfo)]
    fields := some [], objects := none }

example : (schemaFromType repr (some exampleCls)).map (fun s => (s.provider, s.settingsType, s.fields.map (·.name))) =
    some ("pydantic", "app.Settings", ["rate", "gain"]) := by
  obtain ⟨ms, h, h'⟩ := (C127_source repr exampleCls).2.1 _ rfl rfl
  rw [h, Option.map_some, h']
  rfl
example : (fieldMeta2 repr "rate" exampleInfo).bounds = some (some (.scalar (.int 0) none), some (.scalar (.int 10) none)) := by
  simp [fieldMeta2, extractBounds, firstNumber, exampleInfo, Val.isNumber]
example : (fieldMeta2 repr "rate" exampleInfo).hint = some "slider" := by
  rw [((C127_hint_partial repr "rate").1 exampleInfo "int" rfl).2.1 rfl]
  simp [fieldMeta2, extractBounds, firstNumber, exampleInfo, Val.isNumber]
example : (fieldMeta2 repr "rate" exampleInfo).default = .scalar (.int 3) none := by
  rw [(C127_pydantic repr "rate" exampleInfo ⟨none, none, fun _ => none, none⟩).2.2.1 _ rfl rfl, sanitize_scalar]
example : IsFirst exampleInfo.attrs ["ge", "gt", "min_length"] (.scalar (.int 0) none) :=
  (first_iff _ _ _).1 (by simp [firstNumber, exampleInfo, Val.isNumber])

/-- A number of param between nothing and one. -/
def exampleParam : Param :=
  { module := "param.parameters", cls := "Number"
    attrs := fun n =>
      if n = "bounds" then some (.tuple [.scalar .none none, .scalar (.int 1) none])
      else if n = "doc" then some (.scalar (.str "how loud") none)
      else if n = "default" then some (.scalar (.int 0) none) else none }

example : (fieldMetaP repr "gain" exampleParam).bounds = some (none, some (.scalar (.int 1) none)) :=
  ((C127_param repr "gain" exampleParam).2.2.2.2.2.2 _ _).2
    ⟨_, _, rfl, .inl ⟨⟨_, rfl⟩, rfl⟩, .inr ⟨(isNumber_iff _).1 rfl, rfl⟩⟩
example : (fieldMetaP repr "gain" exampleParam).hint = none := C127_number_without_widget repr _ exampleParam rfl rfl rfl
example : (fieldMetaP repr "taps" { exampleParam with cls := "Integer" }).hint = some "slider" := by
  rw [((C127_hint_partial repr "taps").2.2 { exampleParam with cls := "Integer" } rfl rfl).2.1 rfl,
    ((C127_param repr "taps" { exampleParam with cls := "Integer" }).2.2.2.2.2.2 _ _).2
      ⟨_, _, rfl, .inl ⟨⟨_, rfl⟩, rfl⟩, .inr ⟨(isNumber_iff _).1 rfl, rfl⟩⟩]
  rfl
example : (fieldMeta2 repr "mode" ⟨some (.literal [.scalar (.str "a") none] "Literal['a']"), .absent, fun _ => none⟩).hint = some "select" :=
  ((C127_choices repr "mode" ⟨_, .absent, fun _ => none⟩ ⟨none, none, fun _ => none, none⟩ _ _ (by simp)).1 rfl).2

end SettingsMeta
end Ez
