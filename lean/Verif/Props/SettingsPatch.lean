import Verif.Model.SettingsPatch
import Verif.Lemmas.Py

/-!
# C37: patching one settings field
-/

set_option linter.unusedSectionVars false
set_option linter.unusedSimpArgs false

namespace Ez
namespace Patch
variable {A : Type}

/-- Specification: reading one name of a value. -/
def readName : Val A → String → Option (Val A)
  | .atom _, _ => none
  | .mapping es, n => PyDict.get? es n
  | .object _ fs cs, n => (PyDict.get? fs n).or (PyDict.get? cs n)

/-- Specification: reading a value along a path. -/
def read : List String → Val A → Option (Val A)
  | [], v => some v
  | n :: rest, v => (readName v n).bind (read rest)

/-- Specification: one name of a value can be given a new value: a key of a mapping, a field of a dataclass not declared
with `init=False`, an attribute of any other object. -/
def CanSet : Val A → String → Prop
  | .atom _, _ => False
  | .mapping es, n => n ∈ PyDict.keys es
  | .object (.dataclass fixed) fs _, n => n ∈ PyDict.keys fs ∧ n ∉ fixed
  | .object .other fs cs, n => n ∈ PyDict.keys fs ∨ n ∈ PyDict.keys cs

/-- Specification: every name along the path can be given a new value. -/
def CanSetPath : List String → Val A → Prop
  | [], _ => True
  | n :: rest, v => CanSet v n ∧ ∀ w, readName v n = some w → CanSetPath rest w

/-- Specification: what kind of value it is, with what its class contributes. -/
inductive Tag (A : Type) where
  | atom
  | mapping
  | object (kind : Kind) (classAttrs : List (String × Val A))

def tag : Val A → Tag A
  | .atom _ => .atom
  | .mapping _ => .mapping
  | .object k _ cs => .object k cs

/-- One level of the change: `v'` is `v` with `n` set to `x`. -/
structure SetName (v v' : Val A) (n : String) (x : Val A) : Prop where
  here : readName v' n = some x
  there : ∀ m, m ≠ n → readName v' m = readName v m
  same : tag v' = tag v

theorem patchObjectField_spec {v : Val A} {n : String} {x : Val A} (hv : ∀ es, v ≠ .mapping es) :
    (∀ v', patchObjectField v n x = .ok v' → CanSet v n ∧ SetName v v' n x) ∧
    (CanSet v n → ∃ v', patchObjectField v n x = .ok v') := by
  match v, hv with
  | .atom a, _ => simp [patchObjectField, CanSet]
  | .mapping es, hv => exact absurd rfl (hv es)
  | .object (.dataclass fixed) fs cs, _ =>
    by_cases h1 : n ∈ PyDict.keys fs
    · by_cases h2 : n ∈ fixed
      · simp [patchObjectField, CanSet, h1, h2]
      · simp only [patchObjectField, CanSet, h1, h2, not_true_eq_false, if_false, not_false_eq_true, and_self,
          Except.ok.injEq, exists_eq', imp_self, and_true, true_and]
        rintro v' rfl
        refine ⟨?_, ?_, rfl⟩
        · simp [readName, PyDict.get?_set]
        · intro m hm
          simp [readName, PyDict.get?_set, hm]
    · simp [patchObjectField, CanSet, h1]
  | .object .other fs cs, _ =>
    by_cases h : ((Val.object .other fs cs).getAttr? n).isSome = true
    · simp only [patchObjectField, h, if_true, CanSet, Except.ok.injEq, exists_eq', implies_true, and_true]
      rintro v' rfl
      refine ⟨?_, ?_, ?_, rfl⟩
      · simp only [Val.getAttr?, Option.isSome_or, Bool.or_eq_true] at h
        rcases h with h | h
        · exact Or.inl ((PyDict.mem_keys).2 h)
        · exact Or.inr ((PyDict.mem_keys).2 h)
      · simp [readName, PyDict.get?_set]
      · intro m hm
        simp [readName, PyDict.get?_set, hm]
    · refine ⟨?_, ?_⟩
      · intro v' hv'
        simp [patchObjectField, h] at hv'
      · intro hc
        exfalso; apply h
        simp only [Val.getAttr?, Option.isSome_or, Bool.or_eq_true]
        rcases hc with hc | hc
        · exact Or.inl ((PyDict.mem_keys).1 hc)
        · exact Or.inr ((PyDict.mem_keys).1 hc)

theorem canSet_read {v : Val A} {n : String} (h : CanSet v n) : ∃ w, readName v n = some w := by
  match v, h with
  | .mapping es, h => exact Option.isSome_iff_exists.1 (PyDict.mem_keys.1 h)
  | .object (.dataclass fixed) fs cs, h =>
    obtain ⟨w, hw⟩ := Option.isSome_iff_exists.1 (PyDict.mem_keys.1 h.1)
    exact ⟨w, by simp [readName, hw]⟩
  | .object .other fs cs, h =>
    apply Option.isSome_iff_exists.1
    simp only [readName, Option.isSome_or, Bool.or_eq_true]
    rcases h with h | h
    · exact Or.inl (PyDict.mem_keys.1 h)
    · exact Or.inr (PyDict.mem_keys.1 h)

/-- One turn of `apply`, the same for mappings and objects. -/
theorem apply_cons (x : Val A) (n : String) (rest : List String) (v : Val A) :
    (readName v n = none → apply x (n :: rest) v = .error .unknownField) ∧
    (∀ w, readName v n = some w →
      (∀ v', apply x (n :: rest) v = .ok v' → CanSet v n ∧
        ∃ y, (rest = [] ∧ y = x ∨ rest ≠ [] ∧ apply x rest w = .ok y) ∧ SetName v v' n y) ∧
      (rest ≠ [] → ∀ e, apply x rest w = .error e → apply x (n :: rest) v = .error e) ∧
      (CanSet v n → (rest = [] ∨ ∃ y, apply x rest w = .ok y) → ∃ v', apply x (n :: rest) v = .ok v')) := by
  cases v with
  | mapping es =>
    refine ⟨fun h => by simp only [readName] at h; simp [apply, h], ?_⟩
    intro w hw
    have hc : CanSet (.mapping es) n := PyDict.mem_keys.2 (by simp only [readName] at hw; rw [hw]; rfl)
    have hs : ∀ y, SetName (.mapping es) (.mapping (PyDict.set es n y)) n y := fun y =>
      ⟨by simp [readName, PyDict.get?_set], fun m hm => by simp [readName, PyDict.get?_set, hm], rfl⟩
    simp only [readName] at hw
    by_cases hr : rest = []
    · subst hr
      simp only [apply, hw, if_true]
      refine ⟨?_, fun h => absurd rfl h, fun _ _ => ⟨_, rfl⟩⟩
      rintro v' ⟨⟩
      exact ⟨hc, x, Or.inl ⟨trivial, rfl⟩, hs x⟩
    · simp only [apply, hw, hr, if_false]
      refine ⟨?_, ?_, ?_⟩
      · intro v' hv'
        split at hv'
        · cases hv'
        · rename_i c hcx
          cases hv'
          exact ⟨hc, c, Or.inr ⟨hr, hcx⟩, hs c⟩
      · intro _ e he
        simp [he]
      · rintro _ (h | ⟨y, hy⟩)
        · exact h.elim
        · exact ⟨_, by simp [hy]; rfl⟩
  | atom a =>
    refine ⟨fun h => by simp [apply, Val.getAttr?], ?_⟩
    intro w hw
    cases hw
  | object k fs cs =>
    have hg : (Val.object k fs cs).getAttr? n = readName (.object k fs cs) n := rfl
    refine ⟨fun h => by rw [← hg] at h; simp [apply, h], ?_⟩
    intro w hw
    rw [← hg] at hw
    have hp := fun y => patchObjectField_spec (v := .object k fs cs) (n := n) (x := y) (by rintro es ⟨⟩)
    by_cases hr : rest = []
    · subst hr
      simp only [apply, hw, if_true]
      refine ⟨?_, fun h => absurd rfl h, fun h _ => (hp x).2 h⟩
      intro v' hv'
      obtain ⟨h1, h2⟩ := (hp x).1 v' hv'
      exact ⟨h1, x, Or.inl ⟨trivial, rfl⟩, h2⟩
    · simp only [apply, hw, hr, if_false]
      refine ⟨?_, ?_, ?_⟩
      · intro v' hv'
        split at hv'
        · cases hv'
        · rename_i c hcx
          obtain ⟨h1, h2⟩ := (hp c).1 v' hv'
          exact ⟨h1, c, Or.inr ⟨hr, hcx⟩, h2⟩
      · intro _ e he
        simp [he]
      · rintro h (h' | ⟨y, hy⟩)
        · exact h'.elim
        · obtain ⟨v', hv'⟩ := (hp y).2 h
          exact ⟨v', by simp [hy, hv']⟩

theorem apply_exact (x : Val A) : ∀ (p : List String) (v v' : Val A), apply x p v = .ok v' →
    read p v' = some x ∧
    (∀ q, ¬ p <+: q → ¬ q <+: p → read q v' = read q v) ∧
    (∀ q, q <+: p → q ≠ p → ∃ w w', read q v = some w ∧ read q v' = some w' ∧ tag w' = tag w)
  | [], v, v', h => by simp [apply] at h
  | n :: rest, v, v', h => by
    obtain ⟨h1, h2⟩ := apply_cons x n rest v
    cases hw : readName v n with
    | none => rw [h1 hw] at h; cases h
    | some w =>
      obtain ⟨_, y, hy, hs⟩ := (h2 w hw).1 v' h
      have key : read rest y = some x ∧ (∀ q, ¬ rest <+: q → ¬ q <+: rest → read q y = read q w) ∧
          (∀ q, q <+: rest → q ≠ rest → ∃ u u', read q w = some u ∧ read q y = some u' ∧ tag u' = tag u) := by
        rcases hy with ⟨rfl, rfl⟩ | ⟨hr, hy⟩
        · refine ⟨rfl, fun q hq => absurd List.nil_prefix hq, ?_⟩
          intro q hq hne
          exact absurd (List.prefix_nil.1 hq) hne
        · exact apply_exact x rest w y hy
      obtain ⟨k1, k2, k3⟩ := key
      refine ⟨by simp [read, hs.here, k1], ?_, ?_⟩
      · intro q hq hq'
        cases q with
        | nil => exact absurd List.nil_prefix hq'
        | cons m q =>
          simp only [read]
          by_cases hm : m = n
          · subst hm
            rw [hs.here, hw]
            simp only [Option.bind_some]
            apply k2
            · intro h; exact hq (List.cons_prefix_cons.2 ⟨rfl, h⟩)
            · intro h; exact hq' (List.cons_prefix_cons.2 ⟨rfl, h⟩)
          · rw [hs.there m hm]
      · intro q hq hne
        cases q with
        | nil => exact ⟨v, v', rfl, rfl, hs.same⟩
        | cons m q =>
          obtain ⟨rfl, hq2⟩ := List.cons_prefix_cons.1 hq
          obtain ⟨u, u', a, b, c⟩ := k3 q hq2 (by rintro rfl; exact hne rfl)
          exact ⟨u, u', by simp [read, hw, a], by simp [read, hs.here, b], c⟩

/-- **C37 (one field).** If the update is accepted, reading the path gives the new value; every path that is neither
a beginning nor a continuation of it reads as before; the values along the path keep their kind. -/
theorem C37_exactly_one_field {v v' x : Val A} {p : List String} (h : replaceSettingsField v p x = .ok v') :
    read p v' = some x ∧
    (∀ r, read (p ++ r) v' = read r x) ∧
    (∀ q, ¬ p <+: q → ¬ q <+: p → read q v' = read q v) ∧
    (∀ q, q <+: p → q ≠ p → ∃ w w', read q v = some w ∧ read q v' = some w' ∧ tag w' = tag w) := by
  unfold replaceSettingsField at h
  split at h
  · cases h
  · obtain ⟨h1, h2, h3⟩ := apply_exact x p v v' h
    refine ⟨h1, ?_, h2, h3⟩
    intro r
    have : ∀ (p : List String) (v : Val A), read (p ++ r) v = (read p v).bind (read r) := by
      intro p
      induction p with
      | nil => intro v; rfl
      | cons n p ih =>
        intro v
        simp only [List.cons_append, read]
        cases readName v n with
        | none => rfl
        | some w => simp [ih]
    rw [this, h1]; rfl

/-- **C37 (when it is accepted).** The update is accepted exactly when the path is not empty and every name along it can
be given a new value. -/
theorem C37_accepted_iff (v x : Val A) (p : List String) :
    (∃ v', replaceSettingsField v p x = .ok v') ↔ p ≠ [] ∧ CanSetPath p v := by
  unfold replaceSettingsField
  by_cases hp : p = []
  · simp [hp]
  · simp only [hp, if_false, ne_eq, not_false_eq_true, true_and]
    suffices H : ∀ (p : List String), p ≠ [] → ∀ v : Val A, (∃ v', apply x p v = .ok v') ↔ CanSetPath p v from H p hp v
    intro p
    induction p with
    | nil => intro h; exact absurd rfl h
    | cons n rest ih =>
      intro _ v
      obtain ⟨h1, h2⟩ := apply_cons x n rest v
      constructor
      · rintro ⟨v', hv'⟩
        cases hw : readName v n with
        | none => rw [h1 hw] at hv'; cases hv'
        | some w =>
          obtain ⟨hc, y, hy, _⟩ := (h2 w hw).1 v' hv'
          refine ⟨hc, ?_⟩
          intro w' hw'
          rw [hw] at hw'; cases hw'
          rcases hy with ⟨rfl, _⟩ | ⟨hr, hy⟩
          · trivial
          · exact (ih hr w).1 ⟨y, hy⟩
      · rintro ⟨hc, hrest⟩
        obtain ⟨w, hw⟩ := canSet_read hc
        refine (h2 w hw).2.2 hc ?_
        by_cases hr : rest = []
        · exact Or.inl hr
        · exact Or.inr ((ih hr w).2 (hrest w hw))

/-- **C37 (unknown field).** A path that cannot be read is rejected as unknown. -/
theorem C37_unknown_field (v x : Val A) (p : List String) (h : read p v = none) :
    replaceSettingsField v p x = .error .unknownField := by
  have hp : p ≠ [] := by rintro rfl; cases h
  simp only [replaceSettingsField, hp, if_false]
  clear hp
  induction p generalizing v with
  | nil => cases h
  | cons n rest ih =>
    obtain ⟨h1, h2⟩ := apply_cons x n rest v
    cases hw : readName v n with
    | none => exact h1 hw
    | some w =>
      simp only [read, hw, Option.bind_some] at h
      have hr : rest ≠ [] := by rintro rfl; cases h
      exact (h2 w hw).2.1 hr _ (ih w h)

variable {U T : Type} [DecidableEq U] [DecidableEq T]

/-- **C37 (requests).** A request answered with success has replaced the tracked settings of its unit, and only of
its unit, by the old ones with the field patched, and what was sent to the unit is this value on its settings topic.
A request answered with an error has changed no tracked settings; if the patch was refused it has also sent
nothing. -/
theorem C37_request (c : Ctl U T A) (r : Request U A) (o : Outcome) :
    (∀ v', (handle c r o).1 = .ok v' →
      ∃ p x t v, r.update = some (p, x) ∧ c.inputTopics.get? r.unit = some t ∧ c.current.get? r.unit = some v ∧
        replaceSettingsField v p x = .ok v' ∧
        (∀ u, (handle c r o).2.current.get? u = if u = r.unit then some v' else c.current.get? u) ∧
        (handle c r o).2.sent = c.sent ++ (if o.delivered then [(t, v')] else [])) ∧
    (∀ e, (handle c r o).1 = .error e →
      (handle c r o).2.current = c.current ∧
      ((∀ p x v, r.update = some (p, x) → c.current.get? r.unit = some v →
          ∀ v', replaceSettingsField v p x ≠ .ok v') → (handle c r o).2 = c)) := by
  unfold handle
  split
  · simp
  · cases hu : r.update with
    | none => simp
    | some px =>
      obtain ⟨p, x⟩ := px
      simp only
      cases ht : c.inputTopics.get? r.unit with
      | none => simp
      | some t =>
        simp only
        cases hc : c.current.get? r.unit with
        | none => simp
        | some v =>
          simp only
          cases hr : replaceSettingsField v p x with
          | error e => simp
          | ok v' =>
            simp only
            by_cases ho : o.raised
            · simp only [ho, if_true]
              refine ⟨by simp, ?_⟩
              intro e _
              refine ⟨by split <;> rfl, ?_⟩
              intro h
              exact absurd hr (h p x v rfl rfl v')
            · simp only [ho, if_false, Bool.false_eq_true]
              refine ⟨?_, by simp⟩
              rintro _ ⟨⟩
              refine ⟨p, x, t, v, rfl, rfl, rfl, hr, ?_, ?_⟩
              · intro u
                by_cases hd : o.delivered <;> simp [hd, PyDict.get?_set]
              · by_cases hd : o.delivered <;> simp [hd]

/-- **C37 (which updates succeed).** An update is carried out exactly if it is one, the unit takes settings and has some, the field can be set in them, and sending them raises nothing. -/
theorem C37_answered (c : Ctl U T A) (r : Request U A) (o : Outcome) :
    (∃ v', (handle c r o).1 = .ok v') ↔ r.isFieldUpdate = true ∧ o.raised = false ∧ r.unit ∈ c.inputTopics.keys ∧
      ∃ p x v, r.update = some (p, x) ∧ c.current.get? r.unit = some v ∧ p ≠ [] ∧ CanSetPath p v := by
  have hk : r.unit ∈ c.inputTopics.keys ↔ c.inputTopics.get? r.unit ≠ none := by
    rw [ne_eq, PyDict.get?_eq_none]; simp
  rw [hk]
  unfold handle
  by_cases hf : r.isFieldUpdate = true
  · simp only [hf, Bool.not_true, Bool.false_eq_true, if_false, true_and]
    cases hu : r.update with
    | none => simp
    | some px =>
      obtain ⟨p, x⟩ := px
      simp only
      cases ht : c.inputTopics.get? r.unit with
      | none => simp
      | some t =>
        simp only
        cases hc : c.current.get? r.unit with
        | none => simp
        | some v =>
          simp only
          have key := C37_accepted_iff v x p
          cases hr : replaceSettingsField v p x with
          | error e =>
            have : ¬ (p ≠ [] ∧ CanSetPath p v) := by rw [← key]; rintro ⟨v', h⟩; rw [hr] at h; cases h
            simp only [reduceCtorEq, exists_false, false_iff]
            rintro ⟨_, _, p', x', v', e1, e2, h1, h2⟩
            cases e1; cases e2
            exact this ⟨h1, h2⟩
          | ok v' =>
            have : p ≠ [] ∧ CanSetPath p v := key.1 ⟨v', hr⟩
            by_cases ho : o.raised = true
            · simp [ho]
            · simp only [ho, Bool.false_eq_true, if_false]
              simp only [Bool.not_eq_true] at ho
              constructor
              · intro _; exact ⟨trivial, by simp, p, x, v, rfl, rfl, this.1, this.2⟩
              · intro _; exact ⟨v', rfl⟩
  · simp [hf]

/-! ## Examples -/

/-- Settings with a number, a nested dataclass and a mapping. -/
def demoSettings : Val Nat :=
  .object (.dataclass []) [("gain", .atom 1), ("filter", .object (.dataclass []) [("low", .atom 2), ("high", .atom 3)] []),
    ("opts", .mapping [("a", .atom 4)])] [("clone", .atom 0)]

example : replaceSettingsField demoSettings ["filter", "low"] (.atom 9) = .ok
    (.object (.dataclass []) [("gain", .atom 1), ("filter", .object (.dataclass []) [("low", .atom 9), ("high", .atom 3)] []),
      ("opts", .mapping [("a", .atom 4)])] [("clone", .atom 0)]) := by
  simp [replaceSettingsField, apply, demoSettings, Val.getAttr?, patchObjectField, PyDict.get?, PyDict.set, PyDict.keys,
    PyDict.modify]

example : CanSetPath ["opts", "a"] demoSettings := by
  simp [CanSetPath, CanSet, demoSettings, readName, PyDict.get?, PyDict.keys]

example : read ["filter", "mid"] demoSettings = none := by
  simp [read, readName, demoSettings, PyDict.get?]

/-- A method of a dataclass is no field and is refused, a method of another object is overwritten. -/
theorem C37_class_attributes (m x : Val A) :
    replaceSettingsField (.object (.dataclass []) [] [("clone", m)]) ["clone"] x = .error .unknownField ∧
    replaceSettingsField (.object .other [] [("clone", m)]) ["clone"] x = .ok (.object .other [("clone", x)] [("clone", m)]) := by
  simp [replaceSettingsField, apply, Val.getAttr?, patchObjectField, PyDict.get?, PyDict.set, PyDict.keys]

end Patch
end Ez
