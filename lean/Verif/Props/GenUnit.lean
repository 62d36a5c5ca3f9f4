import Verif.Model.GenUnit
import Verif.Lemmas.Py

/-!
# C129: units made from generator functions
-/

namespace Ez
namespace GenUnit
variable {V : Type}

/-- Specification: a parameter without default comes after one with. -/
def LateRequired (ps : List (Param V)) : Prop :=
  ∃ (i j : Nat) (p q : Param V), i < j ∧ ps[i]? = some p ∧ ps[j]? = some q ∧ p.default ≠ none ∧ q.default = none

theorem misplaced_iff : ∀ ps : List (Param V), misplaced ps = true ↔ LateRequired ps
  | [] => by simp [misplaced, LateRequired]
  | p :: ps => by
    simp only [misplaced, Bool.or_eq_true, misplaced_iff ps, Bool.and_eq_true, List.any_eq_true]
    constructor
    · rintro (⟨hp, q, hq, hn⟩ | ⟨i, j, a, b, h, h1, h2, h3, h4⟩)
      · obtain ⟨j, hj, e⟩ := List.getElem_of_mem hq
        refine ⟨0, j + 1, p, q, by omega, by simp, by simp [hj, e], ?_, by simpa using hn⟩
        intro h; simp [h] at hp
      · exact ⟨i + 1, j + 1, a, b, by omega, by simpa using h1, by simpa using h2, h3, h4⟩
    · rintro ⟨i, j, a, b, h, h1, h2, h3, h4⟩
      cases j with
      | zero => omega
      | succ j =>
        cases i with
        | zero =>
          left
          simp at h1 h2
          subst h1
          refine ⟨?_, b, List.mem_of_getElem? h2, by simp [h4]⟩
          cases e : p.default with
          | none => exact absurd e h3
          | some _ => rfl
        | succ i => exact .inr ⟨i, j, a, b, by omega, by simpa using h1, by simpa using h2, h3, h4⟩

/-- C129 (partial): a function is accepted exactly if it is annotated with a generator with three types, has no default that
cannot be hashed, and has no parameter without default after one with. Missing: the last two kinds of function
(`C129_keyword_refused`). -/
theorem C129_accepted_partial (hashable : V → Bool) (hint : Hint) (ps : List (Param V)) (sleep : Rat) :
    (∃ u, genToUnit hashable hint ps sleep = .ok u) ↔
      (∃ p s r, hint = .generator [p, s, r]) ∧ (∀ q ∈ ps, ∀ v, q.default = some v → hashable v = true) ∧ ¬ LateRequired ps := by
  rw [← misplaced_iff]
  have hd : (ps.any fun p => p.default.any fun v => !hashable v) = true ↔
      ¬ ∀ q ∈ ps, ∀ v, q.default = some v → hashable v = true := by
    simp only [List.any_eq_true, Option.any_eq_true]
    constructor
    · rintro ⟨p, hp, v, hv, h⟩ h'
      simp [h' p hp v hv] at h
    · intro h
      refine Classical.byContradiction fun h' => h ?_
      intro q hq v hv
      refine Classical.byContradiction fun h2 => h' ⟨q, hq, v, hv, by simpa using h2⟩
  have hs : (∃ fs, settings hashable ps = .ok fs) ↔
      (∀ q ∈ ps, ∀ v, q.default = some v → hashable v = true) ∧ ¬ misplaced ps = true := by
    simp only [settings]
    split
    · rename_i h
      exact ⟨fun ⟨_, h2⟩ => (by cases h2), fun h' => absurd h'.1 (hd.1 h)⟩
    · rename_i h
      have h := Classical.not_not.1 (mt hd.2 h)
      split
      · rename_i h2; exact ⟨fun ⟨_, h⟩ => (by cases h), fun h' => absurd h2 h'.2⟩
      · rename_i h2; exact ⟨fun _ => ⟨h, h2⟩, fun _ => ⟨_, rfl⟩⟩
  have ht : (∃ x, types hint = .ok x) ↔ ∃ p s r, hint = .generator [p, s, r] := by
    unfold types
    split <;> simp
    rename_i a h
    intro p s r e
    exact h p s r e
  rw [← hs, ← ht]
  simp only [genToUnit]
  cases e : types hint with
  | error e => simp
  | ok x => cases e' : settings hashable ps <;> simp

/-- C129: the settings have the parameters as fields with their defaults. The unit takes messages exactly if the function
does, at `INPUT` or, for arrays, `INPUT_SIGNAL`; it publishes exactly if the function yields something, at `OUTPUT` or
`OUTPUT_SIGNAL`; it has no other stream. -/
theorem C129_made (hashable : V → Bool) (p s r : Ty) (ps : List (Param V)) (sleep : Rat) (u : Made V)
    (h : genToUnit hashable (.generator [p, s, r]) ps sleep = .ok u) :
    u.settings = ps ∧
    (∀ n t, (n, Stream.input t) ∈ u.streams ↔ s ≠ .none ∧ t = s ∧ n = if s = .axisArray then "INPUT_SIGNAL" else "INPUT") ∧
    (∀ n t, (n, Stream.output t) ∈ u.streams ↔ p ≠ .none ∧ t = p ∧ n = if p = .axisArray then "OUTPUT_SIGNAL" else "OUTPUT") ∧
    (u.task = .subscribe ∨ u.task = .subscribePublish ↔ s ≠ .none) ∧
    (u.task = .publish ∨ u.task = .subscribePublish ↔ p ≠ .none) := by
  simp only [genToUnit, types] at h
  split at h
  · cases h
  · rename_i fs e
    simp only [settings] at e
    split at e
    · cases e
    · split at e
      · cases e
      · cases e
        cases h
        refine ⟨rfl, ?_⟩
        have hi : ∀ t : Ty, "INPUT" ++ suffix t = if t = .axisArray then "INPUT_SIGNAL" else "INPUT" := by
          intro t; unfold suffix; split <;> rfl
        have ho : ∀ t : Ty, "OUTPUT" ++ suffix t = if t = .axisArray then "OUTPUT_SIGNAL" else "OUTPUT" := by
          intro t; unfold suffix; split <;> rfl
        simp only [streamsTask, hi, ho]
        by_cases h1 : s = .none <;> by_cases h2 : p = .none <;> simp [h1, h2] <;> grind

theorem get_foldl (f : V → Attr V) (k : String) : ∀ (l : PyDict String V) (st : PyDict String (Attr V)), k ∉ l.map (·.1) →
    PyDict.get? (l.foldl (fun st x => PyDict.set st x.1 (f x.2)) st) k = PyDict.get? st k
  | [], st, _ => rfl
  | x :: l, st, h => by
    simp only [List.map_cons, List.mem_cons, not_or] at h
    rw [List.foldl_cons, get_foldl f k l _ h.2]
    simp [PyDict.get?_set, h.1]

theorem get_foldl_mem (f : V → Attr V) (k : String) (v : V) : ∀ (l : PyDict String V) (st : PyDict String (Attr V)),
    (l.map (·.1)).Nodup → (k, v) ∈ l →
    PyDict.get? (l.foldl (fun st x => PyDict.set st x.1 (f x.2)) st) k = some (f v)
  | [], st, _, h => by simp at h
  | x :: l, st, hn, h => by
    simp only [List.map_cons, List.nodup_cons] at hn
    rw [List.foldl_cons]
    rcases List.mem_cons.1 h with rfl | h
    · rw [get_foldl f _ l _ hn.1]
      simp [PyDict.get?_set]
    · exact get_foldl_mem f k v l _ hn.2 h

/-- C129 (partial): after `initialize` the state has the generator made with the settings, and the settings. Missing: functions
with a parameter called `gen` (`C129_gen_lost`). -/
theorem C129_initialized_partial (sets : PyDict String V) (hn : (sets.map (·.1)).Nodup) (hg : "gen" ∉ sets.map (·.1)) :
    PyDict.get? (init sets) "gen" = some (.gen sets) ∧
    ∀ k v, (k, v) ∈ sets → PyDict.get? (init sets) k = some (.val v) := by
  refine ⟨?_, fun k v h => get_foldl_mem Attr.val k v sets _ hn h⟩
  unfold init
  rw [get_foldl Attr.val _ sets _ hg]
  simp [PyDict.get?_set]

/-- C129 fails for a parameter called `gen`: the generator is lost, in its place there is the setting. -/
theorem C129_gen_lost (sets : PyDict String V) (hn : (sets.map (·.1)).Nodup) (v : V) (h : ("gen", v) ∈ sets) :
    PyDict.get? (init sets) "gen" = some (.val v) := get_foldl_mem Attr.val _ v sets _ hn h

/-- C129 (partial): a `sleep_time` that is ignored, as the unit takes messages, is warned about. Missing: arrays
(`C129_silent`). -/
theorem C129_warned_partial (hashable : V → Bool) (p s r : Ty) (ps : List (Param V)) (sleep : Rat) (u : Made V)
    (h : genToUnit hashable (.generator [p, s, r]) ps sleep = .ok u) (ha : s ≠ .axisArray) :
    u.warned = true ↔ (∃ n t, (n, Stream.input t) ∈ u.streams) ∧ sleep ≠ 0 := by
  have hm := C129_made hashable p s r ps sleep u h
  have hi : (∃ n t, (n, Stream.input t) ∈ u.streams) ↔ s ≠ .none := by
    constructor
    · rintro ⟨n, t, h⟩; exact ((hm.2.1 n t).1 h).1
    · intro h; exact ⟨_, s, (hm.2.1 _ s).2 ⟨h, rfl, rfl⟩⟩
  rw [hi]
  simp only [genToUnit, types] at h
  split at h
  · cases h
  · cases h
    have e1 : "INPUT" ++ suffix s = "INPUT" := by unfold suffix; rw [if_neg ha]; rfl
    have e2 : "INPUT" ≠ "OUTPUT" ++ suffix p := by unfold suffix; split <;> decide
    simp only [streamsTask, e1]
    by_cases h1 : s = .none <;> by_cases h2 : p = .none <;> simp [h1, h2, e2]

/-- C129 fails for arrays: a unit that takes arrays ignores `sleep_time` without a warning. -/
theorem C129_silent (hashable : V → Bool) (p r : Ty) (ps : List (Param V)) (sleep : Rat) (u : Made V)
    (h : genToUnit hashable (.generator [p, .axisArray, r]) ps sleep = .ok u) :
    u.warned = false ∧ ∃ n t, (n, Stream.input t) ∈ u.streams := by
  refine ⟨?_, _, _, ((C129_made hashable p .axisArray r ps sleep u h).2.1 _ _).2 ⟨by simp, rfl, rfl⟩⟩
  simp only [genToUnit, types] at h
  split at h
  · cases h
  · cases h
    have e1 : "INPUT" ≠ "INPUT" ++ suffix .axisArray := by decide
    have e2 : "INPUT" ≠ "OUTPUT" ++ suffix p := by unfold suffix; split <;> decide
    simp only [streamsTask]
    by_cases h2 : p = .none <;> simp [h2, e1, e2]

/-- C129 fails for keyword-only parameters: `def f(a=1, *, b) -> Generator[...]` is refused with `TypeError`, whatever its types. -/
theorem C129_keyword_refused (p s r : Ty) (sleep : Rat) :
    genToUnit (fun _ : Nat => true) (.generator [p, s, r]) [⟨"a", some 1⟩, ⟨"b", none⟩] sleep = .error .typeError := rfl

/-! ## Examples -/

/-- `def scale(factor, offset=0) -> Generator[AxisArray, AxisArray, None]`. -/
def scale : List (Param Nat) := [⟨"factor", none⟩, ⟨"offset", some 0⟩]

example : ∃ u, genToUnit (fun _ => true) (.generator [.axisArray, .axisArray, .none]) scale 0 = .ok u ∧
    u.streams = [("INPUT_SIGNAL", .input .axisArray), ("OUTPUT_SIGNAL", .output .axisArray)] ∧ u.task = .subscribePublish ∧
    u.state = ["factor", "offset", "gen"] := ⟨_, rfl, by decide, rfl, by decide⟩
example : ¬ LateRequired scale := by rw [← misplaced_iff]; decide
example : LateRequired [(⟨"a", some 1⟩ : Param Nat), ⟨"b", none⟩] := by rw [← misplaced_iff]; decide
example : ∃ u, genToUnit (fun _ => true) (.generator [.none, .other 1, .none]) scale 1 = .ok u ∧ u.warned = true := by
  refine ⟨_, rfl, (C129_warned_partial (fun _ => true) .none (.other 1) .none scale 1 _ rfl (by decide)).2 ⟨⟨"INPUT", .other 1, ?_⟩, by decide +kernel⟩⟩
  decide
example : PyDict.get? (init [("factor", 2), ("offset", 0)]) "gen" = some (Attr.gen [("factor", 2), ("offset", 0)]) :=
  (C129_initialized_partial _ (by decide) (by decide)).1
example : PyDict.get? (init [("gen", 7)]) "gen" = some (Attr.val 7) := C129_gen_lost _ (by decide) 7 (by decide)

end GenUnit
end Ez
