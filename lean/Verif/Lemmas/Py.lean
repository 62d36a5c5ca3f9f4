import Verif.Model.Py

/-! # Lemmas about the dictionary operations -/

set_option linter.unusedSectionVars false
set_option linter.unusedSimpArgs false

namespace Ez.PyDict
variable {K V : Type} [DecidableEq K]

theorem get?_nil (k : K) : get? ([] : PyDict K V) k = none := rfl

theorem get?_cons (p : K × V) (d : PyDict K V) (k : K) :
    get? (p :: d) k = if p.1 = k then some p.2 else get? d k := by
  unfold get?
  simp only [List.find?_cons]
  by_cases h : p.1 = k <;> simp [h]

theorem get?_append (d e : PyDict K V) (k : K) :
    get? (d ++ e) k = (get? d k).or (get? e k) := by
  induction d with
  | nil => simp [get?_nil]
  | cons p d ih =>
    rw [List.cons_append, get?_cons, get?_cons, ih]
    split <;> simp

theorem get?_modify (d : PyDict K V) (k x : K) (f : V → V) :
    get? (modify d k f) x = if x = k then (get? d x).map f else get? d x := by
  induction d with
  | nil => simp [modify, get?_nil]
  | cons p d ih =>
    unfold modify at ih ⊢
    rw [List.map_cons, get?_cons, get?_cons, ih]
    by_cases h1 : p.1 = k
    · by_cases h2 : x = k
      · subst h2; simp [h1]
      · have : ¬ k = x := fun h => h2 h.symm
        have h3 : ¬ p.1 = x := fun h => h2 (h.symm.trans h1)
        simp [h1, h2, this]
    · by_cases h2 : x = k
      · subst h2; simp [h1]
      · simp [h1, h2]

theorem get?_pop (d : PyDict K V) (k x : K) :
    get? (pop d k) x = if x = k then none else get? d x := by
  induction d with
  | nil => simp [pop, get?_nil]
  | cons p d ih =>
    unfold pop at ih ⊢
    rw [List.filter_cons]
    by_cases h1 : p.1 = k
    · simp only [h1, ne_eq, not_true_eq_false, decide_false, Bool.false_eq_true, if_false, ih,
        get?_cons]
      by_cases h2 : x = k
      · simp [h2]
      · have : ¬ k = x := fun h => h2 h.symm
        simp [h2, this]
    · simp only [ne_eq, h1, not_false_eq_true, decide_true, if_true, get?_cons, ih]
      by_cases h2 : x = k
      · have : ¬ p.1 = x := fun h => h1 (h.trans h2)
        simp [h2, h1]
      · simp [h2]

theorem get?_setdefault (d : PyDict K V) (k x : K) (v : V) :
    get? (setdefault d k v) x = if x = k then some ((get? d k).getD v) else get? d x := by
  unfold setdefault
  by_cases h : (get? d k).isSome
  · rw [if_pos h]
    obtain ⟨w, hw⟩ := Option.isSome_iff_exists.1 h
    by_cases hx : x = k
    · subst hx; simp [hw]
    · simp [hx]
  · rw [if_neg h, get?_append, get?_cons, get?_nil]
    have h' : get? d k = none := by simpa using h
    by_cases hx : x = k
    · subst hx; simp [h']
    · have : ¬ k = x := fun h => hx h.symm
      simp [hx, this]

theorem get?_set (d : PyDict K V) (k x : K) (v : V) :
    get? (set d k v) x = if x = k then some v else get? d x := by
  unfold set
  by_cases h : (get? d k).isSome
  · rw [if_pos h, get?_modify]
    obtain ⟨w, hw⟩ := Option.isSome_iff_exists.1 h
    by_cases hx : x = k
    · subst hx; simp [hw]
    · simp [hx]
  · rw [if_neg h, get?_append, get?_cons, get?_nil]
    have h' : get? d k = none := by simpa using h
    by_cases hx : x = k
    · subst hx; simp [h']
    · have : ¬ k = x := fun h => hx h.symm
      simp [hx, this]

theorem mem_keys {d : PyDict K V} {k : K} : k ∈ keys d ↔ (get? d k).isSome := by
  induction d with
  | nil => simp [keys, get?_nil]
  | cons p d ih =>
    unfold keys at ih ⊢
    rw [List.map_cons, List.mem_cons, ih, get?_cons]
    by_cases h : p.1 = k
    · simp [h]
    · have : ¬ k = p.1 := fun e => h e.symm
      simp [h, this]

theorem get?_eq_none {d : PyDict K V} {k : K} : get? d k = none ↔ k ∉ keys d := by
  rw [mem_keys]; simp

theorem mem_of_get? {d : PyDict K V} {k : K} {v : V} (h : get? d k = some v) : (k, v) ∈ d := by
  unfold get? at h
  rw [Option.map_eq_some_iff] at h
  obtain ⟨p, hp, rfl⟩ := h
  have h1 := List.mem_of_find?_eq_some hp
  have h2 := List.find?_some hp
  simp at h2
  rw [← h2]; exact h1

theorem get?_of_mem {d : PyDict K V} {k : K} {v : V} (hn : (keys d).Nodup) (h : (k, v) ∈ d) :
    get? d k = some v := by
  induction d with
  | nil => simp at h
  | cons p d ih =>
    unfold keys at hn ih
    rw [List.map_cons, List.nodup_cons] at hn
    rw [get?_cons]
    rcases List.mem_cons.1 h with rfl | h
    · simp
    · have : ¬ p.1 = k := by
        rintro rfl
        exact hn.1 (List.mem_map.2 ⟨_, h, rfl⟩)
      simp [this]
      exact ih hn.2 h

theorem mem_iff_get? {d : PyDict K V} (hn : (keys d).Nodup) {k : K} {v : V} :
    (k, v) ∈ d ↔ get? d k = some v := ⟨get?_of_mem hn, mem_of_get?⟩

theorem keys_modify (d : PyDict K V) (k : K) (f : V → V) : keys (modify d k f) = keys d := by
  unfold keys modify
  rw [List.map_map]
  apply List.map_congr_left
  intro p _
  simp only [Function.comp_apply]
  split <;> rfl

theorem keys_pop (d : PyDict K V) (k : K) : keys (pop d k) = (keys d).filter (fun x => decide (x ≠ k)) := by
  unfold keys pop
  rw [List.filter_map]
  rfl

theorem nodup_pop {d : PyDict K V} {k : K} (h : (keys d).Nodup) : (keys (pop d k)).Nodup := by
  rw [keys_pop]; exact List.Pairwise.filter _ h

theorem nodup_snoc {d : PyDict K V} {k : K} {v : V} (h : (keys d).Nodup) (hk : ¬ (get? d k).isSome) :
    (keys (d ++ [(k, v)])).Nodup := by
  unfold keys
  rw [List.map_append, List.nodup_append]
  refine ⟨h, by simp, ?_⟩
  intro a ha b hb
  simp at hb
  subst hb
  rintro rfl
  exact hk (mem_keys.1 ha)

theorem nodup_setdefault {d : PyDict K V} {k : K} {v : V} (h : (keys d).Nodup) :
    (keys (setdefault d k v)).Nodup := by
  unfold setdefault
  split
  · exact h
  · rename_i hk; exact nodup_snoc h hk

theorem nodup_set {d : PyDict K V} {k : K} {v : V} (h : (keys d).Nodup) :
    (keys (set d k v)).Nodup := by
  unfold set
  split
  · rw [keys_modify]; exact h
  · rename_i hk; exact nodup_snoc h hk

theorem setdefault_of_some {d : PyDict K V} {k : K} {v w : V} (h : get? d k = some w) :
    setdefault d k v = d := by simp [setdefault, h]

theorem pop_of_not_mem {d : PyDict K V} {k : K} (h : get? d k = none) : pop d k = d := by
  unfold pop
  rw [List.filter_eq_self]
  intro p hp
  simp
  rintro rfl
  rw [get?_eq_none] at h
  exact h (List.mem_map.2 ⟨p, hp, rfl⟩)

theorem pop_snoc {d : PyDict K V} {k : K} {v : V} (h : get? d k = none) :
    pop (d ++ [(k, v)]) k = d := by
  have := pop_of_not_mem h
  unfold pop at this ⊢
  rw [List.filter_append, this]
  simp

end Ez.PyDict
