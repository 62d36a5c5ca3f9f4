import Verif.Spec.AxisArray

/-!
# Facts about slices, index tuples and named dimensions
-/

set_option linter.unusedSimpArgs false
set_option linter.unusedSectionVars false

namespace Ez.AA

/-! ## Slices -/

/-- The filter of a range by an interval is a contiguous range. -/
theorem filter_interval (n : Nat) (a b : Nat) (p : Nat → Bool) (hb : b ≤ n)
    (hp : ∀ i, i < n → (p i = true ↔ a ≤ i ∧ i < b)) :
    (List.range n).filter p = List.range' a (b - a) := by
  have h1 : List.range n = List.range' 0 n := List.range_eq_range'
  rw [h1]
  rcases Nat.lt_or_ge b a with hab | hab
  · have : b - a = 0 := by omega
    rw [this]
    simp only [List.range'_zero, List.filter_eq_nil_iff, List.mem_range'_1]
    intro i hi hpi
    have := (hp i (by omega)).1 hpi
    omega
  · have e : List.range' 0 n = List.range' 0 a ++ (List.range' a (b - a) ++ List.range' b (n - b)) := by
      have e1 : List.range' a (b - a) ++ List.range' b (n - b) = List.range' a (n - a) := by
        have := List.range'_append_1 (s := a) (m := b - a) (n := n - b)
        rw [show a + (b - a) = b by omega, show b - a + (n - b) = n - a by omega] at this
        exact this
      rw [e1]
      have := List.range'_append_1 (s := 0) (m := a) (n := n - a)
      rw [show 0 + a = a by omega, show a + (n - a) = n by omega] at this
      exact this.symm
    rw [e, List.filter_append, List.filter_append]
    have f1 : (List.range' 0 a).filter p = [] := by
      rw [List.filter_eq_nil_iff]; intro i hi hpi
      rw [List.mem_range'_1] at hi
      have := (hp i (by omega)).1 hpi; omega
    have f3 : (List.range' b (n - b)).filter p = [] := by
      rw [List.filter_eq_nil_iff]; intro i hi hpi
      rw [List.mem_range'_1] at hi
      have := (hp i (by omega)).1 hpi; omega
    have f2 : (List.range' a (b - a)).filter p = List.range' a (b - a) := by
      rw [List.filter_eq_self]; intro i hi
      rw [List.mem_range'_1] at hi
      exact (hp i (by omega)).2 ⟨by omega, by omega⟩
    rw [f1, f2, f3]; simp

/-- How many times a positive step fits. -/
theorem fits (d step k : Int) (hs : 0 < step) :
    (k < (d - 1) / step + 1 ↔ k * step < d) := by
  constructor
  · intro h
    have h1 : k ≤ (d - 1) / step := by omega
    have h2 := (Int.le_ediv_iff_mul_le hs).1 h1
    omega
  · intro h
    have h1 : k * step ≤ d - 1 := by omega
    have := (Int.le_ediv_iff_mul_le hs).2 h1
    omega

/-- Reading the positions of a slice with a positive step. -/
theorem indices_pos {s : PySlice} {n : Nat} (hs : 0 < s.step.getD 1) :
    ∃ l, s.indices n = some l ∧ (∀ k : Nat, l[k]? = (between n s)[k * (s.step.getD 1).toNat]?) ∧
      ∃ a c, between n s = List.range' a c := by
  have hne : ¬ s.step.getD 1 = 0 := by omega
  have hng : decide (s.step.getD 1 < 0) = false := by simp; omega
  refine ⟨_, by simp only [PySlice.indices, hne, if_false]; rfl, ?_⟩
  simp only [hng, Bool.false_eq_true, if_false]
  generalize hst : s.step.getD 1 = step at *
  generalize ha : adjust n false 0 s.start = a
  generalize hb : adjust n false n s.stop = b
  have ha0 : 0 ≤ a ∧ a ≤ n ∧ ∀ i : Nat, i < n → ((∀ x, s.start = some x → pos n x ≤ i) ↔ a ≤ i) := by
    subst ha
    cases hx : s.start with
    | none => simp [adjust]
    | some x =>
      simp only [adjust, pos, Option.some.injEq, forall_eq', Bool.false_eq_true, if_false]
      refine ⟨by split <;> split <;> omega, by split <;> split <;> omega, ?_⟩
      intro i hi; split <;> split <;> omega
  have hb0 : 0 ≤ b ∧ b ≤ n ∧ ∀ i : Nat, i < n → ((∀ y, s.stop = some y → (i : Int) < pos n y) ↔ (i : Int) < b) := by
    subst hb
    cases hx : s.stop with
    | none => simp [adjust]
    | some x =>
      simp only [adjust, pos, Option.some.injEq, forall_eq', Bool.false_eq_true, if_false]
      refine ⟨by split <;> split <;> omega, by split <;> split <;> omega, ?_⟩
      intro i hi; split <;> split <;> omega
  have hbt : between n s = List.range' a.toNat (b.toNat - a.toNat) := by
    rw [between, hst, if_pos hs]
    apply filter_interval _ _ _ _ (by omega)
    intro i hi
    rw [decide_eq_true_iff, ha0.2.2 i hi, hb0.2.2 i hi]
    omega
  refine ⟨?_, _, _, hbt⟩
  intro k
  rw [hbt, List.getElem?_map]
  have hstep : ((step.toNat : Nat) : Int) = step := by omega
  have hprod : ((k * step.toNat : Nat) : Int) = k * step := by rw [Int.natCast_mul, hstep]
  generalize k * step.toNat = km at hprod
  by_cases hab : a < b
  · rw [if_pos hab]
    have hk := fits (b - a) step k hs
    by_cases hlt : (k : Int) * step < b - a
    · rw [List.getElem?_range (by omega), List.getElem?_range' (by omega)]
      simp only [Option.map_some, Option.some.injEq, Nat.one_mul]
      have : 0 ≤ (k : Int) * step := Int.mul_nonneg (by omega) (by omega)
      omega
    · rw [List.getElem?_eq_none (by simp; omega), List.getElem?_eq_none (by simp; omega)]
      rfl
  · rw [if_neg hab]
    rw [List.getElem?_eq_none (by simp), List.getElem?_eq_none (by simp; omega)]
    rfl

/-- Reading the positions of a slice with a negative step. -/
theorem indices_neg {s : PySlice} {n : Nat} (hs : s.step.getD 1 < 0) :
    ∃ l, s.indices n = some l ∧ ∀ k : Nat, l[k]? = (between n s)[k * (s.step.getD 1).natAbs]? := by
  have hne : ¬ s.step.getD 1 = 0 := by omega
  have hng : decide (s.step.getD 1 < 0) = true := by simpa using hs
  refine ⟨_, by simp only [PySlice.indices, hne, if_false]; rfl, ?_⟩
  intro k
  simp only [hng, if_true]
  generalize hst : s.step.getD 1 = step at *
  generalize ha : adjust n true (n - 1) s.start = a
  generalize hb : adjust n true (-1) s.stop = b
  have ha0 : -1 ≤ a ∧ a < n ∧ ∀ i : Nat, i < n → ((∀ x, s.start = some x → (i : Int) ≤ pos n x) ↔ (i : Int) ≤ a) := by
    subst ha
    cases hx : s.start with
    | none =>
      refine ⟨by simp only [adjust]; omega, by simp only [adjust]; omega, ?_⟩
      intro i hi; simp only [adjust]
      exact ⟨fun _ => by omega, fun _ x e => by cases e⟩
    | some x =>
      simp only [adjust, pos, Option.some.injEq, forall_eq', if_true]
      refine ⟨by split <;> split <;> omega, by split <;> split <;> omega, ?_⟩
      intro i hi; split <;> split <;> omega
  have hb0 : -1 ≤ b ∧ b < n ∨ n = 0 ∧ b = -1 := by
    subst hb
    cases hx : s.stop with
    | none => simp [adjust]; omega
    | some x =>
      simp only [adjust, if_true]
      split <;> split <;> omega
  have hb1 : ∀ i : Nat, i < n → ((∀ y, s.stop = some y → pos n y < (i : Int)) ↔ b < i) := by
    subst hb
    cases hx : s.stop with
    | none => intro i hi; simp [adjust]; omega
    | some x =>
      simp only [adjust, pos, Option.some.injEq, forall_eq', if_true]
      intro i hi; split <;> split <;> omega
  have hbt : between n s = (List.range' (b + 1).toNat ((a + 1).toNat - (b + 1).toNat)).reverse := by
    rw [between, hst, if_neg (by omega)]
    congr 1
    apply filter_interval _ _ _ _ (by omega)
    intro i hi
    rw [decide_eq_true_iff, ha0.2.2 i hi, hb1 i hi]
    omega
  rw [hbt, List.getElem?_map]
  have hstep : ((step.natAbs : Nat) : Int) = -step := by omega
  have hprod : ((k * step.natAbs : Nat) : Int) = k * (-step) := by rw [Int.natCast_mul, hstep]
  have hneg : (k : Int) * step = -((k : Int) * (-step)) := by rw [Int.mul_neg, Int.neg_neg]
  generalize k * step.natAbs = km at hprod
  generalize hq : -step = q at *
  by_cases hab : b < a
  · rw [if_pos hab]
    have hk := fits (a - b) q k (by omega)
    by_cases hlt : (k : Int) * q < a - b
    · have h0 : 0 ≤ (k : Int) * q := Int.mul_nonneg (by omega) (by omega)
      rw [List.getElem?_range (by omega), List.getElem?_reverse (by simp; omega),
        List.getElem?_range' (by simp; omega)]
      simp only [Option.map_some, Option.some.injEq, Nat.one_mul, List.length_range']
      omega
    · rw [List.getElem?_eq_none (by simp; omega), List.getElem?_eq_none (by simp; omega)]
      rfl
  · rw [if_neg hab]
    rw [List.getElem?_eq_none (by simp), List.getElem?_eq_none (by simp; omega)]
    rfl

theorem mem_between {n : Nat} {s : PySlice} {i : Nat} (h : i ∈ between n s) : i < n := by
  unfold between at h
  split at h
  · exact List.mem_range.1 (List.mem_filter.1 h).1
  · exact List.mem_range.1 (List.mem_filter.1 (List.mem_reverse.1 h)).1

/-- Selected positions exist. -/
theorem select_lt {n : Nat} {ix : Indexer} {l : List Nat} (h : ix.select n = .ok l) : ∀ i ∈ l, i < n := by
  have hone : ∀ {x : Int} {j : Nat}, takeOne n x = some j → j < n := by
    intro x j hj
    unfold takeOne at hj
    split at hj
    · cases hj; omega
    · split at hj
      · cases hj; omega
      · cases hj
  have hall : ∀ {is : List Int} {l : List Nat}, is.mapM (takeOne n) = some l → ∀ i ∈ l, i < n := by
    intro is
    induction is with
    | nil => intro l h; simp at h; subst h; simp
    | cons x is ih =>
      intro l h
      simp only [List.mapM_cons, Option.bind_eq_bind, Option.pure_def] at h
      cases h1 : takeOne n x with
      | none => simp [h1] at h
      | some j =>
        cases h2 : is.mapM (takeOne n) with
        | none => simp [h1, h2] at h
        | some l' =>
          simp [h1, h2] at h; subst h
          intro i hi
          rcases List.mem_cons.1 hi with rfl | hi
          · exact hone h1
          · exact ih h2 i hi
  cases ix with
  | slice s =>
    simp only [Indexer.select] at h
    split at h
    · cases h
    · rename_i l' hl
      cases h
      intro i hi
      have hz : s.step.getD 1 ≠ 0 := by
        intro e; simp [PySlice.indices, e] at hl
      obtain ⟨k, hk⟩ := List.mem_iff_getElem?.1 hi
      rcases Int.lt_or_gt_of_ne hz with h0 | h0
      · obtain ⟨l2, e1, e2⟩ := indices_neg (n := n) h0
        rw [hl] at e1; cases e1
        rw [e2] at hk
        exact mem_between (List.mem_of_getElem? hk)
      · obtain ⟨l2, e1, e2, -⟩ := indices_pos (n := n) h0
        rw [hl] at e1; cases e1
        rw [e2] at hk
        exact mem_between (List.mem_of_getElem? hk)
  | int i =>
    simp only [Indexer.select] at h
    split at h
    · cases h
    · rename_i l' hl; cases h; exact hall hl
  | array is =>
    simp only [Indexer.select] at h
    split at h
    · cases h
    · rename_i l' hl; cases h; exact hall hl

/-! ## Named dimensions -/

theorem map_setDim {dims : List String} (hn : dims.Nodup) {d : String} (hd : d ∈ dims) (f : String → Nat) (v : Nat) :
    (dims.map f).set (dims.idxOf d) v = dims.map (setDim f d v) := by
  induction dims with
  | nil => cases hd
  | cons x xs ih =>
    rw [List.nodup_cons] at hn
    by_cases hx : x = d
    · subst hx
      simp only [List.idxOf_cons_self, List.map_cons, List.set_cons_zero, setDim, if_true, List.cons.injEq, true_and]
      apply List.map_congr_left
      intro y hy
      simp only [setDim]
      rw [if_neg]; rintro rfl; exact hn.1 hy
    · have hd' : d ∈ xs := by rcases List.mem_cons.1 hd with rfl | h; exact absurd rfl hx; exact h
      rw [List.idxOf_cons, show (x == d) = false by simp [hx]]
      simp only [cond_false, List.map_cons, List.set_cons_succ, setDim, if_neg hx, List.cons.injEq, true_and]
      exact ih hn.2 hd'

theorem getD_map_idxOf {dims : List String} {d : String} (hd : d ∈ dims) (f : String → Nat) :
    (dims.map f).getD (dims.idxOf d) 0 = f d := by
  have h1 := List.idxOf_lt_length_of_mem hd
  rw [List.getD_eq_getElem?_getD, List.getElem?_map, List.getElem?_eq_getElem h1]
  simp

theorem getElem?_idxOf {dims : List String} {d : String} (hd : d ∈ dims) : dims[dims.idxOf d]? = some d := by
  rw [List.getElem?_eq_getElem (List.idxOf_lt_length_of_mem hd)]
  simp

theorem idxOf_inj {dims : List String} {c d : String} (hc : c ∈ dims) (hd : d ∈ dims)
    (h : dims.idxOf c = dims.idxOf d) : c = d := by
  have h1 := getElem?_idxOf hc
  rw [h, getElem?_idxOf hd] at h1
  exact (Option.some.inj h1).symm

end Ez.AA
