import Verif.Model.Compare
import Verif.Lemmas.Py

/-! Lemmas about sorting, the middle of a sorted list, and dealing samples to buckets. -/

set_option linter.unusedSimpArgs false
set_option linter.unusedVariables false

namespace Ez.AB

variable {α : Type} {le : α → α → Bool}

theorem insert_perm (x : α) : ∀ l : List α, (insert le x l).Perm (x :: l)
  | [] => List.Perm.refl _
  | y :: l => by
    simp only [insert]
    split
    · exact List.Perm.refl _
    · exact ((insert_perm x l).cons y).trans (List.Perm.swap x y l)

theorem sort_perm : ∀ l : List α, (sort le l).Perm l
  | [] => List.Perm.refl _
  | x :: l => (insert_perm x _).trans ((sort_perm l).cons x)

theorem insert_sorted (tot : ∀ x y, le x y = true ∨ le y x = true)
    (tr : ∀ x y z, le x y = true → le y z = true → le x z = true) (x : α) :
    ∀ l : List α, l.Pairwise (fun u v => le u v = true) → (insert le x l).Pairwise (fun u v => le u v = true)
  | [], _ => by simp [insert]
  | y :: l, h => by
    simp only [insert]
    have h' := List.pairwise_cons.1 h
    split
    · rename_i hxy
      refine List.pairwise_cons.2 ⟨?_, h⟩
      intro z hz
      rcases List.mem_cons.1 hz with rfl | hz
      · exact hxy
      · exact tr _ _ _ hxy (h'.1 z hz)
    · rename_i hxy
      refine List.pairwise_cons.2 ⟨?_, insert_sorted tot tr x l h'.2⟩
      intro z hz
      rcases List.mem_cons.1 ((insert_perm x l).mem_iff.1 hz) with rfl | hz
      · exact (tot _ _).resolve_left hxy
      · exact h'.1 z hz

theorem sort_sorted (tot : ∀ x y, le x y = true ∨ le y x = true)
    (tr : ∀ x y z, le x y = true → le y z = true → le x z = true) :
    ∀ l : List α, (sort le l).Pairwise (fun u v => le u v = true)
  | [] => List.Pairwise.nil
  | x :: l => insert_sorted tot tr x _ (sort_sorted tot tr l)

theorem sort_ratLe (l : List Rat) : (sort ratLe l).Pairwise (fun u v => u ≤ v) := by
  have := sort_sorted (le := ratLe) (by intro x y; simp [ratLe]; exact Rat.le_total)
    (by intro x y z; simp [ratLe]; exact Rat.le_trans) l
  exact this.imp (by intro a b h; simpa [ratLe] using h)

theorem length_sort (l : List α) : (sort le l).length = l.length := (sort_perm l).length_eq

/-- In a sorted list what is before an element is not larger. -/
theorem count_lt_le {l : List Rat} (h : l.Pairwise (fun u v => u ≤ v)) {i : Nat} {v m : Rat} (hi : l[i]? = some v)
    (hm : m ≤ v) : l.countP (fun x => decide (x < m)) ≤ i := by
  have h1 : l.countP (fun x => decide (x < m)) =
      (l.take i).countP (fun x => decide (x < m)) + (l.drop i).countP (fun x => decide (x < m)) := by
    rw [← List.countP_append, List.take_append_drop]
  have hlt : i < l.length := by
    rcases Nat.lt_or_ge i l.length with h | h
    · exact h
    · rw [List.getElem?_eq_none h] at hi; cases hi
  have hv : l[i] = v := by rw [List.getElem?_eq_getElem hlt] at hi; simpa using hi
  have h2 : (l.drop i).countP (fun x => decide (x < m)) = 0 := by
    rw [List.countP_eq_zero]
    intro x hx
    have hp : (l.drop i).Pairwise (fun u v => u ≤ v) := h.sublist (List.drop_sublist i l)
    rw [List.drop_eq_getElem_cons hlt, hv] at hp hx
    rcases List.mem_cons.1 hx with rfl | hx
    · simpa using Rat.not_lt.2 hm
    · have := (List.pairwise_cons.1 hp).1 x hx
      simpa using Rat.not_lt.2 (Rat.le_trans hm this)
  have h3 : (l.take i).countP (fun x => decide (x < m)) ≤ (l.take i).length := List.countP_le_length
  rw [List.length_take] at h3
  omega

/-- And what is after an element is not smaller. -/
theorem count_gt_le {l : List Rat} (h : l.Pairwise (fun u v => u ≤ v)) {i : Nat} {v m : Rat} (hi : l[i]? = some v)
    (hm : v ≤ m) : l.countP (fun x => decide (m < x)) + i + 1 ≤ l.length := by
  have hlt : i < l.length := by
    rcases Nat.lt_or_ge i l.length with h | h
    · exact h
    · rw [List.getElem?_eq_none h] at hi; cases hi
  have hv : l[i] = v := by rw [List.getElem?_eq_getElem hlt] at hi; simpa using hi
  have h1 : l.countP (fun x => decide (m < x)) =
      (l.take (i + 1)).countP (fun x => decide (m < x)) + (l.drop (i + 1)).countP (fun x => decide (m < x)) := by
    rw [← List.countP_append, List.take_append_drop]
  have h2 : (l.take (i + 1)).countP (fun x => decide (m < x)) = 0 := by
    rw [List.countP_eq_zero]
    intro x hx
    rw [List.take_add_one, hi] at hx
    have hp : (l.take i ++ [v]).Pairwise (fun u v => u ≤ v) := by
      have := h.sublist (List.take_sublist (i + 1) l)
      rw [List.take_add_one, hi] at this
      exact this
    have hle : x ≤ v := by
      simp only [Option.toList_some, List.mem_append, List.mem_singleton] at hx
      rcases hx with hx | rfl
      · exact (List.pairwise_append.1 hp).2.2 x hx v (by simp)
      · exact Rat.le_refl
    simpa using Rat.not_lt.2 (Rat.le_trans hle hm)
  have h3 : (l.drop (i + 1)).countP (fun x => decide (m < x)) ≤ (l.drop (i + 1)).length := List.countP_le_length
  rw [List.length_drop] at h3
  omega

/-- The middle one of sorted numbers, counted. -/
theorem getElem?_some {l : List α} {i : Nat} (h : i < l.length) : ∃ x, l[i]? = some x :=
  ⟨l[i], List.getElem?_eq_getElem h⟩

theorem sum_le {b : List Rat} {hi : Rat} (h : ∀ x ∈ b, x ≤ hi) : b.sum ≤ hi * (b.length : Rat) := by
  induction b with
  | nil => simp [Rat.mul_zero]
  | cons x b ih =>
    have h1 := h x (by simp)
    have h2 := ih (fun y hy => h y (by simp [hy]))
    rw [List.sum_cons, List.length_cons]
    have : ((b.length + 1 : Nat) : Rat) = (b.length : Rat) + 1 := by simp
    rw [this, Rat.mul_add]
    grind

theorem le_sum {b : List Rat} {lo : Rat} (h : ∀ x ∈ b, lo ≤ x) : lo * (b.length : Rat) ≤ b.sum := by
  induction b with
  | nil => simp [Rat.mul_zero]
  | cons x b ih =>
    have h1 := h x (by simp)
    have h2 := ih (fun y hy => h y (by simp [hy]))
    rw [List.sum_cons, List.length_cons]
    have : ((b.length + 1 : Nat) : Rat) = (b.length : Rat) + 1 := by simp
    rw [this, Rat.mul_add]
    grind

theorem length_pos_rat {b : List α} (h : b ≠ []) : (0 : Rat) < (b.length : Rat) := by
  have : 0 < b.length := List.length_pos_iff.2 h
  have := Rat.natCast_lt_natCast (a := 0) (b := b.length)
  simpa using this.2 (by assumption)

/-- A mean above a bound has a number above it. -/
theorem mean_gt {b : List Rat} (hb : b ≠ []) {hi : Rat} (h : hi < mean b) : ∃ x ∈ b, hi < x := by
  apply Classical.byContradiction
  intro hn
  have hall : ∀ x ∈ b, x ≤ hi := by
    intro x hx
    exact Rat.not_lt.1 (fun hlt => hn ⟨x, hx, hlt⟩)
  have h1 := (Rat.lt_div_iff (length_pos_rat hb)).1 h
  exact absurd (sum_le hall) (Rat.not_le.2 h1)

theorem mean_lt {b : List Rat} (hb : b ≠ []) {lo : Rat} (h : mean b < lo) : ∃ x ∈ b, x < lo := by
  apply Classical.byContradiction
  intro hn
  have hall : ∀ x ∈ b, lo ≤ x := by
    intro x hx
    exact Rat.not_lt.1 (fun hlt => hn ⟨x, hx, hlt⟩)
  have h1 := (Rat.div_lt_iff (length_pos_rat hb)).1 h
  exact absurd (le_sum hall) (Rat.not_le.2 h1)

/-! ### Buckets -/

theorem length_put (v : Rat) : ∀ (j : Nat) (bs : List (List Rat)), (put v j bs).length = bs.length
  | _, [] => by simp [put]
  | 0, _ :: _ => by simp [put]
  | j + 1, b :: bs => by simp [put, length_put v j bs]

theorem length_deal (k : Nat) : ∀ (l : List Rat) (i : Nat) (bs : List (List Rat)), (deal k i l bs).length = bs.length
  | [], _, _ => rfl
  | v :: l, i, bs => by rw [deal, length_deal k l, length_put]

/-- The number of samples with some property in all the buckets. -/
def tally (p : Rat → Bool) (bs : List (List Rat)) : Nat := (bs.map (List.countP p)).sum

theorem tally_put (p : Rat → Bool) (v : Rat) : ∀ (j : Nat) (bs : List (List Rat)), j < bs.length →
    tally p (put v j bs) = tally p bs + (if p v = true then 1 else 0)
  | _, [], h => by simp at h
  | 0, b :: bs, _ => by simp [put, tally, List.countP_append, List.countP_singleton]; omega
  | j + 1, b :: bs, h => by
    have := tally_put p v j bs (by simpa using h)
    simp [put, tally] at this ⊢
    omega

theorem tally_deal (p : Rat → Bool) {k : Nat} (hk : 0 < k) : ∀ (l : List Rat) (i : Nat) (bs : List (List Rat)),
    bs.length = k → tally p (deal k i l bs) = tally p bs + l.countP p
  | [], _, _, _ => by simp [deal]
  | v :: l, i, bs, h => by
    rw [deal, tally_deal p hk l (i + 1) _ (by rw [length_put, h]), tally_put p v _ _ (by rw [h]; exact Nat.mod_lt _ hk),
      List.countP_cons]
    omega

theorem tally_replicate (p : Rat → Bool) (k : Nat) : tally p (List.replicate k []) = 0 := by
  simp [tally, List.map_replicate, List.sum_replicate_nat]

/-- Not more buckets have such a sample than there are such samples. -/
theorem count_buckets (p : Rat → Bool) : ∀ bs : List (List Rat), bs.countP (fun b => b.any p) ≤ tally p bs
  | [] => by simp [tally]
  | b :: bs => by
    have := count_buckets p bs
    rw [List.countP_cons]
    simp only [tally, List.map_cons, List.sum_cons] at this ⊢
    split
    · rename_i h
      have : 0 < b.countP p := by
        rw [List.countP_pos_iff]; simpa using h
      omega
    · omega

theorem put_ne_nil (v : Rat) : ∀ (j : Nat) (bs : List (List Rat)) (n : Nat) (b : List Rat),
    (put v j bs)[n]? = some b → (n = j → b ≠ []) ∧ (n ≠ j → bs[n]? = some b)
  | _, [], n, b, h => by simp [put] at h
  | 0, c :: bs, n, b, h => by
    cases n with
    | zero => simp [put] at h; subst h; simp
    | succ n => simp [put] at h; simp [h]
  | j + 1, c :: bs, n, b, h => by
    cases n with
    | zero => simp [put] at h; simp [h]
    | succ n =>
      simp [put] at h
      have := put_ne_nil v j bs n b h
      simp; exact this

theorem deal_ne_nil {k : Nat} (hk : 0 < k) : ∀ (l : List Rat) (i : Nat) (bs : List (List Rat)), bs.length = k →
    k ≤ i + l.length → (∀ (n : Nat) b, bs[n]? = some b → n < i → b ≠ []) →
    ∀ b ∈ deal k i l bs, b ≠ []
  | [], i, bs, hl, hki, h => by
    intro b hb
    obtain ⟨n, hn, hb⟩ := List.getElem_of_mem hb
    simp only [deal] at hn hb
    refine h n b (by rw [List.getElem?_eq_getElem hn, hb]) ?_
    simp at hki; omega
  | v :: l, i, bs, hl, hki, h => by
    rw [deal]
    apply deal_ne_nil hk l (i + 1) _ (by rw [length_put, hl]) (by simp at hki; omega)
    intro n b hb hn
    have hlen : n < k := by
      rcases Nat.lt_or_ge n k with h' | h'
      · exact h'
      · rw [List.getElem?_eq_none (by rw [length_put, hl]; exact h')] at hb; cases hb
    obtain ⟨h1, h2⟩ := put_ne_nil v _ _ _ _ hb
    by_cases hj : n = i % k
    · exact h1 hj
    · refine h n b (h2 hj) ?_
      rcases Nat.lt_or_ge n i with h' | h'
      · exact h'
      · exfalso
        have : n = i := by omega
        subst this
        exact hj (Nat.mod_eq_of_lt hlen).symm

theorem put_get (v : Rat) : ∀ (j n : Nat) (bs : List (List Rat)),
    (put v j bs)[n]? = bs[n]?.map (fun b => if n = j then b ++ [v] else b)
  | j, n, [] => by simp [put]
  | 0, n, b :: bs => by cases n <;> simp [put]
  | j + 1, n, b :: bs => by
    cases n with
    | zero => simp [put]
    | succ n => simp [put, put_get v j n bs]

/-- What a bucket holds in the end. -/
theorem deal_get (k j : Nat) : ∀ (l : List Rat) (i : Nat) (bs : List (List Rat)),
    (deal k i l bs)[j]? = bs[j]?.map (· ++ (((l.zipIdx i).filter (fun p => decide (p.2 % k = j))).map (·.1)))
  | [], i, bs => by simp [deal]
  | v :: l, i, bs => by
    rw [deal, deal_get k j l, put_get, Option.map_map, List.zipIdx_cons, List.filter_cons]
    congr 1
    funext b
    by_cases h : i % k = j
    · simp [h]
    · simp [h, Ne.symm h]

theorem bucketCount_pos (k : Int) (n : Nat) : 0 < bucketCount k n := by
  unfold bucketCount; omega

theorem bucketCount_le {k : Int} {n : Nat} (hn : 0 < n) : bucketCount k n ≤ n := by
  unfold bucketCount; omega

end Ez.AB
