import Verif.Model.Compare
import Verif.Lemmas.Compare

/-!
# C121: what a comparison of two versions says

`perf ab` measures both versions once per pair, in a balanced order, and says for every case by how much `B` is slower: the
median of the pairs. Robust means here: fewer than half of the runs do not move it out of the range of the others.
-/

set_option linter.unusedSimpArgs false
set_option linter.unusedVariables false

namespace Ez.AB

/-! ### Specification -/

/-- At most half of the numbers are below, at most half above. -/
def IsMedian (l : List Rat) (m : Rat) : Prop :=
  2 * l.countP (fun x => decide (x < m)) ≤ l.length ∧ 2 * l.countP (fun x => decide (m < x)) ≤ l.length

/-- The median: halfway between the smallest and the largest number with at most half of them below and at most half above. -/
def Central (l : List Rat) (m : Rat) : Prop :=
  ∃ x ∈ l, ∃ y ∈ l, IsMedian l x ∧ IsMedian l y ∧ (∀ z, IsMedian l z → x ≤ z ∧ z ≤ y) ∧ m = (x + y) / 2

/-- The largest number with at most half of them below and at most half above. -/
def Upper (l : List Rat) (m : Rat) : Prop := m ∈ l ∧ IsMedian l m ∧ ∀ z, IsMedian l z → z ≤ m

/-- Every `n`-th sample, from the one with the index `j` on. -/
def every (n j : Nat) (samples : List Rat) : List Rat :=
  (samples.zipIdx.filter (fun p => decide (p.2 % n = j))).map (·.1)

/-- What the pairs say of a case: its times of `A` and `B`. -/
def Column (runs : List (Times × Times)) (id : String) (l : List (Rat × Rat)) : Prop :=
  l.length = runs.length ∧ ∀ (j : Nat) r, runs[j]? = some r → ∃ a b, l[j]? = some (a, b) ∧
    PyDict.get? r.1 id = some a ∧ PyDict.get? r.2 id = some b

/-- By how many percent the second of a pair is slower. -/
def slower (p : Rat × Rat) : Rat := (p.2 / p.1 - 1) * 100

/-! ### Medians -/

theorem isMedian_perm {l l' : List Rat} (h : l.Perm l') (m : Rat) : IsMedian l m ↔ IsMedian l' m := by
  simp only [IsMedian, h.countP_eq, h.length_eq]

theorem count_not {l : List Rat} (p : Rat → Bool) : l.countP p + l.countP (fun x => !p x) = l.length := by
  induction l with
  | nil => rfl
  | cons x l ih =>
    rw [List.countP_cons, List.countP_cons, List.length_cons]
    cases p x <;> simp <;> omega

theorem count_mono {l : List Rat} {p q : Rat → Bool} (h : ∀ x ∈ l, p x = true → q x = true) : l.countP p ≤ l.countP q :=
  List.countP_mono_left h

/-- In the middle of sorted numbers. -/
theorem middle {s : List Rat} (h : s.Pairwise (fun u v => u ≤ v)) (hn : s ≠ []) :
    ∃ x y, s[(s.length - 1) / 2]? = some x ∧ s[s.length / 2]? = some y ∧ IsMedian s x ∧ IsMedian s y ∧
      ∀ z, IsMedian s z → x ≤ z ∧ z ≤ y := by
  have hpos : 0 < s.length := List.length_pos_iff.2 hn
  obtain ⟨x, hx⟩ := getElem?_some (l := s) (i := (s.length - 1) / 2) (by omega)
  obtain ⟨y, hy⟩ := getElem?_some (l := s) (i := s.length / 2) (by omega)
  have x1 := count_lt_le h hx Rat.le_refl
  have x2 := count_gt_le h hx Rat.le_refl
  have y1 := count_lt_le h hy Rat.le_refl
  have y2 := count_gt_le h hy Rat.le_refl
  refine ⟨x, y, hx, hy, ⟨by omega, by omega⟩, ⟨by omega, by omega⟩, ?_⟩
  intro z hz
  constructor
  · apply Rat.not_lt.1
    intro hlt
    have c1 := count_not (l := s) (fun w => decide (z < w))
    have c2 : s.countP (fun w => !decide (z < w)) ≤ s.countP (fun w => decide (w < x)) := by
      apply count_mono
      intro w _ hw
      simp only [Bool.not_eq_true', decide_eq_false_iff_not] at hw
      have := Rat.not_lt.1 hw
      simp only [decide_eq_true_eq]
      grind
    have := hz.2
    omega
  · apply Rat.not_lt.1
    intro hlt
    have c1 := count_not (l := s) (fun w => decide (y < w))
    have c2 : s.countP (fun w => !decide (y < w)) ≤ s.countP (fun w => decide (w < z)) := by
      apply count_mono
      intro w _ hw
      simp only [Bool.not_eq_true', decide_eq_false_iff_not] at hw
      have := Rat.not_lt.1 hw
      simp only [decide_eq_true_eq]
      grind
    have := hz.1
    omega

theorem central_unique {l : List Rat} {m m' : Rat} (h : Central l m) (h' : Central l m') : m = m' := by
  obtain ⟨x, _, y, _, a1, a2, a3, a4⟩ := h
  obtain ⟨x', _, y', _, b1, b2, b3, b4⟩ := h'
  have e1 : x = x' := Rat.le_antisymm (a3 x' b1).1 (b3 x a1).1
  have e2 : y = y' := Rat.le_antisymm (b3 y a2).2 (a3 y' b2).2
  rw [a4, b4, e1, e2]

theorem central_isMedian {l : List Rat} {m : Rat} (h : Central l m) : IsMedian l m := by
  obtain ⟨x, _, y, _, ⟨a1, a2⟩, ⟨b1, b2⟩, h3, h4⟩ := h
  have hxy : x ≤ y := (h3 y ⟨b1, b2⟩).1
  constructor
  · have : l.countP (fun w => decide (w < m)) ≤ l.countP (fun w => decide (w < y)) := by
      apply count_mono
      intro w _ hw
      simp only [decide_eq_true_eq] at hw ⊢
      grind
    omega
  · have : l.countP (fun w => decide (m < w)) ≤ l.countP (fun w => decide (x < w)) := by
      apply count_mono
      intro w _ hw
      simp only [decide_eq_true_eq] at hw ⊢
      grind
    omega

/-- **C121** `_median` gives the median, whatever the order of the values; of none it raises. -/
theorem C121_median (l : List Rat) :
    (l = [] → median l = .error .indexError) ∧
    (l ≠ [] → ∃ m, median l = .ok m ∧ Central l m ∧ ∀ m', Central l m' → m' = m) := by
  constructor
  · rintro rfl; rfl
  · intro hl
    have hs : sort ratLe l ≠ [] := by
      intro h
      have := length_sort (le := ratLe) l
      rw [h] at this
      exact hl (List.length_eq_zero_iff.1 this.symm)
    obtain ⟨x, y, hx, hy, mx, my, hz⟩ := middle (sort_ratLe l) hs
    have hperm := sort_perm (le := ratLe) l
    have hpos : 0 < (sort ratLe l).length := List.length_pos_iff.2 hs
    have hc : Central l ((x + y) / 2) :=
      ⟨x, hperm.mem_iff.1 (List.mem_of_getElem? hx), y, hperm.mem_iff.1 (List.mem_of_getElem? hy),
        (isMedian_perm hperm x).1 mx, (isMedian_perm hperm y).1 my, fun z h => hz z ((isMedian_perm hperm z).2 h), rfl⟩
    refine ⟨(x + y) / 2, ?_, hc, fun m' h => central_unique h hc⟩
    unfold median
    simp only
    split
    · rename_i hodd
      have : ((sort ratLe l).length - 1) / 2 = (sort ratLe l).length / 2 := by omega
      rw [this, hy] at hx
      cases hx
      rw [hy]
      congr 1
      grind
    · rename_i heven
      rw [if_neg (by omega)]
      have : ((sort ratLe l).length - 1) / 2 = (sort ratLe l).length / 2 - 1 := by omega
      rw [this] at hx
      rw [hx, hy]

example : median [5, 1, 100] = .ok 5 ∧ median [1, 100] = .ok ((101 : Rat) / 2) ∧ median [] = .error .indexError := by
  decide +kernel

/-- **C121** If fewer than half of the values are above a bound the median is not, and likewise below. -/
theorem C121_robust {l : List Rat} {m bound : Rat} (h : median l = .ok m) :
    (2 * l.countP (fun x => decide (bound < x)) < l.length → m ≤ bound) ∧
    (2 * l.countP (fun x => decide (x < bound)) < l.length → bound ≤ m) := by
  have hl : l ≠ [] := by rintro rfl; simp [(C121_median []).1] at h
  obtain ⟨m', h1, h2, _⟩ := (C121_median l).2 hl
  rw [h] at h1
  cases h1
  have hm := central_isMedian h2
  constructor
  · intro hc
    apply Rat.not_lt.1
    intro hlt
    have c1 := count_not (l := l) (fun w => decide (bound < w))
    have c2 : l.countP (fun w => !decide (bound < w)) ≤ l.countP (fun w => decide (w < m)) := by
      apply count_mono
      intro w _ hw
      simp only [Bool.not_eq_true', decide_eq_false_iff_not] at hw
      have := Rat.not_lt.1 hw
      simp only [decide_eq_true_eq]
      grind
    have := hm.1
    omega
  · intro hc
    apply Rat.not_lt.1
    intro hlt
    have c1 := count_not (l := l) (fun w => decide (w < bound))
    have c2 : l.countP (fun w => !decide (w < bound)) ≤ l.countP (fun w => decide (m < w)) := by
      apply count_mono
      intro w _ hw
      simp only [Bool.not_eq_true', decide_eq_false_iff_not] at hw
      have := Rat.not_lt.1 hw
      simp only [decide_eq_true_eq]
      grind
    have := hm.2
    omega

example : median [5, 1, 7, 1000000, 6] = .ok 6 ∧
    2 * [5, 1, 7, 1000000, 6].countP (fun x : Rat => decide (7 < x)) < 5 := by decide +kernel

/-! ### The median of means -/

theorem buckets_eq {n : Nat} (samples : List Rat) :
    deal n 0 samples (List.replicate n []) = (List.range n).map (fun j => every n j samples) := by
  apply List.ext_getElem?
  intro j
  rw [deal_get]
  by_cases hj : j < n
  · simp [List.getElem?_replicate, hj, every]
  · simp [List.getElem?_replicate, hj]

theorem every_ne_nil {k : Int} {samples : List Rat} (hs : samples ≠ []) :
    ∀ b ∈ (List.range (bucketCount k samples.length)).map (fun j => every (bucketCount k samples.length) j samples), b ≠ [] := by
  rw [← buckets_eq]
  have hpos : 0 < samples.length := List.length_pos_iff.2 hs
  apply deal_ne_nil (bucketCount_pos k _)
  · simp
  · have := bucketCount_le (k := k) hpos; omega
  · intro n b _ h; omega

theorem mom_eq {samples : List Rat} (hs : samples ≠ []) (k : Int) :
    medianOfMeans samples k =
      (sort ratLe ((List.range (bucketCount k samples.length)).map
        (fun j => mean (every (bucketCount k samples.length) j samples))))[bucketCount k samples.length / 2]? := by
  unfold medianOfMeans
  rw [if_neg hs]
  simp only
  rw [buckets_eq]
  have : ((List.range (bucketCount k samples.length)).map (fun j => every (bucketCount k samples.length) j samples)).filter
      (fun b => decide (b ≠ [])) =
      (List.range (bucketCount k samples.length)).map (fun j => every (bucketCount k samples.length) j samples) := by
    rw [List.filter_eq_self]
    intro b hb
    simpa using every_ne_nil hs b hb
  rw [this, List.map_map, length_sort]
  simp [Function.comp_def]

/-- **C121** The median of means: of the means of every `n`-th sample, the largest one with at most half of them above and at
most half below, where `n` is the number of buckets asked for, at least 1 and at most the number of samples. Of no
samples it is not a number. -/
theorem C121_means (samples : List Rat) (k : Int) :
    (samples = [] → medianOfMeans samples k = none) ∧
    (samples ≠ [] → ∃ r n, medianOfMeans samples k = some r ∧ 1 ≤ n ∧ n ≤ samples.length ∧
      (1 ≤ k → k ≤ samples.length → (n : Int) = k) ∧ (samples.length ≤ k → n = samples.length) ∧ (k ≤ 1 → n = 1) ∧
      Upper ((List.range n).map (fun j => mean (every n j samples))) r) := by
  constructor
  · rintro rfl; rfl
  · intro hs
    have hpos : 0 < samples.length := List.length_pos_iff.2 hs
    have hn := bucketCount_pos k samples.length
    have hl : (sort ratLe ((List.range (bucketCount k samples.length)).map
        (fun j => mean (every (bucketCount k samples.length) j samples)))).length = bucketCount k samples.length := by
      rw [length_sort]; simp
    have hne : sort ratLe ((List.range (bucketCount k samples.length)).map
        (fun j => mean (every (bucketCount k samples.length) j samples))) ≠ [] := by
      intro h; rw [h] at hl; simp at hl; omega
    obtain ⟨x, y, hx, hy, mx, my, hz⟩ := middle (sort_ratLe _) hne
    have hperm := sort_perm (le := ratLe) ((List.range (bucketCount k samples.length)).map
        (fun j => mean (every (bucketCount k samples.length) j samples)))
    rw [hl] at hy
    refine ⟨y, bucketCount k samples.length, by rw [mom_eq hs k, hy], hn, bucketCount_le hpos, ?_, ?_, ?_,
      hperm.mem_iff.1 (List.mem_of_getElem? hy), (isMedian_perm hperm y).1 my, fun z h => (hz z ((isMedian_perm hperm z).2 h)).2⟩
    · intro h1 h2; unfold bucketCount; omega
    · intro h1; unfold bucketCount; omega
    · intro h1; unfold bucketCount; omega

example : medianOfMeans [1, 2, 3, 4, 5, 6] 3 = some ((7 : Rat) / 2) ∧ medianOfMeans [] 3 = none := by decide +kernel

/-- **C121** Fewer samples above a bound than half of the buckets do not bring the median of means above it, and not more below
a bound than half of the buckets not below it. -/
theorem C121_means_robust {samples : List Rat} {k : Int} {r bound : Rat} (h : medianOfMeans samples k = some r) (n : Nat)
    (hn : (n : Int) ≤ k ∧ n ≤ samples.length) :
    (2 * samples.countP (fun x => decide (bound < x)) < n → r ≤ bound) ∧
    (2 * samples.countP (fun x => decide (x < bound)) ≤ n → bound ≤ r) := by
  have hs : samples ≠ [] := by rintro rfl; simp [medianOfMeans] at h
  have hpos : 0 < samples.length := List.length_pos_iff.2 hs
  have hbc : n ≤ bucketCount k samples.length := by unfold bucketCount; omega
  have key : ∀ p : Rat → Bool,
      ((List.range (bucketCount k samples.length)).map (fun j => every (bucketCount k samples.length) j samples)).countP
        (fun b => b.any p) ≤ samples.countP p := by
    intro p
    have h1 := count_buckets p (deal (bucketCount k samples.length) 0 samples (List.replicate (bucketCount k samples.length) []))
    rw [tally_deal p (bucketCount_pos k _) _ _ _ (by simp), tally_replicate, buckets_eq] at h1
    omega
  rw [mom_eq hs k] at h
  have hl : (sort ratLe ((List.range (bucketCount k samples.length)).map
        (fun j => mean (every (bucketCount k samples.length) j samples)))).length = bucketCount k samples.length := by
    rw [length_sort]; simp
  have hperm := sort_perm (le := ratLe) ((List.range (bucketCount k samples.length)).map
        (fun j => mean (every (bucketCount k samples.length) j samples)))
  have hne := every_ne_nil (k := k) hs
  constructor
  · intro hc
    apply Rat.not_lt.1
    intro hlt
    have c0 := count_lt_le (sort_ratLe _) h Rat.le_refl
    rw [hperm.countP_eq] at c0
    have c1 := count_not (l := (List.range (bucketCount k samples.length)).map
        (fun j => mean (every (bucketCount k samples.length) j samples))) (fun w => decide (w < r))
    have c2 : ((List.range (bucketCount k samples.length)).map
        (fun j => mean (every (bucketCount k samples.length) j samples))).countP (fun w => !decide (w < r)) ≤
        ((List.range (bucketCount k samples.length)).map (fun j => every (bucketCount k samples.length) j samples)).countP
        (fun b => b.any (fun x => decide (bound < x))) := by
      rw [List.countP_map, List.countP_map]
      apply List.countP_mono_left
      intro j hj hw
      simp only [Function.comp, Bool.not_eq_true', decide_eq_false_iff_not] at hw ⊢
      have h1 := Rat.not_lt.1 hw
      obtain ⟨x, hx, hx2⟩ := mean_gt (hne _ (List.mem_map.2 ⟨j, hj, rfl⟩)) (hi := bound) (by grind)
      rw [List.any_eq_true]
      exact ⟨x, hx, by simpa using hx2⟩
    have c3 := key (fun x => decide (bound < x))
    simp only [List.length_map, List.length_range] at c1
    omega
  · intro hc
    apply Rat.not_lt.1
    intro hlt
    have c0 := count_gt_le (sort_ratLe _) h Rat.le_refl
    rw [hperm.countP_eq, hl] at c0
    have c1 := count_not (l := (List.range (bucketCount k samples.length)).map
        (fun j => mean (every (bucketCount k samples.length) j samples))) (fun w => decide (r < w))
    have c2 : ((List.range (bucketCount k samples.length)).map
        (fun j => mean (every (bucketCount k samples.length) j samples))).countP (fun w => !decide (r < w)) ≤
        ((List.range (bucketCount k samples.length)).map (fun j => every (bucketCount k samples.length) j samples)).countP
        (fun b => b.any (fun x => decide (x < bound))) := by
      rw [List.countP_map, List.countP_map]
      apply List.countP_mono_left
      intro j hj hw
      simp only [Function.comp, Bool.not_eq_true', decide_eq_false_iff_not] at hw ⊢
      have h1 := Rat.not_lt.1 hw
      obtain ⟨x, hx, hx2⟩ := mean_lt (hne _ (List.mem_map.2 ⟨j, hj, rfl⟩)) (lo := bound) (by grind)
      rw [List.any_eq_true]
      exact ⟨x, hx, by simpa using hx2⟩
    have c3 := key (fun x => decide (x < bound))
    simp only [List.length_map, List.length_range] at c1
    omega

example : medianOfMeans [1, 2, 3, 1000000, 5, 6, 4] 5 = some ((7 : Rat) / 2) := by decide +kernel

/-- **C121 (partial)** With an odd number of buckets it is the median of the means. Missing: an even number. -/
theorem C121_means_median_partial {samples : List Rat} {n : Nat} (h : n ≤ samples.length) (hodd : n % 2 = 1) :
    ∃ r, medianOfMeans samples n = some r ∧ Central ((List.range n).map (fun j => mean (every n j samples))) r := by
  have hs : samples ≠ [] := by rintro rfl; simp at h; omega
  obtain ⟨r, n', h1, _, _, h2, _, _, h3⟩ := (C121_means samples n).2 hs
  have := h2 (by omega) (by omega)
  have : n' = n := by omega
  subst this
  refine ⟨r, h1, r, h3.1, r, h3.1, h3.2.1, h3.2.1, ?_, by grind⟩
  intro z hz
  refine ⟨?_, h3.2.2 z hz⟩
  apply Rat.not_lt.1
  intro hlt
  have hr := h3.2.1
  have c1 := count_not (l := (List.range n').map (fun j => mean (every n' j samples))) (fun w => decide (z < w))
  have c2 : ((List.range n').map (fun j => mean (every n' j samples))).countP (fun w => !decide (z < w)) ≤
      ((List.range n').map (fun j => mean (every n' j samples))).countP (fun w => decide (w < r)) := by
    apply count_mono
    intro w _ hw
    simp only [Bool.not_eq_true', decide_eq_false_iff_not] at hw
    have := Rat.not_lt.1 hw
    simp only [decide_eq_true_eq]
    grind
  have e1 := hr.1
  have e2 := hz.2
  simp only [List.length_map, List.length_range] at c1 e1 e2
  omega

example : medianOfMeans [1, 2, 3, 4, 5] 3 = some 3 := by decide +kernel

/-- **C121 (violation)** With an even number of buckets it is not: of the samples 1 and 100 it says 100, the one outlier. -/
theorem C121_negation_means : medianOfMeans [1, 100] = some 100 ∧ median [1, 100] = .ok ((101 : Rat) / 2) ∧
    medianOfMeans [1, 1, 100, 100] = some 100 := by decide +kernel

/-! ### The pairs -/

/-- **C121** Whatever the shuffle: as many pairs as asked for, each of both versions, half of them beginning with `A`
(one more if the number is odd). -/
theorem C121_order {n : Nat} {order : List (Side × Side)} (h : order.Perm (baseOrder n)) :
    order.length = n ∧ order.count (Side.A, Side.B) = (n + 1) / 2 ∧ order.count (Side.B, Side.A) = n / 2 ∧
    ∀ o ∈ order, o = (Side.A, Side.B) ∨ o = (Side.B, Side.A) := by
  have key : ∀ t : Nat, (List.replicate t [(Side.A, Side.B), (Side.B, Side.A)]).flatten.length = 2 * t ∧
      (List.replicate t [(Side.A, Side.B), (Side.B, Side.A)]).flatten.count (Side.A, Side.B) = t ∧
      (List.replicate t [(Side.A, Side.B), (Side.B, Side.A)]).flatten.count (Side.B, Side.A) = t ∧
      ∀ o ∈ (List.replicate t [(Side.A, Side.B), (Side.B, Side.A)]).flatten, o = (Side.A, Side.B) ∨ o = (Side.B, Side.A) := by
    intro t
    induction t with
    | zero => simp
    | succ t ih =>
      obtain ⟨h1, h2, h3, h4⟩ := ih
      rw [List.replicate_succ, List.flatten_cons]
      refine ⟨by rw [List.length_append, h1]; simp; omega, by rw [List.count_append, h2]; simp; omega,
        by rw [List.count_append, h3]; simp; omega, ?_⟩
      intro o ho
      rcases List.mem_append.1 ho with ho | ho
      · simpa using ho
      · exact h4 o ho
  have base : ∀ m : Nat, (baseOrder m).length = m ∧ (baseOrder m).count (Side.A, Side.B) = (m + 1) / 2 ∧
      (baseOrder m).count (Side.B, Side.A) = m / 2 := by
    intro m
    obtain ⟨h1, h2, h3, _⟩ := key ((m + 1) / 2)
    rcases Nat.mod_two_eq_zero_or_one m with he | ho
    · have : baseOrder m = (List.replicate ((m + 1) / 2) [(Side.A, Side.B), (Side.B, Side.A)]).flatten := by
        unfold baseOrder
        rw [List.take_of_length_le (by omega)]
      rw [this]
      omega
    · obtain ⟨t, rfl⟩ : ∃ t, m = 2 * t + 1 := ⟨m / 2, by omega⟩
      obtain ⟨k1, k2, k3, _⟩ := key t
      have e : (2 * t + 1 + 1) / 2 = t + 1 := by omega
      have : baseOrder (2 * t + 1) =
          (List.replicate t [(Side.A, Side.B), (Side.B, Side.A)]).flatten ++ [(Side.A, Side.B)] := by
        unfold baseOrder
        rw [e, List.replicate_succ', List.flatten_append, List.take_append, k1, List.take_of_length_le (by omega)]
        have : 2 * t + 1 - 2 * t = 1 := by omega
        rw [this]
        simp
      rw [this]
      refine ⟨by rw [List.length_append, k1]; simp, by rw [List.count_append, k2]; simp; omega,
        by rw [List.count_append, k3]; simp; omega⟩
  refine ⟨by rw [h.length_eq]; exact (base n).1, by rw [h.count_eq]; exact (base n).2.1,
    by rw [h.count_eq]; exact (base n).2.2, ?_⟩
  intro o ho
  exact (key ((n + 1) / 2)).2.2.2 o (List.mem_of_mem_take (h.mem_iff.1 ho))

example : baseOrder 3 = [(Side.A, Side.B), (Side.B, Side.A), (Side.A, Side.B)] := by decide

/-- The same cases. -/
def SameCases (a b : Times) : Prop := ∀ id, (PyDict.get? a id).isSome ↔ (PyDict.get? b id).isSome

theorem pair_ok {meas : Bool → Side → Times} {o : Side × Side} (ho : o = (Side.A, Side.B) ∨ o = (Side.B, Side.A))
    {r : Except Err (Times × Times)} (h : pair meas o = r) :
    (SameCases (meas (decide (o.1 = .B)) .A) (meas (decide (o.1 = .A)) .B) →
      r = .ok (meas (decide (o.1 = .B)) .A, meas (decide (o.1 = .A)) .B)) ∧
    (¬ SameCases (meas (decide (o.1 = .B)) .A) (meas (decide (o.1 = .A)) .B) → r = .error .runtimeError) := by
  have hkey : ∀ a b : Times, ((∀ k ∈ PyDict.keys a, k ∈ PyDict.keys b) ∧ (∀ k ∈ PyDict.keys b, k ∈ PyDict.keys a)) ↔ SameCases a b := by
    intro a b
    simp only [SameCases, PyDict.mem_keys]
    exact ⟨fun h id => ⟨h.1 id, h.2 id⟩, fun h => ⟨fun id => (h id).1, fun id => (h id).2⟩⟩
  subst h
  rcases ho with rfl | rfl <;>
    simp only [pair, PyDict.get?_set, PyDict.get?_nil, reduceCtorEq, if_true, if_false, ↓reduceIte, hkey, decide_true,
      decide_false] <;>
    exact ⟨fun h => by rw [if_pos ((hkey _ _).2 h)], fun h => by rw [if_neg (fun h' => h ((hkey _ _).1 h'))]⟩

/-- **C121** Every pair has what was measured of `A` and of `B`, whichever came first; pairs with different cases are refused. -/
theorem C121_pairs {meas : Nat → Bool → Side → Times} : ∀ {order : List (Side × Side)} {i : Nat}
    (ho : ∀ o ∈ order, o = (Side.A, Side.B) ∨ o = (Side.B, Side.A)),
    ((∃ (j : Nat) (o : Side × Side), order[j]? = some o ∧
        ¬ SameCases (meas (i + j) (decide (o.1 = .B)) .A) (meas (i + j) (decide (o.1 = .A)) .B)) →
      pairs meas i order = .error .runtimeError) ∧
    ((∀ (j : Nat) (o : Side × Side), order[j]? = some o →
        SameCases (meas (i + j) (decide (o.1 = .B)) .A) (meas (i + j) (decide (o.1 = .A)) .B)) →
      ∃ runs, pairs meas i order = .ok runs ∧ runs.length = order.length ∧
        ∀ (j : Nat) (o : Side × Side), order[j]? = some o →
          runs[j]? = some (meas (i + j) (decide (o.1 = .B)) .A, meas (i + j) (decide (o.1 = .A)) .B))
  | [], i, ho => by
    constructor
    · rintro ⟨j, o, h, _⟩; simp at h
    · intro _; exact ⟨[], rfl, rfl, by intro j o h; simp at h⟩
  | o :: os, i, ho => by
    have ih := C121_pairs (meas := meas) (order := os) (i := i + 1) (fun o' h => ho o' (by simp [h]))
    have hp := pair_ok (meas := meas i) (ho o (by simp)) rfl
    constructor
    · rintro ⟨j, o', h1, h2⟩
      by_cases hc : SameCases (meas i (decide (o.1 = .B)) .A) (meas i (decide (o.1 = .A)) .B)
      · cases j with
        | zero => simp at h1; subst h1; exact absurd hc h2
        | succ j =>
          have := ih.1 ⟨j, o', by simpa using h1, by have e : i + 1 + j = i + (j + 1) := by omega
                                                     rw [e]; exact h2⟩
          rw [pairs, hp.1 hc, this]
      · rw [pairs, hp.2 hc]
    · intro h
      obtain ⟨runs, h1, h2, h3⟩ := ih.2 (by
        intro j o' hj
        have e : i + 1 + j = i + (j + 1) := by omega
        rw [e]
        exact h (j + 1) o' (by simpa using hj))
      refine ⟨_, by rw [pairs, hp.1 (by simpa using h 0 o (by simp)), h1], by simp [h2], ?_⟩
      intro j o' hj
      cases j with
      | zero => simp at hj; subst hj; simp
      | succ j =>
        have := h3 j o' (by simpa using hj)
        have e : i + 1 + j = i + (j + 1) := by omega
        rw [e] at this
        simpa using this

example : pairs (fun i _ s => [("x", if s = .A then 10 else 20 + (i : Rat))]) 1 [(.A, .B), (.B, .A)] =
    .ok [([("x", 10)], [("x", 21)]), ([("x", 10)], [("x", 22)])] := by decide +kernel

/-! ### What is said of a case -/

theorem column_ok {id : String} : ∀ {ds : List Times} {xs : List Rat}, column id ds = .ok xs →
    xs.length = ds.length ∧ ∀ (j : Nat) d, ds[j]? = some d → ∃ x, xs[j]? = some x ∧ PyDict.get? d id = some x
  | [], xs, h => by simp [column] at h; subst h; simp
  | d :: ds, xs, h => by
    simp only [column] at h
    split at h
    · cases h
    · rename_i x hx
      split at h
      · cases h
      · rename_i xs' hxs
        cases h
        obtain ⟨h1, h2⟩ := column_ok hxs
        refine ⟨by simp [h1], ?_⟩
        intro j e he
        cases j with
        | zero => simp at he; subst he; exact ⟨x, by simp, hx⟩
        | succ j => simpa using h2 j e (by simpa using he)

theorem column_some {id : String} : ∀ {ds : List Times}, (∀ d ∈ ds, (PyDict.get? d id).isSome) → ∃ xs, column id ds = .ok xs
  | [], _ => ⟨[], rfl⟩
  | d :: ds, h => by
    obtain ⟨xs, hx⟩ := column_some (ds := ds) (fun e he => h e (by simp [he]))
    obtain ⟨x, hd⟩ := Option.isSome_iff_exists.1 (h d (by simp))
    exact ⟨x :: xs, by simp [column, hd, hx]⟩

theorem column_none {id : String} : ∀ {ds : List Times}, (∃ d ∈ ds, PyDict.get? d id = none) → column id ds = .error .keyError
  | [], h => by simp at h
  | d :: ds, h => by
    simp only [column]
    split
    · rfl
    · rename_i x hx
      obtain ⟨e, he, hn⟩ := h
      rcases List.mem_cons.1 he with rfl | he
      · rw [hx] at hn; cases hn
      · rw [column_none ⟨e, he, hn⟩]

theorem deltas_ok : ∀ {l : List (Rat × Rat)}, (∀ p ∈ l, p.1 ≠ 0) → deltas l = .ok (l.map slower)
  | [], _ => rfl
  | (a, b) :: l, h => by
    have h1 := h (a, b) (by simp)
    simp only [deltas]
    rw [if_neg h1, deltas_ok (fun p hp => h p (by simp [hp]))]
    simp [slower]

theorem deltas_err : ∀ {l : List (Rat × Rat)}, (∃ p ∈ l, p.1 = 0) → deltas l = .error .zeroDivision
  | [], h => by simp at h
  | (a, b) :: l, h => by
    simp only [deltas]
    split
    · rfl
    · rename_i ha
      obtain ⟨p, hp, h0⟩ := h
      rcases List.mem_cons.1 hp with rfl | hp
      · exact absurd h0 ha
      · rw [deltas_err ⟨p, hp, h0⟩]

theorem deltas_inv {l : List (Rat × Rat)} {ds : List Rat} (h : deltas l = .ok ds) : ds = l.map slower ∧ ∀ p ∈ l, p.1 ≠ 0 := by
  by_cases hz : ∃ p ∈ l, p.1 = 0
  · rw [deltas_err hz] at h; cases h
  · have hz : ∀ p ∈ l, p.1 ≠ 0 := fun p hp h0 => hz ⟨p, hp, h0⟩
    rw [deltas_ok hz] at h
    cases h
    exact ⟨rfl, hz⟩

theorem median_inv {l : List Rat} {m : Rat} (h : median l = .ok m) : l ≠ [] ∧ Central l m := by
  have hl : l ≠ [] := by rintro rfl; simp [(C121_median []).1] at h
  obtain ⟨m', h1, h2, _⟩ := (C121_median l).2 hl
  rw [h] at h1
  cases h1
  exact ⟨hl, h2⟩

/-- What a row of the summary says. -/
def Says (runs : List (Times × Times)) (c : Case) : Prop :=
  ∃ l, Column runs c.caseId l ∧ (∀ p ∈ l, p.1 ≠ 0) ∧ Central (l.map (·.1)) c.a ∧ Central (l.map (·.2)) c.b ∧
    Central (l.map slower) c.deltaMedian ∧ c.deltaMean = (l.map slower).sum / (l.length : Rat) ∧
    c.pairCount = runs.length ∧ c.bFaster = l.countP (fun p => decide (p.2 < p.1))

theorem column_zip {runs : List (Times × Times)} {id : String} {as bs : List Rat}
    (h1 : column id (runs.map (·.1)) = .ok as) (h2 : column id (runs.map (·.2)) = .ok bs) :
    Column runs id (as.zip bs) ∧ as.length = bs.length := by
  obtain ⟨la, ha⟩ := column_ok h1
  obtain ⟨lb, hb⟩ := column_ok h2
  simp only [List.length_map] at la lb
  refine ⟨⟨by simp [la, lb], ?_⟩, by omega⟩
  intro j r hr
  obtain ⟨a, ha1, ha2⟩ := ha j r.1 (by simp [hr])
  obtain ⟨b, hb1, hb2⟩ := hb j r.2 (by simp [hr])
  exact ⟨a, b, by rw [List.getElem?_zip_eq_some]; exact ⟨ha1, hb1⟩, ha2, hb2⟩

theorem case_ok {runs : List (Times × Times)} {id : String} {c : Case} (h : summarizeCase runs id = .ok c) :
    c.caseId = id ∧ Says runs c := by
  unfold summarizeCase at h
  cases h1 : column id (runs.map (·.1)) with
  | error e => rw [h1] at h; cases h
  | ok as =>
  rw [h1] at h
  cases h2 : column id (runs.map (·.2)) with
  | error e => rw [h2] at h; cases h
  | ok bs =>
  rw [h2] at h
  cases h3 : deltas (as.zip bs) with
  | error e => simp only [bind, Except.bind, h3] at h; cases h
  | ok ds =>
  cases h4 : median as with
  | error e => simp only [bind, Except.bind, h3, h4] at h; cases h
  | ok a =>
  cases h5 : median bs with
  | error e => simp only [bind, Except.bind, h3, h4, h5] at h; cases h
  | ok b =>
  cases h6 : median ds with
  | error e => simp only [bind, Except.bind, h3, h4, h5, h6] at h; cases h
  | ok d =>
  simp only [bind, Except.bind, h3, h4, h5, h6, pure, Except.pure, Except.ok.injEq] at h
  subst h
  obtain ⟨hc, hl⟩ := column_zip h1 h2
  obtain ⟨hd, hz⟩ := deltas_inv h3
  refine ⟨rfl, as.zip bs, hc, hz, ?_, ?_, ?_, ?_, ?_, ?_⟩
  · rw [List.map_fst_zip (by omega)]; exact (median_inv h4).2
  · rw [List.map_snd_zip (by omega)]; exact (median_inv h5).2
  · rw [← hd]; exact (median_inv h6).2
  · simp only [hd, List.length_map]
  · simp only [hd, List.length_map]; exact hc.1
  · simp only [List.countP_eq_length_filter]

theorem cases_ok {runs : List (Times × Times)} : ∀ {ids : List String} {cs : List Case},
    summarizeCases runs ids = .ok cs → cs.map (·.caseId) = ids ∧ ∀ c ∈ cs, Says runs c
  | [], cs, h => by simp [summarizeCases] at h; subst h; simp
  | id :: ids, cs, h => by
    simp only [summarizeCases] at h
    split at h
    · cases h
    · rename_i c hc
      split at h
      · cases h
      · rename_i cs' hcs
        cases h
        obtain ⟨h1, h2⟩ := cases_ok hcs
        obtain ⟨h3, h4⟩ := case_ok hc
        refine ⟨by simp [h1, h3], ?_⟩
        intro d hd
        rcases List.mem_cons.1 hd with rfl | hd
        · exact h4
        · exact h2 d hd

/-- **C121** A summary has the cases of the first run in sorted order, and says of each the median time of `A` and of `B`, the
median and the mean of how much slower `B` is, the number of pairs, and in how many `B` is faster. -/
theorem C121_summary {runs : List (Times × Times)} {cs : List Case} (h : summarize runs = .ok cs) :
    (∀ r, runs[0]? = some r → (cs.map (·.caseId)).Perm (PyDict.keys r.1)) ∧
    (cs.map (·.caseId)).Pairwise (fun x y => x ≤ y) ∧ ∀ c ∈ cs, Says runs c := by
  cases runs with
  | nil => simp [summarize] at h
  | cons r rs =>
    simp only [summarize] at h
    obtain ⟨h1, h2⟩ := cases_ok h
    refine ⟨?_, ?_, h2⟩
    · intro r' hr
      simp at hr
      subst hr
      rw [h1]
      exact sort_perm _
    · rw [h1]
      have := sort_sorted (le := strLe) (by intro x y; simp only [strLe, decide_eq_true_eq]; exact String.le_total x y)
        (by intro x y z; simp only [strLe, decide_eq_true_eq]; exact String.le_trans) (PyDict.keys r.1)
      exact this.imp (by intro a b h; simpa [strLe] using h)

/-- **C121** There is a summary if the pairs all have the cases of the first run and no time of `A` is 0; otherwise it raises. -/
theorem C121_summary_raises {runs : List (Times × Times)} :
    (runs = [] → summarize runs = .error .indexError) ∧
    (∀ r, runs[0]? = some r →
      (∀ id ∈ PyDict.keys r.1, ∀ p ∈ runs, (∃ a, PyDict.get? p.1 id = some a ∧ a ≠ 0) ∧ (PyDict.get? p.2 id).isSome) →
      ∃ cs, summarize runs = .ok cs) ∧
    (∀ r, runs[0]? = some r →
      (∃ id ∈ PyDict.keys r.1, ∃ p ∈ runs, PyDict.get? p.1 id = none ∨ PyDict.get? p.2 id = none ∨ PyDict.get? p.1 id = some 0) →
      ∃ e, summarize runs = .error e ∧ (e = .keyError ∨ e = .zeroDivision)) := by
  refine ⟨by rintro rfl; rfl, ?_, ?_⟩
  · intro r hr h
    cases runs with
    | nil => simp at hr
    | cons r' rs =>
      simp at hr
      subst hr
      simp only [summarize]
      have key : ∀ id ∈ PyDict.keys r'.1, ∃ c, summarizeCase (r' :: rs) id = .ok c := by
        intro id hid
        obtain ⟨as, ha⟩ := column_some (id := id) (ds := (r' :: rs).map (·.1)) (by
          intro d hd
          obtain ⟨p, hp, rfl⟩ := List.mem_map.1 hd
          obtain ⟨⟨a, h1, _⟩, _⟩ := h id hid p hp
          simp [h1])
        obtain ⟨bs, hb⟩ := column_some (id := id) (ds := (r' :: rs).map (·.2)) (by
          intro d hd
          obtain ⟨p, hp, rfl⟩ := List.mem_map.1 hd
          exact (h id hid p hp).2)
        obtain ⟨hc, hl⟩ := column_zip ha hb
        have hla := (column_ok ha).1
        have hlb := (column_ok hb).1
        have hz : ∀ p ∈ as.zip bs, p.1 ≠ 0 := by
          intro p hp
          obtain ⟨j, hj, hpj⟩ := List.getElem_of_mem hp
          have hj' : j < (r' :: rs).length := by rw [← hc.1]; exact hj
          obtain ⟨a, b, h1, h2, _⟩ := hc.2 j (r' :: rs)[j] (List.getElem?_eq_getElem hj')
          rw [List.getElem?_eq_getElem hj, hpj] at h1
          cases h1
          obtain ⟨⟨a', h3, h4⟩, _⟩ := h id hid _ (List.getElem_mem hj')
          rw [h2] at h3
          cases h3
          exact h4
        have n1 : as ≠ [] := by intro e; rw [e] at hla; simp at hla
        have n2 : bs ≠ [] := by intro e; rw [e] at hlb; simp at hlb
        have n3 : (as.zip bs).map slower ≠ [] := by
          intro e
          have e1 := congrArg List.length e
          have := hc.1
          rw [List.length_map] at e1
          simp only [List.length_nil, List.length_cons] at e1 this
          omega
        obtain ⟨a, h4, _⟩ := (C121_median as).2 n1
        obtain ⟨b, h5, _⟩ := (C121_median bs).2 n2
        obtain ⟨d, h6, _⟩ := (C121_median _).2 n3
        unfold summarizeCase
        rw [ha, hb]
        simp only [bind, Except.bind, deltas_ok hz, h4, h5, h6, pure, Except.pure]
        exact ⟨_, rfl⟩
      have : ∀ ids : List String, (∀ id ∈ ids, ∃ c, summarizeCase (r' :: rs) id = .ok c) →
          ∃ cs, summarizeCases (r' :: rs) ids = .ok cs := by
        intro ids
        induction ids with
        | nil => intro _; exact ⟨[], rfl⟩
        | cons id ids ih =>
          intro h
          obtain ⟨c, hc⟩ := h id (by simp)
          obtain ⟨cs, hcs⟩ := ih (fun x hx => h x (by simp [hx]))
          exact ⟨c :: cs, by simp [summarizeCases, hc, hcs]⟩
      exact this _ (fun id hid => key id ((sort_perm _).mem_iff.1 hid))
  · intro r hr h
    have hne : ∀ cs, summarize runs ≠ .ok cs := by
      intro cs hcs
      obtain ⟨h1, _, h2⟩ := C121_summary hcs
      obtain ⟨id, hid, p, hp, hbad⟩ := h
      obtain ⟨c, hc, hce⟩ := List.mem_map.1 ((h1 r hr).mem_iff.2 hid)
      obtain ⟨l, ⟨hl1, hl2⟩, hz, _⟩ := h2 c hc
      obtain ⟨j, hj, hpj⟩ := List.getElem_of_mem hp
      obtain ⟨a, b, e1, e2, e3⟩ := hl2 j p (by rw [List.getElem?_eq_getElem hj, hpj])
      rw [hce] at e2 e3
      rcases hbad with hb | hb | hb
      · rw [hb] at e2; cases e2
      · rw [hb] at e3; cases e3
      · rw [hb] at e2
        cases e2
        exact hz _ (List.mem_of_getElem? e1) rfl
    have herr : ∀ ids e, summarizeCases runs ids = .error e → runs ≠ [] → e = .keyError ∨ e = .zeroDivision := by
      intro ids
      induction ids with
      | nil => intro e he; simp [summarizeCases] at he
      | cons id ids ih =>
        intro e he hnr
        simp only [summarizeCases] at he
        split at he
        · rename_i e' hce
          cases he
          unfold summarizeCase at hce
          cases h1 : column id (runs.map (·.1)) with
          | error e1 =>
            rw [h1] at hce
            simp only [bind, Except.bind, Except.error.injEq] at hce
            subst hce
            by_cases hn : ∃ d ∈ runs.map (·.1), PyDict.get? d id = none
            · rw [column_none hn] at h1; cases h1; exact Or.inl rfl
            · obtain ⟨xs, hx⟩ := column_some (id := id) (ds := runs.map (·.1)) (by
                intro d hd
                cases hg : PyDict.get? d id with
                | none => exact absurd ⟨d, hd, hg⟩ hn
                | some _ => rfl)
              rw [hx] at h1; cases h1
          | ok as =>
          rw [h1] at hce
          cases h2 : column id (runs.map (·.2)) with
          | error e1 =>
            rw [h2] at hce
            simp only [bind, Except.bind, Except.error.injEq] at hce
            subst hce
            by_cases hn : ∃ d ∈ runs.map (·.2), PyDict.get? d id = none
            · rw [column_none hn] at h2; cases h2; exact Or.inl rfl
            · obtain ⟨xs, hx⟩ := column_some (id := id) (ds := runs.map (·.2)) (by
                intro d hd
                cases hg : PyDict.get? d id with
                | none => exact absurd ⟨d, hd, hg⟩ hn
                | some _ => rfl)
              rw [hx] at h2; cases h2
          | ok bs =>
          rw [h2] at hce
          obtain ⟨hc, hl⟩ := column_zip h1 h2
          have hla := (column_ok h1).1
          have hlb := (column_ok h2).1
          have hlen : 0 < runs.length := List.length_pos_iff.2 hnr
          simp only [List.length_map] at hla hlb
          by_cases hz : ∃ p ∈ as.zip bs, p.1 = 0
          · simp only [bind, Except.bind, deltas_err hz, Except.error.injEq] at hce
            exact Or.inr hce.symm
          · have hz : ∀ p ∈ as.zip bs, p.1 ≠ 0 := fun p hp h0 => hz ⟨p, hp, h0⟩
            have n1 : as ≠ [] := by intro e; rw [e] at hla; simp at hla; omega
            have n2 : bs ≠ [] := by intro e; rw [e] at hlb; simp at hlb; omega
            have n3 : (as.zip bs).map slower ≠ [] := by
              intro e
              have e1 := congrArg List.length e
              have := hc.1
              rw [List.length_map] at e1
              simp only [List.length_nil] at e1
              omega
            obtain ⟨a, h4, _⟩ := (C121_median as).2 n1
            obtain ⟨b, h5, _⟩ := (C121_median bs).2 n2
            obtain ⟨d, h6, _⟩ := (C121_median _).2 n3
            simp only [bind, Except.bind, deltas_ok hz, h4, h5, h6, pure, Except.pure] at hce
            cases hce
        · split at he
          · rename_i e' hcs
            cases he
            exact ih e hcs hnr
          · cases he
    cases runs with
    | nil => simp at hr
    | cons r' rs =>
      cases hs : summarize (r' :: rs) with
      | ok cs => exact absurd hs (hne cs)
      | error e => exact ⟨e, rfl, herr _ e (by simpa only [summarize] using hs) (by simp)⟩

example : summarize [([("x", 10)], [("x", 12)]), ([("x", 8)], [("x", 9)])] =
    .ok [⟨"x", 9, (21 : Rat) / 2, (65 : Rat) / 4, (65 : Rat) / 4, 2, 0⟩] ∧
    summarize [([("x", 0)], [("x", 12)])] = .error .zeroDivision ∧
    summarize [([("x", 10)], [("x", 12)]), ([("y", 8)], [("y", 9)])] = .error .keyError := by decide +kernel

theorem slower_neg {a b : Rat} (h : 0 < a) : slower (a, b) < 0 ↔ b < a := by
  have : b / a < 1 ↔ b < 1 * a := Rat.div_lt_iff h
  rw [Rat.one_mul] at this
  rw [← this]
  simp only [slower]
  constructor <;> intro h <;> grind

theorem count_congr {α : Type} {l : List α} {p q : α → Bool} (h : ∀ x ∈ l, (p x = true ↔ q x = true)) : l.countP p = l.countP q :=
  List.countP_congr h

/-- **C121** If `B` is faster in more than half of the pairs, it is said to be an improvement (`B` is faster by the median); if in
fewer than half, it is not said to be faster; and if `B` is slower in more than half, it is said to be a regression. -/
theorem C121_verdict {runs : List (Times × Times)} {c : Case} (h : Says runs c)
    (hpos : ∀ p ∈ runs, ∀ a, PyDict.get? p.1 c.caseId = some a → 0 < a) :
    (2 * c.bFaster > c.pairCount → c.deltaMedian < 0 ∧ verdict c = "improvement") ∧
    (2 * c.bFaster < c.pairCount → 0 ≤ c.deltaMedian) ∧
    (∀ l, Column runs c.caseId l → 2 * l.countP (fun p => decide (p.1 < p.2)) > runs.length →
      0 < c.deltaMedian ∧ verdict c = "regression") := by
  obtain ⟨l, hcol, hz, _, _, hd, _, hpc, hbf⟩ := h
  have hpl : ∀ p ∈ l, 0 < p.1 := by
    intro p hp
    obtain ⟨j, hj, hpj⟩ := List.getElem_of_mem hp
    have hj' : j < runs.length := by rw [← hcol.1]; exact hj
    obtain ⟨a, b, h1, h2, _⟩ := hcol.2 j runs[j] (List.getElem?_eq_getElem hj')
    rw [List.getElem?_eq_getElem hj, hpj] at h1
    cases h1
    exact hpos _ (List.getElem_mem hj') a h2
  have hm := central_isMedian hd
  have hneg : (l.map slower).countP (fun x => decide (x < 0)) = c.bFaster := by
    rw [hbf, List.countP_map]
    apply count_congr
    intro p hp
    simp only [Function.comp, decide_eq_true_eq]
    exact slower_neg (a := p.1) (b := p.2) (hpl p hp)
  have hlen : (l.map slower).length = c.pairCount := by rw [List.length_map, hcol.1, hpc]
  unfold IsMedian at hm
  rw [hlen] at hm
  refine ⟨?_, ?_, ?_⟩
  · intro hgt
    have hlt : c.deltaMedian < 0 := by
      apply Rat.not_le.1
      intro hle
      have : (l.map slower).countP (fun x => decide (x < 0)) ≤ (l.map slower).countP (fun x => decide (x < c.deltaMedian)) := by
        apply count_mono
        intro w _ hw
        simp only [decide_eq_true_eq] at hw ⊢
        grind
      omega
    refine ⟨hlt, ?_⟩
    unfold verdict
    rw [if_neg (by grind)]
  · intro hlt
    apply Rat.not_lt.1
    intro hneg'
    have c1 := count_not (l := l.map slower) (fun x => decide (x < 0))
    have : (l.map slower).countP (fun x => !decide (x < 0)) ≤ (l.map slower).countP (fun x => decide (c.deltaMedian < x)) := by
      apply count_mono
      intro w _ hw
      simp only [Bool.not_eq_true', decide_eq_false_iff_not] at hw
      have := Rat.not_lt.1 hw
      simp only [decide_eq_true_eq]
      grind
    omega
  · intro l' hcol' hgt
    have : l' = l := by
      apply List.ext_getElem?
      intro j
      rcases Nat.lt_or_ge j runs.length with hj | hj
      · obtain ⟨a, b, h1, h2, h3⟩ := hcol.2 j runs[j] (List.getElem?_eq_getElem hj)
        obtain ⟨a', b', h1', h2', h3'⟩ := hcol'.2 j runs[j] (List.getElem?_eq_getElem hj)
        rw [h2] at h2'
        rw [h3] at h3'
        cases h2'
        cases h3'
        rw [h1, h1']
      · rw [List.getElem?_eq_none (by rw [hcol'.1]; exact hj), List.getElem?_eq_none (by rw [hcol.1]; exact hj)]
    subst this
    have hpc' : c.pairCount = runs.length := hpc
    have hgt0 : 0 < c.deltaMedian := by
      apply Rat.not_le.1
      intro hle
      have h1 : (l'.map slower).countP (fun x => decide (0 < x)) = l'.countP (fun p => decide (p.1 < p.2)) := by
        rw [List.countP_map]
        apply count_congr
        intro p hp
        simp only [Function.comp, decide_eq_true_eq]
        have : 1 < p.2 / p.1 ↔ 1 * p.1 < p.2 := Rat.lt_div_iff (hpl p hp)
        rw [Rat.one_mul] at this
        rw [← this]
        simp only [slower]
        constructor <;> intro h <;> grind
      have h2 : (l'.map slower).countP (fun x => decide (0 < x)) ≤ (l'.map slower).countP (fun x => decide (c.deltaMedian < x)) := by
        apply count_mono
        intro w _ hw
        simp only [decide_eq_true_eq] at hw ⊢
        grind
      omega
    refine ⟨hgt0, ?_⟩
    unfold verdict
    rw [if_pos (by grind)]

example : ∃ c, summarize [([("x", 10)], [("x", 9)]), ([("x", 8)], [("x", 7)]), ([("x", 8)], [("x", 100)])] = .ok [c] ∧
    c.bFaster = 2 ∧ c.pairCount = 3 ∧ c.deltaMedian = -10 ∧ 0 < c.deltaMean :=
  ⟨⟨"x", 8, 9, -10, (2255 : Rat) / 6, 3, 2⟩, by decide +kernel⟩

/-- **C121 (violation)** Two versions that take the same time are said to be an improvement. -/
theorem C121_negation_equal : ∃ c, summarize [([("x", 10)], [("x", 10)])] = .ok [c] ∧ verdict c = "improvement" :=
  ⟨⟨"x", 10, 10, 0, 0, 1, 0⟩, by decide +kernel, by decide +kernel⟩

/-! ### Exchanging the versions -/

/-- How much slower the first of a pair is. -/
theorem slower_swap {p : Rat × Rat} (h1 : 0 < p.1) (h2 : 0 < p.2) :
    (1 + slower p / 100) * (1 + slower (p.2, p.1) / 100) = 1 ∧ 0 < 1 + slower p / 100 := by
  have e1 : 1 + slower p / 100 = p.2 / p.1 := by simp only [slower]; grind
  have e2 : 1 + slower (p.2, p.1) / 100 = p.1 / p.2 := by simp only [slower]; grind
  rw [e1, e2]
  constructor
  · grind
  · rw [Rat.lt_div_iff h1]; grind

theorem inv_lt {u u' v v' : Rat} (hu : u * u' = 1) (hv : v * v' = 1) (h0 : 0 < u) (h1 : 0 < v) (h0' : 0 < u') (h1' : 0 < v')
    (h : u < v) : v' < u' := by
  apply Rat.not_le.1
  intro hle
  have a1 : u * u' < v * u' := (Rat.mul_lt_mul_right h0').2 h
  have a2 : v * u' ≤ v * v' := Rat.mul_le_mul_of_nonneg_left hle (Rat.le_of_lt h1)
  grind

theorem odd_unique {l : List Rat} (hodd : l.length % 2 = 1) {m m' : Rat} (h : IsMedian l m) (h' : IsMedian l m') : m = m' := by
  have key : ∀ x y, IsMedian l x → IsMedian l y → ¬ x < y := by
    intro x y hx hy hlt
    have c1 := count_not (l := l) (fun w => decide (x < w))
    have c2 : l.countP (fun w => !decide (x < w)) ≤ l.countP (fun w => decide (w < y)) := by
      apply count_mono
      intro w _ hw
      simp only [Bool.not_eq_true', decide_eq_false_iff_not] at hw
      have := Rat.not_lt.1 hw
      simp only [decide_eq_true_eq]
      grind
    have e1 := hx.2
    have e2 := hy.1
    omega
  exact Rat.le_antisymm (Rat.not_lt.1 (key m' m h' h)) (Rat.not_lt.1 (key m m' h h'))

theorem odd_mem {l : List Rat} (hodd : l.length % 2 = 1) {m : Rat} (h : Central l m) : m ∈ l := by
  obtain ⟨x, hx, y, hy, h1, h2, h3, h4⟩ := h
  have := odd_unique hodd h1 h2
  subst this
  have : m = x := by grind
  rw [this]; exact hx

/-- **C121 (partial)** With an odd number of pairs, exchanging the versions turns the factor by which `B` is slower into its
inverse. Missing: even numbers of pairs, 6 among them, which is the default. -/
theorem C121_swapped_partial {runs : List (Times × Times)} {c c' : Case} (h : Says runs c)
    (h' : Says (runs.map (fun r => (r.2, r.1))) c') (hid : c.caseId = c'.caseId) (hodd : runs.length % 2 = 1)
    (hpos : ∀ p ∈ runs, (∀ a, PyDict.get? p.1 c.caseId = some a → 0 < a) ∧ (∀ b, PyDict.get? p.2 c.caseId = some b → 0 < b)) :
    (1 + c.deltaMedian / 100) * (1 + c'.deltaMedian / 100) = 1 ∧ c.a = c'.b ∧ c.b = c'.a := by
  obtain ⟨l, hcol, hz, ha, hb, hd, _, hpc, hbf⟩ := h
  obtain ⟨l', hcol', hz', ha', hb', hd', _, hpc', hbf'⟩ := h'
  have hsw : l' = l.map (fun p => (p.2, p.1)) := by
    apply List.ext_getElem?
    intro j
    rcases Nat.lt_or_ge j runs.length with hj | hj
    · obtain ⟨a, b, h1, h2, h3⟩ := hcol.2 j runs[j] (List.getElem?_eq_getElem hj)
      obtain ⟨a', b', h1', h2', h3'⟩ := hcol'.2 j (runs[j].2, runs[j].1) (by
        rw [List.getElem?_map, List.getElem?_eq_getElem hj]; rfl)
      rw [← hid] at h2' h3'
      simp only at h2' h3'
      rw [h2] at h3'
      rw [h3] at h2'
      cases h2'
      cases h3'
      rw [h1', List.getElem?_map, h1]
      rfl
    · rw [List.getElem?_eq_none (by rw [hcol'.1]; simpa using hj), List.getElem?_eq_none (by rw [List.length_map, hcol.1]; exact hj)]
  have hpl : ∀ p ∈ l, 0 < p.1 ∧ 0 < p.2 := by
    intro p hp
    obtain ⟨j, hj, hpj⟩ := List.getElem_of_mem hp
    have hj' : j < runs.length := by rw [← hcol.1]; exact hj
    obtain ⟨a, b, h1, h2, h3⟩ := hcol.2 j runs[j] (List.getElem?_eq_getElem hj')
    rw [List.getElem?_eq_getElem hj, hpj] at h1
    cases h1
    exact ⟨(hpos _ (List.getElem_mem hj')).1 a h2, (hpos _ (List.getElem_mem hj')).2 b h3⟩
  subst hsw
  have hlen : (l.map slower).length % 2 = 1 := by rw [List.length_map, hcol.1]; exact hodd
  obtain ⟨p, hp, hpe⟩ := List.mem_map.1 (odd_mem hlen hd)
  have hps := slower_swap (hpl p hp).1 (hpl p hp).2
  have hps' := slower_swap (p := (p.2, p.1)) (hpl p hp).2 (hpl p hp).1
  have hm := central_isMedian hd
  have hinv : IsMedian ((l.map (fun p => (p.2, p.1))).map slower) (slower (p.2, p.1)) := by
    unfold IsMedian at hm ⊢
    rw [← hpe] at hm
    simp only [List.length_map, List.countP_map, Function.comp_def] at hm ⊢
    have key : ∀ q ∈ l, (slower (q.2, q.1) < slower (p.2, p.1) ↔ slower p < slower q) := by
      intro q hq
      have hqs := slower_swap (hpl q hq).1 (hpl q hq).2
      have hqs' := slower_swap (p := (q.2, q.1)) (hpl q hq).2 (hpl q hq).1
      constructor
      · intro hlt
        have := inv_lt hqs'.1 hps'.1 hqs'.2 hps'.2 hqs.2 hps.2 (by grind)
        simp only at this
        grind
      · intro hlt
        have := inv_lt hps.1 hqs.1 hps.2 hqs.2 hps'.2 hqs'.2 (by grind)
        grind
    have key' : ∀ q ∈ l, (slower (p.2, p.1) < slower (q.2, q.1) ↔ slower q < slower p) := by
      intro q hq
      have hqs := slower_swap (hpl q hq).1 (hpl q hq).2
      have hqs' := slower_swap (p := (q.2, q.1)) (hpl q hq).2 (hpl q hq).1
      constructor
      · intro hlt
        have := inv_lt hps'.1 hqs'.1 hps'.2 hqs'.2 hps.2 hqs.2 (by grind)
        simp only at this
        grind
      · intro hlt
        have := inv_lt hqs.1 hps.1 hqs.2 hps.2 hqs'.2 hps'.2 (by grind)
        grind
    rw [List.countP_congr (q := fun x => decide (slower p < slower x)) (by intro q hq; simpa using key q hq),
      List.countP_congr (p := fun x => decide (slower (p.2, p.1) < slower (x.2, x.1)))
        (q := fun x => decide (slower x < slower p)) (by intro q hq; simpa using key' q hq)]
    exact ⟨hm.2, hm.1⟩
  have hm' := central_isMedian hd'
  have := odd_unique (by simpa using hlen) hm' hinv
  refine ⟨by rw [← hpe, this]; exact hps.1, ?_, ?_⟩
  · have : Central (l.map (·.1)) c'.b := by simpa [List.map_map, Function.comp_def] using hb'
    exact central_unique ha this
  · have : Central (l.map (·.2)) c'.a := by simpa [List.map_map, Function.comp_def] using ha'
    exact central_unique hb this

example : ∃ c c', summarize [([("x", 10)], [("x", 20)])] = .ok [c] ∧ summarize [([("x", 20)], [("x", 10)])] = .ok [c'] ∧
    c.deltaMedian = 100 ∧ c'.deltaMedian = -50 :=
  ⟨⟨"x", 10, 20, 100, 100, 1, 0⟩, ⟨"x", 20, 10, -50, -50, 1, 1⟩, by decide +kernel⟩

/-- **C121 (violation)** With an even number of pairs both versions can be said to be a regression against the other: with times
1 and 2 in one pair and 2 and 1 in the other, `B` is 25 % slower than `A` and `A` is 25 % slower than `B`; also with the
default of 6 pairs. -/
theorem C121_negation_swapped :
    (∃ c c', summarize [([("x", 1)], [("x", 2)]), ([("x", 2)], [("x", 1)])] = .ok [c] ∧
      summarize [([("x", 2)], [("x", 1)]), ([("x", 1)], [("x", 2)])] = .ok [c'] ∧
      c.deltaMedian = 25 ∧ c'.deltaMedian = 25 ∧ verdict c = "regression" ∧ verdict c' = "regression") ∧
    (∃ c c', summarize ((List.replicate 3 ([("x", 1)], [("x", 2)])) ++ List.replicate 3 ([("x", 2)], [("x", 1)])) = .ok [c] ∧
      summarize ((List.replicate 3 ([("x", 2)], [("x", 1)])) ++ List.replicate 3 ([("x", 1)], [("x", 2)])) = .ok [c'] ∧
      verdict c = "regression" ∧ verdict c' = "regression") :=
  ⟨⟨⟨"x", (3 : Rat) / 2, (3 : Rat) / 2, 25, 25, 2, 1⟩, ⟨"x", (3 : Rat) / 2, (3 : Rat) / 2, 25, 25, 2, 1⟩, by decide +kernel⟩,
   ⟨⟨"x", (3 : Rat) / 2, (3 : Rat) / 2, 25, 25, 6, 3⟩, ⟨"x", (3 : Rat) / 2, (3 : Rat) / 2, 25, 25, 6, 3⟩, by decide +kernel⟩⟩

/-- **C121** The mean of the percentages favours the version that is called `A`: with the versions exchanged, the two means never
add up to less than 0, however fast the versions are. -/
theorem C121_mean_favours_a {runs : List (Times × Times)} {c c' : Case} (h : Says runs c)
    (h' : Says (runs.map (fun r => (r.2, r.1))) c') (hid : c.caseId = c'.caseId)
    (hpos : ∀ p ∈ runs, (∀ a, PyDict.get? p.1 c.caseId = some a → 0 < a) ∧ (∀ b, PyDict.get? p.2 c.caseId = some b → 0 < b)) :
    0 ≤ c.deltaMean + c'.deltaMean := by
  obtain ⟨l, hcol, hz, ha, hb, hd, hmean, hpc, hbf⟩ := h
  obtain ⟨l', hcol', hz', ha', hb', hd', hmean', hpc', hbf'⟩ := h'
  have hsw : l' = l.map (fun p => (p.2, p.1)) := by
    apply List.ext_getElem?
    intro j
    rcases Nat.lt_or_ge j runs.length with hj | hj
    · obtain ⟨a, b, h1, h2, h3⟩ := hcol.2 j runs[j] (List.getElem?_eq_getElem hj)
      obtain ⟨a', b', h1', h2', h3'⟩ := hcol'.2 j (runs[j].2, runs[j].1) (by
        rw [List.getElem?_map, List.getElem?_eq_getElem hj]; rfl)
      rw [← hid] at h2' h3'
      simp only at h2' h3'
      rw [h2] at h3'
      rw [h3] at h2'
      cases h2'
      cases h3'
      rw [h1', List.getElem?_map, h1]
      rfl
    · rw [List.getElem?_eq_none (by rw [hcol'.1]; simpa using hj), List.getElem?_eq_none (by rw [List.length_map, hcol.1]; exact hj)]
  have hpl : ∀ p ∈ l, 0 < p.1 ∧ 0 < p.2 := by
    intro p hp
    obtain ⟨j, hj, hpj⟩ := List.getElem_of_mem hp
    have hj' : j < runs.length := by rw [← hcol.1]; exact hj
    obtain ⟨a, b, h1, h2, h3⟩ := hcol.2 j runs[j] (List.getElem?_eq_getElem hj')
    rw [List.getElem?_eq_getElem hj, hpj] at h1
    cases h1
    exact ⟨(hpos _ (List.getElem_mem hj')).1 a h2, (hpos _ (List.getElem_mem hj')).2 b h3⟩
  subst hsw
  have hsum : ∀ m : List (Rat × Rat), (∀ p ∈ m, 0 < p.1 ∧ 0 < p.2) →
      0 ≤ (m.map slower).sum + (m.map (fun p => slower (p.2, p.1))).sum := by
    intro m
    induction m with
    | nil => intro _; simp [Rat.add_zero]
    | cons p m ih =>
      intro hm
      have h1 := ih (fun q hq => hm q (by simp [hq]))
      have hp := hm p (by simp)
      obtain ⟨s1, s2⟩ := slower_swap hp.1 hp.2
      obtain ⟨_, s4⟩ := slower_swap (p := (p.2, p.1)) hp.2 hp.1
      have h2 : 0 ≤ slower p + slower (p.2, p.1) := by
        apply Rat.not_lt.1
        intro hlt
        have hu : 1 + slower (p.2, p.1) / 100 < 1 - slower p / 100 := by grind
        have := Rat.mul_lt_mul_of_pos_left hu s2
        have hsq : 0 ≤ (slower p / 100) * (slower p / 100) := by
          rcases Rat.le_total (a := 0) (b := slower p / 100) with h0 | h0
          · exact Rat.mul_nonneg h0 h0
          · have hn : 0 ≤ -(slower p / 100) := by grind
            have := Rat.mul_nonneg hn hn
            grind
        grind
      rw [List.map_cons, List.map_cons, List.sum_cons, List.sum_cons]
      grind
  have hs := hsum l hpl
  have hne : l ≠ [] := by
    rintro rfl
    obtain ⟨x, hx, _⟩ := hd
    simp at hx
  have hlp := length_pos_rat hne
  rw [hmean, hmean']
  simp only [List.length_map, List.map_map, Function.comp_def]
  have e : (l.map slower).sum / (l.length : Rat) + (l.map (fun p => slower (p.2, p.1))).sum / (l.length : Rat) =
      ((l.map slower).sum + (l.map (fun p => slower (p.2, p.1))).sum) / (l.length : Rat) := by
    simp only [Rat.div_def]; grind
  rw [e]
  apply Rat.not_lt.1
  intro hlt
  have := (Rat.div_lt_iff hlp).1 hlt
  grind

example : ∃ c c', summarize [([("x", 1)], [("x", 2)]), ([("x", 2)], [("x", 1)]), ([("x", 1)], [("x", 1)])] = .ok [c] ∧
    summarize [([("x", 2)], [("x", 1)]), ([("x", 1)], [("x", 2)]), ([("x", 1)], [("x", 1)])] = .ok [c'] ∧
    c.deltaMedian = 0 ∧ 0 < c.deltaMean ∧ c.deltaMean = c'.deltaMean :=
  ⟨⟨"x", 1, 1, 0, (50 : Rat) / 3, 3, 1⟩, ⟨"x", 1, 1, 0, (50 : Rat) / 3, 3, 1⟩, by decide +kernel⟩

/-- **C121** The whole comparison: it needs at least one pair, refuses versions with different cases, and otherwise summarizes as
many pairs as asked for, each with what was measured of `A` and of `B`. -/
theorem C121_comparison {rounds : Int} {shuffle : List (Side × Side) → List (Side × Side)}
    (hsh : ∀ l, (shuffle l).Perm l) (meas : Nat → Bool → Side → Times) :
    (rounds ≤ 0 → perfAB rounds shuffle meas = .error .valueError) ∧
    (∀ cs, perfAB rounds shuffle meas = .ok cs → ∃ runs : List (Times × Times), (runs.length : Int) = rounds ∧
      (∀ (j : Nat) r, runs[j]? = some r → ∃ aFirst : Bool, r.1 = meas (1 + j) (!aFirst) .A ∧ r.2 = meas (1 + j) aFirst .B ∧
        SameCases r.1 r.2) ∧
      summarize runs = .ok cs ∧ ∀ c ∈ cs, (c.pairCount : Int) = rounds) := by
  constructor
  · intro h; simp [perfAB, h]
  · intro cs h
    unfold perfAB at h
    split at h
    · cases h
    · rename_i hr
      obtain ⟨o1, o2, o3, o4⟩ := C121_order (hsh (baseOrder rounds.toNat))
      have hp := C121_pairs (meas := meas) (i := 1) o4
      by_cases hsame : ∀ (j : Nat) (o : Side × Side), (shuffle (baseOrder rounds.toNat))[j]? = some o →
        SameCases (meas (1 + j) (decide (o.1 = .B)) .A) (meas (1 + j) (decide (o.1 = .A)) .B)
      · obtain ⟨runs, h1, h2, h3⟩ := hp.2 hsame
        rw [h1] at h
        simp only at h
        refine ⟨runs, by rw [h2, o1]; omega, ?_, h, ?_⟩
        · intro j r hj
          have hjl : j < (shuffle (baseOrder rounds.toNat)).length := by
            rw [← h2]
            rcases Nat.lt_or_ge j runs.length with h' | h'
            · exact h'
            · rw [List.getElem?_eq_none h'] at hj; cases hj
          have ho := List.getElem?_eq_getElem hjl
          have := h3 j _ ho
          rw [hj] at this
          cases this
          refine ⟨decide ((shuffle (baseOrder rounds.toNat))[j].1 = .A), ?_, rfl, hsame j _ ho⟩
          cases (shuffle (baseOrder rounds.toNat))[j].1 <;> rfl
        · intro c hc
          obtain ⟨l, _, _, _, _, _, _, hpc, _⟩ := (C121_summary h).2.2 c hc
          rw [hpc, h2, o1]
          omega
      · have : ∃ (j : Nat) (o : Side × Side), (shuffle (baseOrder rounds.toNat))[j]? = some o ∧
            ¬ SameCases (meas (1 + j) (decide (o.1 = .B)) .A) (meas (1 + j) (decide (o.1 = .A)) .B) := by
          apply Classical.byContradiction
          intro hn
          apply hsame
          intro j o hj
          apply Classical.byContradiction
          intro hc
          exact hn ⟨j, o, hj, hc⟩
        rw [hp.1 this] at h
        cases h

example : perfAB 2 List.reverse (fun _ second s => [("x", if s = .A then 10 else if second then 20 else 30)]) =
    .ok [⟨"x", 10, 25, 150, 150, 2, 0⟩] := by decide +kernel

/-! ### Environment variables -/

/-- What an option says: a key without `=`, then `=`, then the value, which may have any characters. -/
def Assigns (x k v : List Char) : Prop := x = k ++ '=' :: v ∧ '=' ∉ k ∧ k ≠ []

theorem splitEq_some : ∀ {x k v : List Char}, splitEq x = some (k, v) → x = k ++ '=' :: v ∧ '=' ∉ k
  | [], k, v, h => by simp [splitEq] at h
  | c :: l, k, v, h => by
    simp only [splitEq] at h
    split at h
    · rename_i hc
      cases h
      simp [hc]
    · rename_i hc
      split at h
      · cases h
      · rename_i k' v' hk
        cases h
        obtain ⟨h1, h2⟩ := splitEq_some hk
        refine ⟨by rw [h1]; rfl, ?_⟩
        intro hm
        rcases List.mem_cons.1 hm with h' | h'
        · exact hc h'.symm
        · exact h2 h'

theorem splitEq_of : ∀ {k v : List Char}, '=' ∉ k → splitEq (k ++ '=' :: v) = some (k, v)
  | [], v, _ => by simp [splitEq]
  | c :: k, v, h => by
    have h1 : c ≠ '=' := fun e => h (by simp [e])
    have h2 := splitEq_of (k := k) (v := v) (fun e => h (by simp [e]))
    simp [splitEq, h1, h2]

theorem parse_ok : ∀ {xs : List (List Char)} {d : PyDict (List Char) (List Char)},
    (∀ x ∈ xs, ∃ k v, Assigns x k v) → ∃ e, parseEnv d xs = .ok e ∧
      ∀ k v, PyDict.get? e k = some v ↔
        (∃ (i : Nat) (x : List Char), xs[i]? = some x ∧ Assigns x k v ∧ ∀ (j : Nat) y w, i < j → xs[j]? = some y → ¬ Assigns y k w) ∨
        ((∀ x ∈ xs, ∀ w, ¬ Assigns x k w) ∧ PyDict.get? d k = some v)
  | [], d, _ => ⟨d, rfl, by intro k v; simp⟩
  | x :: xs, d, h => by
    obtain ⟨k0, v0, h1, h2, h3⟩ := h x (by simp)
    obtain ⟨e, he, hg⟩ := parse_ok (xs := xs) (d := PyDict.set d k0 v0) (fun y hy => h y (by simp [hy]))
    have hx : ∀ k v, Assigns x k v ↔ k = k0 ∧ v = v0 := by
      intro k v
      constructor
      · rintro ⟨a1, a2, a3⟩
        have b1 := splitEq_of (v := v) a2
        have b2 := splitEq_of (v := v0) h2
        rw [← a1] at b1
        rw [← h1, b1] at b2
        cases b2
        exact ⟨rfl, rfl⟩
      · rintro ⟨rfl, rfl⟩; exact ⟨h1, h2, h3⟩
    refine ⟨e, by simp only [parseEnv]; rw [h1, splitEq_of h2]; simp only [h3, if_false]; exact he, ?_⟩
    intro k v
    rw [hg k v, PyDict.get?_set]
    constructor
    · rintro (⟨i, y, hy, hya, hlast⟩ | ⟨hno, hset⟩)
      · refine Or.inl ⟨i + 1, y, by simpa using hy, hya, ?_⟩
        intro j z w hij hz
        cases j with
        | zero => omega
        | succ j => exact hlast j z w (by omega) (by simpa using hz)
      · by_cases hk : k = k0
        · subst hk
          simp only [if_true] at hset
          cases hset
          refine Or.inl ⟨0, x, by simp, (hx _ _).2 ⟨rfl, rfl⟩, ?_⟩
          intro j z w hij hz
          cases j with
          | zero => omega
          | succ j => exact hno z (List.mem_of_getElem? (by simpa using hz)) w
        · refine Or.inr ⟨?_, by simpa [hk, Ne.symm hk] using hset⟩
          intro y hy w
          rcases List.mem_cons.1 hy with rfl | hy
          · rw [hx]; exact fun e => hk e.1
          · exact hno y hy w
    · rintro (⟨i, y, hy, hya, hlast⟩ | ⟨hno, hd⟩)
      · cases i with
        | zero =>
          simp at hy
          subst hy
          obtain ⟨rfl, rfl⟩ := (hx k v).1 hya
          refine Or.inr ⟨?_, by simp⟩
          intro z hz w
          obtain ⟨j, hj, hzj⟩ := List.getElem_of_mem hz
          exact hlast (j + 1) z w (by omega) (by simp [List.getElem?_eq_getElem hj, hzj])
        | succ i =>
          refine Or.inl ⟨i, y, by simpa using hy, hya, ?_⟩
          intro j z w hij hz
          exact hlast (j + 1) z w (by omega) (by simpa using hz)
      · have hk : k ≠ k0 := fun e => hno x (by simp) v0 ((hx _ _).2 ⟨e, rfl⟩)
        refine Or.inr ⟨fun z hz w => hno z (by simp [hz]) w, by simpa [hk, Ne.symm hk] using hd⟩

theorem parse_err : ∀ {xs : List (List Char)} {d : PyDict (List Char) (List Char)},
    (∃ x ∈ xs, ∀ k v, ¬ Assigns x k v) → parseEnv d xs = .error .valueError
  | [], d, h => by simp at h
  | x :: xs, d, h => by
    simp only [parseEnv]
    split
    · rfl
    · rename_i k v hk
      split
      · rfl
      · rename_i hne
        obtain ⟨y, hy, hya⟩ := h
        rcases List.mem_cons.1 hy with rfl | hy
        · exact absurd ⟨(splitEq_some hk).1, (splitEq_some hk).2, hne⟩ (hya k v)
        · exact parse_err ⟨y, hy, hya⟩

/-- **C121** Options for the environment: each is a key, `=` and a value, otherwise all are refused; the last one for a key counts. -/
theorem C121_environment (xs : List (List Char)) :
    ((∃ x ∈ xs, ∀ k v, ¬ Assigns x k v) → parseEnv [] xs = .error .valueError) ∧
    ((∀ x ∈ xs, ∃ k v, Assigns x k v) → ∃ e, parseEnv [] xs = .ok e ∧
      ∀ k v, PyDict.get? e k = some v ↔
        ∃ (i : Nat) (x : List Char), xs[i]? = some x ∧ Assigns x k v ∧ ∀ (j : Nat) y w, i < j → xs[j]? = some y → ¬ Assigns y k w) := by
  refine ⟨parse_err, ?_⟩
  intro h
  obtain ⟨e, he, hg⟩ := parse_ok (d := []) h
  refine ⟨e, he, ?_⟩
  intro k v
  rw [hg k v]
  simp [PyDict.get?_nil]

example : parseEnv [] ["FOO=bar".toList, "BAZ=a=b".toList, "FOO=".toList] =
    .ok [("FOO".toList, []), ("BAZ".toList, "a=b".toList)] ∧
    parseEnv [] ["=x".toList] = .error .valueError ∧ parseEnv [] ["x".toList] = .error .valueError := by decide

/-- **C121** The options for one version come before those for both. -/
theorem C121_own_first (own : PyDict (List Char) (List Char)) (hn : (PyDict.keys own).Nodup) (k : List Char) :
    ∀ shared, PyDict.get? (merged shared own) k = (PyDict.get? own k).or (PyDict.get? shared k) := by
  induction own with
  | nil => intro shared; simp [merged, PyDict.get?_nil]
  | cons p own ih =>
    intro shared
    have hn' : p.1 ∉ PyDict.keys own ∧ (PyDict.keys own).Nodup := by simpa [PyDict.keys] using hn
    have := ih hn'.2 (PyDict.set shared p.1 p.2)
    simp only [merged, List.foldl_cons] at this ⊢
    rw [this, PyDict.get?_set, PyDict.get?_cons]
    by_cases hk : p.1 = k
    · subst hk
      have : PyDict.get? own p.1 = none := PyDict.get?_eq_none.2 hn'.1
      simp [this]
    · simp [hk, Ne.symm hk]

example : merged [("A".toList, "1".toList), ("B".toList, "2".toList)] [("B".toList, "3".toList)] =
    [("A".toList, "1".toList), ("B".toList, "3".toList)] := by decide

end Ez.AB
