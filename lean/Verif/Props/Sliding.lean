import Verif.Props.AxisOps

/-!
# C57: sliding windows
-/

set_option linter.unusedSimpArgs false
set_option linter.unusedSectionVars false

namespace Ez.AA
variable {α : Type}

theorem dot_append : ∀ (p : List Nat) (sp : List Int) (q : List Nat) (sq : List Int), p.length = sp.length →
    dot (p ++ q) (sp ++ sq) = dot p sp + dot q sq
  | [], [], q, sq, _ => by simp [dot]
  | i :: p, s :: sp, q, sq, h => by
    simp only [List.cons_append, dot]
    rw [dot_append p sp q sq (by simpa using h)]
    omega
  | [], _ :: _, _, _, h => by simp at h
  | _ :: _, [], _, _, h => by simp at h

theorem lt_ceil {k n step : Nat} (hs : 0 < step) : k < (n + step - 1) / step ↔ k * step < n := by
  rw [← Nat.add_one_le_iff, Nat.le_div_iff_mul_le hs, Nat.add_mul]
  omega

/-- The positions of a slice with a step and no bounds. -/
theorem step_indices (n step : Nat) (hs : 0 < step) :
    (⟨none, none, some (step : Int)⟩ : PySlice).indices n =
      some ((List.range ((n + step - 1) / step)).map (fun k => k * step)) := by
  obtain ⟨l, h1, h2, -⟩ := indices_pos (n := n) (s := ⟨none, none, some (step : Int)⟩) (by simpa using hs)
  rw [h1]
  congr 1
  have hb : between n ⟨none, none, some (step : Int)⟩ = List.range n := by
    unfold between
    rw [if_pos (by simpa using hs)]
    rw [List.filter_eq_self.2]
    intro i _
    simp
  apply List.ext_getElem?
  intro k
  rw [h2, hb]
  simp only [Option.getD_some, Int.toNat_natCast]
  by_cases hk : k * step < n
  · have := (lt_ceil hs).2 hk
    simp [hk, this]
  · have : ¬ k < (n + step - 1) / step := fun h => hk ((lt_ceil hs).1 h)
    rw [List.getElem?_eq_none (by simp; omega), List.getElem?_eq_none (by simp; omega)]

theorem strides_split {l : List Int} {axis : Nat} (h : axis < l.length) :
    l = l.take axis ++ l.getD axis 0 :: l.drop (axis + 1) := by
  have : l.getD axis 0 = l[axis] := by simp [List.getD_eq_getElem?_getD, h]
  rw [this, ← List.drop_eq_getElem_cons h, List.take_append_drop]

/-- The windows of an array: `w` counts windows, `j` counts within the window. -/
structure IsWindows (inp out : NArr α) (axis nwin step : Nat) : Prop where
  /-- The windowed dimension is replaced by two: which window, and where in the window. -/
  shape : out.shape = inp.shape.take axis ++
    [(inp.shape.getD axis 0 - nwin + 1 + step - 1) / step, nwin] ++ inp.shape.drop (axis + 1)
  /-- Every entry is in the array. -/
  inside : ∀ w j, w < (inp.shape.getD axis 0 - nwin + 1 + step - 1) / step → j < nwin →
    w * step + j < inp.shape.getD axis 0
  /-- Entry `j` of window `w` is entry `w * step + j` of the array. -/
  get : ∀ p w j q, p.length = axis → w < (inp.shape.getD axis 0 - nwin + 1 + step - 1) / step → j < nwin →
    out.get (p ++ w :: j :: q) = inp.get (p ++ (w * step + j) :: q)

theorem inside_of {n nwin step w j : Nat} (hs : 0 < step) (hn : nwin ≤ n) (hw : w < (n - nwin + 1 + step - 1) / step)
    (hj : j < nwin) : w * step + j < n := by
  have := (lt_ceil hs).1 hw
  omega

/-- **C57** `sliding_win_oneaxis` with strides: for every window length from 1 to the length of the dimension and
every step, the result has `⌊(n - nwin) / step⌋ + 1` windows, and entry `j` of window `w` is entry
`w * step + j` of the input, never outside it. A window that is more than one longer than the input is
refused. -/
theorem C57_strided (a : Strided α) (hstr : a.strides.length = a.shape.length) {nwin axis step : Nat}
    (hax : axis < a.shape.length) (hs : 0 < step) :
    (nwin ≤ a.shape.getD axis 0 → ∃ out, slidingStrided a nwin axis step = .ok out ∧
      IsWindows a.toArr out axis nwin step) ∧
    (a.shape.getD axis 0 + 1 < nwin → slidingStrided a nwin axis step = .error .valueError) := by
  refine ⟨?_, ?_⟩
  · intro hn
    have hnw : ((a.shape.getD axis 0 : Int) - ((nwin : Int) - 1)).toNat = a.shape.getD axis 0 - nwin + 1 := by omega
    have hsplit := strides_split (l := a.strides) (axis := axis) (by omega)
    have hget : ∀ (p : List Nat) (x : Nat) (q : List Nat), p.length = axis → a.toArr.get (p ++ x :: q) =
        a.mem (a.base + (dot p (a.strides.take axis) + ((x : Int) * a.strides.getD axis 0 +
          dot q (a.strides.drop (axis + 1))))) := by
      intro p x q hp
      simp only [Strided.toArr]
      congr 2
      conv => lhs; rw [hsplit]
      rw [dot_append p (a.strides.take axis) _ _ (by rw [List.length_take]; omega)]
      rfl
    generalize hr : ({ a with
        shape := a.shape.take axis ++ [a.shape.getD axis 0 - nwin + 1, nwin] ++ a.shape.drop (axis + 1)
        strides := a.strides.take axis ++ [a.strides.getD axis 0, a.strides.getD axis 0] ++
          a.strides.drop (axis + 1) } : Strided α) = r
    have hrget : ∀ (p : List Nat) (x j : Nat) (q : List Nat), p.length = axis → r.toArr.get (p ++ x :: j :: q) =
        a.mem (a.base + (dot p (a.strides.take axis) + ((x : Int) * a.strides.getD axis 0 +
          ((j : Int) * a.strides.getD axis 0 + dot q (a.strides.drop (axis + 1)))))) := by
      intro p x j q hp
      rw [← hr]
      simp only [Strided.toArr]
      congr 2
      rw [List.append_assoc, dot_append p (a.strides.take axis) _ _ (by rw [List.length_take]; omega)]
      rfl
    have hcomb : ∀ (p : List Nat) (x j : Nat) (q : List Nat), p.length = axis → r.toArr.get (p ++ x :: j :: q) = a.toArr.get (p ++ (x + j) :: q) := by
      intro p x j q hp
      rw [hrget p x j q hp, hget p (x + j) q hp, Int.natCast_add, Int.add_mul]
      congr 2
      omega
    have hrs : r.shape = a.shape.take axis ++ [a.shape.getD axis 0 - nwin + 1, nwin] ++ a.shape.drop (axis + 1) := by
      rw [← hr]
    have hlen : axis < r.shape.length := by
      rw [hrs]; simp [List.length_take]; omega
    have hrd : r.shape.getD axis 0 = a.shape.getD axis 0 - nwin + 1 := by
      rw [hrs, List.getD_eq_getElem?_getD, List.append_assoc, List.getElem?_append_right (by
        rw [List.length_take]; omega)]
      rw [List.length_take, Nat.min_eq_left (by omega), Nat.sub_self]
      rfl
    unfold slidingStrided
    simp only
    rw [if_neg (by omega), hnw, hr]
    by_cases h1 : 1 < step
    · rw [if_pos (by omega)]
      unfold sliceAlongAxis
      have htl : r.toArr.shape = r.shape := rfl
      rw [htl, if_neg (by omega)]
      simp only
      rw [if_neg (by omega), Int.toNat_natCast, hrd, step_indices _ _ hs]
      refine ⟨_, rfl, ?_, ?_, ?_⟩
      · have htl2 : a.toArr.shape = a.shape := rfl
        simp only [NArr.take, htl, htl2, List.length_map, List.length_range]
        rw [hrs, List.append_assoc, List.set_append_right _ _ (by rw [List.length_take]; omega)]
        rw [List.length_take, Nat.min_eq_left (by omega), Nat.sub_self, List.append_assoc]
        rfl
      · intro w j hw1 hj
        exact inside_of hs hn hw1 hj
      · intro p w j q hp hw1 hj
        have hw2 : w < (a.shape.getD axis 0 - nwin + 1 + step - 1) / step := hw1
        simp only [NArr.take]
        have hg : (p ++ w :: j :: q).getD axis 0 = w := by
          rw [List.getD_eq_getElem?_getD, List.getElem?_append_right (by omega)]
          simp [hp]
        have hset : (p ++ w :: j :: q).set axis (w * step) = p ++ (w * step) :: j :: q := by
          rw [List.set_append_right _ _ (by omega)]
          simp [hp]
        rw [hg]
        have hl : ((List.range ((a.shape.getD axis 0 - nwin + 1 + step - 1) / step)).map (fun k => k * step)).getD w 0 =
            w * step := by
          rw [List.getD_eq_getElem?_getD, List.getElem?_map, List.getElem?_range hw2]
          rfl
        rw [hl, hset, hcomb _ _ _ _ hp]
    · have hs1 : step = 1 := by omega
      subst hs1
      rw [if_neg (by omega)]
      refine ⟨_, rfl, ?_, ?_, ?_⟩
      · have htl : r.toArr.shape = r.shape := rfl
        have htl2 : a.toArr.shape = a.shape := rfl
        rw [htl, htl2, hrs]
        simp
      · intro w j hw1 hj
        exact inside_of hs hn hw1 hj
      · intro p w j q hp hw1 hj
        rw [hcomb p w j q hp, Nat.mul_one]
  · intro hn
    unfold slidingStrided
    simp only
    rw [if_pos (by omega)]

/-- **C57**, without strides: the generic implementation gives the same windows. -/
theorem C57_generic (zero : α) (a : NArr α) {nwin axis step : Nat} (hs : 0 < step)
    (hw : 0 < nwin) :
    (nwin ≤ a.shape.getD axis 0 → ∃ out, slidingGeneric zero a nwin axis step = .ok out ∧
      IsWindows a out axis nwin step) ∧
    (a.shape.getD axis 0 + 1 < nwin → slidingGeneric zero a nwin axis step = .error .valueError) := by
  refine ⟨?_, ?_⟩
  · intro hn
    have hnw : ((a.shape.getD axis 0 : Int) - ((nwin : Int) - 1)).toNat = a.shape.getD axis 0 - nwin + 1 := by omega
    unfold slidingGeneric
    simp only
    rw [if_neg (by omega), if_neg (by omega), hnw]
    refine ⟨_, rfl, rfl, ?_, ?_⟩
    · intro w j hw1 hj
      exact inside_of hs hn hw1 hj
    · intro p w j q hp hw1 hj
      have e1 : (p ++ w :: j :: q).take axis = p := by rw [← hp]; simp
      have e2 : (p ++ w :: j :: q).drop (axis + 2) = q := by
        rw [← hp, List.drop_append]
        simp [List.drop_eq_nil_of_le]
      have e3 : (p ++ w :: j :: q).getD axis 0 = w := by
        rw [List.getD_eq_getElem?_getD, List.getElem?_append_right (by omega)]
        simp [hp]
      have e4 : (p ++ w :: j :: q).getD (axis + 1) 0 = j := by
        rw [List.getD_eq_getElem?_getD, List.getElem?_append_right (by omega)]
        simp [← hp, Nat.add_sub_cancel_left]
      simp only [e1, e2, e3, e4, NArr.take, List.append_assoc, List.singleton_append]
      have e5 : (p ++ (w * nwin + j) :: q).getD axis 0 = w * nwin + j := by
        rw [List.getD_eq_getElem?_getD, List.getElem?_append_right (by omega)]
        simp [hp]
      have hlt : w * nwin + j < (a.shape.getD axis 0 - nwin + 1 + step - 1) / step * nwin := by
        have : (w + 1) * nwin ≤ (a.shape.getD axis 0 - nwin + 1 + step - 1) / step * nwin :=
          Nat.mul_le_mul_right _ hw1
        rw [Nat.add_mul] at this
        omega
      have e6 : ((List.range ((a.shape.getD axis 0 - nwin + 1 + step - 1) / step * nwin)).map
          (fun q => q / nwin * step + q % nwin)).getD (w * nwin + j) 0 = w * step + j := by
        rw [List.getD_eq_getElem?_getD, List.getElem?_map, List.getElem?_range hlt]
        simp only [Option.map_some, Option.getD_some]
        have h1 : (w * nwin + j) / nwin = w := by
          rw [Nat.add_comm, Nat.add_mul_div_right _ _ hw, Nat.div_eq_of_lt hj, Nat.zero_add]
        have h2 : (w * nwin + j) % nwin = j := by
          rw [Nat.add_comm, Nat.add_mul_mod_self_right, Nat.mod_eq_of_lt hj]
        rw [h1, h2]
      rw [e5, e6, List.set_append_right _ _ (by omega)]
      simp [hp]
  · intro hn
    unfold slidingGeneric
    simp only
    rw [if_pos (by omega)]

/-- Seven entries, a transposed layout (stride 2), windows of three every two. -/
example : ∃ out, slidingStrided (⟨fun i => i, 10, [2, 7], [1, 2]⟩ : Strided Int) 3 1 (2 : Nat) = .ok out ∧
    out.shape = [2, 3, 3] ∧ out.get [1, 2, 1] = 21 ∧
    (⟨fun i => i, 10, [2, 7], [1, 2]⟩ : Strided Int).toArr.get [1, 5] = 21 :=
  exists_ok (by decide +kernel)

example : ∃ out, slidingGeneric 0 (⟨[2, 7], fun i => i.getD 0 0 * 10 + i.getD 1 0⟩ : NArr Nat) 3 1 2 = .ok out ∧
    out.shape = [2, 3, 3] ∧ out.get [1, 2, 1] = 15 :=
  exists_ok (by decide +kernel)

/-- **C57** does not hold for windows of length 0: the two implementations disagree about how many there are. -/
theorem C57_negation_empty_window : ∃ o1 o2,
    slidingStrided (⟨fun i => i, 0, [5], [1]⟩ : Strided Int) 0 0 (2 : Nat) = .ok o1 ∧
    slidingGeneric 0 (⟨fun i => i, 0, [5], [1]⟩ : Strided Int).toArr 0 0 2 = .ok o2 ∧
    o1.shape = [3, 0] ∧ o2.shape = [6, 0] :=
  ⟨_, _, rfl, rfl, by decide +kernel, by decide +kernel⟩

/-- **C57**, one too long: a window one longer than the input is not refused, but gives no windows. -/
theorem C57_negation_too_long : ∃ out,
    slidingStrided (⟨fun i => i, 0, [5], [1]⟩ : Strided Int) 6 0 (1 : Nat) = .ok out ∧ out.shape = [0, 6] :=
  exists_ok (by decide +kernel)

end Ez.AA
