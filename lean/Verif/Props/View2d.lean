import Verif.Model.View2d
import Verif.Spec.AxisArray

/-!
# C75: two-dimensional views
-/

namespace Ez
namespace AA

set_option linter.unusedSectionVars false
set_option linter.unusedSimpArgs false

variable {α : Type}

/-! ## Specification -/

/-- All index tuples of a shape, the last index running fastest. -/
def allIdx : List Nat → List (List Nat)
  | [] => [[]]
  | d :: ds => (List.range d).flatMap fun i => (allIdx ds).map (i :: ·)

/-- `b` shows `a` with the dimension `axis` as rows: row `i` lists all elements of `a` with index `i` in this dimension, in the order
of their other indices. -/
structure Shows (b a : NArr α) (axis : Nat) : Prop where
  shape : b.shape = [a.shape.getD axis 0, (allIdx (a.shape.eraseIdx axis)).length]
  rows : ∀ i < a.shape.getD axis 0, (List.range (allIdx (a.shape.eraseIdx axis)).length).map (fun j => b.get [i, j]) =
    (allIdx (a.shape.eraseIdx axis)).map (fun is => a.get (is.insertIdx axis i))

/-! ## Row-major order -/

theorem range_mul {β : Type} (f : Nat → β) (d m : Nat) :
    (List.range (d * m)).map f = (List.range d).flatMap fun i => (List.range m).map fun j => f (i * m + j) := by
  induction d with
  | zero => simp
  | succ d ih =>
    rw [Nat.succ_mul, List.range_add, List.map_append, ih, List.range_succ, List.flatMap_append]
    simp [Function.comp_def]

theorem flatMap_congr' {β γ : Type} {l : List β} {f g : β → List γ} (h : ∀ x ∈ l, f x = g x) : l.flatMap f = l.flatMap g := by
  induction l with
  | nil => rfl
  | cons x l ih => rw [List.flatMap_cons, List.flatMap_cons, h x (by simp), ih (fun y hy => h y (by simp [hy]))]

theorem allIdx_eq (ds : List Nat) : allIdx ds = (List.range (prod ds)).map (unravel ds) := by
  induction ds with
  | nil => simp [allIdx, prod, unravel]
  | cons d ds ih =>
    rw [allIdx, prod, range_mul]
    apply flatMap_congr'
    intro i _
    rw [ih, List.map_map]
    apply List.map_congr_left
    intro j hj
    rw [List.mem_range] at hj
    have h0 : 0 < prod ds := by omega
    simp only [Function.comp, unravel]
    rw [Nat.mul_comm, Nat.mul_add_div h0, Nat.mul_add_mod, Nat.div_eq_of_lt hj, Nat.mod_eq_of_lt hj, Nat.add_zero]

theorem allIdx_length (ds : List Nat) : (allIdx ds).length = prod ds := by simp [allIdx_eq]

theorem unravel_length (ds : List Nat) (j : Nat) : (unravel ds j).length = ds.length := by
  induction ds generalizing j with
  | nil => rfl
  | cons d ds ih => simp [unravel, ih]

theorem ravel_unravel (ds : List Nat) (j : Nat) (h : j < prod ds) : ravel ds (unravel ds j) = j := by
  induction ds generalizing j with
  | nil => simp [prod] at h; simp [unravel, ravel, h]
  | cons d ds ih =>
    simp only [unravel, ravel]
    have h0 : 0 < prod ds := by
      rcases Nat.eq_zero_or_pos (prod ds) with h0 | h0
      · rw [prod, h0] at h; simp at h
      · exact h0
    rw [ih _ (Nat.mod_lt _ h0), Nat.mul_comm]
    exact Nat.div_add_mod j (prod ds)

theorem mem_allIdx {ds is : List Nat} : is ∈ allIdx ds ↔ InB is ds := by
  induction ds generalizing is with
  | nil => cases is <;> simp [allIdx, InB]
  | cons d ds ih =>
    cases is with
    | nil => simp [allIdx, InB]
    | cons i is => simp [allIdx, InB, ih]

theorem prod_pair (d m : Nat) : prod [d, m] = d * m := by simp [prod]

theorem unravel_pair {d : Nat} {rest : List Nat} {i j : Nat} (h : j < prod rest) :
    unravel (d :: rest) (ravel [d, prod rest] [i, j]) = i :: unravel rest j := by
  have h0 : 0 < prod rest := by omega
  simp only [ravel, prod, unravel, Nat.mul_one, Nat.add_zero]
  rw [Nat.mul_comm, Nat.mul_add_div h0, Nat.mul_add_mod, Nat.div_eq_of_lt h, Nat.mod_eq_of_lt h, Nat.add_zero]

theorem pair_unravel {d : Nat} {rest : List Nat} {i j : Nat} (h : j < prod rest) :
    unravel [d, prod rest] (ravel (d :: rest) (i :: unravel rest j)) = [i, j] := by
  have h0 : 0 < prod rest := by omega
  simp only [ravel, prod, unravel, Nat.mul_one, Nat.div_one, ravel_unravel rest j h]
  rw [Nat.mul_comm, Nat.mul_add_div h0, Nat.mul_add_mod, Nat.div_eq_of_lt h, Nat.mod_eq_of_lt h, Nat.add_zero]

theorem insertIdx_eq {l : List Nat} {k i : Nat} (h : k ≤ l.length) : l.insertIdx k i = l.take k ++ i :: l.drop k := by
  induction l generalizing k with
  | nil => simp at h; subst h; simp
  | cons x l ih =>
    cases k with
    | zero => simp
    | succ k => simp at h; simp [ih h]

theorem getD_insert {l : List Nat} {k i : Nat} (h : k ≤ l.length) : (l.take k ++ i :: l.drop k).getD k 0 = i := by
  simp [List.getD_eq_getElem?_getD, List.getElem?_append_right, Nat.min_eq_left h]

theorem erase_insert {l : List Nat} {k i : Nat} (h : k ≤ l.length) : (l.take k ++ i :: l.drop k).eraseIdx k = l := by
  rw [List.eraseIdx_append_of_length_le (by simp; omega)]
  simp [Nat.min_eq_left h]

theorem eraseIdx_length {l : List Nat} {k : Nat} (h : k < l.length) : (l.eraseIdx k).length + 1 = l.length := by
  rw [List.length_eraseIdx_of_lt h]; omega

theorem insert_erase {l : List Nat} {k : Nat} (h : k < l.length) : (l.eraseIdx k).insertIdx k (l.getD k 0) = l := by
  induction l generalizing k with
  | nil => simp at h
  | cons x l ih =>
    cases k with
    | zero => simp
    | succ k => simpa using ih (k := k) (by simpa using h)

/-! ## Reading -/

/-- The dimension meant by a number. -/
structure Means (ndim : Nat) (axis : Int) (k : Nat) : Prop where
  lt : k < ndim
  eq : axis = k ∨ axis = (k : Int) - ndim

theorem axisPos_of {ndim : Nat} {axis : Int} {k : Nat} (h : Means ndim axis k) : axisPos ndim axis = some k := by
  have := h.lt
  unfold axisPos
  rcases h.eq with e | e
  · rw [if_neg (by omega), if_neg (by omega)]; simp [e]
  · rw [if_neg (by omega), if_pos (by omega)]
    simp only [Option.some.injEq]
    omega

theorem front_shows {a : NArr α} {k : Nat} (hk : k < a.shape.length) :
    Shows ((a.toFront k).reshape [(a.toFront k).shape.getD 0 0, prod (a.toFront k).shape.tail]) a k := by
  constructor
  · simp [NArr.reshape, NArr.toFront, allIdx_length]
  · intro i hi
    rw [allIdx_length, allIdx_eq, List.map_map]
    apply List.map_congr_left
    intro j hj
    rw [List.mem_range] at hj
    have h1 := unravel_pair (d := a.shape.getD k 0) (i := i) hj
    have hl : k ≤ (unravel (a.shape.eraseIdx k) j).length := by
      rw [unravel_length]; have := eraseIdx_length hk; omega
    simp only [NArr.reshape, NArr.toFront, List.getD_cons_zero, List.tail_cons, Function.comp] at h1 ⊢
    rw [h1, insertIdx_eq hl]
    simp

/-- For one dimension, only the number 0; for more, any. -/
theorem as2d_many {a : NArr α} {axis : Int} {k : Nat} (hk : Means a.shape.length axis k) (h2 : 2 ≤ a.shape.length) :
    as2d' a axis = .ok ((a.toFront k).reshape [(a.toFront k).shape.getD 0 0, prod (a.toFront k).shape.tail],
      a.shape.eraseIdx k) ∧ axisPos (atLeast2d a).shape.length axis = some k ∧ atLeast2d a = a := by
  have e : atLeast2d a = a := by
    unfold atLeast2d
    split
    · rename_i h; rw [h] at h2; simp at h2
    · rename_i h; rw [h] at h2; simp at h2
    · rfl
  refine ⟨?_, by rw [e]; exact axisPos_of hk, e⟩
  rw [as2d', e, axisPos_of hk]
  rfl

theorem as2d_one {a : NArr α} {n : Nat} (h : a.shape = [n]) :
    ∃ r, as2d' a 0 = .ok (r, [1]) ∧ r.shape = [n, 1] ∧ ∀ i < n, r.get [i, 0] = a.get [i] := by
  have e : atLeast2d a = ⟨[n, 1], fun idx => a.get [idx.getD 0 0]⟩ := by unfold atLeast2d; rw [h]
  refine ⟨_, by rw [as2d', e]; rfl, rfl, fun i hi => ?_⟩
  simp [NArr.reshape, NArr.toFront, ravel, unravel, prod]

/-- **C75** (partial: negative numbers only for arrays of at least two dimensions).  The two-dimensional array shows every element of
the array, the chosen dimension as rows. -/
theorem C75_reads_partial {a : NArr α} {axis : Int} {k : Nat} (hk : Means a.shape.length axis k)
    (h : 0 ≤ axis ∨ 2 ≤ a.shape.length) : ∃ r, as2d a axis = .ok r ∧ Shows r a k := by
  rcases Nat.lt_or_ge a.shape.length 2 with h2 | h2
  · obtain ⟨n, hn⟩ : ∃ n, a.shape = [n] := by
      have := hk.lt
      match hs : a.shape, h2, this with
      | [n], _, _ => exact ⟨n, rfl⟩
    have hk0 : k = 0 := by have := hk.lt; simp [hn] at this; omega
    have ha : axis = 0 := by rcases hk.eq with e | e <;> simp [hn] at e h <;> omega
    subst hk0 ha
    obtain ⟨r, h1, h3, h4⟩ := as2d_one hn
    refine ⟨r, by rw [as2d, h1]; rfl, ?_, ?_⟩
    · simp [hn, h3, allIdx]
    · intro i hi
      simp [hn] at hi
      simp [hn, allIdx, h4 i hi]
  · exact ⟨_, by rw [as2d, (as2d_many hk h2).1]; rfl, front_shows hk.lt⟩

/-- **C75**.  A number is shown as an array of one row and one column. -/
theorem C75_scalar {a : NArr α} (h : a.shape = []) : ∃ r, as2d a 0 = .ok r ∧ r.shape = [1, 1] ∧ r.get [0, 0] = a.get [] := by
  have e : atLeast2d a = a.reshape [1, 1] := by unfold atLeast2d; rw [h]
  refine ⟨_, by rw [as2d, as2d', e]; rfl, rfl, ?_⟩
  simp [NArr.reshape, NArr.toFront, ravel, unravel, prod, h]

/-! ## Writing -/

/-- **C75** (partial: the block does not raise unless the view shares memory with the array; arrays of one dimension share it).  After a
`with` block, the array contains what the two-dimensional array contained at its end. -/
theorem C75_writes_partial {a : NArr α} {axis : Int} {k : Nat} (hk : Means a.shape.length axis k)
    (h : 0 ≤ axis ∨ 2 ≤ a.shape.length) {shares : Bool} {body : NArr α → NArr α × Ended}
    (hb : ∀ r, (body r).1.shape = r.shape)
    (hs : shares = true ∨ 2 ≤ a.shape.length ∧ ∀ r, (body r).2 = .normally) :
    ∃ r final, as2d a axis = .ok r ∧ view2d shares a axis body = .ok final ∧ final.shape = a.shape ∧
      Shows (body r).1 final k := by
  rcases Nat.lt_or_ge a.shape.length 2 with h2 | h2
  · obtain ⟨n, hn⟩ : ∃ n, a.shape = [n] := by
      have := hk.lt
      match hs : a.shape, h2, this with
      | [n], _, _ => exact ⟨n, rfl⟩
    have hk0 : k = 0 := by have := hk.lt; simp [hn] at this; omega
    have ha : axis = 0 := by rcases hk.eq with e | e <;> simp [hn] at e h <;> omega
    subst hk0 ha
    have hs : shares = true := hs.resolve_right (fun x => by omega)
    subst hs
    obtain ⟨r, h1, h3, h4⟩ := as2d_one hn
    have e : atLeast2d a = ⟨[n, 1], fun idx => a.get [idx.getD 0 0]⟩ := by unfold atLeast2d; rw [hn]
    have hv : view2d true a 0 body = .ok (through a (body r).1 0 [1]) := by
      rw [view2d, h1, e]; rfl
    refine ⟨r, _, by rw [as2d, h1]; rfl, hv, rfl, ?_, ?_⟩
    · simp [through, hn, hb, h3, allIdx]
    · intro i _
      simp [through, hn, allIdx]
  · obtain ⟨h1, h3, h4⟩ := as2d_many hk h2
    generalize hr : (a.toFront k).reshape [(a.toFront k).shape.getD 0 0, prod (a.toFront k).shape.tail] = r at h1
    have hrs : r.shape = [a.shape.getD k 0, prod (a.shape.eraseIdx k)] := by rw [← hr]; rfl
    have hl := eraseIdx_length hk.lt
    have hlt := hk.lt
    have hsh : (((body r).1.reshape (a.shape.getD k 0 :: a.shape.eraseIdx k)).fromFront k).shape = a.shape := by
      simp only [NArr.reshape, NArr.fromFront, List.tail_cons, List.getD_cons_zero]
      rw [← insertIdx_eq (by omega)]
      exact insert_erase hlt
    refine ⟨r, if shares then through a (body r).1 k (a.shape.eraseIdx k)
      else ((body r).1.reshape (a.shape.getD k 0 :: a.shape.eraseIdx k)).fromFront k, by rw [as2d, h1]; rfl, ?_⟩
    cases shares with
    | true =>
      refine ⟨by rw [view2d, h1, h3]; rfl, rfl, ?_, ?_⟩
      · simp only [if_true, through, hb, hrs, allIdx_length]
      · intro i hi
        simp only [if_true, through] at hi ⊢
        rw [allIdx_length, allIdx_eq, List.map_map]
        apply List.map_congr_left
        intro j hj
        rw [List.mem_range] at hj
        have hl' : k ≤ (unravel (a.shape.eraseIdx k) j).length := by rw [unravel_length]; omega
        simp only [Function.comp, insertIdx_eq hl', getD_insert hl', erase_insert hl', ravel_unravel _ _ hj]
        split
        · rename_i e; rw [e] at h2; simp at h2
        · rename_i e; rw [e] at h2; simp at h2
        · rfl
    | false =>
      have hs := hs.resolve_left (by simp)
      refine ⟨?_, by simpa using hsh, ?_, ?_⟩
      · rw [view2d, h1, h3]
        simp only [Bool.false_eq_true, if_false, hs.2 r]
        have : (body r).1.shape.getD 0 0 = a.shape.getD k 0 := by rw [hb, hrs]; rfl
        rw [this, assign, if_pos hsh]
      · simp only [Bool.false_eq_true, if_false, hsh, hb, hrs, allIdx_length]
      · intro i hi
        simp only [Bool.false_eq_true, if_false, hsh] at hi ⊢
        rw [allIdx_length, allIdx_eq, List.map_map]
        apply List.map_congr_left
        intro j hj
        rw [List.mem_range] at hj
        have hl' : k ≤ (unravel (a.shape.eraseIdx k) j).length := by rw [unravel_length]; omega
        simp only [Function.comp, NArr.reshape, NArr.fromFront, insertIdx_eq hl', getD_insert hl', erase_insert hl', hb, hrs,
          pair_unravel hj]

/-- **C75**.  Showing the same means containing the same: nothing else is in the array. -/
theorem C75_determined {r a b : NArr α} {k : Nat} (hk : k < a.shape.length) (hs : a.shape = b.shape) (ha : Shows r a k)
    (hb : Shows r b k) {idx : List Nat} (hi : InB idx a.shape) : a.get idx = b.get idx := by
  have hi' : InB (idx.eraseIdx k) (a.shape.eraseIdx k) ∧ idx.getD k 0 < a.shape.getD k 0 ∧
      idx = (idx.eraseIdx k).insertIdx k (idx.getD k 0) := by
    clear ha hb hs
    generalize a.shape = s at hk hi
    clear a b r
    induction s generalizing idx k with
    | nil => simp at hk
    | cons n s ih =>
      cases idx with
      | nil => simp [InB] at hi
      | cons x idx =>
        simp only [InB] at hi
        cases k with
        | zero => simpa [InB] using ⟨hi.2, hi.1⟩
        | succ k =>
          have := ih (k := k) (by simpa using hk) hi.2
          simp only [List.eraseIdx_cons_succ, InB, List.getD_cons_succ, List.insertIdx_succ_cons]
          exact ⟨⟨hi.1, this.1⟩, this.2.1, by rw [← this.2.2]⟩
  have h1 := ha.rows _ hi'.2.1
  have h2 := hb.rows (idx.getD k 0) (by rw [← hs]; exact hi'.2.1)
  rw [← hs] at h2
  rw [h1] at h2
  have := List.map_inj_left.1 h2 _ (mem_allIdx.2 hi'.1)
  rw [hi'.2.2]
  exact this

/-- **C75** (partial, as `C75_writes_partial`).  A block which changes nothing leaves the array as it is. -/
theorem C75_untouched_partial {a : NArr α} {axis : Int} {k : Nat} (hk : Means a.shape.length axis k)
    (h : 0 ≤ axis ∨ 2 ≤ a.shape.length) {shares : Bool} (hs : shares = true ∨ 2 ≤ a.shape.length) :
    ∃ final, view2d shares a axis (fun r => (r, .normally)) = .ok final ∧ final.shape = a.shape ∧
      ∀ idx, InB idx a.shape → final.get idx = a.get idx := by
  obtain ⟨r, final, h1, h2, h3, h4⟩ := C75_writes_partial hk h (shares := shares) (body := fun r => (r, .normally)) (fun _ => rfl)
    (hs.imp id (fun x => ⟨x, fun _ => rfl⟩))
  obtain ⟨r', h5, h6⟩ := C75_reads_partial hk h
  rw [h1, Except.ok.injEq] at h5
  subst h5
  exact ⟨final, h2, h3, fun idx hi => (C75_determined hk.lt h3.symm h6 h4 hi).symm⟩

/-! ## Shapes -/

theorem filter_map_erase (s : List Nat) {k : Nat} (hk : k < s.length) :
    ((List.range s.length).filter (fun (i : Nat) => decide (i ≠ k))).map (fun i => s.getD i 0) = s.eraseIdx k := by
  induction s generalizing k with
  | nil => simp at hk
  | cons n s ih =>
    rw [List.length_cons, List.range_succ_eq_map, List.filter_cons, List.filter_map]
    cases k with
    | zero =>
      simp only [ne_eq, not_true_eq_false, decide_false, Bool.false_eq_true, if_false, List.map_map, List.eraseIdx_cons_zero]
      have : List.filter ((fun i : Nat => decide ¬i = 0) ∘ Nat.succ) (List.range s.length) = List.range s.length := by
        rw [List.filter_eq_self]; simp
      rw [this]
      apply List.ext_getElem
      · simp
      · intro i h1 h2
        simp [List.getD_eq_getElem?_getD, List.getElem?_eq_getElem h2]
    | succ k =>
      have := ih (k := k) (by simpa using hk)
      simp only [ne_eq, Function.comp_def, Nat.succ_eq_add_one, Nat.add_right_cancel_iff] at this ⊢
      simp only [show ¬ 0 = k + 1 from by omega, not_false_eq_true, decide_true, if_true, List.map_cons, List.map_map,
        List.eraseIdx_cons_succ, ← this]
      simp [Function.comp_def]

/-- **C75** (partial: not for negative numbers).  `shape2d` tells the shape of the two-dimensional array. -/
theorem C75_shape_partial {a : NArr α} {k : Nat} (hk : k < a.shape.length) :
    ∃ r m n, as2d a k = .ok r ∧ shape2d a k = .ok (m, n) ∧ r.shape = [m, n] := by
  have hm : Means a.shape.length k k := ⟨hk, .inl rfl⟩
  obtain ⟨r, h1, h2⟩ := C75_reads_partial hm (.inl (by omega))
  refine ⟨r, _, _, h1, ?_, h2.shape⟩
  rw [shape2d, axisPos_of hm, allIdx_length, ← filter_map_erase a.shape hk]
  simp only [ne_eq, Int.natCast_inj]

/-! ## Where the code goes wrong -/

/-- Two rows of three. -/
def two3 : NArr Nat := ⟨[2, 3], fun idx => 10 * idx.getD 0 0 + idx.getD 1 0⟩

/-- Three in a row. -/
def three : NArr Nat := ⟨[3], fun idx => idx.getD 0 0⟩

/-- **C75** (violated).  For -1, the last dimension, `shape2d` counts all elements as columns. -/
theorem C75_shape_fails : Means two3.shape.length (-1) 1 ∧ shape2d two3 (-1) = .ok (3, 6) ∧
    ∃ r, as2d two3 (-1) = .ok r ∧ r.shape = [3, 2] :=
  ⟨⟨by decide, .inr rfl⟩, rfl, _, rfl, by decide +kernel⟩

/-- **C75** (violated).  For -1, the only dimension of an array becomes the columns, for 0 the rows; 1 is accepted too. -/
theorem C75_reads_fails : Means three.shape.length (-1) 0 ∧ (∃ r, as2d three (-1) = .ok r ∧ r.shape = [1, 3]) ∧
    (∃ r, as2d three 0 = .ok r ∧ r.shape = [3, 1]) ∧ (∃ r, as2d three 1 = .ok r ∧ r.shape = [1, 3]) ∧
    ∃ e, shape2d three 1 = .error e :=
  ⟨⟨by decide, .inr rfl⟩, ⟨_, rfl, by decide +kernel⟩, ⟨_, rfl, by decide +kernel⟩, ⟨_, rfl, by decide +kernel⟩, _, rfl⟩

/-- **C75** (violated).  If the block raises and numpy had to copy, what it wrote is lost. -/
theorem C75_writes_fails : ∃ r final, as2d two3 1 = .ok r ∧
    view2d false two3 1 (fun r => (⟨r.shape, fun _ => 7⟩, .raised)) = .ok final ∧ final.get [0, 0] = 0 ∧
    view2d true two3 1 (fun r => (⟨r.shape, fun _ => 7⟩, .raised)) = .ok ⟨[2, 3], fun _ => 7⟩ :=
  ⟨_, two3, rfl, rfl, rfl, by simp [view2d, as2d', axisPos, atLeast2d, two3, NArr.toFront, through]⟩

/-! ## Examples -/

example : ∃ r, as2d two3 1 = .ok r ∧ r.shape = [3, 2] ∧ r.get [2, 1] = 12 := ⟨_, rfl, by decide +kernel, by decide +kernel⟩

example : ∃ r, as2d two3 (-1) = .ok r ∧ Shows r two3 1 := C75_reads_partial ⟨by decide, .inr rfl⟩ (.inr (by decide))

/-- A cube, the middle dimension as rows; adding 100 to all numbers of row 1. -/
def cube : NArr Nat := ⟨[2, 2, 2], fun idx => 100 * idx.getD 0 0 + 10 * idx.getD 1 0 + idx.getD 2 0⟩

example : ∃ final, view2d false cube 1 (fun r => (⟨r.shape, fun idx => r.get idx + if idx.getD 0 0 = 1 then 1000 else 0⟩, .normally))
    = .ok final ∧ final.get [1, 1, 0] = 1110 ∧ final.get [1, 0, 1] = 101 := ⟨_, rfl, by decide +kernel, by decide +kernel⟩

example : ∃ r final, as2d cube 1 = .ok r ∧ view2d false cube 1 (fun r => (⟨r.shape, fun _ => 3⟩, .normally)) = .ok final ∧
    final.shape = cube.shape ∧ Shows (⟨r.shape, fun _ => 3⟩ : NArr Nat) final 1 :=
  C75_writes_partial (k := 1) (body := fun r => (⟨r.shape, fun _ => 3⟩, .normally)) ⟨by decide, .inl rfl⟩ (.inl (by decide)) (fun _ => rfl)
    (.inr ⟨by decide, fun _ => rfl⟩)

example : ∃ r m n, as2d cube 2 = .ok r ∧ shape2d cube 2 = .ok (m, n) ∧ r.shape = [m, n] := C75_shape_partial (k := 2) (by decide)

example : ∃ final, view2d false cube (-2) (fun r => (r, .normally)) = .ok final ∧ final.shape = cube.shape ∧
    ∀ idx, InB idx cube.shape → final.get idx = cube.get idx :=
  C75_untouched_partial (k := 1) ⟨by decide, .inr (by decide)⟩ (.inr (by decide)) (.inr (by decide))

example : ∃ r, as2d (⟨[], fun _ => 5⟩ : NArr Nat) 0 = .ok r ∧ r.shape = [1, 1] ∧ r.get [0, 0] = 5 := C75_scalar rfl

end AA
end Ez
