import Verif.Lemmas.AxisArray
import Verif.Lemmas.Py

/-!
# C44: integer selection; C53, C54, C55: label selection, iteration, transposition
-/

set_option linter.unusedSimpArgs false
set_option linter.unusedSectionVars false

namespace Ez.AA
variable {α R A : Type} [Add R] [Sub R] [Mul R] [Div R] [NatCast R]

/-! ## Slices -/

/-- **C44**, which positions a slice selects: those between its bounds, every `|step|`-th one, in the
direction of the step. Step 0 is refused. -/
theorem C44_slice_positions (s : PySlice) (n : Nat) :
    (s.step = some 0 → s.indices n = none) ∧
    (s.step ≠ some 0 → ∃ l, s.indices n = some l ∧
      ∀ k : Nat, l[k]? = (between n s)[k * (s.step.getD 1).natAbs]?) := by
  refine ⟨?_, ?_⟩
  · intro h; simp [PySlice.indices, h]
  · intro h
    have hz : s.step.getD 1 ≠ 0 := by
      cases hs : s.step with
      | none => simp
      | some x => simp only [Option.getD_some]; rintro rfl; exact h hs
    rcases Int.lt_or_gt_of_ne hz with h0 | h0
    · exact indices_neg h0
    · obtain ⟨l, e1, e2, -⟩ := indices_pos (n := n) h0
      refine ⟨l, e1, fun k => ?_⟩
      rw [e2]
      congr 2
      omega

example : (⟨some (-5), some 9, some 2⟩ : PySlice).indices 7 = some [2, 4, 6] ∧
    between 7 ⟨some (-5), some 9, some 2⟩ = [2, 3, 4, 5, 6] ∧
    (⟨none, some 1, some (-2)⟩ : PySlice).indices 7 = some [6, 4, 2] ∧
    between 7 ⟨none, some 1, some (-2)⟩ = [6, 5, 4, 3, 2] := by decide

namespace AxisArray

theorem postInit_ok {aa out : AxisArray α R A} (h : aa.postInit = .ok out) : out = aa ∧ aa.WF := by
  unfold postInit at h
  split at h
  · cases h
  · split at h
    · cases h
    · rename_i h1 h2
      cases h
      exact ⟨rfl, by simpa using h1, by simpa using h2⟩

theorem postInit_of_wf {aa : AxisArray α R A} (h : aa.WF) : aa.postInit = .ok aa := by
  unfold postInit
  rw [if_neg (by simp [h.len]), if_neg (by simp [h.nodup])]

theorem ax_ok {aa : AxisArray α R A} {d : String} {info : AxisInfo R} (h : aa.ax d = .ok info) :
    d ∈ aa.dims ∧ info.idx = aa.dims.idxOf d ∧ info.size = aa.size d ∧ info.idx < aa.data.shape.length ∧
    ((aa.axes.get? d).getD defaultAxis = .linear info.unit info.gain info.offset) := by
  unfold ax getAxisIdx at h
  by_cases hd : d ∈ aa.dims
  · simp only [hd, if_true, getAxis, not_true, if_false] at h
    cases ha : (aa.axes.get? d).getD defaultAxis with
    | coord u v ds => rw [ha] at h; cases h
    | linear u g o =>
      rw [ha] at h
      simp only at h
      cases hn : aa.data.shape[aa.dims.idxOf d]? with
      | none => rw [hn] at h; cases h
      | some n =>
        rw [hn] at h
        cases h
        refine ⟨hd, rfl, ?_, ?_, rfl⟩
        · simp [size, List.getD_eq_getElem?_getD, hn]
        · exact (List.getElem?_eq_some_iff.1 hn).1
  · simp only [hd, if_false] at h
    cases h

/-- Which source index an index of the result comes from: `sel` lists the selected positions per
dimension. -/
def source (sel : List (String × List Nat)) (f : String → Nat) : String → Nat :=
  fun d => match sel.lookup d with
    | some l => l.getD (f d) 0
    | none => f d

theorem lookup_append_single (sel : List (String × List Nat)) (name : String) (l : List Nat)
    (h : sel.lookup name = none) (d : String) :
    (sel ++ [(name, l)]).lookup d = if d = name then some l else sel.lookup d := by
  induction sel with
  | nil =>
    simp only [List.nil_append, List.lookup, beq_iff_eq]
    by_cases hd : d = name
    · simp [hd]
    · have : (d == name) = false := by simp [hd]
      rw [this]; simp [hd]
  | cons x xs ih =>
    obtain ⟨a, b⟩ := x
    simp only [List.cons_append, List.lookup] at h ⊢
    by_cases hd : d = a
    · subst hd
      simp only [beq_self_eq_true]
      rw [if_neg]
      rintro rfl
      simp at h
    · have h1 : (d == a) = false := by simp [hd]
      rw [h1]
      simp only
      by_cases hn : name = a
      · subst hn; simp at h
      · have h2 : (name == a) = false := by simp [hn]
        rw [h2] at h
        exact ih h

/-- What is known of `out_data` and `out_axes` after some rounds of `isel`. -/
structure IselInv (aa : AxisArray α R A) (sel : List (String × List Nat))
    (cur : NArr α × PyDict String (Axis R)) : Prop where
  len : cur.1.shape.length = aa.data.shape.length
  size : ∀ d ∈ aa.dims, cur.1.shape.getD (aa.dims.idxOf d) 0 = match sel.lookup d with
    | some l => l.length
    | none => aa.size d
  get : ∀ f, cur.1.get (aa.dims.map f) = aa.data.get (aa.dims.map (source sel f))
  axes : ∀ d, cur.2.get? d = match sel.lookup d, aa.axes.get? d with
    | some (i0 :: _), some (.linear u g o) => some (.linear u g (linValue g o i0))
    | _, x => x

theorem iselStep_ok {aa : AxisArray α R A} (hwf : aa.WF) {sel : List (String × List Nat)}
    {cur cur' : NArr α × PyDict String (Axis R)} {name : String} {ix : Indexer} (hi : IselInv aa sel cur)
    (hnew : sel.lookup name = none) (h : aa.iselStep cur name ix = .ok cur') :
    ∃ l, name ∈ aa.dims ∧ ix.select (aa.size name) = .ok l ∧
      (aa.axes.get? name ≠ none → l ≠ []) ∧
      (∀ u v ds, aa.axes.get? name ≠ some (.coord u v ds)) ∧
      IselInv aa (sel ++ [(name, l)]) cur' := by
  unfold iselStep at h
  cases ha : aa.ax name with
  | error e => rw [ha] at h; cases h
  | ok info =>
    rw [ha] at h
    simp only at h
    obtain ⟨hd, h1, h2, h3, h4⟩ := ax_ok ha
    rw [h2] at h
    cases hs : ix.select (aa.size name) with
    | error e => rw [hs] at h; cases h
    | ok l =>
      rw [hs] at h
      simp only at h
      have hcn : cur.2.get? name = aa.axes.get? name := by
        have := hi.axes name
        rw [hnew] at this
        simpa using this
      have hcoord : ∀ u v ds, aa.axes.get? name ≠ some (.coord u v ds) := by
        intro u v ds e
        rw [e] at h4; cases h4
      have hsrc : ∀ f, source sel (setDim f name (l.getD (f name) 0)) = source (sel ++ [(name, l)]) f := by
        intro f; funext d
        unfold source
        rw [lookup_append_single _ _ _ hnew]
        by_cases hdn : d = name
        · subst hdn; simp [hnew, setDim]
        · rw [if_neg hdn]
          cases sel.lookup d <;> simp [setDim, hdn]
      have hdata : (cur.1.take l info.idx).shape.length = aa.data.shape.length ∧
          (∀ d ∈ aa.dims, (cur.1.take l info.idx).shape.getD (aa.dims.idxOf d) 0 =
            match (sel ++ [(name, l)]).lookup d with | some l => l.length | none => aa.size d) ∧
          ∀ f, (cur.1.take l info.idx).get (aa.dims.map f) =
            aa.data.get (aa.dims.map (source (sel ++ [(name, l)]) f)) := by
        refine ⟨by simp [NArr.take, hi.len], ?_, ?_⟩
        · intro d hdd
          rw [lookup_append_single _ _ _ hnew]
          simp only [NArr.take, h1, List.getD_eq_getElem?_getD]
          by_cases hdn : d = name
          · subst hdn
            rw [if_pos rfl, List.getElem?_set_self (by rw [hi.len, ← h1]; exact h3)]
            rfl
          · rw [if_neg hdn, List.getElem?_set_ne]
            · have := hi.size d hdd
              rw [List.getD_eq_getElem?_getD] at this
              exact this
            · intro e; exact hdn (idxOf_inj hdd hd e.symm)
        · intro f
          simp only [NArr.take, h1, getD_map_idxOf hd, map_setDim hwf.nodup hd]
          rw [hi.get, hsrc]
      by_cases hk : name ∈ cur.2.keys
      · rw [if_pos hk] at h
        have hne : aa.axes.get? name ≠ none := by
          rw [← hcn]; intro e; exact (PyDict.get?_eq_none.1 e) hk
        cases hl : l with
        | nil => rw [hl] at h; cases h
        | cons i0 tl =>
          rw [hl] at h
          simp only [Except.ok.injEq] at h
          subst h
          refine ⟨i0 :: tl, hd, rfl, fun _ => by simp, hcoord, ?_⟩
          rw [hl] at hdata
          refine ⟨hdata.1, hdata.2.1, hdata.2.2, ?_⟩
          intro d
          simp only
          rw [lookup_append_single _ _ _ hnew]
          by_cases hdn : d = name
          · subst hdn
            rw [if_pos rfl, PyDict.get?_set, if_pos rfl]
            cases hx : aa.axes.get? d with
            | none => exact absurd hx hne
            | some a =>
              rw [hx] at h4
              simp only [Option.getD_some] at h4
              subst h4
              rfl
          · rw [if_neg hdn, PyDict.get?_set, if_neg hdn]
            exact hi.axes d
      · rw [if_neg hk] at h
        have hnone : aa.axes.get? name = none := by
          rw [← hcn]; exact PyDict.get?_eq_none.2 hk
        simp only [Except.ok.injEq] at h
        subst h
        refine ⟨l, hd, rfl, fun e => absurd hnone e, hcoord, hdata.1, hdata.2.1, hdata.2.2, ?_⟩
        intro d
        simp only
        rw [lookup_append_single _ _ _ hnew]
        by_cases hdn : d = name
        · subst hdn
          rw [if_pos rfl, hcn, hnone]
          cases l <;> rfl
        · rw [if_neg hdn]; exact hi.axes d

theorem lookup_none_iff {sel : List (String × List Nat)} {d : String} :
    sel.lookup d = none ↔ d ∉ sel.map (·.1) := by
  induction sel with
  | nil => simp
  | cons x xs ih =>
    obtain ⟨a, b⟩ := x
    simp only [List.lookup, List.map_cons, List.mem_cons, not_or]
    by_cases h : d = a
    · subst h; simp
    · have : (d == a) = false := by simp [h]
      rw [this]; simp [ih, h]

theorem iselLoop_ok {aa : AxisArray α R A} (hwf : aa.WF) (ixs : List (String × Indexer)) :
    ∀ {sel : List (String × List Nat)} {cur cur' : NArr α × PyDict String (Axis R)},
      IselInv aa sel cur → (sel.map (·.1) ++ ixs.map (·.1)).Nodup → aa.iselLoop ixs cur = .ok cur' →
      ∃ sel', sel'.map (·.1) = ixs.map (·.1) ∧
        (∀ (k : Nat) name ix, ixs[k]? = some (name, ix) → ∃ l, sel'[k]? = some (name, l) ∧ name ∈ aa.dims ∧
          ix.select (aa.size name) = .ok l ∧ (aa.axes.get? name ≠ none → l ≠ []) ∧
          (∀ u v ds, aa.axes.get? name ≠ some (.coord u v ds))) ∧
        IselInv aa (sel ++ sel') cur' := by
  induction ixs with
  | nil =>
    intro sel cur cur' hi _ h
    simp only [iselLoop, Except.ok.injEq] at h
    subst h
    exact ⟨[], rfl, by simp, by simpa using hi⟩
  | cons x xs ih =>
    obtain ⟨name, ix⟩ := x
    intro sel cur cur' hi hnd h
    simp only [iselLoop] at h
    cases hs : aa.iselStep cur name ix with
    | error e => rw [hs] at h; cases h
    | ok c1 =>
      rw [hs] at h
      simp only at h
      have hnew : sel.lookup name = none := by
        rw [lookup_none_iff]
        intro hm
        rw [List.nodup_append] at hnd
        exact hnd.2.2 name hm name (by simp) rfl
      obtain ⟨l, k1, k2, k3, k4, k5⟩ := iselStep_ok hwf hi hnew hs
      obtain ⟨sel', e1, e2, e3⟩ := ih k5 (by simpa using hnd) h
      refine ⟨(name, l) :: sel', by simp [e1], ?_, by simpa using e3⟩
      intro k nm jx hk
      cases k with
      | zero =>
        simp only [List.getElem?_cons_zero, Option.some.injEq, Prod.mk.injEq] at hk
        obtain ⟨rfl, rfl⟩ := hk
        exact ⟨l, rfl, k1, k2, k3, k4⟩
      | succ k =>
        simp only [List.getElem?_cons_succ] at hk ⊢
        exact e2 k nm jx hk

/-- All about a successful `isel`. -/
theorem isel_ok {aa out : AxisArray α R A} (hwf : aa.WF) {ixs : List (String × Indexer)}
    (hnd : (ixs.map (·.1)).Nodup) (h : aa.isel ixs = .ok out) :
    ∃ sel, sel.map (·.1) = ixs.map (·.1) ∧
      (∀ (k : Nat) name ix, ixs[k]? = some (name, ix) → ∃ l, sel[k]? = some (name, l) ∧ name ∈ aa.dims ∧
        ix.select (aa.size name) = .ok l ∧ (aa.axes.get? name ≠ none → l ≠ []) ∧
        (∀ u v ds, aa.axes.get? name ≠ some (.coord u v ds))) ∧
      IselInv aa sel (out.data, out.axes) ∧ out.dims = aa.dims ∧ out.attrs = aa.attrs ∧ out.key = aa.key ∧ out.WF := by
  unfold isel at h
  cases hl : aa.iselLoop ixs (aa.data, aa.axes) with
  | error e => rw [hl] at h; cases h
  | ok c =>
    obtain ⟨data, axes⟩ := c
    rw [hl] at h
    simp only at h
    obtain ⟨rfl, hw⟩ := postInit_ok h
    have h0 : IselInv aa [] (aa.data, aa.axes) := by
      refine ⟨rfl, fun _ _ => rfl, fun _ => rfl, fun d => ?_⟩
      simp
    obtain ⟨sel, e1, e2, e3⟩ := iselLoop_ok hwf ixs h0 (by simpa using hnd) hl
    exact ⟨sel, e1, e2, by simpa using e3, rfl, rfl, rfl, hw⟩

end AxisArray

/-- **C44**, data: every element of the result of `isel` is the element of the original at the selected
position in each indexed dimension and at the same index in the others; lengths, names, attributes and key
fit. -/
theorem C44_data_aligned {aa out : AxisArray α R A} (hwf : aa.WF) {ixs : List (String × Indexer)}
    (hnd : (ixs.map (·.1)).Nodup) (h : aa.isel ixs = .ok out) :
    out.dims = aa.dims ∧ out.attrs = aa.attrs ∧ out.key = aa.key ∧
    ∃ sel : String → Option (List Nat), (∀ d, sel d = none ↔ d ∉ ixs.map (·.1)) ∧
      (∀ d ix, (d, ix) ∈ ixs → ∃ l, sel d = some l ∧ ix.select (aa.size d) = .ok l) ∧
      (∀ d ∈ aa.dims, out.size d = match sel d with | some l => l.length | none => aa.size d) ∧
      ∀ f, out.Valid f → ∃ g, aa.Valid g ∧ out.at f = aa.at g ∧
        ∀ d ∈ aa.dims, match sel d with
          | some l => l[f d]? = some (g d)
          | none => g d = f d := by
  obtain ⟨sel, e1, e2, e3, e4, e5, e6, e7⟩ := AxisArray.isel_ok hwf hnd h
  have hkeys : (sel.map (·.1)).Nodup := by rw [e1]; exact hnd
  have hlk : ∀ d l, (d, l) ∈ sel → sel.lookup d = some l := by
    clear e1 e2 e3 h
    induction sel with
    | nil => intro d l h; cases h
    | cons x xs ih =>
      obtain ⟨a, b⟩ := x
      simp only [List.map_cons, List.nodup_cons] at hkeys
      intro d l hm
      rcases List.mem_cons.1 hm with hm | hm
      · cases hm; simp [List.lookup]
      · have hne : d ≠ a := by
          intro e
          exact hkeys.1 (List.mem_map.2 ⟨_, hm, e⟩)
        have : (d == a) = false := by simp [hne]
        rw [List.lookup, this]
        exact ih hkeys.2 d l hm
  have hsize : ∀ d ∈ aa.dims, out.size d = match sel.lookup d with | some l => l.length | none => aa.size d := by
    intro d hd
    have := e3.size d hd
    simp only [AxisArray.size, e4]
    exact this
  have hsel : ∀ d ix, (d, ix) ∈ ixs → ∃ l, sel.lookup d = some l ∧ ix.select (aa.size d) = .ok l := by
    intro d ix hm
    obtain ⟨k, hk⟩ := List.mem_iff_getElem?.1 hm
    obtain ⟨l, h1, _, h2, _⟩ := e2 k d ix hk
    exact ⟨l, hlk d l (List.mem_of_getElem? h1), h2⟩
  refine ⟨e4, e5, e6, fun d => sel.lookup d, ?_, hsel, hsize, ?_⟩
  · intro d
    rw [AxisArray.lookup_none_iff, e1]
  · intro f hf
    have hlt : ∀ d ∈ aa.dims, ∀ l, sel.lookup d = some l →
        l[f d]? = some (AxisArray.source sel f d) ∧ AxisArray.source sel f d < aa.size d := by
      intro d hd l hl
      have h1 : f d < l.length := by
        have := hf d (by rw [e4]; exact hd)
        rw [hsize d hd, hl] at this
        exact this
      have h2 : AxisArray.source sel f d = l[f d] := by
        simp [AxisArray.source, hl, List.getD_eq_getElem?_getD, h1]
      refine ⟨by rw [h2]; exact List.getElem?_eq_getElem h1, ?_⟩
      rw [h2]
      have hm : d ∈ ixs.map (·.1) := by
        rw [← e1]
        apply Classical.byContradiction
        intro hc
        rw [AxisArray.lookup_none_iff.2 hc] at hl; cases hl
      obtain ⟨⟨d', ix⟩, hm', hd'⟩ := List.mem_map.1 hm
      simp only at hd'
      subst hd'
      obtain ⟨l', h3, h4⟩ := hsel _ _ hm'
      rw [hl] at h3; cases h3
      exact select_lt h4 _ (List.getElem_mem h1)
    refine ⟨AxisArray.source sel f, ?_, ?_, ?_⟩
    · intro d hd
      cases hl : sel.lookup d with
      | some l => exact (hlt d hd l hl).2
      | none =>
        have := hf d (by rw [e4]; exact hd)
        rw [hsize d hd, hl] at this
        simpa [AxisArray.source, hl] using this
    · have := e3.get f
      simp only [AxisArray.at, e4]
      exact this
    · intro d hd
      simp only
      cases hl : sel.lookup d with
      | some l => exact (hlt d hd l hl).1
      | none => simp [AxisArray.source, hl]

/-- **C44**, coordinates, partial: with a slice of step 1 along a dimension with a (declared) linear axis, every
index of the result has the coordinate of the index it was taken from. (Missing: other steps and
dimensions without declared axis, see the negations.) -/
theorem C44_coordinates_partial {aa out : AxisArray α Rat A} (hwf : aa.WF) {ixs : List (String × Indexer)}
    (hnd : (ixs.map (·.1)).Nodup) (h : aa.isel ixs = .ok out) {d : String} {s : PySlice}
    (hm : (d, .slice s) ∈ ixs) (hstep : s.step = none ∨ s.step = some 1) {u : String} {g o : Rat}
    (hax : aa.axes.get? d = some (.linear u g o)) :
    ∃ l, s.indices (aa.size d) = some l ∧ out.size d = l.length ∧ l = between (aa.size d) s ∧
      ∀ j i : Nat, l[j]? = some i → out.coordAt d j = aa.coordAt d i := by
  obtain ⟨sel, e1, e2, e3, e4, -, -, -⟩ := AxisArray.isel_ok hwf hnd h
  obtain ⟨-, -, -, sel', f1, f2, f3, -⟩ := C44_data_aligned hwf hnd h
  have h1 : s.step.getD 1 = 1 := by rcases hstep with h | h <;> simp [h]
  obtain ⟨l, g1, g2, a, c, g3⟩ := indices_pos (s := s) (n := aa.size d) (by omega)
  obtain ⟨k, hk⟩ := List.mem_iff_getElem?.1 hm
  obtain ⟨l', k1, k2, k3, k4, -⟩ := e2 k d _ hk
  have hl : l' = l := by
    simp only [Indexer.select, g1, Except.ok.injEq] at k3
    exact k3.symm
  subst hl
  have hbt : l' = between (aa.size d) s := by
    apply List.ext_getElem?
    intro i
    rw [g2, h1]
    simp
  have hlk : sel.lookup d = some l' := by
    have hkeys : (sel.map (·.1)).Nodup := by rw [e1]; exact hnd
    have hmem := List.mem_of_getElem? k1
    clear e2 e3 k1 e1 h f1 f2 f3
    induction sel with
    | nil => cases hmem
    | cons x xs ih =>
      obtain ⟨a, b⟩ := x
      simp only [List.map_cons, List.nodup_cons] at hkeys
      rcases List.mem_cons.1 hmem with hm | hm
      · cases hm; simp [List.lookup]
      · have hne : d ≠ a := by
          intro e
          exact hkeys.1 (List.mem_map.2 ⟨_, hm, e⟩)
        have : (d == a) = false := by simp [hne]
        rw [List.lookup, this]
        exact ih hkeys.2 hm
  refine ⟨l', g1, ?_, hbt, ?_⟩
  · have := e3.size d k2
    rw [hlk] at this
    simp only [AxisArray.size, e4]
    exact this
  · intro j i hj
    have hax' := e3.axes d
    rw [hlk, hax] at hax'
    rw [hbt, g3] at hj
    cases hl0 : l' with
    | nil => rw [hbt, g3] at hl0; rw [hl0] at hj; cases hj
    | cons i0 tl =>
      rw [hl0] at hax'
      simp only at hax'
      have hi0 : i0 = a ∧ i = a + j := by
        have : (List.range' a c)[0]? = some i0 := by rw [← g3, ← hbt, hl0]; rfl
        obtain ⟨h5, h6⟩ := List.getElem?_eq_some_iff.1 this
        obtain ⟨h7, h8⟩ := List.getElem?_eq_some_iff.1 hj
        simp at h6 h8
        omega
      obtain ⟨rfl, rfl⟩ := hi0
      simp only [AxisArray.coordAt, hax', hax, linValue]
      rw [Rat.natCast_add]
      grind

/-- A four-sample time axis with two channels. -/
def demoAA : AxisArray Nat Rat Unit :=
  { data := ⟨[4, 2], fun i => i.getD 0 0 * 10 + i.getD 1 0⟩, dims := ["time", "ch"]
    axes := [("time", .linear "s" (1/2) 3)], attrs := (), key := "k" }

/-- The hypotheses of the C44 theorems are met. -/
example : demoAA.WF ∧ (∃ out, demoAA.isel [("time", .slice ⟨some 1, some 3, none⟩), ("ch", .int (-1))] = .ok out ∧
    out.size "time" = 2 ∧ out.at (fun _ => 0) = 11 ∧ out.coordAt "time" 0 = 7/2 ∧ demoAA.coordAt "time" 1 = 7/2) := by
  refine ⟨⟨rfl, by decide +kernel⟩, _, rfl, by decide +kernel, by decide +kernel, by decide +kernel, by decide +kernel⟩

/-- **C44** as stated fails for a step other than 1: the result keeps the gain, so its second sample is dated
one period after the first although it was taken two periods later. -/
theorem C44_negation_step : ∃ out, demoAA.isel [("time", .slice ⟨none, none, some 2⟩)] = .ok out ∧
    out.at (fun d => if d = "time" then 1 else 0) = demoAA.at (fun d => if d = "time" then 2 else 0) ∧
    out.coordAt "time" 1 ≠ demoAA.coordAt "time" 2 :=
  ⟨_, rfl, by decide +kernel, by decide +kernel⟩

/-- **C44** as stated fails for a dimension whose linear axis is the default one: the result counts from 0
again. -/
theorem C44_negation_default_axis : ∃ out, demoAA.isel [("ch", .slice ⟨some 1, none, none⟩)] = .ok out ∧
    out.at (fun _ => 0) = demoAA.at (fun d => if d = "ch" then 1 else 0) ∧
    out.coordAt "ch" 0 ≠ demoAA.coordAt "ch" 1 :=
  ⟨_, rfl, by decide +kernel, by decide +kernel⟩

/-- **C44**, what `isel` refuses: an unknown dimension, a coordinate axis, and an empty selection along a
dimension with a declared axis. -/
theorem C44_refusals (aa : AxisArray α R A) (d : String) (ix : Indexer) :
    (d ∉ aa.dims → aa.isel [(d, ix)] = .error .valueError) ∧
    (∀ u v ds, d ∈ aa.dims → aa.axes.get? d = some (.coord u v ds) → aa.isel [(d, ix)] = .error .valueError) ∧
    (aa.WF → ∀ u g o, d ∈ aa.dims → aa.axes.get? d = some (.linear u g o) → ix.select (aa.size d) = .ok [] →
      aa.isel [(d, ix)] = .error .indexError) := by
  refine ⟨?_, ?_, ?_⟩
  · intro h
    simp [AxisArray.isel, AxisArray.iselLoop, AxisArray.iselStep, AxisArray.ax, AxisArray.getAxisIdx, h]
  · intro u v ds h1 h2
    simp [AxisArray.isel, AxisArray.iselLoop, AxisArray.iselStep, AxisArray.ax, AxisArray.getAxisIdx, h1,
      AxisArray.getAxis, h2]
  · intro hwf u g o h1 h2 h3
    have h4 : aa.dims.idxOf d < aa.data.shape.length := by
      rw [← hwf.len]; exact List.idxOf_lt_length_of_mem h1
    have h5 : aa.data.shape[aa.dims.idxOf d]? = some (aa.size d) := by
      simp [AxisArray.size, List.getD_eq_getElem?_getD, h4]
    have h6 : d ∈ aa.axes.keys := by
      apply Classical.byContradiction
      intro hc
      rw [PyDict.get?_eq_none.2 hc] at h2; cases h2
    simp [AxisArray.isel, AxisArray.iselLoop, AxisArray.iselStep, AxisArray.ax, AxisArray.getAxisIdx, h1,
      AxisArray.getAxis, h2, h5, h3, h6]

/-- **C44**, success: along a dimension with a linear (or no) axis, a selection of at least one position never
fails. -/
theorem C44_succeeds {aa : AxisArray α R A} (hwf : aa.WF) {d : String} (hd : d ∈ aa.dims)
    (hax : ∀ u v ds, aa.axes.get? d ≠ some (.coord u v ds)) {ix : Indexer} {l : List Nat}
    (hs : ix.select (aa.size d) = .ok l) (hl : l ≠ []) : ∃ out, aa.isel [(d, ix)] = .ok out := by
  have h4 : aa.dims.idxOf d < aa.data.shape.length := by
    rw [← hwf.len]; exact List.idxOf_lt_length_of_mem hd
  have h5 : aa.data.shape[aa.dims.idxOf d]? = some (aa.size d) := by
    simp [AxisArray.size, List.getD_eq_getElem?_getD, h4]
  obtain ⟨u, g, o, h6⟩ : ∃ u g o, (aa.axes.get? d).getD defaultAxis = Axis.linear u g o := by
    cases h : aa.axes.get? d with
    | none => exact ⟨_, _, _, rfl⟩
    | some a =>
      cases a with
      | linear u g o => exact ⟨_, _, _, rfl⟩
      | coord u v ds => exact absurd h (hax u v ds)
  cases l with
  | nil => exact absurd rfl hl
  | cons i0 tl =>
    simp only [AxisArray.isel, AxisArray.iselLoop, AxisArray.iselStep, AxisArray.ax, AxisArray.getAxisIdx, hd,
      AxisArray.getAxis, h6, h5, hs, if_true, not_true, if_false]
    by_cases hk : d ∈ aa.axes.keys
    · rw [if_pos hk]
      exact ⟨_, AxisArray.postInit_of_wf ⟨by simp [NArr.take, hwf.len], hwf.nodup⟩⟩
    · rw [if_neg hk]
      exact ⟨_, AxisArray.postInit_of_wf ⟨by simp [NArr.take, hwf.len], hwf.nodup⟩⟩

theorem AxisArray.iselStep_some {aa : AxisArray α R A} (hwf : aa.WF) {cur : NArr α × PyDict String (Axis R)}
    {d : String} (hd : d ∈ aa.dims) (hax : ∀ u v ds, aa.axes.get? d ≠ some (.coord u v ds)) {ix : Indexer} {l : List Nat}
    (hs : ix.select (aa.size d) = .ok l) (hl : d ∈ cur.2.keys → l ≠ []) : ∃ cur', aa.iselStep cur d ix = .ok cur' := by
  have h4 : aa.dims.idxOf d < aa.data.shape.length := by
    rw [← hwf.len]; exact List.idxOf_lt_length_of_mem hd
  have h5 : aa.data.shape[aa.dims.idxOf d]? = some (aa.size d) := by
    simp [AxisArray.size, List.getD_eq_getElem?_getD, h4]
  obtain ⟨u, g, o, h6⟩ : ∃ u g o, (aa.axes.get? d).getD defaultAxis = Axis.linear u g o := by
    cases h : aa.axes.get? d with
    | none => exact ⟨_, _, _, rfl⟩
    | some a =>
      cases a with
      | linear u g o => exact ⟨_, _, _, rfl⟩
      | coord u v ds => exact absurd h (hax u v ds)
  simp only [AxisArray.iselStep, AxisArray.ax, AxisArray.getAxisIdx, hd, AxisArray.getAxis, h6, h5, hs, if_true, not_true,
    if_false]
  by_cases hk : d ∈ cur.2.keys
  · rw [if_pos hk]
    cases l with
    | nil => exact absurd rfl (hl hk)
    | cons i0 tl => exact ⟨_, rfl⟩
  · rw [if_neg hk]; exact ⟨_, rfl⟩

/-- **C44**, success with several dimensions: `isel` succeeds exactly when each dimension exists, has no coordinate
axis, its positions are in range, and at least one is selected if it has a declared axis. -/
theorem C44_succeeds_exactly {aa : AxisArray α R A} (hwf : aa.WF) {ixs : List (String × Indexer)}
    (hnd : (ixs.map (·.1)).Nodup) : (∃ out, aa.isel ixs = .ok out) ↔
      ∀ d ix, (d, ix) ∈ ixs → d ∈ aa.dims ∧ (∀ u v ds, aa.axes.get? d ≠ some (.coord u v ds)) ∧
        ∃ l, ix.select (aa.size d) = .ok l ∧ (aa.axes.get? d ≠ none → l ≠ []) := by
  constructor
  · rintro ⟨out, h⟩ d ix hm
    obtain ⟨sel, e1, e2, -⟩ := AxisArray.isel_ok hwf hnd h
    obtain ⟨k, hk⟩ := List.mem_iff_getElem?.1 hm
    obtain ⟨l, k1, k2, k3, k4, k5⟩ := e2 k d ix hk
    exact ⟨k2, k5, l, k3, k4⟩
  · intro hall
    have key : ∀ (ixs : List (String × Indexer)) (sel : List (String × List Nat)) (cur : NArr α × PyDict String (Axis R)),
        AxisArray.IselInv aa sel cur → (sel.map (·.1) ++ ixs.map (·.1)).Nodup →
        (∀ d ix, (d, ix) ∈ ixs → d ∈ aa.dims ∧ (∀ u v ds, aa.axes.get? d ≠ some (.coord u v ds)) ∧
          ∃ l, ix.select (aa.size d) = .ok l ∧ (aa.axes.get? d ≠ none → l ≠ [])) →
        ∃ cur', aa.iselLoop ixs cur = .ok cur' ∧ cur'.1.shape.length = aa.data.shape.length := by
      intro ixs
      induction ixs with
      | nil => intro sel cur hi _ _; exact ⟨cur, rfl, hi.len⟩
      | cons x xs ih =>
        obtain ⟨d, ix⟩ := x
        intro sel cur hi hn ha
        obtain ⟨h1, h2, l, h3, h4⟩ := ha d ix (by simp)
        have hnew : sel.lookup d = none := by
          rw [AxisArray.lookup_none_iff]
          intro hm
          rw [List.nodup_append] at hn
          exact hn.2.2 d hm d (by simp) rfl
        obtain ⟨c1, hc1⟩ := AxisArray.iselStep_some hwf (cur := cur) h1 h2 h3 (fun hk => h4 (by
          have := hi.axes d
          rw [hnew] at this
          have e : cur.2.get? d = aa.axes.get? d := by simpa using this
          rw [← e]
          intro hc
          exact PyDict.get?_eq_none.1 hc hk))
        obtain ⟨l', -, -, -, -, k5⟩ := AxisArray.iselStep_ok hwf hi hnew hc1
        obtain ⟨c2, hc2, hlen⟩ := ih _ c1 k5 (by simpa using hn) (fun d ix hm => ha d ix (by simp [hm]))
        exact ⟨c2, by simp only [AxisArray.iselLoop, hc1, hc2], hlen⟩
    obtain ⟨c, hc, hlen⟩ := key ixs [] (aa.data, aa.axes) ⟨rfl, fun _ _ => rfl, fun _ => rfl, fun d => by simp⟩
      (by simpa using hnd) hall
    refine ⟨{ aa with data := c.1, axes := c.2 }, ?_⟩
    simp only [AxisArray.isel, hc]
    exact AxisArray.postInit_of_wf ⟨by rw [hlen]; exact hwf.len, hwf.nodup⟩

example : (∃ out, demoAA.isel [("time", .slice ⟨some 1, some 3, none⟩), ("ch", .array [])] = .ok out) ∧
    ¬ ∃ out, demoAA.isel [("ch", .int 0), ("time", .array [])] = .ok out :=
  ⟨⟨_, rfl⟩, by
    rintro ⟨out, h⟩
    have h : _ = true := congrArg (fun e => e.toOption.isSome) h
    exact absurd h (by decide +kernel)⟩

end Ez.AA
