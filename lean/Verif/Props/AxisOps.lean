import Verif.Props.AxisArray

/-!
# C53–C56: label selection, iteration, transposition and concatenation of named arrays
-/

set_option linter.unusedSimpArgs false
set_option linter.unusedSectionVars false

namespace Ez.AA
variable {α R A : Type} [Add R] [Sub R] [Mul R] [Div R] [NatCast R]

/-! ## Transposition -/

theorem mapM_getAxisIdx_ok {aa : AxisArray α R A} {dims : List String} (h : ∀ d ∈ dims, d ∈ aa.dims) :
    dims.mapM aa.getAxisIdx = .ok (dims.map aa.dims.idxOf) := by
  induction dims with
  | nil => rfl
  | cons x xs ih =>
    have hx : aa.getAxisIdx x = .ok (aa.dims.idxOf x) := by
      simp [AxisArray.getAxisIdx, h x (by simp)]
    rw [List.mapM_cons, hx, ih (fun d hd => h d (by simp [hd]))]
    rfl

theorem mapM_getAxisIdx_err {aa : AxisArray α R A} {dims : List String} {d : String} (hd : d ∈ dims)
    (h : d ∉ aa.dims) : dims.mapM aa.getAxisIdx = .error .valueError := by
  induction dims with
  | nil => cases hd
  | cons x xs ih =>
    rw [List.mapM_cons]
    by_cases hx : x ∈ aa.dims
    · have hx' : aa.getAxisIdx x = .ok (aa.dims.idxOf x) := by
        simp [AxisArray.getAxisIdx, hx]
      have : d ∈ xs := by
        rcases List.mem_cons.1 hd with rfl | h'
        · exact absurd hx h
        · exact h'
      rw [hx', ih this]
      rfl
    · have hx' : aa.getAxisIdx x = .error .valueError := by
        simp [AxisArray.getAxisIdx, hx]
      rw [hx']
      rfl

theorem idxOf_map_idxOf {ds dims : List String} {c : String} (hs : ∀ d ∈ dims, d ∈ ds) (hc : c ∈ dims) :
    (dims.map ds.idxOf).idxOf (ds.idxOf c) = dims.idxOf c := by
  induction dims with
  | nil => cases hc
  | cons x xs ih =>
    rw [List.map_cons, List.idxOf_cons, List.idxOf_cons]
    by_cases hx : x = c
    · subst hx; simp
    · have h1 : ds.idxOf x ≠ ds.idxOf c := fun e => hx (idxOf_inj (hs x (by simp)) (hs c hc) e)
      have h2 : (x == c) = false := by simp [hx]
      have h3 : (ds.idxOf x == ds.idxOf c) = false := by simp [h1]
      rw [h2, h3]
      simp only [cond_false]
      rw [ih (fun d hd => hs d (by simp [hd])) (by
        rcases List.mem_cons.1 hc with rfl | h
        · exact absurd rfl hx
        · exact h)]

/-- **C54** `transpose` with dimension names succeeds exactly for rearrangements of the array's names; the result
lists the dimensions in the given order and is otherwise the same array: every named element, every length,
every axis, the attributes and the key are unchanged. -/
theorem C54_transpose {aa : AxisArray α R A} (hwf : aa.WF) (dims : List String) :
    ((∃ out, aa.transpose dims = .ok out) ↔ (dims.Nodup ∧ ∀ d, d ∈ dims ↔ d ∈ aa.dims)) ∧
    ∀ out, aa.transpose dims = .ok out →
      out.dims = dims ∧ (∀ f, out.at f = aa.at f) ∧ (∀ d, out.size d = aa.size d) ∧
      out.axes = aa.axes ∧ out.attrs = aa.attrs ∧ out.key = aa.key ∧ out.WF := by
  have key : ∀ out, aa.transpose dims = .ok out →
      (dims.Nodup ∧ ∀ d, d ∈ dims ↔ d ∈ aa.dims) ∧
      out.dims = dims ∧ (∀ f, out.at f = aa.at f) ∧ (∀ d, out.size d = aa.size d) ∧
      out.axes = aa.axes ∧ out.attrs = aa.attrs ∧ out.key = aa.key ∧ out.WF := by
    intro out h
    unfold AxisArray.transpose at h
    have hsub : ∀ d ∈ dims, d ∈ aa.dims := by
      intro d hd
      apply Classical.byContradiction
      intro hn
      rw [mapM_getAxisIdx_err hd hn] at h
      cases h
    rw [mapM_getAxisIdx_ok hsub] at h
    simp only at h
    split at h
    · rename_i hp
      obtain ⟨hlen, hnd, -⟩ := hp
      obtain ⟨rfl, hw⟩ := AxisArray.postInit_ok h
      have hnd' : dims.Nodup := by
        have : (dims.map aa.dims.idxOf).Nodup := by simpa using hnd
        exact List.Pairwise.of_map _ (fun a b h e => h (by rw [e])) this
      have hdims : (dims.map aa.dims.idxOf).map (fun d => aa.dims.getD d "") = dims := by
        rw [List.map_map]
        conv => rhs; rw [← List.map_id dims]
        apply List.map_congr_left
        intro d hd
        simp [List.getD_eq_getElem?_getD, getElem?_idxOf (hsub d hd)]
      have hmem : ∀ d, d ∈ dims ↔ d ∈ aa.dims := by
        intro d
        refine ⟨hsub d, ?_⟩
        intro hd
        apply Classical.byContradiction
        intro hn
        have h1 : (d :: dims).Nodup := List.nodup_cons.2 ⟨hn, hnd'⟩
        have h2 : (d :: dims) ⊆ aa.dims := by
          intro x hx
          rcases List.mem_cons.1 hx with rfl | hx
          · exact hd
          · exact hsub x hx
        have h3 := List.Nodup.length_le_of_subset h1 h2
        simp only [List.length_cons, List.length_map, hwf.len] at h3 hlen
        omega
      refine ⟨⟨hnd', hmem⟩, hdims, ?_, ?_, rfl, rfl, rfl, hw⟩
      · intro f
        simp only [AxisArray.at, hdims, NArr.transpose]
        congr 1
        apply List.ext_getElem
        · simp [hwf.len]
        · intro i h1 h2
          simp only [List.length_map, List.length_range] at h1 h2
          simp only [List.getElem_map, List.getElem_range]
          have hc : aa.dims[i] ∈ aa.dims := List.getElem_mem h2
          have hi : aa.dims.idxOf aa.dims[i] = i := hwf.nodup.idxOf_getElem i h2
          have := idxOf_map_idxOf hsub ((hmem _).2 hc)
          rw [hi] at this
          rw [this, getD_map_idxOf ((hmem _).2 hc)]
      · intro d
        simp only [AxisArray.size, hdims, NArr.transpose, List.map_map]
        by_cases hd : d ∈ dims
        · rw [List.getD_eq_getElem?_getD, List.getElem?_map, getElem?_idxOf hd]
          rfl
        · have hd' : d ∉ aa.dims := fun h => hd ((hmem d).2 h)
          rw [List.idxOf_eq_length hd, List.idxOf_eq_length hd', hwf.len]
          simp [List.getD_eq_getElem?_getD]
    · cases h
  refine ⟨⟨fun ⟨out, h⟩ => (key out h).1, ?_⟩, fun out h => (key out h).2⟩
  rintro ⟨hnd, hmem⟩
  have hsub : ∀ d ∈ dims, d ∈ aa.dims := fun d hd => (hmem d).1 hd
  have hlen : dims.length = aa.dims.length := by
    apply Nat.le_antisymm
    · exact List.Nodup.length_le_of_subset hnd (fun d hd => hsub d hd)
    · exact List.Nodup.length_le_of_subset hwf.nodup (fun d hd => (hmem d).2 hd)
  have hnd2 : (dims.map aa.dims.idxOf).Nodup := by
    clear hlen hmem key
    induction dims with
    | nil => simp
    | cons x xs ih =>
      rw [List.nodup_cons] at hnd
      rw [List.map_cons, List.nodup_cons]
      refine ⟨?_, ih hnd.2 (fun d hd => hsub d (by simp [hd]))⟩
      intro h
      obtain ⟨y, hy, he⟩ := List.mem_map.1 h
      have := idxOf_inj (hsub y (by simp [hy])) (hsub x (by simp)) he
      exact hnd.1 (this ▸ hy)
  have hdims : (dims.map aa.dims.idxOf).map (fun d => aa.dims.getD d "") = dims := by
    rw [List.map_map]
    conv => rhs; rw [← List.map_id dims]
    apply List.map_congr_left
    intro d hd
    simp [List.getD_eq_getElem?_getD, getElem?_idxOf (hsub d hd)]
  unfold AxisArray.transpose
  rw [mapM_getAxisIdx_ok hsub]
  simp only
  rw [if_pos ⟨by simp [hlen, hwf.len], by simpa using hnd2, by
    rw [List.all_eq_true]
    intro x hx
    obtain ⟨d, hd, rfl⟩ := List.mem_map.1 hx
    have := List.idxOf_lt_length_of_mem (hsub d hd)
    rw [hwf.len] at this
    simpa using this⟩]
  exact ⟨_, AxisArray.postInit_of_wf ⟨by simp [NArr.transpose], by simp only [hdims]; exact hnd⟩⟩

example : ∃ out, demoAA.transpose ["ch", "time"] = .ok out ∧ out.data.shape = [2, 4] ∧
    out.data.get [1, 3] = 31 ∧ demoAA.data.get [3, 1] = 31 :=
  ⟨_, rfl, by decide, by decide, by decide⟩

/-! ## Iteration -/

theorem mapM_ok_of {β γ : Type} {f : β → Except Err γ} {g : β → γ} {l : List β} (h : ∀ x ∈ l, f x = .ok (g x)) :
    l.mapM f = .ok (l.map g) := by
  induction l with
  | nil => rfl
  | cons x xs ih =>
    rw [List.mapM_cons, h x (by simp), ih (fun y hy => h y (by simp [hy]))]
    rfl

theorem take_cons_drop_map {dims : List String} (hn : dims.Nodup) {d : String} (hd : d ∈ dims) (f : String → Nat)
    (k : Nat) :
    let rest := (dims.eraseIdx (dims.idxOf d)).map f
    rest.take (dims.idxOf d) ++ k :: rest.drop (dims.idxOf d) = dims.map (setDim f d k) := by
  induction dims with
  | nil => cases hd
  | cons x xs ih =>
    rw [List.nodup_cons] at hn
    by_cases hx : x = d
    · subst hx
      simp only [List.idxOf_cons_self, List.eraseIdx_zero, List.tail_cons, List.take_zero, List.nil_append,
        List.drop_zero, List.map_cons, setDim, if_true, List.cons.injEq, true_and]
      apply List.map_congr_left
      intro y hy
      have : y ≠ x := by
        rintro rfl
        exact hn.1 hy
      simp [setDim, this]
    · have hd' : d ∈ xs := by
        rcases List.mem_cons.1 hd with rfl | h
        · exact absurd rfl hx
        · exact h
      have h1 : (x :: xs).idxOf d = xs.idxOf d + 1 := by
        rw [List.idxOf_cons]
        have : (x == d) = false := by simp [hx]
        rw [this]; rfl
      have := ih hn.2 hd'
      simp only at this
      simp only [h1, List.eraseIdx_cons_succ, List.map_cons, List.take_succ_cons, List.drop_succ_cons,
        List.cons_append, this, setDim, if_neg hx]

theorem getD_eraseIdx_idxOf {dims : List String} (hn : dims.Nodup) {c d : String} (hd : d ∈ dims) (hc : c ∈ dims)
    (hcd : c ≠ d) {shape : List Nat} :
    (shape.eraseIdx (dims.idxOf d)).getD ((dims.eraseIdx (dims.idxOf d)).idxOf c) 0 =
      shape.getD (dims.idxOf c) 0 := by
  induction dims generalizing shape with
  | nil => cases hd
  | cons x xs ih =>
    rw [List.nodup_cons] at hn
    by_cases hx : x = d
    · subst hx
      have h1 : (x == c) = false := by simp; exact fun h => hcd h.symm
      rw [List.idxOf_cons (y := c)]
      simp only [List.idxOf_cons_self, List.eraseIdx_zero, List.tail_cons, h1, cond_false]
      cases shape with
      | nil => simp [List.getD_eq_getElem?_getD]
      | cons s ss => simp [List.getD_eq_getElem?_getD]
    · have hd' : d ∈ xs := by
        rcases List.mem_cons.1 hd with rfl | h
        · exact absurd rfl hx
        · exact h
      have h1 : (x :: xs).idxOf d = xs.idxOf d + 1 := by
        rw [List.idxOf_cons]
        have : (x == d) = false := by simp [hx]
        rw [this]; rfl
      rw [h1, List.eraseIdx_cons_succ]
      by_cases hxc : x = c
      · subst hxc
        cases shape with
        | nil => simp [List.getD_eq_getElem?_getD]
        | cons s ss => simp [List.getD_eq_getElem?_getD]
      · have hc' : c ∈ xs := by
          rcases List.mem_cons.1 hc with rfl | h
          · exact absurd rfl hxc
          · exact h
        have h2 : (x == c) = false := by simp [hxc]
        rw [List.idxOf_cons, List.idxOf_cons, h2]
        simp only [cond_false]
        cases shape with
        | nil => simp [List.getD_eq_getElem?_getD]
        | cons s ss =>
          simp only [List.eraseIdx_cons_succ]
          have := ih hn.2 hd' hc' (shape := ss)
          simpa [List.getD_eq_getElem?_getD] using this

theorem get?_filter_ne (axes : PyDict String (Axis R)) (axis d : String) :
    PyDict.get? (axes.filter (fun x => decide (x.1 ≠ axis))) d =
      if d = axis then none else PyDict.get? axes d := by
  induction axes with
  | nil => simp [PyDict.get?_nil]
  | cons x xs ih =>
    rw [List.filter_cons]
    by_cases hx : x.1 = axis
    · have h1 : decide (x.1 ≠ axis) = false := by simp [hx]
      rw [h1]
      simp only [Bool.false_eq_true, if_false]
      rw [ih, PyDict.get?_cons]
      by_cases hd : d = axis
      · simp [hd]
      · rw [if_neg hd, if_neg hd, if_neg]
        intro e
        exact hd (by rw [← hx]; exact e.symm)
    · have h1 : decide (x.1 ≠ axis) = true := by simp [hx]
      rw [h1]
      simp only [if_true]
      rw [PyDict.get?_cons, PyDict.get?_cons, ih]
      by_cases hd : x.1 = d
      · have : d ≠ axis := by rw [← hd]; exact hx
        simp [hd, this]
      · simp [hd]

/-- **C55** `iter_over_axis` over a dimension of length `n` yields exactly `n` arrays without that dimension; the
`k`-th one holds exactly the elements at index `k`, with the other lengths and axes, the attributes and the
key of the original. An unknown dimension is refused. -/
theorem C55_iter_over_axis {aa : AxisArray α R A} (hwf : aa.WF) (axis : String) :
    (axis ∉ aa.dims → aa.iterOverAxis axis = .error .valueError) ∧
    (axis ∈ aa.dims → ∃ outs, aa.iterOverAxis axis = .ok outs ∧ outs.length = aa.size axis ∧
      ∀ (k : Nat) out, outs[k]? = some out →
        out.WF ∧ (∀ d, d ∈ out.dims ↔ d ∈ aa.dims ∧ d ≠ axis) ∧ out.dims.Sublist aa.dims ∧
        (∀ d ∈ out.dims, out.size d = aa.size d) ∧
        (∀ f, out.at f = aa.at (setDim f axis k)) ∧
        (∀ d, out.axes.get? d = if d = axis then none else aa.axes.get? d) ∧
        out.attrs = aa.attrs ∧ out.key = aa.key) := by
  refine ⟨?_, ?_⟩
  · intro h
    simp [AxisArray.iterOverAxis, AxisArray.getAxisIdx, h]
  · intro h
    have hlt := List.idxOf_lt_length_of_mem h
    have hw : ∀ k, AxisArray.WF { aa with
        data := aa.data.dropAt (aa.dims.idxOf axis) k
        dims := aa.dims.eraseIdx (aa.dims.idxOf axis)
        axes := aa.axes.filter (fun x => decide (x.1 ≠ axis)) } := by
      intro k
      refine ⟨?_, ?_⟩
      · simp only [NArr.dropAt]
        rw [List.length_eraseIdx_of_lt hlt, List.length_eraseIdx_of_lt (by rw [← hwf.len]; exact hlt), hwf.len]
      · exact hwf.nodup.sublist (List.eraseIdx_sublist _ _)
    have hmem : ∀ d, d ∈ aa.dims.eraseIdx (aa.dims.idxOf axis) ↔ d ∈ aa.dims ∧ d ≠ axis := by
      intro d
      rw [← List.erase_eq_eraseIdx_of_idxOf rfl]
      rw [hwf.nodup.mem_erase_iff]
      exact And.comm
    refine ⟨_, by
      simp only [AxisArray.iterOverAxis, AxisArray.getAxisIdx, h, if_true]
      exact mapM_ok_of (fun k _ => AxisArray.postInit_of_wf (hw k)), by simp [AxisArray.size], ?_⟩
    intro k out hk
    rw [List.getElem?_map] at hk
    obtain ⟨k', hk', rfl⟩ := Option.map_eq_some_iff.1 hk
    obtain ⟨hk1, rfl⟩ := List.getElem?_eq_some_iff.1 hk'
    simp only [List.getElem_range]
    refine ⟨hw k, hmem, List.eraseIdx_sublist _ _, ?_, ?_, ?_, by simp, by simp⟩
    · intro d hd
      obtain ⟨h1, h2⟩ := (hmem d).1 hd
      exact getD_eraseIdx_idxOf hwf.nodup h h1 h2
    · intro f
      exact congrArg aa.data.get (take_cons_drop_map hwf.nodup h f k)
    · intro d
      exact get?_filter_ne aa.axes axis d

example : ∃ outs, demoAA.iterOverAxis "time" = .ok outs ∧ outs.length = 4 ∧
    (outs[2]?.map (fun a => (a.dims, a.data.shape, a.data.get [1]))) = some (["ch"], [2], 21) :=
  ⟨_, rfl, by decide, by decide⟩

/-! ## Concatenation -/

/-- The total length of some arrays along `dim`. -/
def total (dim : String) (aas : List (AxisArray α R A)) : Nat := (aas.map (fun a => a.size dim)).sum

theorem set_getD_self {l : List Nat} {i : Nat} : l.set i (l.getD i 0) = l := by
  apply List.ext_getElem?
  intro k
  rw [List.getElem?_set]
  by_cases h : i = k
  · subst h
    by_cases h2 : i < l.length
    · simp [h2, List.getD_eq_getElem?_getD]
    · simp [h2]
  · simp [h]

theorem catGet_spec {α : Type} {axis : Nat} (pre : List (NArr α)) (b : NArr α) (post : List (NArr α)) :
    ∀ (a : NArr α) (rest : List (NArr α)) (idx : List Nat) (i : Nat), a :: rest = pre ++ b :: post →
      i < b.shape.getD axis 0 → axis < idx.length →
      idx.getD axis 0 = (pre.map (fun x => x.shape.getD axis 0)).sum + i →
      NArr.catGet axis a rest idx = b.get (idx.set axis i) := by
  induction pre with
  | nil =>
    intro a rest idx i he hi hx hidx
    simp only [List.nil_append, List.cons.injEq] at he
    obtain ⟨rfl, rfl⟩ := he
    simp only [List.map_nil, List.sum_nil, Nat.zero_add] at hidx
    rw [← hidx, set_getD_self]
    cases rest with
    | nil => rfl
    | cons c cs => rw [NArr.catGet, if_pos (by omega)]
  | cons p ps ih =>
    intro a rest idx i he hi hx hidx
    simp only [List.cons_append, List.cons.injEq] at he
    obtain ⟨rfl, he⟩ := he
    cases rest with
    | nil => simp at he
    | cons c cs =>
      simp only [List.map_cons, List.sum_cons] at hidx
      rw [NArr.catGet, if_neg (by omega)]
      rw [ih c cs _ i he hi (by simpa using hx) (by
        rw [List.getD_eq_getElem?_getD, List.getElem?_set]
        simp only [hx, if_true, Option.getD_some]
        omega)]
      rw [List.set_set]

/-- The array that `concatenate` starts from and the others, given that it succeeded. -/
theorem concatenate_ok {dim : String} {axis : Option (Axis R)} {fk : Option String} {aas : List (AxisArray α R A)}
    {out : AxisArray α R A} (h : AxisArray.concatenate dim axis fk aas = .ok out) :
    ∃ aa rest axes data dims, AxisArray.keyed fk aas = aa :: rest ∧
      (∀ b ∈ rest, b.dims = aa.dims) ∧ AxisArray.catAxes dim axis aa rest = .ok axes ∧
      AxisArray.catData dim aa rest = some (data, dims) ∧ out.WF ∧
      out = { aa with data := data, dims := dims, axes := axes
                      key := if rest.all (fun b => b.key == aa.key) then aa.key else "" } := by
  unfold AxisArray.concatenate at h
  cases hl : AxisArray.keyed fk aas with
  | nil => rw [hl] at h; cases h
  | cons aa rest =>
    rw [hl] at h
    simp only at h
    split at h
    · cases h
    · rename_i hd
      cases hc : AxisArray.catAxes dim axis aa rest with
      | error e => rw [hc] at h; cases h
      | ok axes =>
        rw [hc] at h
        simp only at h
        cases hx : AxisArray.catData dim aa rest with
        | none => rw [hx] at h; cases h
        | some x =>
          obtain ⟨data, dims⟩ := x
          rw [hx] at h
          simp only at h
          obtain ⟨rfl, hw⟩ := AxisArray.postInit_ok h
          refine ⟨aa, rest, axes, data, dims, rfl, ?_, by first | rfl | exact hc, by first | rfl | exact hx, hw, rfl⟩
          intro b hb
          apply Classical.byContradiction
          intro hn
          apply hd
          rw [List.any_eq_true]
          exact ⟨b, hb, by simpa using hn⟩

/-- The arrays that take part in a `concatenate`: all, or those with the given key. -/
def taken (fk : Option String) (aas : List (AxisArray α R A)) : List (AxisArray α R A) :=
  aas.filter (fun a => decide (∀ k, fk = some k → a.key = k))

theorem taken_eq (fk : Option String) (aas : List (AxisArray α R A)) :
    AxisArray.keyed fk aas = taken fk aas := by
  unfold AxisArray.keyed
  cases fk with
  | none =>
    simp only [taken]
    rw [List.filter_eq_self.2]
    intro a _; simp
  | some k =>
    simp only [taken]
    congr 1
    funext a
    simp [Bool.beq_eq_decide_eq]

theorem shape_getD_of_set {s t : List Nat} {i k : Nat} (h : s.set i 0 = t.set i 0) (hk : k ≠ i) :
    s.getD k 0 = t.getD k 0 := by
  have h1 : (s.set i 0)[k]? = (t.set i 0)[k]? := by rw [h]
  rw [List.getElem?_set_ne (Ne.symm hk), List.getElem?_set_ne (Ne.symm hk)] at h1
  rw [List.getD_eq_getElem?_getD, List.getD_eq_getElem?_getD, h1]

/-- **C56** Concatenation along an existing dimension: the arrays that take part must agree in their dimension
names and in the lengths of all other dimensions; the length along `dim` is the sum, and index
`total of the earlier lengths + i` of the result is index `i` of its array — nothing is lost, repeated or
reordered. The attributes come from the first array; the key survives only if all agree. -/
theorem C56_concatenate {dim : String} {axis : Option (Axis R)} {fk : Option String} {aas : List (AxisArray α R A)}
    {out : AxisArray α R A} (hwf : ∀ a ∈ aas, a.WF) (h : AxisArray.concatenate dim axis fk aas = .ok out)
    (hdim : ∀ a ∈ aas, dim ∈ a.dims) :
    ∃ first rest, taken fk aas = first :: rest ∧ out.attrs = first.attrs ∧
      out.key = (if ∀ a ∈ taken fk aas, a.key = first.key then first.key else "") ∧
      (∀ a ∈ taken fk aas, a.dims = out.dims ∧ ∀ d ∈ out.dims, d ≠ dim → a.size d = out.size d) ∧
      out.size dim = total dim (taken fk aas) ∧
      (∀ d, d ≠ dim → out.axes.get? d = first.axes.get? d) ∧
      (∀ x, axis = some x → out.axes.get? dim = some x) ∧
      (axis = none → (∀ u v ds, first.axes.get? dim ≠ some (.coord u v ds)) →
        out.axes.get? dim = first.axes.get? dim) ∧
      ∀ pre a post, taken fk aas = pre ++ a :: post → ∀ f, f dim < a.size dim →
        out.at (setDim f dim (total dim pre + f dim)) = a.at f := by
  obtain ⟨aa, rest, axes, data, dims, hl, hd, hca, hcd, hw, rfl⟩ := concatenate_ok h
  rw [taken_eq] at hl
  have hsub : ∀ a ∈ taken fk aas, a ∈ aas := fun a ha => (List.mem_filter.1 ha).1
  have hin : dim ∈ aa.dims := hdim aa (hsub aa (by rw [hl]; simp))
  have hwa : ∀ a ∈ aa :: rest, a.WF := fun a ha => hwf a (hsub a (by rw [hl]; exact ha))
  have hda : ∀ a ∈ aa :: rest, a.dims = aa.dims := by
    intro a ha
    rcases List.mem_cons.1 ha with rfl | ha
    · rfl
    · exact hd a ha
  unfold AxisArray.catData at hcd
  rw [if_pos hin] at hcd
  obtain ⟨x, hx, he⟩ := Option.map_eq_some_iff.1 hcd
  cases he
  unfold NArr.concatenate at hx
  split at hx
  · rename_i hc
    obtain ⟨hlt, hall⟩ := hc
    cases hx
    have hsh : ∀ a ∈ aa :: rest, a.data.shape.set (aa.dims.idxOf dim) 0 = aa.data.shape.set (aa.dims.idxOf dim) 0 := by
      intro a ha
      rcases List.mem_cons.1 ha with rfl | ha
      · rfl
      · rw [List.all_eq_true] at hall
        simpa using hall a.data (List.mem_map.2 ⟨a, ha, rfl⟩)
    have htot : ∀ l : List (AxisArray α R A), (∀ a ∈ l, a.dims = aa.dims) →
        ((l.map (·.data)).map (fun b => b.shape.getD (aa.dims.idxOf dim) 0)).sum = total dim l := by
      intro l hdl
      unfold total
      rw [List.map_map]
      congr 1
      apply List.map_congr_left
      intro a ha
      simp [AxisArray.size, hdl a ha]
    refine ⟨aa, rest, hl, rfl, ?_, ?_, ?_, ?_, ?_, ?_, ?_⟩
    · simp only
      rw [hl]
      congr 1
      rw [List.all_eq_true]
      apply propext
      constructor
      · intro h a ha
        rcases List.mem_cons.1 ha with rfl | ha
        · rfl
        · simpa using h a ha
      · intro h a ha
        simpa using h a (by simp [ha])
    · intro a ha
      rw [hl] at ha
      refine ⟨hda a ha, ?_⟩
      intro d hd' hne
      simp only at hd'
      have hne' : aa.dims.idxOf d ≠ aa.dims.idxOf dim := fun e => hne (idxOf_inj hd' hin e)
      simp only [AxisArray.size, hda a ha]
      rw [shape_getD_of_set (hsh a ha) hne', List.getD_eq_getElem?_getD, List.getD_eq_getElem?_getD,
        List.getElem?_set_ne (Ne.symm hne')]
    · rw [hl]
      simp only [AxisArray.size]
      have := htot (aa :: rest) hda
      rw [List.map_cons] at this
      rw [← this, List.getD_eq_getElem?_getD, List.getElem?_set]
      simp [hlt]
    · intro d hne
      simp only
      unfold AxisArray.catAxes at hca
      split at hca
      · cases hca; rw [PyDict.get?_set, if_neg hne]
      · split at hca
        · cases hca
        · split at hca
          · cases hca
          · cases hca; rw [PyDict.get?_set, if_neg hne]
      · cases hca; rfl
    · intro x hx
      subst hx
      simp only [AxisArray.catAxes] at hca
      cases hca
      simp only
      rw [PyDict.get?_set, if_pos rfl]
    · intro hx hno
      subst hx
      unfold AxisArray.catAxes at hca
      split at hca
      · contradiction
      · rename_i h1 _ _
        exact absurd ‹aa.axes.get? dim = _› (hno _ _ _)
      · cases hca; rfl
    · intro pre a post hp f hf
      rw [hl] at hp
      have ha : a ∈ aa :: rest := by rw [hp]; simp
      have hpre : ∀ b ∈ pre, b.dims = aa.dims := fun b hb => hda b (by rw [hp]; simp [hb])
      have hlen : aa.dims.idxOf dim < aa.dims.length := List.idxOf_lt_length_of_mem hin
      simp only [AxisArray.at]
      rw [catGet_spec (pre.map (·.data)) a.data (post.map (·.data)) aa.data (rest.map (·.data)) _ (f dim)
        (by simpa using congrArg (List.map (fun x => x.data)) hp)
        (by simpa [AxisArray.size, hda a ha] using hf) (by simpa using hlen)
        (by rw [getD_map_idxOf hin, htot pre hpre]; simp [setDim])]
      rw [map_setDim (hwa aa (by simp)).nodup hin, hda a ha]
      congr 1
      apply List.map_congr_left
      intro d _
      unfold setDim
      by_cases hd' : d = dim
      · simp [hd']
      · simp [hd']
  · cases hx

/-- Specification: the coordinate axes of the arrays along `dim`, if the first array has one, are one-dimensional. -/
def Flat (dim : String) (aa : AxisArray α R A) (rest : List (AxisArray α R A)) : Prop :=
  ∀ u v ds, aa.axes.get? dim = some (.coord u v ds) → ds.length = 1 ∧ v.shape.length = 1 ∧
    ∀ b ∈ rest, ∀ u' v' ds', b.axes.get? dim = some (.coord u' v' ds') → v'.shape.length = 1

theorem coordData_flat {dim : String} : ∀ {rest : List (AxisArray α R A)} {vs : List (NArr R)}, AxisArray.coordData dim rest = some vs →
    (∀ b ∈ rest, ∀ u' v' ds', b.axes.get? dim = some (.coord u' v' ds') → v'.shape.length = 1) → ∀ v ∈ vs, v.shape.length = 1 := by
  intro rest
  induction rest with
  | nil => intro vs h _ v hv; cases h; cases hv
  | cons b rest ih =>
    intro vs h hb v hv
    simp only [AxisArray.coordData] at h
    split at h
    · rename_i u d x ds h1 h2
      cases h
      rcases List.mem_cons.1 hv with rfl | hv
      · exact hb b (by simp) _ _ _ h1
      · exact ih h2 (fun c hc => hb c (by simp [hc])) v hv
    · cases h

theorem catAxes_flat {dim : String} {axis : Option (Axis R)} {aa : AxisArray α R A} {rest : List (AxisArray α R A)}
    (hax : axis = none → Flat dim aa rest) : ∃ axes, AxisArray.catAxes dim axis aa rest = .ok axes := by
  unfold AxisArray.catAxes
  split
  · exact ⟨_, rfl⟩
  · rename_i u d ds others h1 h2
    obtain ⟨f1, f2, f3⟩ := hax rfl u d ds h1
    have hall : others.all (fun b => b.shape.set 0 0 == d.shape.set 0 0) = true := by
      rw [List.all_eq_true]
      intro v hv
      have := coordData_flat h2 f3 v hv
      rw [beq_iff_eq]
      obtain ⟨x, hx⟩ := List.length_eq_one_iff.1 this
      obtain ⟨y, hy⟩ := List.length_eq_one_iff.1 f2
      rw [hx, hy]; rfl
    have hc : NArr.concatenate 0 d others =
        some { shape := d.shape.set 0 ((d :: others).map (fun b => b.shape.getD 0 0)).sum, get := NArr.catGet 0 d others } := by
      unfold NArr.concatenate
      rw [if_pos ⟨by rw [f2]; exact Nat.one_pos, hall⟩]
    rw [hc]
    obtain ⟨x, rfl⟩ := List.length_eq_one_iff.1 f1
    simp only
    rw [if_neg (by simp [f2])]
    exact ⟨_, rfl⟩
  · exact ⟨_, rfl⟩

/-- **C56**, success: if some arrays take part, with the same dimension names, the same lengths in the other dimensions
and one-dimensional coordinate axes along `dim`, if any, they can be concatenated along `dim`. -/
theorem C56_concatenate_succeeds {dim : String} {axis : Option (Axis R)} {fk : Option String} {aas : List (AxisArray α R A)}
    {aa : AxisArray α R A} {rest : List (AxisArray α R A)} (ht : taken fk aas = aa :: rest)
    (hwf : aa.WF) (hin : dim ∈ aa.dims) (hd : ∀ b ∈ rest, b.dims = aa.dims)
    (hlen : ∀ b ∈ rest, b.WF) (hs : ∀ b ∈ rest, ∀ d ∈ aa.dims, d ≠ dim → b.size d = aa.size d)
    (hax : axis = none → Flat dim aa rest) :
    ∃ out, AxisArray.concatenate dim axis fk aas = .ok out := by
  have hlt : aa.dims.idxOf dim < aa.data.shape.length := by
    rw [← hwf.len]; exact List.idxOf_lt_length_of_mem hin
  have hall : (rest.map (·.data)).all (fun b => b.shape.set (aa.dims.idxOf dim) 0 ==
      aa.data.shape.set (aa.dims.idxOf dim) 0) = true := by
    rw [List.all_eq_true]
    intro x hx
    obtain ⟨b, hb, rfl⟩ := List.mem_map.1 hx
    have hbl : b.data.shape.length = aa.data.shape.length := by
      rw [← hwf.len, ← (hlen b hb).len, hd b hb]
    rw [beq_iff_eq]
    apply List.ext_getElem?
    intro k
    rw [List.getElem?_set, List.getElem?_set]
    by_cases hk : aa.dims.idxOf dim = k
    · simp [hk, hbl]
    · rw [if_neg hk, if_neg hk]
      by_cases hkl : k < aa.dims.length
      · have hi : aa.dims.idxOf aa.dims[k] = k := hwf.nodup.idxOf_getElem k hkl
        have := hs b hb aa.dims[k] (List.getElem_mem hkl) (by
          intro e
          rw [e] at hi
          exact hk hi)
        simp only [AxisArray.size, hd b hb, hi] at this
        have h1 : k < b.data.shape.length := by rw [hbl, ← hwf.len]; exact hkl
        have h2 : k < aa.data.shape.length := by rw [← hwf.len]; exact hkl
        simpa [List.getD_eq_getElem?_getD, h1, h2] using this
      · rw [List.getElem?_eq_none (by rw [hbl, ← hwf.len]; omega),
          List.getElem?_eq_none (by rw [← hwf.len]; omega)]
  obtain ⟨axes, hca⟩ := catAxes_flat hax
  unfold AxisArray.concatenate
  rw [taken_eq, ht]
  simp only
  rw [if_neg (by
    rw [Bool.not_eq_true, List.any_eq_false]
    intro b hb
    simp [hd b hb])]
  rw [hca]
  simp only [AxisArray.catData, hin, if_true, NArr.concatenate, hlt, hall, and_self, Option.map_some]
  exact ⟨_, AxisArray.postInit_of_wf ⟨by simp [hwf.len], hwf.nodup⟩⟩

/-- **C56**, success of stacking: likewise along a name that the arrays do not have, if all lengths are the same. -/
theorem C56_stack_succeeds {dim : String} {axis : Option (Axis R)} {fk : Option String} {aas : List (AxisArray α R A)}
    {aa : AxisArray α R A} {rest : List (AxisArray α R A)} (ht : taken fk aas = aa :: rest)
    (hwf : aa.WF) (hin : dim ∉ aa.dims) (hd : ∀ b ∈ rest, b.dims = aa.dims)
    (hlen : ∀ b ∈ rest, b.WF) (hs : ∀ b ∈ rest, ∀ d ∈ aa.dims, b.size d = aa.size d)
    (hax : axis = none → Flat dim aa rest) :
    ∃ out, AxisArray.concatenate dim axis fk aas = .ok out := by
  have hall : (rest.map (·.data)).all (fun b => b.shape == aa.data.shape) = true := by
    rw [List.all_eq_true]
    intro x hx
    obtain ⟨b, hb, rfl⟩ := List.mem_map.1 hx
    have hbl : b.data.shape.length = aa.data.shape.length := by
      rw [← hwf.len, ← (hlen b hb).len, hd b hb]
    rw [beq_iff_eq]
    apply List.ext_getElem hbl
    intro k h1 h2
    have hkl : k < aa.dims.length := by rw [hwf.len]; exact h2
    have hi : aa.dims.idxOf aa.dims[k] = k := hwf.nodup.idxOf_getElem k hkl
    have := hs b hb aa.dims[k] (List.getElem_mem hkl)
    simp only [AxisArray.size, hd b hb, hi] at this
    simpa [List.getD_eq_getElem?_getD, h1, h2] using this
  obtain ⟨axes, hca⟩ := catAxes_flat hax
  unfold AxisArray.concatenate
  rw [taken_eq, ht]
  simp only
  rw [if_neg (by
    rw [Bool.not_eq_true, List.any_eq_false]
    intro b hb
    simp [hd b hb])]
  rw [hca]
  simp only [AxisArray.catData, hin, if_false, NArr.stack, hall, if_true, Option.map_some]
  exact ⟨_, AxisArray.postInit_of_wf ⟨by simp [hwf.len], by simp [hwf.nodup, hin]⟩⟩

/-- **C56**, stacking: along a name that the arrays do not have, the result gets it as a new first dimension and
holds the `k`-th array at index `k`. -/
theorem C56_stack {dim : String} {axis : Option (Axis R)} {fk : Option String} {aas : List (AxisArray α R A)}
    {out : AxisArray α R A} (h : AxisArray.concatenate dim axis fk aas = .ok out)
    (hdim : ∀ a ∈ aas, dim ∉ a.dims) :
    (∀ a ∈ taken fk aas, out.dims = dim :: a.dims) ∧ out.size dim = (taken fk aas).length ∧
      ∀ (k : Nat) a, (taken fk aas)[k]? = some a → (∀ d ∈ a.dims, out.size d = a.size d) ∧
        ∀ f, out.at (setDim f dim k) = a.at f := by
  obtain ⟨aa, rest, axes, data, dims, hl, hd, hca, hcd, hw, rfl⟩ := concatenate_ok h
  rw [taken_eq] at hl
  have hsub : ∀ a ∈ taken fk aas, a ∈ aas := fun a ha => (List.mem_filter.1 ha).1
  have hin : dim ∉ aa.dims := hdim aa (hsub aa (by rw [hl]; simp))
  have hda : ∀ a ∈ aa :: rest, a.dims = aa.dims := by
    intro a ha
    rcases List.mem_cons.1 ha with rfl | ha
    · rfl
    · exact hd a ha
  unfold AxisArray.catData at hcd
  rw [if_neg hin] at hcd
  obtain ⟨x, hx, he⟩ := Option.map_eq_some_iff.1 hcd
  cases he
  unfold NArr.stack at hx
  split at hx
  · rename_i hall
    cases hx
    rw [hl]
    refine ⟨?_, ?_, ?_⟩
    · intro a ha
      simp [hda a ha]
    · simp [AxisArray.size]
    · intro k a hk
      have ha := List.mem_of_getElem? hk
      have hsh : a.data.shape = aa.data.shape := by
        rcases List.mem_cons.1 ha with rfl | ha
        · rfl
        · rw [List.all_eq_true] at hall
          simpa using hall a.data (List.mem_map.2 ⟨a, ha, rfl⟩)
      refine ⟨?_, ?_⟩
      · intro d hd'
        rw [hda a ha] at hd'
        have hne : dim ≠ d := fun e => hin (e ▸ hd')
        have h1 : (dim == d) = false := by simp [hne]
        simp only [AxisArray.size, hda a ha, hsh]
        rw [List.idxOf_cons, h1]
        simp [List.getD_eq_getElem?_getD]
      · intro f
        simp only [AxisArray.at, List.map_cons, List.getD_cons_zero, List.drop_succ_cons, List.drop_zero]
        have h1 : setDim f dim k dim = k := by simp [setDim]
        have h2 : (aa.data :: rest.map (·.data)).getD k aa.data = a.data := by
          have h3 : ((aa :: rest).map (fun x => x.data))[k]? = some a.data := by rw [List.getElem?_map, hk]; rfl
          rw [List.map_cons] at h3
          rw [List.getD_eq_getElem?_getD, h3]
          rfl
        rw [h1, h2, hda a ha]
        congr 1
        apply List.map_congr_left
        intro d hd'
        have hne : d ≠ dim := fun e => hin (e ▸ hd')
        simp [setDim, hne]
  · cases hx

/-- The demonstration array with coordinates of its channels, and another such array: the hypotheses of
`C56_concatenate_succeeds` (along "ch") and `C56_stack_succeeds` (along "win") are met. -/
example : ∃ a b : AxisArray Nat Rat Unit, taken (some "k") [a, { a with key := "x" }, b] = [a, b] ∧ a.WF ∧ b.WF ∧ a.axes ≠ b.axes ∧ b.dims = a.dims ∧
    "ch" ∈ a.dims ∧ "win" ∉ a.dims ∧ (∀ d ∈ a.dims, b.size d = a.size d) ∧ Flat "ch" a [b] ∧ Flat "win" a [b] := by
  refine ⟨{ demoAA with axes := [("ch", .coord "" ⟨[2], fun i => 7 + (i.getD 0 0 : Rat)⟩ ["ch"])] },
    { demoAA with axes := [("time", .linear "s" 1 0), ("ch", .coord "" ⟨[2], fun i => 70 + (i.getD 0 0 : Rat)⟩ ["ch"])] }, rfl,
    ⟨rfl, by decide⟩, ⟨rfl, by decide⟩, fun h => ?_, rfl, by decide, by decide, by decide, fun u v ds h => ?_, fun u v ds h => ?_⟩
  · have := congrArg List.length h
    cases this
  · cases h
    refine ⟨rfl, rfl, fun b hb u' v' ds' h' => ?_⟩
    rw [List.mem_singleton] at hb
    subst hb
    cases h'
    rfl
  · cases h

/-- One sample of the demonstration array, dated later. -/
def demoAA2 : AxisArray Nat Rat Unit :=
  { demoAA with data := ⟨[1, 2], fun i => 90 + i.getD 1 0⟩, axes := [("time", .linear "s" (1/2) 5)] }

example : ∃ out, AxisArray.concatenate "time" none none [demoAA, demoAA2] = .ok out ∧
    out.data.shape = [5, 2] ∧ out.data.get [3, 1] = 31 ∧ out.data.get [4, 1] = 91 :=
  ⟨_, rfl, by decide, by decide, by decide⟩

example : ∃ out, AxisArray.concatenate "win" none (some "k") [demoAA2, demoAA2] = .ok out ∧
    out.dims = ["win", "time", "ch"] ∧ out.data.shape = [2, 1, 2] ∧ out.data.get [1, 0, 1] = 91 :=
  ⟨_, rfl, by decide, by decide, by decide⟩

/-- **C56**, coordinates: if every array has a one-dimensional coordinate axis along `dim` with as many entries
as the dimension has, then so has the result, and each of its elements keeps its coordinate. -/
theorem C56_coordinates {dim : String} {fk : Option String} {aas : List (AxisArray α R A)} {out : AxisArray α R A}
    (h : AxisArray.concatenate dim none fk aas = .ok out)
    (hco : ∀ a ∈ aas, ∃ u v ds, a.axes.get? dim = some (.coord u v ds) ∧ v.shape = [a.size dim]) :
    ∃ u v ds, out.axes.get? dim = some (.coord u v ds) ∧ v.shape = [total dim (taken fk aas)] ∧
      ∀ pre a post, taken fk aas = pre ++ a :: post → ∀ u' v' ds', a.axes.get? dim = some (.coord u' v' ds') →
        ∀ i, i < a.size dim → v.get [total dim pre + i] = v'.get [i] := by
  obtain ⟨aa, rest, axes, data, dims, hl, hd, hca, hcd, hw, rfl⟩ := concatenate_ok h
  rw [taken_eq] at hl
  have hsub : ∀ a ∈ taken fk aas, a ∈ aas := fun a ha => (List.mem_filter.1 ha).1
  have hco' : ∀ a ∈ aa :: rest, ∃ u v ds, a.axes.get? dim = some (.coord u v ds) ∧ v.shape = [a.size dim] :=
    fun a ha => hco a (hsub a (by rw [hl]; exact ha))
  have hcd : ∀ l : List (AxisArray α R A),
      (∀ a ∈ l, ∃ u v ds, a.axes.get? dim = some (.coord u v ds) ∧ v.shape = [a.size dim]) →
      ∃ vs, AxisArray.coordData dim l = some vs ∧ vs.map (fun v => v.shape.getD 0 0) = l.map (fun a => a.size dim) ∧
        ∀ (k : Nat) a, l[k]? = some a → ∀ u v ds, a.axes.get? dim = some (.coord u v ds) → vs[k]? = some v := by
    intro l
    induction l with
    | nil => intro _; exact ⟨[], rfl, rfl, by intro k a h; simp at h⟩
    | cons a as ih =>
      intro hh
      obtain ⟨vs, e1, e2, e3⟩ := ih (fun b hb => hh b (by simp [hb]))
      obtain ⟨u, v, ds, e4, e5⟩ := hh a (by simp)
      refine ⟨v :: vs, by simp [AxisArray.coordData, e4, e1], by
        rw [List.map_cons, List.map_cons, e2, e5]; rfl, ?_⟩
      intro k b hb u' v' ds' hb'
      cases k with
      | zero =>
        simp only [List.getElem?_cons_zero, Option.some.injEq] at hb
        subst hb
        rw [e4] at hb'
        cases hb'
        rfl
      | succ k => exact e3 k b (by simpa using hb) u' v' ds' hb'
  obtain ⟨u, v, ds, h1, h2⟩ := hco' aa (by simp)
  obtain ⟨vs, h3, h4, h5⟩ := hcd rest (fun a ha => hco' a (by simp [ha]))
  unfold AxisArray.catAxes at hca
  rw [h1, h3] at hca
  simp only at hca
  cases hcc : NArr.concatenate 0 v vs with
  | none => rw [hcc] at hca; cases hca
  | some d' =>
    rw [hcc] at hca
    simp only at hca
    split at hca
    · cases hca
    · cases hca
      unfold NArr.concatenate at hcc
      split at hcc
      · cases hcc
        refine ⟨u, _, ds, by simp only; rw [PyDict.get?_set, if_pos rfl], ?_, ?_⟩
        · rw [hl]
          simp only [h2, total, List.map_cons, h4]
          simp
        · intro pre a post hp u' v' ds' ha i hi
          rw [hl] at hp
          obtain ⟨ws, g1, g2, g3⟩ := hcd (aa :: rest) hco'
          have hws : ws = v :: vs := by
            simp only [AxisArray.coordData, h1, h3, Option.some.injEq] at g1
            exact g1.symm
          subst hws
          have hk : (v :: vs)[pre.length]? = some v' := g3 pre.length a (by rw [hp]; simp) u' v' ds' ha
          have hsplit : v :: vs = (v :: vs).take pre.length ++ v' :: (v :: vs).drop (pre.length + 1) := by
            obtain ⟨hlt, hv⟩ := List.getElem?_eq_some_iff.1 hk
            rw [← hv, ← List.drop_eq_getElem_cons hlt, List.take_append_drop]
          have hsz : v'.shape.getD 0 0 = a.size dim := by
            obtain ⟨u2, v2, ds2, k1, k2⟩ := hco' a (by rw [hp]; simp)
            rw [ha] at k1
            cases k1
            simp [k2]
          have hpre : (((v :: vs).take pre.length).map (fun x => x.shape.getD 0 0)).sum = total dim pre := by
            rw [List.map_take, g2, hp, ← List.map_take]
            simp [total]
          show NArr.catGet 0 v vs [total dim pre + i] = v'.get [i]
          rw [catGet_spec _ v' _ v vs [total dim pre + i] i hsplit (by rw [hsz]; exact hi) (by simp)
            (by rw [hpre]; simp)]
          rfl
      · cases hcc

example : ∃ out, AxisArray.concatenate "ch" none none
      [({ demoAA with axes := [("ch", .coord "" ⟨[2], fun i => 7 + (i.getD 0 0 : Rat)⟩ ["ch"])] } : AxisArray Nat Rat Unit),
       { demoAA with axes := [("ch", .coord "" ⟨[2], fun i => 70 + (i.getD 0 0 : Rat)⟩ ["ch"])] }] = .ok out ∧
    out.data.shape = [4, 4] ∧ out.coordAt "ch" 1 = 8 ∧ out.coordAt "ch" 3 = 71 :=
  ⟨_, rfl, by decide, by decide +kernel, by decide +kernel⟩

/-! ## Selection by coordinate -/

/-- **C53**, partial: `sel` with a range of coordinates (no step) that starts and ends at or after the start of a
linear axis keeps exactly a run of neighbouring elements, with their data and coordinates: all those whose
coordinate is strictly between `start - gain/2` and `stop - gain/2`, and none outside the closed range.
`rint` is any function that returns a nearest integer. (Missing: ranges that begin before the axis, see the
negation.) -/
theorem C53_sel_partial {aa out : AxisArray α Rat A} (hwf : aa.WF) {rint trunc : Rat → Int}
    (hr : ∀ x : Rat, x - 1/2 ≤ (rint x : Rat) ∧ (rint x : Rat) ≤ x + 1/2) {d u : String} {g o : Rat} (hg : 0 < g)
    (hax : aa.axes.get? d = some (.linear u g o)) {start stop : Option Rat}
    (hstart : ∀ x, start = some x → o ≤ x) (hstop : ∀ y, stop = some y → o ≤ y)
    (h : aa.sel rint trunc [(d, ⟨start, stop, none⟩)] = .ok out) :
    ∃ a : Nat, (∀ j, j < out.size d → a + j < aa.size d ∧ out.coordAt d j = aa.coordAt d (a + j)) ∧
      (∀ f, out.Valid f → out.at f = aa.at (setDim f d (a + f d))) ∧
      ∀ i, i < aa.size d →
        ((∀ x, start = some x → x - g / 2 < aa.coordAt d i) → (∀ y, stop = some y → aa.coordAt d i < y - g / 2) →
          a ≤ i ∧ i < a + out.size d) ∧
        (a ≤ i ∧ i < a + out.size d →
          (∀ x, start = some x → x - g / 2 ≤ aa.coordAt d i) ∧ (∀ y, stop = some y → aa.coordAt d i ≤ y - g / 2)) := by
  unfold AxisArray.sel at h
  cases hs : aa.selIndexers rint trunc [(d, ⟨start, stop, none⟩)] with
  | error e => rw [hs] at h; cases h
  | ok ixs =>
    rw [hs] at h
    simp only at h
    have hd : d ∈ aa.dims := by
      apply Classical.byContradiction
      intro hn
      simp [AxisArray.selIndexers, AxisArray.getAxis, hn] at hs
    simp only [AxisArray.selIndexers, AxisArray.getAxis, hd, not_true, if_false, hax, Option.getD_some,
      Except.ok.injEq, Option.map_none] at hs
    subst hs
    obtain ⟨l, e1, e2, e3, e4⟩ := C44_coordinates_partial hwf (by simp) h (List.mem_singleton.2 rfl) (Or.inl rfl) hax
    obtain ⟨-, -, -, sel, f1, f2, f3, f4⟩ := C44_data_aligned hwf (by simp) h
    obtain ⟨l2, g1, -, a, c, g3⟩ := indices_pos (n := aa.size d)
      (s := ⟨start.map (fun v => rint ((v - o) / g)), stop.map (fun v => rint ((v - o) / g)), none⟩)
      (by simp)
    have hc : out.size d = c := by rw [e2, e3, g3]; simp
    have hl : ∀ j, j < c → l[j]? = some (a + j) := by
      intro j hj
      rw [e3, g3]
      simp [hj]
    have hco : ∀ i, aa.coordAt d i = (i : Rat) * g + o := by
      intro i; simp [AxisArray.coordAt, hax]
    have hnn : ∀ x, o ≤ x → 0 ≤ rint ((x - o) / g) := by
      intro x hx
      have h1 : 0 ≤ (x - o) / g := by
        rw [Rat.div_def]
        exact Rat.mul_nonneg (by grind) (Rat.le_of_lt (Rat.inv_pos.2 hg))
      have h2 := (hr ((x - o) / g)).1
      have h3 : (-1 : Rat) < ((rint ((x - o) / g) : Int) : Rat) := by grind
      have h4 : ((-1 : Int) : Rat) < ((rint ((x - o) / g) : Int) : Rat) := by simpa using h3
      have h5 := Rat.intCast_lt_intCast.1 h4
      omega
    have hmem : ∀ i, i < aa.size d → ((a ≤ i ∧ i < a + c) ↔
        (∀ x, start = some x → rint ((x - o) / g) ≤ (i : Int)) ∧ (∀ y, stop = some y → (i : Int) < rint ((y - o) / g))) := by
      intro i hi
      have : i ∈ List.range' a c ↔ i ∈ between (aa.size d) ⟨start.map (fun v => rint ((v - o) / g)),
          stop.map (fun v => rint ((v - o) / g)), none⟩ := by rw [g3]
      rw [List.mem_range'_1] at this
      rw [this]
      simp only [between, Option.getD_none, Int.zero_lt_one, if_true, List.mem_filter, List.mem_range, hi, true_and,
        decide_eq_true_eq, Option.map_eq_some_iff, forall_exists_index, and_imp]
      constructor
      · rintro ⟨k1, k2⟩
        refine ⟨?_, ?_⟩
        · intro x hx
          have := k1 _ x hx rfl
          have h0 := hnn x (hstart x hx)
          simp only [pos] at this
          rw [if_neg (by omega)] at this
          exact this
        · intro y hy
          have := k2 _ y hy rfl
          have h0 := hnn y (hstop y hy)
          simp only [pos] at this
          rw [if_neg (by omega)] at this
          exact this
      · rintro ⟨k1, k2⟩
        refine ⟨?_, ?_⟩
        · rintro _ x hx rfl
          have h0 := hnn x (hstart x hx)
          simp only [pos]
          rw [if_neg (by omega)]
          exact k1 x hx
        · rintro _ y hy rfl
          have h0 := hnn y (hstop y hy)
          simp only [pos]
          rw [if_neg (by omega)]
          exact k2 y hy
    have hdiv : ∀ x : Rat, (x - o) / g * g = x - o := by
      intro x
      rw [Rat.div_mul_cancel (by grind)]
    refine ⟨a, ?_, ?_, ?_⟩
    · intro j hj
      rw [hc] at hj
      refine ⟨?_, e4 j _ (hl j hj)⟩
      have hm : a + j ∈ between (aa.size d) ⟨start.map (fun v => rint ((v - o) / g)),
          stop.map (fun v => rint ((v - o) / g)), none⟩ := by
        rw [g3, List.mem_range'_1]; omega
      exact mem_between hm
    · intro f hf
      obtain ⟨gf, h1, h2, h3⟩ := f4 f hf
      rw [h2]
      simp only [AxisArray.at]
      congr 1
      apply List.map_congr_left
      intro d' hd'
      have := h3 d' hd'
      by_cases hdd : d' = d
      · subst hdd
        obtain ⟨l3, k1, k2⟩ := f2 d' _ (List.mem_singleton.2 rfl)
        rw [k1] at this
        simp only [Indexer.select, e1, Except.ok.injEq] at k2
        subst k2
        simp only at this
        have hlt : f d' < c := by
          have hod : out.dims = aa.dims := (C44_data_aligned hwf (by simp) h).1
          have := hf d' (by rw [hod]; exact hd')
          omega
        rw [hl _ hlt] at this
        simp only [Option.some.injEq] at this
        simp [setDim, this]
      · have hn : sel d' = none := (f1 d').2 (by simpa using hdd)
        rw [hn] at this
        simp only at this
        simp [setDim, hdd, this]
    · intro i hi
      rw [hc]
      refine ⟨?_, ?_⟩
      · intro k1 k2
        rw [hmem i hi]
        refine ⟨?_, ?_⟩
        · intro x hx
          have h1 := k1 x hx
          rw [hco] at h1
          have h2 := (hr ((x - o) / g)).2
          apply Classical.byContradiction
          intro hn
          have h3 : (i : Int) + 1 ≤ rint ((x - o) / g) := by omega
          have h4 : (((i : Int) + 1 : Int) : Rat) ≤ ((rint ((x - o) / g) : Int) : Rat) := Rat.intCast_le_intCast.2 h3
          have h5 : (i : Rat) + 1 ≤ (x - o) / g + 1/2 := by
            rw [Rat.intCast_add] at h4
            simp only [Rat.intCast_natCast] at h4
            exact Rat.le_trans h4 h2
          have h6 := Rat.mul_le_mul_of_nonneg_right h5 (Rat.le_of_lt hg)
          have h7 := hdiv x
          grind
        · intro y hy
          have h1 := k2 y hy
          rw [hco] at h1
          have h2 := (hr ((y - o) / g)).1
          apply Classical.byContradiction
          intro hn
          have h3 : rint ((y - o) / g) ≤ (i : Int) := by omega
          have h4 : ((rint ((y - o) / g) : Int) : Rat) ≤ (((i : Int)) : Rat) := Rat.intCast_le_intCast.2 h3
          have h5 : (y - o) / g - 1/2 ≤ (i : Rat) := by
            simp only [Rat.intCast_natCast] at h4
            exact Rat.le_trans h2 h4
          have h6 := Rat.mul_le_mul_of_nonneg_right h5 (Rat.le_of_lt hg)
          have h7 := hdiv y
          grind
      · intro hm
        rw [hmem i hi] at hm
        refine ⟨?_, ?_⟩
        · intro x hx
          rw [hco]
          have h1 := hm.1 x hx
          have h2 := (hr ((x - o) / g)).1
          have h4 : ((rint ((x - o) / g) : Int) : Rat) ≤ (((i : Int)) : Rat) := Rat.intCast_le_intCast.2 h1
          have h5 : (x - o) / g - 1/2 ≤ (i : Rat) := by
            simp only [Rat.intCast_natCast] at h4
            exact Rat.le_trans h2 h4
          have h6 := Rat.mul_le_mul_of_nonneg_right h5 (Rat.le_of_lt hg)
          have h7 := hdiv x
          grind
        · intro y hy
          rw [hco]
          have h1 := hm.2 y hy
          have h2 := (hr ((y - o) / g)).2
          have h3 : (i : Int) + 1 ≤ rint ((y - o) / g) := by omega
          have h4 : (((i : Int) + 1 : Int) : Rat) ≤ ((rint ((y - o) / g) : Int) : Rat) := Rat.intCast_le_intCast.2 h3
          have h5 : (i : Rat) + 1 ≤ (y - o) / g + 1/2 := by
            rw [Rat.intCast_add] at h4
            simp only [Rat.intCast_natCast] at h4
            exact Rat.le_trans h4 h2
          have h6 := Rat.mul_le_mul_of_nonneg_right h5 (Rat.le_of_lt hg)
          have h7 := hdiv y
          grind

theorem exists_ok {β : Type} {x : Except Err β} {p : β → Prop} [∀ y, Decidable (p y)]
    (h : (match x with | .ok y => decide (p y) | .error _ => false) = true) : ∃ y, x = .ok y ∧ p y := by
  cases x with
  | error e => cases h
  | ok y => exact ⟨y, rfl, of_decide_eq_true h⟩

/-- Rounding to the nearest integer, ties upwards. -/
def roundUp (x : Rat) : Int := (x + 1/2).floor

/-- Samples at 3, 3.5, 4, 4.5: `sel(time=slice(3.5, 4.5))` gives those at 3.5 and 4. -/
example : ∃ out, demoAA.sel roundUp roundUp [("time", ⟨some (7/2), some (9/2), none⟩)] = .ok out ∧
    out.size "time" = 2 ∧ out.coordAt "time" 0 = 7/2 ∧ out.coordAt "time" 1 = 4 :=
  exists_ok (by decide +kernel)

/-- **C53**, success: a range as in `C53_sel_partial` in which at least one element lies is not refused, and names,
attributes, key, the other lengths and the other axes are those of the original; a dimension that does not exist or has
a coordinate axis is refused. -/
theorem C53_succeeds {aa : AxisArray α Rat A} (hwf : aa.WF) {rint trunc : Rat → Int}
    (hr : ∀ x : Rat, x - 1/2 ≤ (rint x : Rat) ∧ (rint x : Rat) ≤ x + 1/2) {d : String} {start stop : Option Rat} :
    (∀ u g o, 0 < g → d ∈ aa.dims → aa.axes.get? d = some (.linear u g o) →
      (∀ x, start = some x → o ≤ x) → (∀ y, stop = some y → o ≤ y) →
      (∃ i, i < aa.size d ∧ (∀ x, start = some x → x - g / 2 < aa.coordAt d i) ∧
        (∀ y, stop = some y → aa.coordAt d i < y - g / 2)) →
      ∃ out, aa.sel rint trunc [(d, ⟨start, stop, none⟩)] = .ok out ∧ out.dims = aa.dims ∧ out.attrs = aa.attrs ∧
        out.key = aa.key ∧ ∀ d' ∈ aa.dims, d' ≠ d → out.size d' = aa.size d' ∧ out.axes.get? d' = aa.axes.get? d') ∧
    (d ∉ aa.dims ∨ (∃ u v ds, aa.axes.get? d = some (.coord u v ds)) →
      aa.sel rint trunc [(d, ⟨start, stop, none⟩)] = .error .valueError) := by
  constructor
  · intro u g o hg hd hax hstart hstop ⟨i, hi, k1, k2⟩
    have hsx : aa.sel rint trunc [(d, ⟨start, stop, none⟩)] =
        aa.isel [(d, .slice ⟨start.map (fun v => rint ((v - o) / g)), stop.map (fun v => rint ((v - o) / g)), none⟩)] := by
      simp [AxisArray.sel, AxisArray.selIndexers, AxisArray.getAxis, hd, hax]
    have hco : aa.coordAt d i = (i : Rat) * g + o := by simp [AxisArray.coordAt, hax]
    have hdiv : ∀ x : Rat, (x - o) / g * g = x - o := by
      intro x
      rw [Rat.div_mul_cancel (by grind)]
    have hnn : ∀ x, o ≤ x → 0 ≤ rint ((x - o) / g) := by
      intro x hx
      have h1 : 0 ≤ (x - o) / g := by
        rw [Rat.div_def]
        exact Rat.mul_nonneg (by grind) (Rat.le_of_lt (Rat.inv_pos.2 hg))
      have h2 := (hr ((x - o) / g)).1
      have h3 : (-1 : Rat) < ((rint ((x - o) / g) : Int) : Rat) := by grind
      have h4 : ((-1 : Int) : Rat) < ((rint ((x - o) / g) : Int) : Rat) := by simpa using h3
      have h5 := Rat.intCast_lt_intCast.1 h4
      omega
    obtain ⟨l, g1, g2, a, c, g3⟩ := indices_pos (n := aa.size d)
      (s := ⟨start.map (fun v => rint ((v - o) / g)), stop.map (fun v => rint ((v - o) / g)), none⟩)
      (by simp)
    have hmem : i ∈ between (aa.size d) ⟨start.map (fun v => rint ((v - o) / g)),
          stop.map (fun v => rint ((v - o) / g)), none⟩ := by
      simp only [between, Option.getD_none, Int.zero_lt_one, if_true, List.mem_filter, List.mem_range, hi, true_and,
        decide_eq_true_eq, Option.map_eq_some_iff, forall_exists_index, and_imp]
      refine ⟨?_, ?_⟩
      · rintro _ x hx rfl
        have h0 := hnn x (hstart x hx)
        simp only [pos]
        rw [if_neg (by omega)]
        have h1 := k1 x hx
        rw [hco] at h1
        have h2 := (hr ((x - o) / g)).2
        apply Classical.byContradiction
        intro hn
        have h3 : (i : Int) + 1 ≤ rint ((x - o) / g) := by omega
        have h4 : (((i : Int) + 1 : Int) : Rat) ≤ ((rint ((x - o) / g) : Int) : Rat) := Rat.intCast_le_intCast.2 h3
        have h5 : (i : Rat) + 1 ≤ (x - o) / g + 1/2 := by
          rw [Rat.intCast_add] at h4
          simp only [Rat.intCast_natCast] at h4
          exact Rat.le_trans h4 h2
        have h6 := Rat.mul_le_mul_of_nonneg_right h5 (Rat.le_of_lt hg)
        have h7 := hdiv x
        grind
      · rintro _ y hy rfl
        have h0 := hnn y (hstop y hy)
        simp only [pos]
        rw [if_neg (by omega)]
        have h1 := k2 y hy
        rw [hco] at h1
        have h2 := (hr ((y - o) / g)).1
        apply Classical.byContradiction
        intro hn
        have h3 : rint ((y - o) / g) ≤ (i : Int) := by omega
        have h4 : ((rint ((y - o) / g) : Int) : Rat) ≤ (((i : Int)) : Rat) := Rat.intCast_le_intCast.2 h3
        have h5 : (y - o) / g - 1/2 ≤ (i : Rat) := by
          simp only [Rat.intCast_natCast] at h4
          exact Rat.le_trans h2 h4
        have h6 := Rat.mul_le_mul_of_nonneg_right h5 (Rat.le_of_lt hg)
        have h7 := hdiv y
        grind
    have hlb : l = between (aa.size d) ⟨start.map (fun v => rint ((v - o) / g)),
          stop.map (fun v => rint ((v - o) / g)), none⟩ := by
      apply List.ext_getElem?
      intro j
      rw [g2]
      simp
    obtain ⟨out, ho⟩ := C44_succeeds hwf hd (by intro u v ds e; rw [hax] at e; cases e)
      (ix := .slice ⟨start.map (fun v => rint ((v - o) / g)), stop.map (fun v => rint ((v - o) / g)), none⟩) (l := l)
      (by simp [Indexer.select, g1]) (by intro e; rw [← hlb, e] at hmem; cases hmem)
    obtain ⟨f1, f2, f3, sel, f4, -, f5, -⟩ := C44_data_aligned hwf (by simp) ho
    obtain ⟨sel2, e1, -, e3, -⟩ := AxisArray.isel_ok hwf (by simp) ho
    refine ⟨out, by rw [hsx, ho], f1, f2, f3, fun d' hd' hne => ⟨?_, ?_⟩⟩
    · rw [f5 d' hd', (f4 d').2 (by simpa using hne)]
    · have := e3.axes d'
      rw [AxisArray.lookup_none_iff.2 (by rw [e1]; simpa using hne)] at this
      simpa using this
  · rintro (hd | ⟨u, v, ds, hc⟩)
    · simp [AxisArray.sel, AxisArray.selIndexers, AxisArray.getAxis, hd]
    · by_cases hd : d ∈ aa.dims
      · simp [AxisArray.sel, AxisArray.selIndexers, AxisArray.getAxis, hd, hc]
      · simp [AxisArray.sel, AxisArray.selIndexers, AxisArray.getAxis, hd]

/-- **C53** fails for a range that begins before the axis: `sel(time=slice(2.5, None))` should keep all samples,
but gives only the last one, because the index -1 counts from the end. -/
theorem C53_negation_before_start : ∃ out, demoAA.sel roundUp roundUp [("time", ⟨some (5/2), none, none⟩)] = .ok out ∧
    (∀ i, i < 4 → 5/2 < demoAA.coordAt "time" i) ∧ out.size "time" = 1 ∧ out.coordAt "time" 0 = 9/2 :=
  exists_ok (by decide +kernel)

end Ez.AA
