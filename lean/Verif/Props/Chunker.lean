import Verif.Props.AxisOps
import Std.Data.String.ToNat

/-!
# C43: cutting an array into chunks
-/

set_option linter.unusedSimpArgs false
set_option linter.unusedSectionVars false

namespace Ez.AA
variable {α R A : Type} [Add R] [Sub R] [Mul R] [Div R] [NatCast R] [Inhabited A]

/-- The dimension that a possibly negative `axis` denotes. -/
def normAxis (ndim : Nat) (axis : Int) : Nat := (if axis < 0 then (ndim : Int) + axis else axis).toNat

/-- The number of entries of chunk `k`. -/
def chunkSize (n len k : Nat) : Nat := min len (n - k * len)

theorem d_inj {i j : Nat} (h : "d" ++ toString i = "d" ++ toString j) : i = j := by
  have h1 : (toString i : String) = toString j := by
    have := congrArg String.toList h
    simp only [String.toList_append] at this
    exact String.toList_inj.1 (List.append_cancel_left this)
  exact Nat.repr_inj.1 h1

theorem d_ne_time (i : Nat) : "d" ++ toString i ≠ "time" := by
  intro h
  have := congrArg String.toList h
  rw [String.toList_append] at this
  have h2 := congrArg List.head? this
  simp at h2

theorem chunkDims_nodup (n a : Nat) : (chunkDims n a).Nodup := by
  unfold chunkDims
  rw [List.nodup_iff_pairwise_ne, List.pairwise_iff_getElem]
  intro i j hi hj hij
  simp only [List.length_set, List.length_map, List.length_range] at hi hj
  rw [List.getElem_set, List.getElem_set]
  by_cases h1 : a = i
  · by_cases h2 : a = j
    · omega
    · simp only [h1, if_true, List.getElem_map, List.getElem_range]
      rw [if_neg (by omega)]
      exact fun e => d_ne_time j e.symm
  · rw [if_neg h1]
    by_cases h2 : a = j
    · rw [if_pos h2]
      simp only [List.getElem_map, List.getElem_range]
      exact d_ne_time i
    · rw [if_neg h2]
      simp only [List.getElem_map, List.getElem_range]
      intro e
      have := d_inj e
      omega

theorem chunkDims_length (n a : Nat) : (chunkDims n a).length = n := by simp [chunkDims]

theorem chunkDims_axis {n a : Nat} (h : a < n) : (chunkDims n a)[a]? = some "time" := by
  simp [chunkDims, h]

theorem chunkDims_idxOf {n a : Nat} (h : a < n) : (chunkDims n a).idxOf "time" = a := by
  have h1 : a < (chunkDims n a).length := by rw [chunkDims_length]; exact h
  have h2 := (List.getElem?_eq_some_iff.1 (chunkDims_axis h)).2
  have := (chunkDims_nodup n a).idxOf_getElem a h1
  rw [h2] at this
  exact this

theorem chunkDims_mem {n a : Nat} (h : a < n) : "time" ∈ chunkDims n a :=
  List.mem_of_getElem? (chunkDims_axis h)

/-- The positions of chunk `k`. -/
theorem chunk_indices (n len k : Nat) :
    (⟨some ((k : Int) * len), some (((k : Int) + 1) * len), none⟩ : PySlice).indices n =
      some (List.range' (k * len) (chunkSize n len k)) := by
  obtain ⟨l, h1, h2, -⟩ := indices_pos (n := n) (s := ⟨some ((k : Int) * len), some (((k : Int) + 1) * len), none⟩)
    (by simp)
  rw [h1]
  congr 1
  have hl : l = between n ⟨some ((k : Int) * len), some (((k : Int) + 1) * len), none⟩ := by
    apply List.ext_getElem?
    intro i
    rw [h2]
    simp
  rw [hl]
  simp only [between, Option.getD_none, Int.zero_lt_one, if_true, Option.some.injEq, forall_eq']
  have hk : ((k : Int) * len) = ((k * len : Nat) : Int) := by simp
  have hk1 : (((k : Int) + 1) * len) = ((k * len + len : Nat) : Int) := by
    rw [Int.add_mul]; simp
  rw [hk, hk1]
  rw [filter_interval n (k * len) (min (k * len + len) n) _ (Nat.min_le_right _ _)]
  · congr 1
    unfold chunkSize
    omega
  · intro i hi
    have hp : ∀ x : Nat, pos n (x : Int) = (x : Int) := by
      intro x
      unfold pos
      rw [if_neg (by omega)]
    rw [decide_eq_true_eq, hp, hp]
    omega

theorem chunkSize_bounds {n len k : Nat} (hl : 0 < len) (hk : k < (n + len - 1) / len) :
    0 < chunkSize n len k ∧ chunkSize n len k ≤ len ∧ (k + 1 < (n + len - 1) / len → chunkSize n len k = len) := by
  have h1 : k * len < n := by
    have := (Nat.le_div_iff_mul_le hl).1 (show k + 1 ≤ (n + len - 1) / len from hk)
    rw [Nat.add_mul] at this
    omega
  refine ⟨by unfold chunkSize; omega, by unfold chunkSize; omega, ?_⟩
  intro hk2
  have := (Nat.le_div_iff_mul_le hl).1 (show k + 1 + 1 ≤ (n + len - 1) / len from hk2)
  rw [Nat.add_mul, Nat.add_mul] at this
  unfold chunkSize
  omega

/-- Chunk `k`. -/
def chunk (data : NArr α) (len ax : Nat) (fs tzero : R) (k : Nat) : AxisArray α R A :=
  { data := data.take (List.range' (k * len) (chunkSize (data.shape.getD ax 0) len k)) ax
    dims := chunkDims data.shape.length ax
    axes := [("time", timeAxis fs ((k : R) * (len : R) / fs + tzero))], attrs := default, key := "" }

theorem chunk_wf (data : NArr α) (len ax : Nat) (fs tzero : R) (k : Nat) :
    (chunk data len ax fs tzero k : AxisArray α R A).WF :=
  ⟨by simp [chunk, NArr.take, chunkDims_length], chunkDims_nodup _ _⟩

theorem normAxis_lt {ndim : Nat} {axis : Int} (h1 : -(ndim : Int) ≤ axis) (h2 : axis < ndim) :
    normAxis ndim axis < ndim := by
  unfold normAxis
  split <;> omega

theorem chunker_eq {data : NArr α} {len : Nat} {axis : Int} {fs tzero : R} (h1 : -(data.shape.length : Int) ≤ axis)
    (h2 : axis < data.shape.length) :
    arrayChunker (A := A) data len axis fs tzero =
      if (data.shape.getD (normAxis data.shape.length axis) 0 + len - 1) / len = 0 then .error .indexError
      else .ok ((List.range ((data.shape.getD (normAxis data.shape.length axis) 0 + len - 1) / len)).map
        (chunk data len (normAxis data.shape.length axis) fs tzero)) := by
  unfold arrayChunker
  rw [if_neg (by omega)]
  simp only
  have hn : (if axis < 0 then (data.shape.length : Int) + axis else axis).toNat = normAxis data.shape.length axis := rfl
  rw [hn]
  by_cases h0 : (data.shape.getD (normAxis data.shape.length axis) 0 + len - 1) / len = 0
  · rw [if_pos h0, if_pos h0]
  · rw [if_neg h0, if_neg h0]
    apply mapM_ok_of
    intro k _
    have hs : sliceAlongAxis data ⟨some ((k : Int) * len), some (((k : Int) + 1) * len), none⟩ axis =
        .ok (data.take (List.range' (k * len) (chunkSize (data.shape.getD (normAxis data.shape.length axis) 0) len k))
          (normAxis data.shape.length axis)) := by
      unfold sliceAlongAxis
      rw [if_neg (by omega)]
      simp only
      rw [hn, chunk_indices]
    rw [hs]
    exact AxisArray.postInit_of_wf (chunk_wf data len _ fs tzero k)

theorem chunk_size {data : NArr α} {len ax : Nat} {fs tzero : R} {k : Nat} (hax : ax < data.shape.length) :
    (chunk data len ax fs tzero k : AxisArray α R A).size "time" = chunkSize (data.shape.getD ax 0) len k := by
  simp only [AxisArray.size, chunk, chunkDims_idxOf hax, NArr.take, List.length_range']
  simp [List.getD_eq_getElem?_getD, hax]

theorem chunk_shape {data : NArr α} {len ax : Nat} {fs tzero : R} {k : Nat} :
    (chunk data len ax fs tzero k : AxisArray α R A).data.shape =
      data.shape.set ax (chunkSize (data.shape.getD ax 0) len k) := by
  simp [chunk, NArr.take]

theorem chunk_at {data : NArr α} {len ax : Nat} {fs tzero : R} {k : Nat} (hax : ax < data.shape.length)
    {f : String → Nat} (hf : f "time" < chunkSize (data.shape.getD ax 0) len k) :
    (chunk data len ax fs tzero k : AxisArray α R A).at f =
      data.get (((chunkDims data.shape.length ax).map f).set ax (k * len + f "time")) := by
  have h1 : ((chunkDims data.shape.length ax).map f).getD ax 0 = f "time" := by
    have := getD_map_idxOf (chunkDims_mem hax) f
    rw [chunkDims_idxOf hax] at this
    exact this
  simp only [AxisArray.at, chunk, NArr.take, h1]
  congr 2
  rw [List.getD_eq_getElem?_getD, List.getElem?_range' hf]
  simp

theorem total_chunks {data : NArr α} {len ax : Nat} {fs tzero : R} (hax : ax < data.shape.length) (hl : 0 < len)
    (k : Nat) (hk : k < (data.shape.getD ax 0 + len - 1) / len) :
    total "time" ((List.range k).map (chunk data len ax fs tzero : Nat → AxisArray α R A)) = k * len := by
  induction k with
  | zero => simp [total]
  | succ k ih =>
    have h1 := ih (by omega)
    unfold total at h1 ⊢
    rw [List.range_succ, List.map_append, List.map_append, List.sum_append, h1]
    simp only [List.map_cons, List.map_nil, List.sum_cons, List.sum_nil, chunk_size hax]
    rw [(chunkSize_bounds hl (show k < _ by omega)).2.2 hk, Nat.add_mul]
    omega

theorem total_all {data : NArr α} {len ax : Nat} {fs tzero : R} (hax : ax < data.shape.length) (hl : 0 < len)
    (hn : 0 < data.shape.getD ax 0) :
    total "time" ((List.range ((data.shape.getD ax 0 + len - 1) / len)).map
      (chunk data len ax fs tzero : Nat → AxisArray α R A)) = data.shape.getD ax 0 := by
  have hm : 0 < (data.shape.getD ax 0 + len - 1) / len := Nat.div_pos (by omega) hl
  obtain ⟨m, hm'⟩ : ∃ m, (data.shape.getD ax 0 + len - 1) / len = m + 1 := ⟨_, (Nat.succ_pred_eq_of_pos hm).symm⟩
  have h1 := total_chunks (A := A) (fs := fs) (tzero := tzero) hax hl m (by omega)
  rw [hm']
  unfold total at h1 ⊢
  rw [List.range_succ, List.map_append, List.map_append, List.sum_append, h1]
  simp only [List.map_cons, List.map_nil, List.sum_cons, List.sum_nil, chunk_size hax]
  have h2 : (m + 1) * len ≤ data.shape.getD ax 0 + len - 1 := by
    rw [← Nat.le_div_iff_mul_le hl]; omega
  have h3 : data.shape.getD ax 0 + len - 1 < (m + 1 + 1) * len := by
    rw [← Nat.div_lt_iff_lt_mul hl]; omega
  rw [Nat.add_mul] at h2
  rw [Nat.add_mul, Nat.add_mul] at h3
  unfold chunkSize
  omega

/-- **C43**, the chunks: an array whose chunked dimension has `n ≥ 1` entries is cut into `⌈n / len⌉` chunks. Each
has the array's shape except along that dimension, which is called "time"; there it has `len` entries, only
the last chunk may have fewer, and never none. Entry `i` of chunk `k` is entry `k * len + i` of the array,
and the chunk's time axis has gain `1 / fs` and offset `k * len / fs + tzero`. An empty dimension and an
axis out of range are refused. -/
theorem C43_chunks {data : NArr α} {len : Nat} (hlen : 0 < len) (axis : Int) (fs tzero : R) :
    let ax := normAxis data.shape.length axis
    let n := data.shape.getD ax 0
    ((axis < -(data.shape.length : Int) ∨ (data.shape.length : Int) ≤ axis) →
      arrayChunker (A := A) data len axis fs tzero = .error .indexError) ∧
    (-(data.shape.length : Int) ≤ axis → axis < data.shape.length →
      (n = 0 → arrayChunker (A := A) data len axis fs tzero = .error .indexError) ∧
      (0 < n → ∃ chunks, arrayChunker (A := A) data len axis fs tzero = .ok chunks ∧
        chunks.length = (n + len - 1) / len ∧
        ∀ (k : Nat) c, chunks[k]? = some c →
          c.WF ∧ c.dims[ax]? = some "time" ∧ c.data.shape = data.shape.set ax (c.size "time") ∧
          0 < c.size "time" ∧ c.size "time" ≤ len ∧ (k + 1 < chunks.length → c.size "time" = len) ∧
          c.axes = [("time", .linear "s" (((1 : Nat) : R) / fs) ((k : R) * (len : R) / fs + tzero))] ∧
          ∀ f, f "time" < c.size "time" →
            k * len + f "time" < n ∧ c.at f = data.get ((c.dims.map f).set ax (k * len + f "time")))) := by
  intro ax n
  refine ⟨?_, ?_⟩
  · intro h
    unfold arrayChunker
    rw [if_pos h]
  · intro h1 h2
    have hax : ax < data.shape.length := normAxis_lt h1 h2
    rw [chunker_eq h1 h2]
    refine ⟨?_, ?_⟩
    · intro h
      have : (data.shape.getD (normAxis data.shape.length axis) 0 + len - 1) / len = 0 := by
        show (n + len - 1) / len = 0
        rw [h]
        exact Nat.div_eq_of_lt (by omega)
      rw [if_pos this]
    · intro h
      have hpos : 0 < (n + len - 1) / len := Nat.div_pos (by omega) hlen
      have hne : ¬ (data.shape.getD (normAxis data.shape.length axis) 0 + len - 1) / len = 0 := by
        show ¬ (n + len - 1) / len = 0
        omega
      rw [if_neg hne]
      refine ⟨_, rfl, by simp [n, ax], ?_⟩
      intro k c hk
      rw [List.getElem?_map] at hk
      obtain ⟨k', hk', rfl⟩ := Option.map_eq_some_iff.1 hk
      obtain ⟨hk1, rfl⟩ := List.getElem?_eq_some_iff.1 hk'
      simp only [List.length_range] at hk1
      simp only [List.getElem_range]
      obtain ⟨b1, b2, b3⟩ := chunkSize_bounds hlen hk1
      have hs : (chunk data len ax fs tzero k : AxisArray α R A).size "time" = chunkSize n len k := chunk_size hax
      refine ⟨chunk_wf _ _ _ _ _ _, chunkDims_axis hax, ?_, ?_, ?_, ?_, rfl, ?_⟩
      · rw [hs]; exact chunk_shape
      · rw [hs]; exact b1
      · rw [hs]; exact b2
      · intro hk2
        rw [hs]
        exact b3 (by simpa using hk2)
      · intro f hf
        rw [hs] at hf
        refine ⟨?_, chunk_at hax hf⟩
        have : f "time" < n - k * len := by unfold chunkSize at hf; omega
        omega

theorem map_getD_idxOf {dims : List String} (hn : dims.Nodup) {idx : List Nat} (hl : idx.length = dims.length) :
    dims.map (fun d => idx.getD (dims.idxOf d) 0) = idx := by
  apply List.ext_getElem
  · simp [hl]
  · intro i h1 h2
    simp only [List.length_map] at h1
    simp only [List.getElem_map]
    rw [hn.idxOf_getElem i h1]
    simp [List.getD_eq_getElem?_getD, h2]

theorem InB_length : ∀ {idx shape : List Nat}, InB idx shape → idx.length = shape.length
  | [], [], _ => rfl
  | _ :: is, _ :: ns, h => by simp [InB_length h.2]
  | [], _ :: _, h => h.elim
  | _ :: _, [], h => h.elim

theorem InB_getD : ∀ {idx shape : List Nat} (a : Nat), InB idx shape → a < shape.length →
    idx.getD a 0 < shape.getD a 0
  | [], [], _, _, h => by simp at h
  | _ :: _, _ :: _, 0, h, _ => h.1
  | _ :: is, _ :: ns, a + 1, h, hl => by
    have := InB_getD a h.2 (by simpa using hl)
    simpa [List.getD_eq_getElem?_getD] using this
  | [], _ :: _, _, h, _ => h.elim
  | _ :: _, [], _, h, _ => h.elim

/-- **C43**, nothing is lost: concatenating the chunks along "time" gives back the array, element by element, with
one time axis that starts at chunk 0's offset. -/
theorem C43_concatenation {data : NArr α} {len : Nat} (hlen : 0 < len) {axis : Int} {fs tzero : R}
    {chunks : List (AxisArray α R A)} (h : arrayChunker data len axis fs tzero = .ok chunks) :
    ∃ out, AxisArray.concatenate "time" none none chunks = .ok out ∧ out.data.shape = data.shape ∧
      (∀ idx, InB idx data.shape → out.data.get idx = data.get idx) ∧
      out.axes.get? "time" =
        some (.linear "s" (((1 : Nat) : R) / fs) (((0 : Nat) : R) * (len : R) / fs + tzero)) := by
  have hr : ¬ (axis < -(data.shape.length : Int) ∨ (data.shape.length : Int) ≤ axis) := by
    intro hb
    rw [arrayChunker, if_pos hb] at h
    cases h
  have h1 : -(data.shape.length : Int) ≤ axis := by omega
  have h2 : axis < data.shape.length := by omega
  have hax := normAxis_lt h1 h2
  rw [chunker_eq h1 h2] at h
  generalize hA : normAxis data.shape.length axis = ax at h hax
  split at h
  · cases h
  · rename_i hm
    have hm0 : 0 < (data.shape.getD ax 0 + len - 1) / len := Nat.pos_of_ne_zero hm
    have hn : 0 < data.shape.getD ax 0 := by
      apply Classical.byContradiction
      intro h0
      have : data.shape.getD ax 0 = 0 := by omega
      rw [this, Nat.div_eq_of_lt (by omega)] at hm
      exact hm rfl
    simp only [Except.ok.injEq] at h
    have hmem : ∀ c ∈ chunks, ∃ k, k < (data.shape.getD ax 0 + len - 1) / len ∧ c = chunk data len ax fs tzero k := by
      intro c hc
      rw [← h] at hc
      obtain ⟨k, hk, rfl⟩ := List.mem_map.1 hc
      exact ⟨k, List.mem_range.1 hk, rfl⟩
    have hwf : ∀ c ∈ chunks, c.WF := by
      intro c hc
      obtain ⟨k, -, rfl⟩ := hmem c hc
      exact chunk_wf _ _ _ _ _ _
    have hdm : ∀ c ∈ chunks, "time" ∈ c.dims := by
      intro c hc
      obtain ⟨k, -, rfl⟩ := hmem c hc
      exact chunkDims_mem hax
    obtain ⟨m, hm'⟩ : ∃ m, (data.shape.getD ax 0 + len - 1) / len = m + 1 :=
      ⟨_, (Nat.succ_pred_eq_of_pos hm0).symm⟩
    have hcons : chunks = chunk data len ax fs tzero 0 ::
        ((List.range m).map (fun i => chunk data len ax fs tzero (i + 1))) := by
      rw [← h, hm', List.range_succ_eq_map, List.map_cons, List.map_map]
      rfl
    have htk : taken none chunks = chunks := by
      simp only [taken]
      rw [List.filter_eq_self.2]
      intro a _; simp
    obtain ⟨out, ho⟩ := C56_concatenate_succeeds (axis := none) (fk := none) (aas := chunks) (dim := "time")
      (aa := (chunk data len ax fs tzero 0 : AxisArray α R A))
      (rest := (List.range m).map (fun i => chunk data len ax fs tzero (i + 1)))
      (htk.trans hcons) (chunk_wf _ _ _ _ _ _) (chunkDims_mem hax)
      (by intro b hb; obtain ⟨k, -, rfl⟩ := List.mem_map.1 hb; rfl)
      (by intro b hb; obtain ⟨k, -, rfl⟩ := List.mem_map.1 hb; exact chunk_wf _ _ _ _ _ _)
      (by
        intro b hb d hd hne
        obtain ⟨k, -, rfl⟩ := List.mem_map.1 hb
        have hi : (chunkDims data.shape.length ax).idxOf d ≠ ax := by
          intro e
          apply hne
          exact idxOf_inj hd (chunkDims_mem hax) (by
            show (chunkDims data.shape.length ax).idxOf d = (chunkDims data.shape.length ax).idxOf "time"
            rw [e, chunkDims_idxOf hax])
        simp only [AxisArray.size, chunk, NArr.take, List.getD_eq_getElem?_getD]
        rw [List.getElem?_set_ne (Ne.symm hi), List.getElem?_set_ne (Ne.symm hi)])
      (by intro _ u v ds e; simp [chunk, PyDict.get?_cons, timeAxis] at e)
    obtain ⟨first, rest, c1, c2, c3, c4, c5, c6, c7, c8, c9⟩ := C56_concatenate hwf ho hdm
    rw [htk] at c1 c4 c5 c9
    have hfirst : first = chunk data len ax fs tzero 0 := by
      rw [hcons] at c1
      exact (List.cons.inj c1).1.symm
    have hod : out.dims = chunkDims data.shape.length ax := by
      have := (c4 (chunk data len ax fs tzero 0) (by rw [hcons]; simp)).1
      exact this.symm
    have hsz : out.size "time" = data.shape.getD ax 0 := by
      rw [c5, ← h]; exact total_all hax hlen hn
    have howf : out.WF := (concatenate_ok ho).choose_spec.choose_spec.choose_spec.choose_spec.choose_spec.2.2.2.2.1
    refine ⟨out, ho, ?_, ?_, ?_⟩
    · apply List.ext_getElem?
      intro i
      by_cases hi : i < data.shape.length
      · have hi1 : i < (chunkDims data.shape.length ax).length := by rw [chunkDims_length]; exact hi
        have hi2 : i < out.data.shape.length := by rw [← howf.len, hod]; exact hi1
        have hidx : (chunkDims data.shape.length ax).idxOf (chunkDims data.shape.length ax)[i] = i :=
          (chunkDims_nodup _ _).idxOf_getElem i hi1
        by_cases hia : i = ax
        · subst hia
          simp only [AxisArray.size, hod, chunkDims_idxOf hax] at hsz
          simpa [List.getD_eq_getElem?_getD, hi, hi2] using hsz
        · have := (c4 (chunk data len ax fs tzero 0) (by rw [hcons]; simp)).2 (chunkDims data.shape.length ax)[i]
            (by rw [hod]; exact List.getElem_mem hi1) (by
              intro e
              rw [e, chunkDims_idxOf hax] at hidx
              exact hia hidx.symm)
          simp only [AxisArray.size, hod] at this
          have hdd : (chunk data len ax fs tzero 0 : AxisArray α R A).dims = chunkDims data.shape.length ax := rfl
          rw [hdd, hidx, chunk_shape, List.getD_eq_getElem?_getD, List.getD_eq_getElem?_getD,
            List.getElem?_set_ne (Ne.symm hia)] at this
          simpa [hi, hi2] using this.symm
      · have hol : out.data.shape.length = data.shape.length := by rw [← howf.len, hod, chunkDims_length]
        rw [List.getElem?_eq_none (by omega), List.getElem?_eq_none (by omega)]
    · intro idx hidx
      have hil := InB_length hidx
      have hlt := InB_getD ax hidx hax
      have hf : (chunkDims data.shape.length ax).map (fun d => idx.getD ((chunkDims data.shape.length ax).idxOf d) 0) = idx :=
        map_getD_idxOf (chunkDims_nodup _ _) (by rw [chunkDims_length]; exact hil)
      generalize hfd : (fun d => idx.getD ((chunkDims data.shape.length ax).idxOf d) 0) = f at hf
      have hft : f "time" = idx.getD ax 0 := by rw [← hfd]; simp only [chunkDims_idxOf hax]
      have hk : idx.getD ax 0 / len < (data.shape.getD ax 0 + len - 1) / len := by
        rw [← Nat.add_one_le_iff, Nat.le_div_iff_mul_le hlen, Nat.add_mul]
        have := Nat.div_mul_le_self (idx.getD ax 0) len
        omega
      generalize hkd : idx.getD ax 0 / len = k at hk
      have hdm' : k * len + idx.getD ax 0 % len = idx.getD ax 0 := by
        rw [← hkd, Nat.mul_comm]; exact Nat.div_add_mod _ _
      have hmod := Nat.mod_lt (idx.getD ax 0) hlen
      have hsk : idx.getD ax 0 % len < chunkSize (data.shape.getD ax 0) len k := by
        unfold chunkSize; omega
      have hsplit : chunks = (List.range k).map (chunk data len ax fs tzero) ++ chunk data len ax fs tzero k ::
          ((List.range' (k + 1) ((data.shape.getD ax 0 + len - 1) / len - (k + 1))).map (chunk data len ax fs tzero)) := by
        rw [← h, ← List.map_cons, ← List.map_append, List.range_eq_range', List.range_eq_range']
        congr 1
        rw [← List.range'_succ]
        have := @List.range'_append_1 0 k ((data.shape.getD ax 0 + len - 1) / len - (k + 1) + 1)
        rw [Nat.zero_add] at this
        rw [this]
        congr 1
        omega
      have hc9 := c9 _ _ _ hsplit (setDim f "time" (idx.getD ax 0 % len)) (by
        rw [chunk_size hax]
        simpa [setDim] using hsk)
      rw [total_chunks hax hlen k hk] at hc9
      have hv : setDim f "time" (idx.getD ax 0 % len) "time" = idx.getD ax 0 % len := by simp [setDim]
      rw [hv, hdm'] at hc9
      have hs1 : setDim (setDim f "time" (idx.getD ax 0 % len)) "time" (idx.getD ax 0) = f := by
        funext d
        unfold setDim
        by_cases hd : d = "time"
        · subst hd; simp [hft]
        · simp [hd]
      rw [hs1, chunk_at hax (by rw [hv]; exact hsk), hv, hdm'] at hc9
      have hs2 : ((chunkDims data.shape.length ax).map (setDim f "time" (idx.getD ax 0 % len))).set ax (idx.getD ax 0) =
          idx := by
        have := map_setDim (chunkDims_nodup data.shape.length ax) (chunkDims_mem hax)
          (setDim f "time" (idx.getD ax 0 % len)) (idx.getD ax 0)
        rw [chunkDims_idxOf hax, hs1, hf] at this
        exact this
      rw [hs2] at hc9
      simp only [AxisArray.at, hod, hf] at hc9
      exact hc9
    · rw [c8 rfl (by rw [hfirst]; intro u v ds e; simp [chunk, PyDict.get?_cons, timeAxis] at e), hfirst]
      simp [chunk, PyDict.get?_cons, timeAxis]

/-- **C43**, times: entry `i` of chunk `k` is dated like entry `k * len + i` of one unbroken recording that starts at
`tzero` (exact arithmetic). -/
theorem C43_times {data : NArr α} {len : Nat} {axis : Int} {fs tzero : Rat}
    {chunks : List (AxisArray α Rat A)} (h : arrayChunker data len axis fs tzero = .ok chunks) {k : Nat}
    {c : AxisArray α Rat A} (hk : chunks[k]? = some c) (i : Nat) :
    c.coordAt "time" i = ((k * len + i : Nat) : Rat) / fs + tzero := by
  have hr : ¬ (axis < -(data.shape.length : Int) ∨ (data.shape.length : Int) ≤ axis) := by
    intro hb
    rw [arrayChunker, if_pos hb] at h
    cases h
  rw [chunker_eq (by omega) (by omega)] at h
  split at h
  · cases h
  · cases h
    rw [List.getElem?_map] at hk
    obtain ⟨k', hk', rfl⟩ := Option.map_eq_some_iff.1 hk
    obtain ⟨hk1, rfl⟩ := List.getElem?_eq_some_iff.1 hk'
    simp only [List.getElem_range, AxisArray.coordAt, chunk, PyDict.get?_cons, timeAxis, if_true]
    rw [Rat.natCast_add, Rat.natCast_mul, Rat.div_def, Rat.div_def, Rat.div_def]
    grind

/-- Seven samples of two channels, chunked by three along the last dimension. -/
example : ∃ chunks, arrayChunker (A := Unit) (⟨[2, 7], fun i => i.getD 0 0 * 10 + i.getD 1 0⟩ : NArr Nat) 3 (-1)
      (2 : Rat) 1 = .ok chunks ∧
    chunks.map (fun c => c.data.shape) = [[2, 3], [2, 3], [2, 1]] ∧
    chunks.map (fun c => c.coordAt "time" 0) = [1, 5/2, 4] ∧
    chunks.map (fun c => c.data.get [1, 0]) = [10, 13, 16] :=
  exists_ok (by decide +kernel)

end Ez.AA
