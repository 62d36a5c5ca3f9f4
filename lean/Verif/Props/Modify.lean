import Verif.Model.Modify
import Verif.Spec.AxisArray
import Verif.Lemmas.Py

/-!
# C76: renaming and dropping dimensions, and keys
-/

namespace Ez
namespace AA

set_option linter.unusedSectionVars false
set_option linter.unusedSimpArgs false

variable {α R A : Type}

/-! ## Specification -/

/-- The new name of a dimension: as the map says, else the old name; `none` for a dropped one. -/
def newName (nm : PyDict String (Option String)) (d : String) : Option String :=
  match PyDict.get? nm d with
  | some n => n
  | none => some d

/-- The length of a dimension after renaming. -/
def Modified.size (m : Modified α R A) (d : String) : Nat := m.data.shape.getD (m.dims.idxOf d) 0

theorem rename_eq : @rename = @newName := by
  funext nm d
  unfold rename newName
  cases PyDict.get? nm d <;> rfl

/-! ## Proofs -/

theorem keepShape_none {ds : List String} {f : String → Option String} (h : ∀ d ∈ ds, f d ≠ none) {s : List Nat}
    (hs : ds.length = s.length) : keepShape (ds.map (fun d => (f d).isNone)) s = s := by
  induction ds generalizing s with
  | nil => cases s with
    | nil => rfl
    | cons n s => simp at hs
  | cons d ds ih => cases s with
    | nil => simp at hs
    | cons n s =>
      have := h d (by simp)
      cases hf : f d with
      | none => exact absurd hf this
      | some x => simp [keepShape, hf, ih (fun e he => h e (by simp [he])) (by simpa using hs)]

theorem keepShape_length (ds : List String) (f : String → Option String) {s : List Nat} (hs : ds.length = s.length) :
    (keepShape (ds.map (fun d => (f d).isNone)) s).length = (ds.filterMap f).length := by
  induction ds generalizing s with
  | nil => cases s <;> simp [keepShape]
  | cons d ds ih => cases s with
    | nil => simp at hs
    | cons n s => cases hf : f d <;> simp [keepShape, hf, ih (s := s) (by simpa using hs)]

theorem fill_map (ds : List String) (f : String → Option String) (g : String → Nat) :
    fill (ds.map (fun d => (f d).isNone)) ((ds.filterMap f).map g) = ds.map (fun d => ((f d).map g).getD 0) := by
  induction ds with
  | nil => rfl
  | cons d ds ih => cases hf : f d <;> simp [fill, hf, ih]

theorem idxOf_next {x d : String} {l : List String} (h : x ≠ d) : (x :: l).idxOf d = l.idxOf d + 1 := by
  have : (x == d) = false := by simp [h]
  simp [List.idxOf_cons, this]

theorem keepShape_size {ds : List String} {f : String → Option String} (hn : (ds.filterMap f).Nodup) {s : List Nat}
    (hs : ds.length = s.length) {d n : String} (hd : d ∈ ds) (hf : f d = some n) :
    (keepShape (ds.map (fun d => (f d).isNone)) s).getD ((ds.filterMap f).idxOf n) 0 = s.getD (ds.idxOf d) 0 := by
  induction ds generalizing s with
  | nil => simp at hd
  | cons x ds ih => cases s with
    | nil => simp at hs
    | cons k s =>
      by_cases hx : x = d
      · subst hx
        simp [keepShape, hf]
      · have hd' : d ∈ ds := (List.mem_cons.1 hd).resolve_left (fun e => hx e.symm)
        have hi : (x :: ds).idxOf d = ds.idxOf d + 1 := idxOf_next hx
        rw [hi, List.getD_cons_succ]
        cases hfx : f x with
        | none =>
          simp only [List.filterMap_cons, hfx] at hn ⊢
          simpa [keepShape, hfx] using ih hn (by simpa using hs) hd'
        | some m =>
          simp only [List.filterMap_cons, hfx, List.nodup_cons] at hn ⊢
          have hm : m ≠ n := by
            rintro rfl
            exact hn.1 (List.mem_filterMap.2 ⟨d, hd', hf⟩)
          have : (m :: ds.filterMap f).idxOf n = (ds.filterMap f).idxOf n + 1 := idxOf_next hm
          rw [this]
          simpa [keepShape, hfx] using ih hn.2 (by simpa using hs) hd'

theorem squeeze_iff {a : NArr α} {ds : List String} {f : String → Option String} (hn : ds.Nodup)
    (hs : ds.length = a.shape.length) : (a.squeeze (ds.map (fun d => (f d).isNone))).isSome ↔
      ∀ d ∈ ds, f d = none → a.shape.getD (ds.idxOf d) 0 = 1 := by
  have key : ∀ (ds : List String) (s : List Nat), ds.Nodup → ds.length = s.length →
      (((ds.map (fun d => (f d).isNone)).zip s).all (fun x => !x.1 || x.2 == 1) = true ↔
        ∀ d ∈ ds, f d = none → s.getD (ds.idxOf d) 0 = 1) := by
    intro ds
    induction ds with
    | nil => intro s _ h; cases s <;> simp
    | cons x ds ih =>
      intro s hn h
      cases s with
      | nil => simp at h
      | cons k s =>
        rw [List.nodup_cons] at hn
        simp only [List.map_cons, List.zip_cons_cons, List.all_cons, Bool.and_eq_true, ih s hn.2 (by simpa using h)]
        constructor
        · rintro ⟨h1, h2⟩ d hd hf
          rcases List.mem_cons.1 hd with rfl | hd'
          · simpa [hf] using h1
          · have hx : x ≠ d := by rintro rfl; exact hn.1 hd'
            have hi : (x :: ds).idxOf d = ds.idxOf d + 1 := idxOf_next hx
            rw [hi]
            exact h2 d hd' hf
        · intro h1
          refine ⟨?_, fun d hd hf => ?_⟩
          · have := h1 x (by simp)
            cases hf : f x with
            | none => simpa [hf] using this hf
            | some y => simp
          · have hx : x ≠ d := by rintro rfl; exact hn.1 hd
            have hi : (x :: ds).idxOf d = ds.idxOf d + 1 := idxOf_next hx
            have := h1 d (by simp [hd]) hf
            rw [hi] at this
            exact this
  unfold NArr.squeeze
  rw [← key ds a.shape hn hs]
  split <;> simp_all

theorem newAxes_get (nm : PyDict String (Option String)) (axes : PyDict String (Axis R)) {S : String → Prop}
    (hin : ∀ k ∈ PyDict.keys axes, S k) (hnd : (PyDict.keys axes).Nodup)
    (inj : ∀ a b n, S a → S b → newName nm a = some n → newName nm b = some n → a = b) {d n : String} (hd : S d)
    (hf : newName nm d = some n) : PyDict.get? (newAxes nm axes) (some n) = PyDict.get? axes d := by
  have key : ∀ (axes : PyDict String (Axis R)) (acc : PyDict (Option String) (Axis R)), (∀ k ∈ PyDict.keys axes, S k) →
      (PyDict.keys axes).Nodup →
      PyDict.get? (axes.foldl (fun d x => PyDict.set d (rename nm x.1) x.2) acc) (some n) =
        (PyDict.get? axes d).or (PyDict.get? acc (some n)) := by
    intro axes
    induction axes with
    | nil => intro acc _ _; simp [PyDict.get?_nil]
    | cons x axes ih =>
      intro acc h1 h2
      simp only [PyDict.keys, List.map_cons, List.nodup_cons, List.mem_cons] at h1 h2
      rw [List.foldl_cons, ih _ (fun k hk => h1 k (.inr hk)) h2.2, PyDict.get?_set, PyDict.get?_cons, rename_eq]
      by_cases hx : x.1 = d
      · have : PyDict.get? axes d = none := PyDict.get?_eq_none.2 (by rw [← hx]; exact h2.1)
        rw [this, hx, hf]
        simp
      · have hne : ¬ some n = newName nm x.1 := fun e => hx (inj x.1 d n (h1 x.1 (.inl rfl)) hd e.symm hf)
        simp [hx, hne]
  rw [newAxes, key axes [] hin hnd, PyDict.get?_nil, Option.or_none]

theorem newAxes_absent (nm : PyDict String (Option String)) (axes : PyDict String (Axis R)) {n : Option String}
    (h : ∀ k ∈ PyDict.keys axes, newName nm k ≠ n) : PyDict.get? (newAxes nm axes) n = none := by
  have key : ∀ (axes : PyDict String (Axis R)) (acc : PyDict (Option String) (Axis R)),
      (∀ k ∈ PyDict.keys axes, newName nm k ≠ n) →
      PyDict.get? (axes.foldl (fun d x => PyDict.set d (rename nm x.1) x.2) acc) n = PyDict.get? acc n := by
    intro axes
    induction axes with
    | nil => intro acc _; rfl
    | cons x axes ih =>
      intro acc h1
      simp only [PyDict.keys, List.map_cons, List.mem_cons] at h1
      rw [List.foldl_cons, ih _ (fun k hk => h1 k (.inr hk)), PyDict.get?_set, rename_eq,
        if_neg (fun e => h1 x.1 (.inl rfl) e.symm)]
  rw [newAxes, key axes [] h, PyDict.get?_nil]

/-- What an array after renaming is. -/
structure Renamed (nm : PyDict String (Option String)) (m : AxisArray α R A) (out : Modified α R A) : Prop where
  dims : out.dims = m.dims.filterMap (newName nm)
  shape : out.data.shape = keepShape (m.dims.map (fun d => (newName nm d).isNone)) m.data.shape
  get : ∀ g : String → Nat, out.data.get (out.dims.map g) = m.at (fun d => ((newName nm d).map g).getD 0)
  attrs : out.attrs = m.attrs
  key : out.key = m.key
  axes : ∀ n, PyDict.get? out.axes (some n) = PyDict.get? (newAxes nm m.axes) (some n)
  dropped : (∃ d ∈ m.dims, newName nm d = none) → PyDict.get? out.axes none = none
  undropped : (¬ ∃ d ∈ m.dims, newName nm d = none) → out.axes = newAxes nm m.axes

theorem postInit_iff {m out : Modified α R A} (hl : m.dims.length = m.data.shape.length) :
    m.postInit = .ok out ↔ m.dims.Nodup ∧ m = out := by
  unfold Modified.postInit
  simp only [hl, ne_eq, not_true_eq_false, if_false]
  by_cases h : m.dims.Nodup <;> simp [h]

theorem modifyAxis_spec {nm : PyDict String (Option String)} {m : AxisArray α R A} (hw : m.WF) :
    (∀ out, modifyAxis (some nm) m = .ok out → (∀ d ∈ m.dims, newName nm d = none → m.size d = 1) ∧
      (m.dims.filterMap (newName nm)).Nodup ∧ Renamed nm m out) ∧
    ((∀ d ∈ m.dims, newName nm d = none → m.size d = 1) ∧ (m.dims.filterMap (newName nm)).Nodup →
      ∃ out, modifyAxis (some nm) m = .ok out) := by
  have e1 : (m.dims.map (rename nm)).map (·.isNone) = m.dims.map (fun d => (newName nm d).isNone) := by
    rw [rename_eq, List.map_map]; rfl
  have e2 : (m.dims.map (rename nm)).filterMap id = m.dims.filterMap (newName nm) := by
    rw [rename_eq, List.filterMap_map]; rfl
  have e3 : (m.dims.map (fun d => (newName nm d).isNone)).any id = true ↔ ∃ d ∈ m.dims, newName nm d = none := by
    simp
  have hl := keepShape_length m.dims (newName nm) hw.len
  simp only [modifyAxis, e1, e2]
  by_cases hd : ∃ d ∈ m.dims, newName nm d = none
  · rw [if_pos (e3.2 hd)]
    have hsq := squeeze_iff (a := m.data) (f := newName nm) hw.nodup hw.len
    cases hq : m.data.squeeze (m.dims.map (fun d => (newName nm d).isNone)) with
    | none =>
      rw [hq] at hsq
      refine ⟨fun out h => (by simp at h), fun h => absurd (hsq.2 h.1) (by simp)⟩
    | some data =>
      rw [hq] at hsq
      have hdat : data = ⟨keepShape (m.dims.map (fun d => (newName nm d).isNone)) m.data.shape,
          fun idx => m.data.get (fill (m.dims.map (fun d => (newName nm d).isNone)) idx)⟩ := by
        unfold NArr.squeeze at hq
        split at hq
        · exact (Option.some.inj hq).symm
        · simp at hq
      subst hdat
      simp only [postInit_iff (m := ⟨⟨keepShape (m.dims.map (fun d => (newName nm d).isNone)) m.data.shape,
          fun idx => m.data.get (fill (m.dims.map (fun d => (newName nm d).isNone)) idx)⟩, m.dims.filterMap (newName nm),
          PyDict.pop (newAxes nm m.axes) none, m.attrs, m.key⟩) hl.symm]
      refine ⟨?_, fun h => ⟨_, h.2, rfl⟩⟩
      rintro out ⟨h1, rfl⟩
      refine ⟨hsq.1 rfl, h1, rfl, rfl, fun g => ?_, rfl, rfl, fun n => ?_, fun _ => ?_, fun h => absurd hd h⟩
      · simp only [fill_map, AxisArray.at]
      · rw [PyDict.get?_pop]; simp
      · rw [PyDict.get?_pop]; simp
  · rw [if_neg (fun h => hd (e3.1 h))]
    have hn : ∀ d ∈ m.dims, newName nm d ≠ none := fun d hd' e => hd ⟨d, hd', e⟩
    have hk := keepShape_none hn hw.len
    rw [hk] at hl
    simp only [postInit_iff (m := ⟨m.data, m.dims.filterMap (newName nm), newAxes nm m.axes, m.attrs, m.key⟩) hl.symm]
    refine ⟨?_, fun h => ⟨_, h.2, rfl⟩⟩
    rintro out ⟨h1, rfl⟩
    refine ⟨fun d hd' e => absurd e (hn d hd'), h1, rfl, hk.symm, fun g => ?_, rfl, rfl, fun n => rfl, fun h => absurd h hd, fun _ => rfl⟩
    simp only [AxisArray.at]
    congr 1
    clear e1 e2 e3 hl hd hk h1 hw
    generalize m.dims = ds at hn
    induction ds with
    | nil => rfl
    | cons d ds ih =>
      cases hf : newName nm d with
      | none => exact absurd hf (hn d (by simp))
      | some x => simp [hf, ih (fun e he => hn e (by simp [he]))]

/-- **C76**.  Renaming succeeds exactly if dropped dimensions have length 1 and the new names are distinct. -/
theorem C76_succeeds {nm : PyDict String (Option String)} {m : AxisArray α R A} (hw : m.WF) :
    (∃ out, modifyAxis (some nm) m = .ok out) ↔
      (∀ d ∈ m.dims, newName nm d = none → m.size d = 1) ∧ (m.dims.filterMap (newName nm)).Nodup :=
  ⟨fun ⟨out, h⟩ => ⟨((modifyAxis_spec hw).1 out h).1, ((modifyAxis_spec hw).1 out h).2.1⟩, (modifyAxis_spec hw).2⟩

/-- **C76**.  What renaming gives: the dimensions which are left in their order, under their new names and with their lengths, and the
same elements. -/
theorem C76_elements {nm : PyDict String (Option String)} {m : AxisArray α R A} (hw : m.WF) {out : Modified α R A}
    (h : modifyAxis (some nm) m = .ok out) :
    out.dims = m.dims.filterMap (newName nm) ∧ out.dims.length = out.data.shape.length ∧
    (∀ d n, d ∈ m.dims → newName nm d = some n → out.size n = m.size d) ∧
    (∀ g : String → Nat, out.data.get (out.dims.map g) = m.at (fun d => ((newName nm d).map g).getD 0)) ∧
    out.attrs = m.attrs ∧ out.key = m.key := by
  obtain ⟨_, h2, r⟩ := (modifyAxis_spec hw).1 out h
  refine ⟨r.dims, ?_, fun d n hd hf => ?_, r.get, r.attrs, r.key⟩
  · rw [r.dims, r.shape, keepShape_length _ _ hw.len]
  · rw [Modified.size, r.dims, r.shape, keepShape_size h2 hw.len hd hf]; rfl

/-- **C76** (partial: every axis is that of a dimension).  Every dimension keeps its axis, and no other names have one. -/
theorem C76_axes_partial {nm : PyDict String (Option String)} {m : AxisArray α R A} (hw : m.WF)
    (hax : ∀ k ∈ PyDict.keys m.axes, k ∈ m.dims) (hnd : (PyDict.keys m.axes).Nodup) {out : Modified α R A}
    (h : modifyAxis (some nm) m = .ok out) :
    (∀ d n, d ∈ m.dims → newName nm d = some n → PyDict.get? out.axes (some n) = PyDict.get? m.axes d) ∧
    (∀ n, n ∉ out.dims → PyDict.get? out.axes (some n) = none) ∧ PyDict.get? out.axes none = none := by
  obtain ⟨_, h2, r⟩ := (modifyAxis_spec hw).1 out h
  have inj : ∀ a b n, a ∈ m.dims → b ∈ m.dims → newName nm a = some n → newName nm b = some n → a = b := by
    clear r h hax hw hnd
    generalize m.dims = ds at h2
    induction ds with
    | nil => intro a b n ha; simp at ha
    | cons x ds ih =>
      intro a b n ha hb ea eb
      have hmem : ∀ y, y ∈ ds → newName nm y = some n → n ∈ ds.filterMap (newName nm) := fun y hy e =>
        List.mem_filterMap.2 ⟨y, hy, e⟩
      rcases List.mem_cons.1 ha with rfl | ha' <;> rcases List.mem_cons.1 hb with rfl | hb'
      · rfl
      · rw [List.filterMap_cons, ea, List.nodup_cons] at h2
        exact absurd (hmem b hb' eb) h2.1
      · rw [List.filterMap_cons, eb, List.nodup_cons] at h2
        exact absurd (hmem a ha' ea) h2.1
      · refine ih ?_ a b n ha' hb' ea eb
        rw [List.filterMap_cons] at h2
        split at h2
        · exact h2
        · exact (List.nodup_cons.1 h2).2
  refine ⟨fun d n hd hf => ?_, fun n hn => ?_, ?_⟩
  · rw [r.axes]
    exact newAxes_get nm m.axes (S := (· ∈ m.dims)) hax hnd inj hd hf
  · rw [r.axes]
    refine newAxes_absent nm m.axes (fun k hk e => hn ?_)
    rw [r.dims]
    exact List.mem_filterMap.2 ⟨k, hax k hk, e⟩
  · by_cases hd : ∃ d ∈ m.dims, newName nm d = none
    · exact r.dropped hd
    · rw [r.undropped hd]
      exact newAxes_absent nm m.axes (fun k hk e => hd ⟨k, hax k hk, e⟩)

/-- **C76**.  Without a map the array is passed on. -/
theorem C76_no_map {m : AxisArray α R A} : ∃ out, modifyAxis none m = .ok out ∧ out.data = m.data ∧ out.dims = m.dims ∧
    (∀ d, PyDict.get? out.axes (some d) = PyDict.get? m.axes d) ∧ out.attrs = m.attrs ∧ out.key = m.key := by
  refine ⟨_, rfl, rfl, rfl, fun d => ?_, rfl, rfl⟩
  simp only
  generalize m.axes = axes
  induction axes with
  | nil => rfl
  | cons x axes ih => simp only [List.map_cons, PyDict.get?_cons, ih, Option.some.injEq]

/-! ## Units -/

/-- The settings in force: the last ones which arrived, or the initial ones. -/
def inForce {S M : Type} (s0 : S) (xs : List (MsgIn S M)) : S :=
  (xs.reverse.findSome? (fun x => match x with | .settings s => some s | .msg _ => none)).getD s0

/-- **C76**.  `ModifyAxis` and `SetKey` apply to every array the settings which arrived last before it, and publish the results in order. -/
theorem C76_units {S M O : Type} (f : S → M → Option O) (s0 : S) (xs : List (MsgIn S M)) :
    transformUnit f s0 xs = (List.range xs.length).flatMap (fun i => match (xs[i]? : Option (MsgIn S M)) with
      | some (MsgIn.msg m) => (f (inForce s0 (xs.take i)) m).toList
      | _ => []) := by
  induction xs generalizing s0 with
  | nil => rfl
  | cons x xs ih =>
    rw [List.length_cons, List.range_succ_eq_map, List.flatMap_cons, List.flatMap_map]
    have hf : ∀ s : S, inForce s0 (.settings s :: xs.take 0) = s := fun s => rfl
    cases x with
    | settings s =>
      simp only [transformUnit, List.getElem?_cons_zero, List.nil_append, ih]
      congr 1
      funext i
      simp only [Nat.succ_eq_add_one, List.getElem?_cons_succ, List.take_succ_cons]
      have : inForce s0 (.settings s :: xs.take i) = inForce s (xs.take i) := by
        simp only [inForce, List.reverse_cons, List.findSome?_append, List.findSome?_cons, List.findSome?_nil]
        cases List.findSome? (fun x : MsgIn S M => match x with | .settings s => some s | .msg _ => none) (xs.take i).reverse <;> rfl
      rw [this]
    | msg m =>
      simp only [transformUnit, List.getElem?_cons_zero, ih, List.take_zero]
      congr 1
      congr 1
      funext i
      simp only [Nat.succ_eq_add_one, List.getElem?_cons_succ, List.take_succ_cons]
      have : inForce s0 (.msg m :: xs.take i) = inForce s0 (xs.take i) := by
        simp only [inForce, List.reverse_cons, List.findSome?_append, List.findSome?_cons, List.findSome?_nil]
        cases List.findSome? (fun x : MsgIn S M => match x with | .settings s => some s | .msg _ => none) (xs.take i).reverse <;> rfl
      rw [this]

/-- **C76**.  `SetKey` changes only the key; `FilterOnKey` passes on exactly the arrays with the key, unchanged. -/
theorem C76_keys (k : String) (m : AxisArray α R A) :
    ((setKey k m).data = m.data ∧ (setKey k m).dims = m.dims ∧ (setKey k m).axes = m.axes ∧ (setKey k m).attrs = m.attrs ∧
      (setKey k m).key = k) ∧
    (∀ out, filterKey k m = some out ↔ m.key = k ∧ out = m) := by
  refine ⟨⟨rfl, rfl, rfl, rfl, rfl⟩, fun out => ?_⟩
  unfold filterKey
  split
  next h => simp only [Option.some.injEq]; exact ⟨fun e => ⟨h, e.symm⟩, fun e => e.2.symm⟩
  next h => simp [h]

/-! ## Where the code goes wrong -/

/-- An array with an axis for a name which is no dimension. -/
def stray : AxisArray Nat Nat Unit :=
  ⟨⟨[2], fun idx => idx.getD 0 0⟩, ["time"], [("time", .linear "s" 1 0), ("lag", .linear "ms" 5 0)], (), ""⟩

/-- **C76** (violated).  An axis which belongs to no dimension replaces that of a dimension renamed to it; dropped without dropping
a dimension, it stays under the key `None`. -/
theorem C76_axes_fails : stray.WF ∧
    (∃ out, modifyAxis (some [("time", some "lag")]) stray = .ok out ∧ out.dims = ["lag"] ∧
      PyDict.get? out.axes (some "lag") = some (.linear "ms" 5 0)) ∧
    (∃ out, modifyAxis (some [("lag", none)]) stray = .ok out ∧ PyDict.get? out.axes none = some (.linear "ms" 5 0)) :=
  ⟨⟨rfl, by decide⟩, ⟨_, rfl, by decide +kernel, rfl⟩, _, rfl, rfl⟩

/-! ## Examples -/

/-- One channel, three times. -/
def single : AxisArray Nat Nat Unit :=
  ⟨⟨[3, 1], fun idx => 10 * idx.getD 0 0 + idx.getD 1 0⟩, ["time", "ch"], [("time", .linear "s" 1 0), ("ch", .linear "" 1 7)], (), "k"⟩

theorem single_wf : single.WF := ⟨rfl, by decide⟩

example : ∃ out, modifyAxis (some [("time", some "t"), ("ch", none)]) single = .ok out ∧ out.dims = ["t"] ∧ out.data.shape = [3] ∧
    out.data.get [2] = 20 ∧ PyDict.get? out.axes (some "t") = some (.linear "s" 1 0) ∧ PyDict.get? out.axes none = none :=
  ⟨_, rfl, by decide +kernel, by decide +kernel, by decide +kernel, rfl, rfl⟩

/-- Exchanging two names. -/
example : ∃ out, modifyAxis (some [("time", some "ch"), ("ch", some "time")]) single = .ok out ∧ out.dims = ["ch", "time"] ∧
    PyDict.get? out.axes (some "ch") = some (.linear "s" 1 0) := ⟨_, rfl, by decide +kernel, rfl⟩

example : ∃ out, modifyAxis (some [("time", some "t"), ("ch", none)]) single = .ok out :=
  (C76_succeeds single_wf).2 ⟨by decide +kernel, by decide +kernel⟩

/-- Dimensions longer than 1 cannot be dropped. -/
example : ¬ ∃ out, modifyAxis (some [("time", none)]) single = .ok out := by
  rw [C76_succeeds single_wf]; decide +kernel

example {out : Modified Nat Nat Unit} (h : modifyAxis (some [("time", some "t"), ("ch", none)]) single = .ok out) :
    out.size "t" = 3 ∧ PyDict.get? out.axes (some "t") = some (.linear "s" 1 0) :=
  ⟨(C76_elements single_wf h).2.2.1 "time" "t" (by decide) (by decide +kernel),
    (C76_axes_partial single_wf (by decide) (by decide) h).1 "time" "t" (by decide) (by decide +kernel)⟩

example : transformUnit (fun (s : Nat) (m : Nat) => some (s * m)) 1 [.msg 2, .settings 10, .msg 2, .msg 3] = [2, 20, 30] := rfl

end AA
end Ez
