import Verif.Model.Coordinates
import Verif.Lemmas.Py

/-!
# C109: the coordinates of an array can be had, and go with it into `xarray`

Specification: `coordinate`, the value that an axis gives a position, and `WF`, what `AxisArray.__post_init__` checks.
-/

set_option linter.unusedSimpArgs false
set_option linter.unusedSectionVars false

namespace Ez.AA.Coordinates

open Ez.AA

variable {α R A : Type} [Add R] [Sub R] [Mul R] [Div R] [NatCast R]

/-- What the constructor of `AxisArray` checks, and that `axes` is a dictionary. -/
structure WF (aa : AxisArray α R A) : Prop where
  len : aa.dims.length = aa.data.shape.length
  nodup : aa.dims.Nodup
  keys : (PyDict.keys aa.axes).Nodup

/-- The coordinate that a linear axis gives position `i`. -/
def coordinate (gain offset : R) (i : Nat) : R := (i : R) * gain + offset

/-- No dimension has a coordinate axis. -/
def AllLinear (aa : AxisArray α R A) : Prop :=
  ∀ d ∈ aa.dims, ∀ u x ds, PyDict.get? aa.axes d ≠ some (.coord u x ds)

theorem ax_linear {aa : AxisArray α R A} (hw : WF aa) {d : String} {k : Nat} (hk : aa.dims[k]? = some d) {u : String} {g o : R}
    (h : (PyDict.get? aa.axes d).getD defaultAxis = .linear u g o) :
    ∃ n, aa.data.shape[k]? = some n ∧ aa.ax d = .ok ⟨u, g, o, k, n⟩ := by
  have hm : d ∈ aa.dims := List.mem_of_getElem? hk
  obtain ⟨hlt, he⟩ := List.getElem?_eq_some_iff.1 hk
  have hidx : aa.dims.idxOf d = k := by
    rw [← he]
    exact hw.nodup.idxOf_getElem k hlt
  have hlt' : k < aa.data.shape.length := hw.len ▸ hlt
  refine ⟨aa.data.shape[k], by simp [hlt'], ?_⟩
  simp [AxisArray.ax, AxisArray.getAxisIdx, AxisArray.getAxis, hm, hidx, h, hlt']

/-- **C109, by name and by number.** For a dimension without a coordinate axis, `ax` gives its axis (the default one if none was
declared), its position and size, and the values are the coordinates of its positions. A number gives the same as the name it stands
for. -/
theorem C109_values_partial {aa : AxisArray α R A} (hw : WF aa) (hl : AllLinear aa) {d : String} {k : Nat} (hk : aa.dims[k]? = some d) :
    ∃ u g o n, (PyDict.get? aa.axes d).getD defaultAxis = .linear u g o ∧ aa.data.shape[k]? = some n ∧
      aa.ax d = .ok ⟨u, g, o, k, n⟩ ∧
      (AxisArray.AxisInfo.values ⟨u, g, o, k, n⟩ : NArr R).shape = [n] ∧
      (∀ i, (AxisArray.AxisInfo.values ⟨u, g, o, k, n⟩ : NArr R).get [i] = coordinate g o i) ∧
      aa.axAt k = .ok (k, ⟨u, g, o, k, n⟩) ∧
      aa.axAt (k - aa.dims.length) = .ok (k - aa.dims.length, ⟨u, g, o, k, n⟩) := by
  have hm : d ∈ aa.dims := List.mem_of_getElem? hk
  obtain ⟨u, g, o, h⟩ : ∃ u g o, (PyDict.get? aa.axes d).getD defaultAxis = .linear u g o := by
    cases hg : PyDict.get? aa.axes d with
    | none => exact ⟨_, _, _, rfl⟩
    | some a =>
      cases a with
      | linear u g o => exact ⟨u, g, o, rfl⟩
      | coord u x ds => exact absurd hg (hl d hm u x ds)
  obtain ⟨n, h1, h2⟩ := ax_linear hw hk h
  obtain ⟨hlt, he⟩ := List.getElem?_eq_some_iff.1 hk
  refine ⟨u, g, o, n, h, h1, h2, rfl, fun i => rfl, ?_, ?_⟩
  · have ht : takeOne aa.dims.length (k : Int) = some k := by
      unfold takeOne
      rw [if_pos (by omega)]
      simp
    have ht' : takeOne aa.data.shape.length (k : Int) = some k := hw.len ▸ ht
    simp [AxisArray.axAt, AxisArray.getAxisName, ht, hk, AxisArray.getAxis, hm, h, ht', h1]
  · have ht : takeOne aa.dims.length ((k : Int) - aa.dims.length) = some k := by
      unfold takeOne
      rw [if_neg (by omega), if_pos (by omega)]
      simp
    have ht' : takeOne aa.data.shape.length ((k : Int) - aa.dims.length) = some k := hw.len ▸ ht
    simp only [AxisArray.axAt, AxisArray.getAxisName, ht, hk, AxisArray.getAxis, hm, not_true_eq_false, if_false, h, ht', h1]

/-- A number that stands for no dimension is refused. -/
theorem C109_out_of_range {aa : AxisArray α R A} {i : Int} (h : i < -(aa.dims.length : Int) ∨ (aa.dims.length : Int) ≤ i) :
    aa.axAt i = .error .indexError := by
  have ht : takeOne aa.dims.length i = none := by
    unfold takeOne
    rw [if_neg (by omega), if_neg (by omega)]
  simp [AxisArray.axAt, AxisArray.getAxisName, ht]

theorem loop_ok {aa : AxisArray α R A} (hw : WF aa) (hl : AllLinear aa) (axes : PyDict String (Axis R))
    (hs : ∀ x ∈ axes, PyDict.get? aa.axes x.1 = some x.2) (hn : (PyDict.keys axes).Nodup) (c : PyDict String (List String × NArr R)) :
    ∃ r, aa.coordLoop axes c = .ok r ∧
      (∀ name, (∀ a, PyDict.get? axes name = some a → name ∉ aa.dims ∧ ∃ u g o, a = .linear u g o) →
        PyDict.get? r name = PyDict.get? c name) ∧
      (∀ name u x ds, PyDict.get? axes name = some (.coord u x ds) → PyDict.get? r name = some (ds, x)) ∧
      (∀ name u g o, PyDict.get? axes name = some (.linear u g o) → name ∈ aa.dims →
        ∃ k n, aa.dims[k]? = some name ∧ aa.data.shape[k]? = some n ∧
          PyDict.get? r name = some ([name], AxisArray.AxisInfo.values ⟨u, g, o, k, n⟩)) := by
  induction axes generalizing c with
  | nil => exact ⟨c, rfl, fun _ _ => rfl, by simp [PyDict.get?_nil], by simp [PyDict.get?_nil]⟩
  | cons y axes ih =>
    obtain ⟨nm, ay⟩ := y
    simp only [PyDict.keys, List.map_cons, List.nodup_cons] at hn
    have hs' : ∀ x ∈ axes, PyDict.get? aa.axes x.1 = some x.2 := fun x hx => hs x (by simp [hx])
    have hget : PyDict.get? aa.axes nm = some ay := hs (nm, ay) (by simp)
    have hnone : PyDict.get? axes nm = none := PyDict.get?_eq_none.2 hn.1
    -- what one round leaves, and what follows
    have fin : ∀ c', (∀ name, name ≠ nm → PyDict.get? c' name = PyDict.get? c name) → aa.coordLoop ((nm, ay) :: axes) c = aa.coordLoop axes c' →
        (nm ∉ aa.dims → (∃ u g o, ay = .linear u g o) → PyDict.get? c' nm = PyDict.get? c nm) →
        (∀ u x ds, ay = .coord u x ds → PyDict.get? c' nm = some (ds, x)) →
        (∀ u g o, ay = .linear u g o → nm ∈ aa.dims → ∃ k n, aa.dims[k]? = some nm ∧ aa.data.shape[k]? = some n ∧
          PyDict.get? c' nm = some ([nm], AxisArray.AxisInfo.values ⟨u, g, o, k, n⟩)) →
        ∃ r, aa.coordLoop ((nm, ay) :: axes) c = .ok r ∧
          (∀ name, (∀ a, PyDict.get? ((nm, ay) :: axes) name = some a → name ∉ aa.dims ∧ ∃ u g o, a = .linear u g o) →
            PyDict.get? r name = PyDict.get? c name) ∧
          (∀ name u x ds, PyDict.get? ((nm, ay) :: axes) name = some (.coord u x ds) → PyDict.get? r name = some (ds, x)) ∧
          (∀ name u g o, PyDict.get? ((nm, ay) :: axes) name = some (.linear u g o) → name ∈ aa.dims →
            ∃ k n, aa.dims[k]? = some name ∧ aa.data.shape[k]? = some n ∧
              PyDict.get? r name = some ([name], AxisArray.AxisInfo.values ⟨u, g, o, k, n⟩)) := by
      intro c' hf he h1 h2 h3
      obtain ⟨r, e, r1, r2, r3⟩ := ih hs' hn.2 c'
      have rnm : PyDict.get? r nm = PyDict.get? c' nm := r1 nm (by simp [hnone])
      refine ⟨r, he.trans e, fun name h => ?_, fun name u x ds h => ?_, fun name u g o h hd => ?_⟩
      · by_cases hne : nm = name
        · subst hne
          have := h ay (by simp [PyDict.get?_cons])
          rw [rnm]
          exact h1 this.1 this.2
        · rw [r1 name (by simpa [PyDict.get?_cons, hne] using h), hf name (Ne.symm hne)]
      · by_cases hne : nm = name
        · subst hne
          simp only [PyDict.get?_cons, if_true, Option.some.injEq] at h
          rw [rnm]
          exact h2 u x ds h
        · exact r2 name u x ds (by simpa [PyDict.get?_cons, hne] using h)
      · by_cases hne : nm = name
        · subst hne
          simp only [PyDict.get?_cons, if_true, Option.some.injEq] at h
          rw [rnm]
          exact h3 u g o h hd
        · exact r3 name u g o (by simpa [PyDict.get?_cons, hne] using h) hd
    by_cases hd : nm ∈ aa.dims
    · cases ay with
      | coord u x ds => exact absurd hget (hl nm hd u x ds)
      | linear u g o =>
        obtain ⟨k, hk⟩ := List.getElem?_of_mem hd
        obtain ⟨n, h1, h2⟩ := ax_linear hw hk (u := u) (g := g) (o := o) (by simp [hget])
        refine fin (PyDict.set c nm ([nm], AxisArray.AxisInfo.values ⟨u, g, o, k, n⟩)) (fun name hne => ?_) ?_ (fun h => absurd hd h) (fun _ _ _ h => nomatch h) ?_
        · rw [PyDict.get?_set, if_neg hne]
        · rw [AxisArray.coordLoop]
          simp only [hd, if_true, h2]
        · intro u' g' o' h _
          cases h
          exact ⟨k, n, hk, h1, by rw [PyDict.get?_set, if_pos rfl]⟩
    · cases ay with
      | coord u x ds =>
        refine fin (PyDict.set c nm (ds, x)) (fun name hne => ?_) ?_ (fun _ ⟨_, _, _, h⟩ => nomatch h) ?_ (fun _ _ _ h => nomatch h)
        · rw [PyDict.get?_set, if_neg hne]
        · rw [AxisArray.coordLoop]
          simp only [hd, if_false]
        · intro u' x' ds' h
          cases h
          rw [PyDict.get?_set, if_pos rfl]
      | linear u g o =>
        refine fin c (fun _ _ => rfl) ?_ (fun _ _ => rfl) (fun _ _ _ h => nomatch h) (fun _ _ _ _ h => absurd h hd)
        rw [AxisArray.coordLoop]
        simp only [hd, if_false]

/-- **C109, conversion.** If no dimension has a coordinate axis, the conversion succeeds: data, dimensions and attributes are passed on;
every declared axis of a dimension becomes a coordinate with a value for each position; every coordinate axis that is not one of a
dimension is passed on with its own dimensions; there are no other coordinates. -/
theorem C109_xarray_partial {aa : AxisArray α R A} (hw : WF aa) (hl : AllLinear aa) :
    ∃ x, aa.toXr = .ok x ∧ x.data = aa.data ∧ x.dims = aa.dims ∧ x.attrs = aa.attrs ∧
      (∀ d u g o, d ∈ aa.dims → PyDict.get? aa.axes d = some (.linear u g o) →
        ∃ (v : NArr R) (k n : Nat), PyDict.get? x.coords d = some ([d], v) ∧ aa.dims[k]? = some d ∧ aa.data.shape[k]? = some n ∧ v.shape = [n] ∧
          ∀ i, v.get [i] = coordinate g o i) ∧
      (∀ name u v ds, PyDict.get? aa.axes name = some (.coord u v ds) → PyDict.get? x.coords name = some (ds, v)) ∧
      (∀ name, PyDict.get? x.coords name ≠ none →
        ∃ a, PyDict.get? aa.axes name = some a ∧ (name ∈ aa.dims ∨ ∃ u v ds, a = .coord u v ds)) := by
  obtain ⟨r, e, r1, r2, r3⟩ := loop_ok hw hl aa.axes (fun x hx => PyDict.get?_of_mem hw.keys hx) hw.keys []
  refine ⟨⟨aa.data, r, aa.dims, aa.attrs⟩, by simp [AxisArray.toXr, e], rfl, rfl, rfl, ?_, r2, ?_⟩
  · intro d u g o hd h
    obtain ⟨k, n, h1, h2, h3⟩ := r3 d u g o h hd
    exact ⟨_, k, n, h3, h1, h2, rfl, fun i => rfl⟩
  · intro name h
    cases ha : PyDict.get? aa.axes name with
    | none => exact absurd (r1 name (by simp [ha])) (by simpa [PyDict.get?_nil] using h)
    | some a =>
      refine ⟨a, rfl, ?_⟩
      by_cases hd : name ∈ aa.dims
      · exact .inl hd
      · cases a with
        | coord u v ds => exact .inr ⟨u, v, ds, rfl⟩
        | linear u g o =>
          refine absurd (r1 name fun a h => ⟨hd, ?_⟩) (by simpa [PyDict.get?_nil] using h)
          rw [ha] at h
          cases h
          exact ⟨_, _, _, rfl⟩

theorem ax_coord {aa : AxisArray α R A} {d : String} {u : String} {x : NArr R} {ds : List String}
    (h : PyDict.get? aa.axes d = some (.coord u x ds)) : aa.ax d = .error .valueError := by
  by_cases hd : d ∈ aa.dims
  · simp [AxisArray.ax, AxisArray.getAxisIdx, AxisArray.getAxis, hd, h]
  · simp [AxisArray.ax, AxisArray.getAxisIdx, hd]

theorem loop_coord {aa : AxisArray α R A} {d : String} (hd : d ∈ aa.dims) {axes : PyDict String (Axis R)} {a : Axis R}
    (hm : (d, a) ∈ axes) (hax : ∀ r, aa.ax d ≠ .ok r) (c : PyDict String (List String × NArr R)) : ∃ e, aa.coordLoop axes c = .error e := by
  induction axes generalizing c with
  | nil => cases hm
  | cons y axes ih =>
    obtain ⟨nm, ay⟩ := y
    unfold AxisArray.coordLoop
    rcases List.mem_cons.1 hm with h | h
    · cases h
      simp only [hd, if_true]
      cases hx : aa.ax d with
      | error e => exact ⟨e, rfl⟩
      | ok r => exact absurd hx (hax r)
    · split
      · split
        · exact ⟨_, rfl⟩
        · exact ih h _
      · split
        · exact ih h _
        · exact ih h _

/-- **C109, violated.** `ax` refuses a dimension with a coordinate axis, whatever the array, and the array cannot be converted. -/
theorem C109_refused {aa : AxisArray α R A} {d : String} (hd : d ∈ aa.dims) {u : String} {x : NArr R} {ds : List String}
    (h : PyDict.get? aa.axes d = some (.coord u x ds)) : aa.ax d = .error .valueError ∧ ∃ e, aa.toXr = .error e := by
  refine ⟨ax_coord h, ?_⟩
  obtain ⟨e, he⟩ := loop_coord hd (PyDict.mem_of_get? h) (fun r hr => by rw [ax_coord h] at hr; cases hr) []
  exact ⟨e, by simp [AxisArray.toXr, he]⟩

/-! ## Examples -/

/-- Two samples of three channels, a time axis from 7 on in steps of 2, and a coordinate axis that is not one of a dimension. -/
def good : AxisArray Nat Int Unit where
  data := ⟨[2, 3], fun i => i.getD 0 0 * 3 + i.getD 1 0⟩
  dims := ["time", "ch"]
  axes := [("time", .linear "s" 2 7), ("label", .coord "" ⟨[3], fun i => i.getD 0 0⟩ ["ch"])]
  attrs := ()
  key := ""

theorem good_WF : WF good := ⟨rfl, by decide, by decide⟩

theorem good_linear : AllLinear good := by
  intro d hd u x ds h
  simp only [good, List.mem_cons, List.not_mem_nil, or_false] at hd
  rcases hd with rfl | rfl <;> simp [good, PyDict.get?] at h

example : ∃ x, good.toXr = .ok x ∧ ∃ v, PyDict.get? x.coords "time" = some (["time"], v) ∧ v.shape = [2] ∧ v.get [1] = 9 := by
  obtain ⟨x, hx, _, _, _, h, _⟩ := C109_xarray_partial good_WF good_linear
  obtain ⟨v, k, n, h1, h2, h3, h4, h5⟩ := h "time" "s" 2 7 (by decide) rfl
  refine ⟨x, hx, v, h1, ?_, by rw [h5]; decide⟩
  rcases k with _ | _ | k
  · rw [h4]; cases h3; rfl
  · exact absurd h2 (by decide)
  · simp [good] at h2

/-- The channels have names given by a coordinate axis. -/
def channels : AxisArray Nat Int Unit where
  data := ⟨[2, 3], fun i => i.getD 0 0 * 3 + i.getD 1 0⟩
  dims := ["time", "ch"]
  axes := [("ch", .coord "" ⟨[3], fun i => i.getD 0 0⟩ ["ch"])]
  attrs := ()
  key := ""

/-- **C109, violated.** An array that the constructor accepts, with a coordinate axis of the right length for one of its dimensions,
has no coordinates and cannot be converted. -/
theorem C109_negation : WF channels ∧ (∃ x, PyDict.get? channels.axes "ch" = some (.coord "" x ["ch"]) ∧ x.shape = [3]) ∧
    channels.data.shape[1]? = some 3 ∧ channels.ax "ch" = .error .valueError ∧ channels.axAt 1 = .error .valueError ∧
    ∃ e, channels.toXr = .error e :=
  ⟨⟨rfl, by decide, by decide⟩, ⟨_, rfl, rfl⟩, rfl, rfl, rfl, (C109_refused (d := "ch") (by decide) rfl).2⟩

example : good.axAt 5 = .error .indexError := C109_out_of_range (by decide)

example : ∃ u g o n, (PyDict.get? good.axes "ch").getD defaultAxis = .linear u g o ∧ good.data.shape[1]? = some n ∧
    good.ax "ch" = .ok ⟨u, g, o, 1, n⟩ := by
  obtain ⟨u, g, o, n, h1, h2, h3, _⟩ := C109_values_partial good_WF good_linear (d := "ch") (k := 1) rfl
  exact ⟨u, g, o, n, h1, h2, h3⟩

end Ez.AA.Coordinates
