import Verif.Model.Py

/-!
# Model of `src/ezmsg/util/messages/axisarray.py` and of `array_chunker` (chunker.py)

An n-dimensional array is its shape together with a function from index tuples to elements; only index
tuples inside the shape mean anything.

Numbers (`R`): any type with `+`, `-`, `*`, `/` and a value for each natural number. No law is assumed in the
model; the theorems that need exact arithmetic are stated for rational numbers (floating point
rounding is not modelled).
-/

namespace Ez
namespace AA

/-- `npt.NDArray`: shape and elements. -/
structure NArr (α : Type) where
  shape : List Nat
  get : List Nat → α

/-- Exceptions of the modelled functions. -/
inductive Err where
  | valueError | indexError
deriving DecidableEq, Repr

/-- A Python `slice(start, stop, step)` of integers. -/
structure PySlice where
  start : Option Int
  stop : Option Int
  step : Option Int
deriving DecidableEq, Repr

/-- The normalised bound of a slice on a sequence of length `n` (CPython `PySlice_AdjustIndices`): `neg`
says whether the step is negative, `dflt` is the value of an absent bound. -/
def adjust (n : Nat) (neg : Bool) (dflt : Int) : Option Int → Int
  | none => dflt
  | some x =>
    if x < 0 then
      if x + n < 0 then (if neg then -1 else 0) else x + n
    else if (n : Int) ≤ x then (if neg then n - 1 else n) else x

/-- `arange(n)[s]`: the selected positions; `none`: `ValueError` (step 0). -/
def PySlice.indices (s : PySlice) (n : Nat) : Option (List Nat) :=
  let step := s.step.getD 1
  if step = 0 then none
  else
    let neg := decide (step < 0)
    let start := adjust n neg (if neg then n - 1 else 0) s.start
    let stop := adjust n neg (if neg then -1 else n) s.stop
    let count : Int :=
      if neg then (if stop < start then (start - stop - 1) / (-step) + 1 else 0)
      else (if start < stop then (stop - start - 1) / step + 1 else 0)
    some ((List.range count.toNat).map (fun (k : Nat) => (start + (k : Int) * step).toNat))

/-- What `isel` accepts per dimension, axisarray.py:347 (arrays of integers: one-dimensional ones). -/
inductive Indexer where
  | slice (s : PySlice)
  | int (i : Int)
  | array (is : List Int)
deriving DecidableEq, Repr

/-- `xp.take(arange(n), [i], 0)` for one index: negative ones count from the end. -/
def takeOne (n : Nat) (i : Int) : Option Nat :=
  if 0 ≤ i ∧ i < n then some i.toNat
  else if i < 0 ∧ 0 ≤ i + n then some (i + n).toNat
  else none

/-- The positions an indexer selects, axisarray.py:350-358. -/
def Indexer.select (n : Nat) : Indexer → Except Err (List Nat)
  | .slice s => match s.indices n with
    | none => .error .valueError
    | some l => .ok l
  | .int i => match [i].mapM (takeOne n) with
    | none => .error .indexError
    | some l => .ok l
  | .array is => match is.mapM (takeOne n) with
    | none => .error .indexError
    | some l => .ok l

namespace NArr
variable {α : Type}

/-- `xp.take(a, ix, axis)` for valid positions `ix`. -/
def take (a : NArr α) (ix : List Nat) (axis : Nat) : NArr α :=
  { shape := a.shape.set axis ix.length
    get := fun idx => a.get (idx.set axis (ix.getD (idx.getD axis 0) 0)) }

/-- `a[..., i, ...]` with an integer at position `axis`: the dimension disappears. -/
def dropAt (a : NArr α) (axis i : Nat) : NArr α :=
  { shape := a.shape.eraseIdx axis
    get := fun idx => a.get (idx.take axis ++ i :: idx.drop axis) }

/-- `xp.transpose(a, perm)`: dimension `k` of the result is dimension `perm[k]` of `a`; the result's index
at the position of `d` in `perm` is the index of `a` in dimension `d`. -/
def transpose (a : NArr α) (perm : List Nat) : NArr α :=
  { shape := perm.map (fun d => a.shape.getD d 0)
    get := fun idx => a.get ((List.range a.shape.length).map (fun d => idx.getD (perm.idxOf d) 0)) }

/-- `xp.concatenate([a, *rest], axis)`, elements: look for the array that holds the position. -/
def catGet (axis : Nat) : NArr α → List (NArr α) → List Nat → α
  | a, [], idx => a.get idx
  | a, b :: rest, idx =>
    if idx.getD axis 0 < a.shape.getD axis 0 then a.get idx
    else catGet axis b rest (idx.set axis (idx.getD axis 0 - a.shape.getD axis 0))

/-- `xp.concatenate([a, *rest], axis)`; `none`: `ValueError`, the shapes differ in another dimension. -/
def concatenate (axis : Nat) (a : NArr α) (rest : List (NArr α)) : Option (NArr α) :=
  if axis < a.shape.length ∧ rest.all (fun b => b.shape.set axis 0 == a.shape.set axis 0) then
    some { shape := a.shape.set axis ((a :: rest).map (fun b => b.shape.getD axis 0)).sum
           get := catGet axis a rest }
  else none

/-- `xp.array([a, *rest])`: a new first dimension; `none`: `ValueError`, the shapes differ. -/
def stack (a : NArr α) (rest : List (NArr α)) : Option (NArr α) :=
  if rest.all (fun b => b.shape == a.shape) then
    some { shape := (rest.length + 1) :: a.shape
           get := fun idx => ((a :: rest).getD (idx.getD 0 0) a).get (idx.drop 1) }
  else none

end NArr

/-- `slice_along_axis` for a slice, axisarray.py:658-684. -/
def sliceAlongAxis {α : Type} (a : NArr α) (s : PySlice) (axis : Int) : Except Err (NArr α) :=
  if axis < -(a.shape.length : Int) ∨ (a.shape.length : Int) ≤ axis then .error .valueError
  else
    let axis := if axis < 0 then a.shape.length + axis else axis
    match s.indices (a.shape.getD axis.toNat 0) with
    | none => .error .valueError
    | some l => .ok (a.take l axis.toNat)

/-- `slice_along_axis` for an integer, axisarray.py:658-684. -/
def intAlongAxis {α : Type} (a : NArr α) (i : Int) (axis : Int) : Except Err (NArr α) :=
  if axis < -(a.shape.length : Int) ∨ (a.shape.length : Int) ≤ axis then .error .valueError
  else
    let axis := if axis < 0 then a.shape.length + axis else axis
    match takeOne (a.shape.getD axis.toNat 0) i with
    | none => .error .indexError
    | some j => .ok (a.dropAt axis.toNat j)

/-- `LinearAxis`, axisarray.py:50-84, and `CoordinateAxis`, 155-187 (its `value` is an array lookup). -/
inductive Axis (R : Type) where
  | linear (unit : String) (gain offset : R)
  | coord (unit : String) (data : NArr R) (dims : List String)

section
variable {α R A : Type} [Add R] [Sub R] [Mul R] [Div R] [NatCast R]

/-- `LinearAxis.value`, axisarray.py:84. -/
def linValue (gain offset : R) (i : Nat) : R := (i : R) * gain + offset

/-- `LinearAxis()`: the default axis, axisarray.py:68-69, 465. -/
def defaultAxis : Axis R := .linear "" ((1 : Nat) : R) ((0 : Nat) : R)

/-- `AxisArray`, axisarray.py:190-216. -/
structure AxisArray (α R A : Type) where
  data : NArr α
  dims : List String
  axes : PyDict String (Axis R)
  attrs : A
  key : String

namespace AxisArray

/-- `ArrayWithNamedDims.__post_init__`, axisarray.py:139-143, run by every construction and hence by
`replace` (messages/util.py:31-34 and `dataclasses.replace`). -/
def postInit (aa : AxisArray α R A) : Except Err (AxisArray α R A) :=
  if aa.dims.length ≠ aa.data.shape.length then .error .valueError
  else if decide aa.dims.Nodup = false then .error .valueError
  else .ok aa

/-- `get_axis_idx`, axisarray.py:478-491. -/
def getAxisIdx (aa : AxisArray α R A) (dim : String) : Except Err Nat :=
  if dim ∈ aa.dims then .ok (aa.dims.idxOf dim) else .error .valueError

/-- `get_axis` for a name, axisarray.py:451-465. -/
def getAxis (aa : AxisArray α R A) (dim : String) : Except Err (Axis R) :=
  if dim ∉ aa.dims then .error .valueError else .ok ((aa.axes.get? dim).getD defaultAxis)

/-- `AxisInfo` for a linear axis, axisarray.py:267-303. -/
structure AxisInfo (R : Type) where
  unit : String
  gain : R
  offset : R
  idx : Nat
  size : Nat

/-- `ax` for a name, axisarray.py:436-449, with `AxisInfo.__post_init__`, 295-303: a size is always given, so
a coordinate axis is refused. -/
def ax (aa : AxisArray α R A) (dim : String) : Except Err (AxisInfo R) :=
  match aa.getAxisIdx dim with
  | .error e => .error e
  | .ok i =>
    match aa.getAxis dim with
    | .error e => .error e
    | .ok (.linear u g o) =>
      match aa.data.shape[i]? with
      | none => .error .indexError
      | some n => .ok ⟨u, g, o, i, n⟩
    | .ok (.coord _ _ _) => .error .valueError

/-- One round of the loop of `isel`, axisarray.py:346-366: `cur` are `out_data` and `out_axes`. -/
def iselStep (aa : AxisArray α R A) (cur : NArr α × PyDict String (Axis R)) (name : String) (ix : Indexer) :
    Except Err (NArr α × PyDict String (Axis R)) :=
  match aa.ax name with
  | .error e => .error e
  | .ok info =>
    match ix.select info.size with
    | .error e => .error e
    | .ok indices =>
      if name ∈ cur.2.keys then
        match indices with
        | [] => .error .indexError
        | i0 :: _ => .ok (cur.1.take indices info.idx,
            cur.2.set name (.linear info.unit info.gain (linValue info.gain info.offset i0)))
      else .ok (cur.1.take indices info.idx, cur.2)

/-- The loop of `isel`. -/
def iselLoop (aa : AxisArray α R A) : List (String × Indexer) → NArr α × PyDict String (Axis R) →
    Except Err (NArr α × PyDict String (Axis R))
  | [], cur => .ok cur
  | (name, ix) :: rest, cur =>
    match aa.iselStep cur name ix with
    | .error e => .error e
    | .ok cur => iselLoop aa rest cur

/-- `isel`, axisarray.py:325-368. The indexers are the items of a dict. -/
def isel (aa : AxisArray α R A) (indexers : List (String × Indexer)) : Except Err (AxisArray α R A) :=
  match aa.iselLoop indexers (aa.data, aa.axes) with
  | .error e => .error e
  | .ok (data, axes) => postInit { aa with data := data, axes := axes }

/-- A slice given by coordinate values. -/
structure LabelSlice (R : Type) where
  start : Option R
  stop : Option R
  step : Option R

/-- `sel`, axisarray.py:370-403. `rint` is `np.rint` followed by the conversion to `int`; `trunc` the conversion
`int(·)` of the step. -/
def selIndexers (aa : AxisArray α R A) (rint trunc : R → Int) :
    List (String × LabelSlice R) → Except Err (List (String × Indexer))
  | [] => .ok []
  | (name, s) :: rest =>
    match aa.getAxis name with
    | .error e => .error e
    | .ok (.coord _ _ _) => .error .valueError
    | .ok (.linear _ gain offset) =>
      match selIndexers aa rint trunc rest with
      | .error e => .error e
      | .ok l => .ok ((name, .slice ⟨s.start.map (fun v => rint ((v - offset) / gain)),
          s.stop.map (fun v => rint ((v - offset) / gain)),
          s.step.map (fun v => trunc (v / gain))⟩) :: l)

/-- `sel`, axisarray.py:370-403. -/
def sel (aa : AxisArray α R A) (rint trunc : R → Int) (indexers : List (String × LabelSlice R)) :
    Except Err (AxisArray α R A) :=
  match aa.selIndexers rint trunc indexers with
  | .error e => .error e
  | .ok l => aa.isel l

/-- `xp.moveaxis(a, axis, 0)` iterated over its first dimension is `a[..., i, ...]` for `i = 0, 1, ...`;
`iter_over_axis` for a name, axisarray.py:519-544: all yielded arrays, or the exception that ends the
iteration. -/
def iterOverAxis (aa : AxisArray α R A) (axis : String) : Except Err (List (AxisArray α R A)) :=
  match aa.getAxisIdx axis with
  | .error e => .error e
  | .ok i =>
    (List.range (aa.data.shape.getD i 0)).mapM (fun k =>
      postInit { aa with
        data := aa.data.dropAt i k
        dims := aa.dims.eraseIdx i
        axes := aa.axes.filter (fun x => decide (x.1 ≠ axis)) })

/-- `transpose` for dimension names, axisarray.py:635-655. `np.transpose` refuses anything but a permutation
of the dimensions. -/
def transpose (aa : AxisArray α R A) (dims : List String) : Except Err (AxisArray α R A) :=
  match dims.mapM aa.getAxisIdx with
  | .error e => .error e
  | .ok perm =>
    if perm.length = aa.data.shape.length ∧ decide perm.Nodup = true ∧
        perm.all (fun d => decide (d < aa.data.shape.length)) then
      postInit { aa with data := aa.data.transpose perm, dims := perm.map (fun d => aa.dims.getD d "") }
    else .error .valueError

/-- The coordinates of all given arrays along `dim`, if each has a coordinate axis for it. -/
def coordData (dim : String) : List (AxisArray α R A) → Option (List (NArr R))
  | [] => some []
  | a :: as =>
    match a.axes.get? dim, coordData dim as with
    | some (.coord _ d _), some ds => some (d :: ds)
    | _, _ => none

/-- `new_axes`, axisarray.py:602-617. -/
def catAxes (dim : String) (axis : Option (Axis R)) (aa : AxisArray α R A) (rest : List (AxisArray α R A)) :
    Except Err (PyDict String (Axis R)) :=
  match axis, aa.axes.get? dim, coordData dim rest with
  | some x, _, _ => .ok (aa.axes.set dim x)
  | none, some (.coord u d ds), some others =>
    match NArr.concatenate 0 d others with
    | none => .error .valueError
    | some d' =>
      if ds.length ≠ d'.shape.length ∨ decide ds.Nodup = false then .error .valueError
      else .ok (aa.axes.set dim (.coord u d' ds))
  | none, _, _ => .ok aa.axes

/-- `new_data` and `new_dims`, axisarray.py:619-633: joined along an existing dimension or stacked along a
new one. -/
def catData (dim : String) (aa : AxisArray α R A) (rest : List (AxisArray α R A)) :
    Option (NArr α × List String) :=
  if dim ∈ aa.dims then
    (NArr.concatenate (aa.dims.idxOf dim) aa.data (rest.map (·.data))).map (fun x => (x, aa.dims))
  else (NArr.stack aa.data (rest.map (·.data))).map (fun x => (x, dim :: aa.dims))

/-- The arrays left by `filter_key`, axisarray.py:594-595. -/
def keyed (filterKey : Option String) (aas : List (AxisArray α R A)) : List (AxisArray α R A) :=
  match filterKey with
  | none => aas
  | some k => aas.filter (fun a => a.key == k)

/-- `concatenate`, axisarray.py:573-633. -/
def concatenate (dim : String) (axis : Option (Axis R)) (filterKey : Option String)
    (aas : List (AxisArray α R A)) : Except Err (AxisArray α R A) :=
  match keyed filterKey aas with
  | [] => .error .indexError
  | aa :: rest =>
    if rest.any (fun b => b.dims != aa.dims) then .error .valueError
    else
      match catAxes dim axis aa rest with
      | .error e => .error e
      | .ok axes =>
        match catData dim aa rest with
        | none => .error .valueError
        | some (data, dims) => postInit { aa with
            data := data, dims := dims, axes := axes
            key := if rest.all (fun b => b.key == aa.key) then aa.key else "" }

end AxisArray

/-- `LinearAxis.create_time_axis`, axisarray.py:106-118. -/
def timeAxis (fs offset : R) : Axis R := .linear "s" (((1 : Nat) : R) / fs) offset

/-- `out_dims`, chunker.py:46-47. -/
def chunkDims (ndim axis : Nat) : List String :=
  ((List.range ndim).map (fun i => "d" ++ toString i)).set axis "time"

/-- `array_chunker`, chunker.py:13-62: everything the generator yields, or the exception it ends with.
`n_chunks` is computed exactly (the code divides in floating point, which is exact for lengths below 2^53).
`chunkLen` is positive. -/
def arrayChunker [Inhabited A] (data : NArr α) (chunkLen : Nat) (axis : Int) (fs tzero : R) :
    Except Err (List (AxisArray α R A)) :=
  if axis < -(data.shape.length : Int) ∨ (data.shape.length : Int) ≤ axis then .error .indexError
  else
    let ax := (if axis < 0 then data.shape.length + axis else axis).toNat
    let len := data.shape.getD ax 0
    let nChunks := (len + chunkLen - 1) / chunkLen
    let tvec : Nat → R := fun k => (k : R) * (chunkLen : R) / fs + tzero
    if nChunks = 0 then .error .indexError
    else
      (List.range nChunks).mapM (fun (k : Nat) =>
        match sliceAlongAxis data ⟨some ((k : Int) * chunkLen), some (((k : Int) + 1) * chunkLen), none⟩ axis with
        | .error e => .error e
        | .ok view => AxisArray.postInit
            { data := view, dims := chunkDims data.shape.length ax
              axes := [("time", timeAxis fs (tvec k))], attrs := default, key := "" })

end

/-! ## Sliding windows -/

/-- An array laid out in memory: element `idx` is at address `base + Σ idx_k * strides_k`. -/
structure Strided (α : Type) where
  mem : Int → α
  base : Int
  shape : List Nat
  strides : List Int

/-- `Σ idx_k * strides_k`. -/
def dot : List Nat → List Int → Int
  | i :: is, s :: ss => (i : Int) * s + dot is ss
  | _, _ => 0

/-- The array that a strided layout shows. -/
def Strided.toArr {α : Type} (a : Strided α) : NArr α :=
  ⟨a.shape, fun idx => a.mem (a.base + dot idx a.strides)⟩

/-- `_sliding_win_strided`, axisarray.py:732-790, for an array with strides; `axis` is not negative. -/
def slidingStrided {α : Type} (a : Strided α) (nwin : Nat) (axis : Nat) (step : Int) : Except Err (NArr α) :=
  let nWindows : Int := (a.shape.getD axis 0 : Int) - ((nwin : Int) - 1)
  if nWindows < 0 then .error .valueError
  else
    let r : Strided α :=
      { a with
        shape := a.shape.take axis ++ [nWindows.toNat, nwin] ++ a.shape.drop (axis + 1)
        strides := a.strides.take axis ++ [a.strides.getD axis 0, a.strides.getD axis 0] ++ a.strides.drop (axis + 1) }
    if 1 < step then sliceAlongAxis r.toArr ⟨none, none, some step⟩ axis
    else .ok r.toArr

/-- `_sliding_win_generic`, axisarray.py:793-818: gather at the flattened positions, then reshape (row
major: position `(w, j)` of the new dimensions is entry `w * nwin + j` of the flattened one). -/
def slidingGeneric {α : Type} (zero : α) (a : NArr α) (nwin : Nat) (axis : Nat) (step : Nat) :
    Except Err (NArr α) :=
  let nWindows : Int := (a.shape.getD axis 0 : Int) - ((nwin : Int) - 1)
  if nWindows < 0 then .error .valueError
  else if nwin = 0 then
    .ok ⟨a.shape.take axis ++ [nWindows.toNat, 0] ++ a.shape.drop (axis + 1), fun _ => zero⟩
  else
    let nOut := (nWindows.toNat + step - 1) / step
    let flat := (List.range (nOut * nwin)).map (fun q => q / nwin * step + q % nwin)
    let gathered := a.take flat axis
    .ok ⟨a.shape.take axis ++ [nOut, nwin] ++ a.shape.drop (axis + 1), fun idx =>
      gathered.get (idx.take axis ++ [idx.getD axis 0 * nwin + idx.getD (axis + 1) 0] ++ idx.drop (axis + 2))⟩

end AA
end Ez
