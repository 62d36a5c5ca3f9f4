import Verif.Model.AxisArray

/-!
# The coordinates of an `AxisArray`

Source: `src/ezmsg/util/messages/axisarray.py`: `AxisInfo.indices` and `values` (305-323), `to_xr_dataarray` (415-434), `ax` for a number
(436-449), `get_axis` for a number (451-465), `get_axis_name` (467-476). `ax` for a name is in `Model/AxisArray.lean`.

Simplification: what the constructor of `xarray.DataArray` checks is left out; the model gives the arguments it is called with.
-/

namespace Ez
namespace AA

variable {α R A : Type} [Add R] [Sub R] [Mul R] [Div R] [NatCast R]

/-- `indices` and `values` for a linear axis, axisarray.py:305-323: `axis.value(np.arange(len(self)))`. -/
def AxisArray.AxisInfo.values (i : AxisArray.AxisInfo R) : NArr R where
  shape := [i.size]
  get := fun idx => linValue i.gain i.offset (idx.getD 0 0)

/-- `self.dims[dim]` for a Python index. -/
def AxisArray.getAxisName (aa : AxisArray α R A) (dim : Int) : Except Err String :=
  match takeOne aa.dims.length dim with
  | none => .error .indexError
  | some k => match aa.dims[k]? with
    | none => .error .indexError
    | some d => .ok d

/-- `ax` for a number, axisarray.py:436-449: the index is kept as it was given. -/
def AxisArray.axAt (aa : AxisArray α R A) (dim : Int) : Except Err (Int × AxisArray.AxisInfo R) :=
  match aa.getAxisName dim with
  | .error e => .error e
  | .ok d =>
    match aa.getAxis d with
    | .error e => .error e
    | .ok (.coord _ _ _) => .error .valueError
    | .ok (.linear u g o) =>
      match takeOne aa.data.shape.length dim with
      | none => .error .indexError
      | some k => match aa.data.shape[k]? with
        | none => .error .indexError
        | some n => .ok (dim, ⟨u, g, o, k, n⟩)

/-- The arguments of `DataArray`, axisarray.py:434. A coordinate: its dimensions and values. -/
structure XArgs (α R A : Type) where
  data : NArr α
  coords : PyDict String (List String × NArr R)
  dims : List String
  attrs : A

/-- The loop of `to_xr_dataarray`, axisarray.py:427-432. -/
def AxisArray.coordLoop (aa : AxisArray α R A) : PyDict String (Axis R) → PyDict String (List String × NArr R) →
    Except Err (PyDict String (List String × NArr R))
  | [], coords => .ok coords
  | (name, axis) :: rest, coords =>
    if name ∈ aa.dims then
      match aa.ax name with
      | .error e => .error e
      | .ok info => aa.coordLoop rest (coords.set name ([name], info.values))
    else
      match axis with
      | .coord _ data dims => aa.coordLoop rest (coords.set name (dims, data))
      | .linear _ _ _ => aa.coordLoop rest coords

/-- `to_xr_dataarray`, axisarray.py:415-434. -/
def AxisArray.toXr (aa : AxisArray α R A) : Except Err (XArgs α R A) :=
  match aa.coordLoop aa.axes [] with
  | .error e => .error e
  | .ok coords => .ok ⟨aa.data, coords, aa.dims, aa.attrs⟩

end AA
end Ez
