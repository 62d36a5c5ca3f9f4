import Verif.Model.AxisArray

/-!
# Renaming and dropping dimensions, and keys (`src/ezmsg/util/messages/modify.py`, `src/ezmsg/util/messages/key.py`)
-/

namespace Ez
namespace AA

/-- Whether each dimension is dropped: the shape left. -/
def keepShape : List Bool → List Nat → List Nat
  | false :: bs, n :: ns => n :: keepShape bs ns
  | true :: bs, _ :: ns => keepShape bs ns
  | _, _ => []

/-- The index tuple in the array before: 0 in dropped dimensions. -/
def fill : List Bool → List Nat → List Nat
  | [], _ => []
  | true :: bs, is => 0 :: fill bs is
  | false :: bs, is => is.headD 0 :: fill bs is.tail

/-- `np.squeeze(a, axis)` for the dimensions at the marked positions; `none`: `ValueError`, one of them is not of length 1. -/
def NArr.squeeze {α : Type} (a : NArr α) (drop : List Bool) : Option (NArr α) :=
  if (drop.zip a.shape).all (fun x => !x.1 || x.2 == 1) then some ⟨keepShape drop a.shape, fun idx => a.get (fill drop idx)⟩
  else none

variable {α R A : Type}

/-- `AxisArray` after renaming: keys of axes can be `None`. -/
structure Modified (α R A : Type) where
  data : NArr α
  dims : List String
  axes : PyDict (Option String) (Axis R)
  attrs : A
  key : String

/-- `ArrayWithNamedDims.__post_init__` (axisarray.py:139-143). -/
def Modified.postInit (m : Modified α R A) : Except Err (Modified α R A) :=
  if m.dims.length ≠ m.data.shape.length then .error .valueError
  else if decide m.dims.Nodup = false then .error .valueError
  else .ok m

/-- `name_map.get(old_k, old_k)`. -/
def rename (nm : PyDict String (Option String)) (d : String) : Option String := (PyDict.get? nm d).getD (some d)

/-- `new_axes` (modify.py:42-44). -/
def newAxes (nm : PyDict String (Option String)) (axes : PyDict String (Axis R)) : PyDict (Option String) (Axis R) :=
  axes.foldl (fun d x => PyDict.set d (rename nm x.1) x.2) []

/-- `ModifyAxisTransformer.__call__` (modify.py:36-59). -/
def modifyAxis (nm : Option (PyDict String (Option String))) (m : AxisArray α R A) : Except Err (Modified α R A) :=
  match nm with
  | none => .ok ⟨m.data, m.dims, m.axes.map (fun x => (some x.1, x.2)), m.attrs, m.key⟩
  | some nm =>
    let newDims := m.dims.map (rename nm)
    let drop := newDims.map (·.isNone)
    if drop.any id then
      match m.data.squeeze drop with
      | none => .error .valueError
      | some data => Modified.postInit ⟨data, newDims.filterMap id, PyDict.pop (newAxes nm m.axes) none, m.attrs, m.key⟩
    else Modified.postInit ⟨m.data, newDims.filterMap id, newAxes nm m.axes, m.attrs, m.key⟩

/-! ## Units -/

/-- What arrives at `ModifyAxis`: settings (`name_map`) or an array. -/
inductive MsgIn (S M : Type) where
  | settings (s : S)
  | msg (m : M)

/-- `ModifyAxis` (modify.py:93-122) and `SetKey` (key.py:44-107): a transformer made from the last settings is applied to every array;
`f` returns nothing if it raises: exceptions are logged and the next array is taken (backendprocess.py:727-733). -/
def transformUnit {S M O : Type} (f : S → M → Option O) : S → List (MsgIn S M) → List O
  | _, [] => []
  | _, .settings s :: xs => transformUnit f s xs
  | s, .msg m :: xs => (f s m).toList ++ transformUnit f s xs

/-- `set_key` (key.py:11-28). -/
def setKey (k : String) (m : AxisArray α R A) : AxisArray α R A := { m with key := k }

/-- `FilterOnKey.on_message` (key.py:129-145). -/
def filterKey (k : String) (m : AxisArray α R A) : Option (AxisArray α R A) :=
  if m.key = k then some { m with key := m.key } else none

end AA
end Ez
