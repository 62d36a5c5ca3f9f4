import Verif.Model.AxisArray

/-!
# Two-dimensional views of arrays (`src/ezmsg/util/messages/axisarray.py:821-907`)

Whether numpy's `reshape` gives a view or a copy depends on the memory layout; here it is a parameter (`shares`).
-/

namespace Ez
namespace AA

variable {α : Type}

/-- `math.prod`. -/
def prod : List Nat → Nat
  | [] => 1
  | d :: ds => d * prod ds

/-- The position of an index tuple in row-major order. -/
def ravel : List Nat → List Nat → Nat
  | _ :: ds, i :: is => i * prod ds + ravel ds is
  | _, _ => 0

/-- The index tuple at a position in row-major order. -/
def unravel : List Nat → Nat → List Nat
  | [], _ => []
  | _ :: ds, j => j / prod ds :: unravel ds (j % prod ds)

/-- `a.reshape(sh)` for a shape of the same number of elements. -/
def NArr.reshape (a : NArr α) (sh : List Nat) : NArr α := ⟨sh, fun idx => a.get (unravel a.shape (ravel sh idx))⟩

/-- `moveaxis(a, axis, 0)`. -/
def NArr.toFront (a : NArr α) (axis : Nat) : NArr α :=
  ⟨a.shape.getD axis 0 :: a.shape.eraseIdx axis, fun idx => a.get (idx.tail.take axis ++ idx.getD 0 0 :: idx.tail.drop axis)⟩

/-- `moveaxis(a, 0, axis)`. -/
def NArr.fromFront (a : NArr α) (axis : Nat) : NArr α :=
  ⟨a.shape.tail.take axis ++ a.shape.getD 0 0 :: a.shape.tail.drop axis, fun idx => a.get (idx.getD axis 0 :: idx.eraseIdx axis)⟩

/-- The additional dimensions of arrays with less than two (:835-838). -/
def atLeast2d (a : NArr α) : NArr α :=
  match a.shape with
  | [] => a.reshape [1, 1]
  | [n] => ⟨[n, 1], fun idx => a.get [idx.getD 0 0]⟩
  | _ => a

/-- The dimension meant by a number: negative ones count from the last; `none`: `AxisError`. -/
def axisPos (ndim : Nat) (axis : Int) : Option Nat :=
  if axis < -(ndim : Int) ∨ (ndim : Int) ≤ axis then none
  else some (if axis < 0 then ndim + axis else axis).toNat

/-- `_as2d` (:821-844): the array and `remaining_shape`. -/
def as2d' (a : NArr α) (axis : Int) : Except Err (NArr α × List Nat) :=
  match axisPos (atLeast2d a).shape.length axis with
  | none => .error .valueError
  | some k =>
    let arr := (atLeast2d a).toFront k
    .ok (arr.reshape [arr.shape.getD 0 0, prod arr.shape.tail], arr.shape.tail)

/-- `as2d` (:847-860). -/
def as2d (a : NArr α) (axis : Int) : Except Err (NArr α) := (as2d' a axis).map (·.1)

/-- `in_arr[:] = arr`; arrays of another shape are refused (broadcasting is not modelled: it is only reached if a
zero- or one-dimensional array does not share memory with itself reshaped). -/
def assign (a b : NArr α) : Except Err (NArr α) := if b.shape = a.shape then .ok b else .error .valueError

/-- What an array contains after values were written into a view of it made by `_as2d`. -/
def through (a arr : NArr α) (k : Nat) (rest : List Nat) : NArr α :=
  ⟨a.shape, fun idx =>
    match a.shape with
    | [] => arr.get [0, 0]
    | [_] => arr.get (if k = 0 then [idx.getD 0 0, 0] else [0, idx.getD 0 0])
    | _ => arr.get [idx.getD k 0, ravel rest (idx.eraseIdx k)]⟩

/-- How a `with` block ends. -/
inductive Ended where
  | normally | raised
  deriving DecidableEq

/-- `with view2d(in_arr, axis) as arr: body` (:863-890): what `in_arr` contains afterwards.  `body` maps the contents of `arr` to
those at the end of the block.  If the block raises, the code after `yield` is not run. -/
def view2d (shares : Bool) (a : NArr α) (axis : Int) (body : NArr α → NArr α × Ended) : Except Err (NArr α) :=
  match as2d' a axis, axisPos (atLeast2d a).shape.length axis with
  | .ok (arr, rest), some k =>
    if shares then .ok (through a (body arr).1 k rest)
    else match (body arr).2 with
      | .raised => .ok a
      | .normally => assign a (((body arr).1.reshape ((body arr).1.shape.getD 0 0 :: rest)).fromFront k)
  | .error e, _ => .error e
  | _, none => .error .valueError

/-- `shape2d` (:893-907): `arr.shape[axis]`, and the product over all dimensions with another number. -/
def shape2d (a : NArr α) (axis : Int) : Except Err (Nat × Nat) :=
  match axisPos a.shape.length axis with
  | none => .error .indexError
  | some k => .ok (a.shape.getD k 0,
      prod (((List.range a.shape.length).filter (fun (idx : Nat) => decide ((idx : Int) ≠ axis))).map (fun idx => a.shape.getD idx 0)))

end AA
end Ez
