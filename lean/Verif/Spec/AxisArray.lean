import Verif.Model.AxisArray

/-!
# Vocabulary for arrays with named dimensions

An element of an `AxisArray` is named by giving an index for each dimension name (`f : String → Nat`), so
that the statements do not depend on the order of the dimensions.
-/

namespace Ez.AA
variable {α R A : Type}

namespace AxisArray

/-- What every constructed `AxisArray` satisfies: as many names as dimensions, and no name twice. -/
structure WF (aa : AxisArray α R A) : Prop where
  len : aa.dims.length = aa.data.shape.length
  nodup : aa.dims.Nodup

/-- The element at index `f d` in each dimension `d`. -/
def «at» (aa : AxisArray α R A) (f : String → Nat) : α := aa.data.get (aa.dims.map f)

/-- The length of dimension `d`. -/
def size (aa : AxisArray α R A) (d : String) : Nat := aa.data.shape.getD (aa.dims.idxOf d) 0

/-- `f` names an element. -/
def Valid (aa : AxisArray α R A) (f : String → Nat) : Prop := ∀ d ∈ aa.dims, f d < aa.size d

/-- The coordinate of index `i` along dimension `d` (a dimension without axis counts 0, 1, 2, ...). -/
def coordAt (aa : AxisArray α Rat A) (d : String) (i : Nat) : Rat :=
  match aa.axes.get? d with
  | some (.linear _ g o) => (i : Rat) * g + o
  | some (.coord _ v _) => v.get [i]
  | none => i

end AxisArray

/-- The position that a slice bound `x` denotes on a sequence of length `n`: negative bounds count from the
end. -/
def pos (n : Nat) (x : Int) : Int := if x < 0 then x + n else x

/-- The positions between the bounds of the slice, in the direction of its step. -/
def between (n : Nat) (s : PySlice) : List Nat :=
  if 0 < s.step.getD 1 then
    (List.range n).filter (fun (i : Nat) => decide ((∀ x, s.start = some x → pos n x ≤ i) ∧
      (∀ y, s.stop = some y → (i : Int) < pos n y)))
  else
    ((List.range n).filter (fun (i : Nat) => decide ((∀ x, s.start = some x → (i : Int) ≤ pos n x) ∧
      (∀ y, s.stop = some y → pos n y < i)))).reverse

/-- `f` with the index of dimension `d` replaced. -/
def setDim (f : String → Nat) (d : String) (v : Nat) : String → Nat := fun x => if x = d then v else f x

/-- All index tuples of a shape. -/
def InB : List Nat → List Nat → Prop
  | [], [] => True
  | i :: is, n :: ns => i < n ∧ InB is ns
  | _, _ => False

end Ez.AA
