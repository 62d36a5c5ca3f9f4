import Verif.Model.AxisArray

/-!
# Model of `==` on messages and axes (`src/ezmsg/util/messages/axisarray.py`)

Objects have an identity, since `is` is consulted by `ArrayWithNamedDims.__eq__` and by the comparison of
dictionaries; two objects with the same identity are the same object. Numbers are compared with `==`, of
which nothing is assumed here: for floating point numbers NaN is unlike itself.

Left out: arrays of different libraries (`get_namespace`), attributes other than strings and arrays of
one dimension, and the comparison of numbers by identity inside the tuples that generated `__eq__`
methods compare before Python 3.13.
-/

namespace Ez
namespace Equality

open AA

/-- An object: its identity and its content. -/
structure Obj (α : Type) where
  id : Nat
  val : α

/-- The class of a linear axis: `LinearAxis`, axisarray.py:50-69, or the deprecated `AxisArray.Axis`, 236-250. -/
inductive LinClass where
  | linearAxis
  | deprecated
deriving DecidableEq

/-- `LinearAxis` and `CoordinateAxis`, axisarray.py:50-69, 155-173. -/
inductive Ax (R : Type) where
  | linear (cls : LinClass) (unit : String) (gain offset : R)
  | coord (unit : String) (data : NArr R) (dims : List String)

/-- The value of an attribute: a string, or an array of one dimension. -/
inductive Attr (R : Type) where
  | str (s : String)
  | array (xs : List R)

/-- `AxisArray`, axisarray.py:190-216; `cls` is the class of the object, `AxisArray` or a subclass of it. -/
structure Msg (α R : Type) where
  cls : Nat
  data : NArr α
  dims : List String
  axes : PyDict String (Obj (Ax R))
  attrs : PyDict String (Obj (Attr R))
  key : String

section
variable {α R : Type} [BEq α] [BEq R]

/-- The index tuples of a shape. -/
def indices : List Nat → List (List Nat)
  | [] => [[]]
  | n :: s => (List.range n).flatMap fun i => (indices s).map (i :: ·)

/-- `xp.array_equal`, axisarray.py:150: the same shape and equal elements. -/
def arrayEqual (a b : NArr α) : Bool :=
  decide (a.shape = b.shape) && (indices a.shape).all fun ix => a.get ix == b.get ix

/-- How Python evaluates `x == y` given the results of `x.__eq__(y)` and `y.__eq__(x)`, where `none` is
`NotImplemented`: the first that is implemented, otherwise whether they are the same object. -/
def pyEq (same : Bool) (fwd bwd : Option (Except Err Bool)) : Except Err Bool :=
  match fwd with
  | some r => r
  | none =>
    match bwd with
    | some r => r
    | none => .ok same

/-- `__eq__` of axes. `LinearAxis` and `AxisArray.Axis` have the generated one, which compares unit, gain and
offset of objects of the same class, axisarray.py:50, 68-69, 236. `CoordinateAxis` is declared with `eq=False`
and takes `__eq__` from the first of its bases that has it: `AxisBase`, axisarray.py:33-37, 155-156, whose generated
`__eq__` compares objects of the same class by their unit, the only field of `AxisBase`. -/
def axEq : Ax R → Ax R → Option (Except Err Bool)
  | .linear c u g o, .linear c' u' g' o' =>
    if c = c' then some (.ok (u == u' && g == g' && o == o')) else none
  | .coord u _ _, .coord u' _ _ => some (.ok (u == u'))
  | _, _ => none

/-- `a == b` for axes. -/
def axesEqual (a b : Obj (Ax R)) : Except Err Bool :=
  pyEq (decide (a.id = b.id)) (axEq a.val b.val) (axEq b.val a.val)

/-- The truth of `a == b` for attributes. Arrays are compared element by element, and the result has a truth
value only if it has exactly one element (numpy 2.2 and later, pyproject.toml:35). -/
def attrsEqual (a b : Obj (Attr R)) : Except Err Bool :=
  match a.val, b.val with
  | .str s, .str t => .ok (s == t)
  | .array [x], .array [y] => .ok (x == y)
  | .array [_], .str _ => .ok false
  | .str _, .array [_] => .ok false
  | _, _ => .error .valueError

/-- The entries of a dictionary looked up in another one: a value is equal to itself, whatever its `__eq__` says. -/
def dictLoop {V : Type} (eqv : Obj V → Obj V → Except Err Bool) (b : PyDict String (Obj V)) :
    List (String × Obj V) → Except Err Bool
  | [] => .ok true
  | (k, v) :: t =>
    match b.get? k with
    | none => .ok false
    | some w =>
      if v.id = w.id then dictLoop eqv b t
      else
        match eqv v w with
        | .ok true => dictLoop eqv b t
        | r => r

/-- `a == b` for dictionaries. -/
def dictEqual {V : Type} (eqv : Obj V → Obj V → Except Err Bool) (a b : PyDict String (Obj V)) : Except Err Bool :=
  if a.length = b.length then dictLoop eqv b a else .ok false

/-- `ArrayWithNamedDims.__eq__`, axisarray.py:145-152: `True` or `NotImplemented`. -/
def namedDimsEq (a b : Obj (Msg α R)) : Bool :=
  decide (a.id = b.id) ||
    (decide (a.val.cls = b.val.cls) && (decide (a.val.dims = b.val.dims) && arrayEqual a.val.data b.val.data))

/-- `AxisArray.__eq__`, axisarray.py:218-234. -/
def msgEq (a b : Obj (Msg α R)) : Option (Except Err Bool) :=
  if namedDimsEq a b then
    some (
      if a.val.key = b.val.key then
        match dictEqual attrsEqual a.val.attrs b.val.attrs with
        | .ok true =>
          match dictEqual axesEqual a.val.axes b.val.axes with
          | .ok true => .ok true
          | r => r
        | r => r
      else .ok false)
  else none

/-- `a == b` for messages. -/
def messagesEqual (a b : Obj (Msg α R)) : Except Err Bool :=
  pyEq (decide (a.id = b.id)) (msgEq a b) (msgEq b a)

end

section
variable {R : Type} [Add R] [Sub R] [Mul R] [Div R] [IntCast R]

/-- `LinearAxis.value`, axisarray.py:84. -/
def value (gain offset : R) (x : Int) : R := (x : R) * gain + offset

/-- `LinearAxis.index`, axisarray.py:103, where `fn` rounds and gives a whole number. -/
def index (fn : R → Int) (gain offset v : R) : Int := fn ((v - offset) / gain)

end
end Equality
end Ez
