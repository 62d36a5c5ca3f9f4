import Verif.Model.Classes

/-!
# How streams and components get their names

Sources: `src/ezmsg/core/addressable.py`: `Addressable._set_name` (26-30); `src/ezmsg/core/component.py`: `ComponentMeta.__init__` (38-55), `Component.__init__`
(131-133); `src/ezmsg/core/collection.py`: `CollectionMeta.__init__` (24-36), `Collection.__init__` (62-66); `src/ezmsg/core/backend.py`:
`ExecutionContext.setup` (164-166).

A program is a list of class statements; classes are numbered in the order in which they are made. Objects (streams, units, collections that were made in a class body) are
numbers.

Simplifications:
* What an object holds is copied with it by `deepcopy`; only the object itself is followed here.
* Settings, states, tasks, and the warning for streams of collections are left out. A class statement that raises ends the program.
* Fields of a class are streams, components, or neither.
-/

namespace Ez
namespace Naming

open Classes (updateAll)

abbrev Obj := Nat

inductive Kind where
  | stream
  | component
deriving DecidableEq

/-- The value of a field. -/
inductive Val where
  | obj (k : Kind) (o : Obj)
  | plain
deriving DecidableEq

/-- A class statement: a collection (rather than a unit), its bases, its fields. -/
structure ClassDef where
  collection : Bool := true
  bases : List Nat := []
  own : PyDict String Val := []

/-- `__streams__` and `__components__`. -/
structure Class where
  streams : PyDict String Obj := []
  components : PyDict String Obj := []

def Class.dict (c : Class) : Kind → PyDict String Obj
  | .stream => c.streams
  | .component => c.components

/-- The names of objects that have one, and the classes. -/
structure World where
  names : PyDict Obj String := []
  classes : List Class := []

/-- `_set_name`, addressable.py:26-30; `none`: `AssertionError`. -/
def setName (ns : PyDict Obj String) (o : Obj) (n : String) : Option (PyDict Obj String) :=
  if (PyDict.get? ns o).isSome then none else some (ns ++ [(o, n)])

/-- The bases in turn: component.py:41-44, collection.py:28-32. -/
def inherit (k : Kind) (cs : List Class) (bases : List Nat) : PyDict String Obj :=
  bases.foldl (fun d b => updateAll d (((cs[b]?).getD {}).dict k)) []

/-- The fields in turn: component.py:51-55, collection.py:34-37. -/
def fields (k : Kind) : PyDict Obj String → PyDict String Obj → List (String × Val) → Option (PyDict Obj String × PyDict String Obj)
  | ns, d, [] => some (ns, d)
  | ns, d, (_, .plain) :: fs => fields k ns d fs
  | ns, d, (n, .obj k' o) :: fs =>
    if k' = k then (setName ns o n).bind fun ns' => fields k ns' (PyDict.set d n o) fs
    else fields k ns d fs

/-- A class statement: component.py:38-55, collection.py:24-36; `none`: it raises. -/
def make (w : World) (d : ClassDef) : Option World :=
  (fields .stream w.names (inherit .stream w.classes d.bases) d.own).bind fun s =>
    if d.collection then
      (fields .component s.1 (inherit .component w.classes d.bases) d.own).map fun c =>
        { names := c.1, classes := w.classes ++ [⟨s.2, c.2⟩] }
    else some { names := s.1, classes := w.classes ++ [⟨s.2, []⟩] }

/-- Class statements in turn. -/
def define : World → List ClassDef → Option World
  | w, [] => some w
  | w, d :: ds => (make w d).bind fun w' => define w' ds

/-- `deepcopy` of a dictionary of objects: what was copied already (`memo`) is not copied again. The copies are numbered from `next` on, and keep the name. -/
def copies (ns : PyDict Obj String) : Nat → PyDict Obj Obj → PyDict String Obj → List (String × Obj × Option String) × Nat
  | next, _, [] => ([], next)
  | next, memo, (n, o) :: d =>
    match PyDict.get? memo o with
    | some o' =>
      let r := copies ns next memo d
      ((n, o', PyDict.get? ns o) :: r.1, r.2)
    | none =>
      let r := copies ns (next + 1) (memo ++ [(o, next)]) d
      ((n, next, PyDict.get? ns o) :: r.1, r.2)

/-- The attributes of an instance: name of the attribute, object, and its own name. -/
structure Inst where
  streams : List (String × Obj × Option String)
  components : List (String × Obj × Option String)

/-- Making an instance: component.py:131-133, collection.py:64-66. -/
def instantiate (w : World) (next : Nat) (c : Class) : Inst × Nat :=
  let s := copies w.names next [] c.streams
  let k := copies w.names s.2 [] c.components
  (⟨s.1, k.1⟩, k.2)

/-- The components that are run get their names: backend.py:164-165. -/
def setup : PyDict Obj String → List (String × Obj) → Option (PyDict Obj String)
  | ns, [] => some ns
  | ns, (n, o) :: cs => (setName ns o n).bind fun ns' => setup ns' cs

end Naming
end Ez
