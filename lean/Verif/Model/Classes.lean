import Verif.Model.Py

/-!
# Classes of units (`src/ezmsg/core/component.py:18-90`, `src/ezmsg/core/unit.py:30-77`)

A program is a list of class statements; classes are numbered in the order in which they are made, so bases have smaller
numbers.  Functions and streams are values of any type.
-/

namespace Ez
namespace Classes

variable {F : Type}

/-- How a field of a class is marked: a stream, `@task` (also by `@publisher` and `@subscriber`), `@thread`, `@main`, or none
of these. -/
inductive Kind where
  | stream | task | thread | main | plain
  deriving DecidableEq

/-- A class statement: whether the class is a unit (rather than an ordinary class), its bases, its fields. -/
structure ClassDef (F : Type) where
  unit : Bool := true
  bases : List Nat := []
  own : PyDict String (Kind × F) := []

/-- `__streams__`, `__tasks__`, `__threads__` and `__main__` of a class. -/
structure Table (F : Type) where
  streams : PyDict String F := []
  tasks : PyDict String F := []
  threads : PyDict String F := []
  main : Option F := none

/-- The dictionary for a kind. -/
def Table.dict (t : Table F) : Kind → PyDict String F
  | .stream => t.streams
  | .task => t.tasks
  | .thread => t.threads
  | _ => []

/-- `d[k] = v` for all items of another dictionary. -/
def updateAll (d e : PyDict String F) : PyDict String F := e.foldl (fun d x => PyDict.set d x.1 x.2) d

/-- A base (component.py:41-49, unit.py:40-55); `none` if `Exception` is raised because there is a main function
already.  An ordinary class has none of the attributes. -/
def inherit (t : Table F) : Option (Table F) → Option (Table F)
  | none => some t
  | some b =>
    if t.main.isSome ∧ b.main.isSome then none
    else some { streams := updateAll t.streams b.streams, tasks := updateAll t.tasks b.tasks,
                threads := updateAll t.threads b.threads, main := b.main }

/-- The bases in turn. -/
def inheritAll : Table F → List (Option (Table F)) → Option (Table F)
  | t, [] => some t
  | t, b :: bs => (inherit t b).bind (inheritAll · bs)

/-- A field (component.py:51-55, unit.py:57-71). -/
def field (t : Table F) (x : String × (Kind × F)) : Table F :=
  match x.2.1 with
  | .stream => { t with streams := PyDict.set t.streams x.1 x.2.2 }
  | .task => { t with tasks := PyDict.set t.tasks x.1 x.2.2 }
  | .thread => { t with threads := PyDict.set t.threads x.1 x.2.2 }
  | .main => { t with main := some x.2.2 }
  | .plain => t

/-- Making a class: its table, or none for an ordinary class; the outer `none` is the exception. -/
def make (ts : List (Option (Table F))) (d : ClassDef F) : Option (Option (Table F)) :=
  if d.unit then (inheritAll {} (d.bases.map (fun b => (ts[b]?).getD none))).map (fun t => some (d.own.foldl field t))
  else some none

/-- Class statements in turn. -/
def define : List (Option (Table F)) → List (ClassDef F) → Option (List (Option (Table F)))
  | ts, [] => some ts
  | ts, d :: ds => (make ts d).bind (fun t => define (ts ++ [t]) ds)

end Classes
end Ez
