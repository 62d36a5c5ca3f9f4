import Verif.Model.Py

/-!
# The decorators of methods (`src/ezmsg/core/unit.py:135-332`)

Functions are objects with attributes; the list in `__ez_publishes__` is an object of its own, which two functions may
share. Functions and lists are named by their positions.

* Warnings and what the wrapper of `timeit` does when it is called (`Model/TaskRun.lean`) are left out.
* The functions that are decorated have none of these attributes to begin with.
-/

namespace Ez
namespace Marks

/-- What kind of object a decorator gets as its stream. -/
inductive Kind where
  | input | output | other
deriving DecidableEq

/-- A stream: stream.py:135-270. -/
structure Strm where
  kind : Kind
  name : String
  leaky : Bool := false
  maxQueue : Option Nat := none
deriving DecidableEq

/-- The attributes of a function: unit.py:16-25. `publishes` is the position of the list. -/
structure Fn where
  main : Bool := false
  thread : Bool := false
  task : Bool := false
  process : Bool := false
  timeit : Bool := false
  subscribes : Option Strm := none
  zeroCopy : Bool := false
  leaky : Option Bool := none
  maxQueue : Option (Option Nat) := none
  publishes : Option Nat := none
deriving DecidableEq

/-- All functions and all lists. -/
structure Heap where
  fns : List Fn
  lists : List (List Strm)

/-- The attributes of a function. -/
def Heap.fn (h : Heap) (f : Nat) : Fn := h.fns[f]?.getD {}

/-- A decorator as it is written above a method. -/
inductive Dec where
  | publisher (s : Strm)
  | subscriber (s : Strm)
  | main
  | timeit
  | thread
  | task
  | process
deriving DecidableEq

/-- Exceptions: `ValueError` for a wrong stream, `Exception` for a second subscription. -/
inductive Err where
  | valueError
  | exception
deriving DecidableEq

/-- `publisher(stream)` and `subscriber(stream)` before they get a function: unit.py:160-161, 199-200. -/
def Dec.check : Dec → Bool
  | .publisher s => s.kind = .output
  | .subscriber s => s.kind = .input
  | _ => true

/-- Set the attributes of a function. -/
def Heap.setFn (h : Heap) (f : Nat) (x : Fn) : Heap := { h with fns := h.fns.set f x }

/-- A decorator applied to a function: the function it gives.

`pub_factory`: unit.py:163-169; `sub_factory`: unit.py:212-222; `main`: unit.py:240-241; `timeit`, with
`functools.wraps`, which copies the attributes but not the objects they refer to: unit.py:261-273; `thread`: unit.py:299-300;
`task`: unit.py:315-316; `process`: unit.py:331-332. -/
def apply (h : Heap) (f : Nat) : Dec → Except Err (Heap × Nat)
  | .publisher s =>
    match (h.fn f).publishes with
    | some l => .ok ({ h with lists := h.lists.modify l (· ++ [s]) }.setFn f { h.fn f with task := true }, f)
    | none =>
      .ok ({ h with lists := h.lists ++ [[s]] }.setFn f { h.fn f with publishes := some h.lists.length, task := true }, f)
  | .subscriber s =>
    if (h.fn f).subscribes.isSome then .error .exception
    else .ok (h.setFn f { h.fn f with
      subscribes := some s, zeroCopy := true, leaky := some s.leaky, maxQueue := some s.maxQueue, task := true }, f)
  | .main => .ok (h.setFn f { h.fn f with main := true }, f)
  | .timeit =>
    let h := h.setFn f { h.fn f with timeit := true }
    .ok ({ h with fns := h.fns ++ [h.fn f] }, h.fns.length)
  | .thread => .ok (h.setFn f { h.fn f with thread := true }, f)
  | .task => .ok (h.setFn f { h.fn f with task := true }, f)
  | .process => .ok (h.setFn f { h.fn f with process := true }, f)

/-- Decorators one after the other. -/
def applyAll (h : Heap) (f : Nat) : List Dec → Except Err (Heap × Nat)
  | [] => .ok (h, f)
  | d :: ds =>
    match apply h f d with
    | .error e => .error e
    | .ok (h, f) => applyAll h f ds

/-- A `def` statement with decorators, the lowest first. Python evaluates the expressions of all decorators, then
makes the function, then calls the decorators. -/
def define (h : Heap) (ds : List Dec) : Except Err (Heap × Nat) :=
  if ds.all Dec.check then applyAll { h with fns := h.fns ++ [{}] } h.fns.length ds else .error .valueError

/-- What a class of units makes of a function: unit.py:63-70. -/
inductive Role where
  | task | main | thread | plain
deriving DecidableEq

/-- unit.py:65-70. -/
def Fn.role (x : Fn) : Role := if x.task then .task else if x.main then .main else if x.thread then .thread else .plain

/-- `getattr(task, PUBLISHES_ATTR)`, nothing without the attribute: backend.py:562-568. -/
def Heap.published (h : Heap) (f : Nat) : List Strm :=
  match (h.fn f).publishes with
  | some l => h.lists[l]?.getD []
  | none => []

end Marks
end Ez
