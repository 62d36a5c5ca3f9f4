/-!
# Receiving synchronously without a copy

Source: `_SyncZeroCopy` (`src/ezmsg/core/sync.py:59-82`), `_future_result` (20-25), `SyncSubscriber.recv_zero_copy`
(100-101); `Subscriber.recv_zero_copy` (`src/ezmsg/core/subclient.py:286-324`).

`with sub.recv_zero_copy(timeout) as msg:` in a thread.  `__enter__` makes the loop run the first part of the generator
`recv_zero_copy`, which takes a message and holds its buffer; `__exit__` makes it run the rest, which gives the buffer
back.  Both wait for the loop, with a timeout.

From CPython: `run_coroutine_threadsafe` schedules the creation of a task; cancelling its future schedules the
cancellation of the task, which takes effect after the first step of the task.  A task that is cancelled while it waits
for the queue takes no message.  `__aexit__` does all it does in one step, so cancelling it has no effect.  A generator
that nothing refers to any more is closed by the loop, which also gives the buffer back.

Simplifications, stated: one thread; blocks are numbered; the queue holds the messages themselves; neither the
generator nor the user's block raise (an exception in the block goes through `__exit__` as well).
-/
set_option linter.unusedSimpArgs false

namespace Ez.SyncZero

/-- What is seen.
* `arrived m`: a message comes; `entered i m`: block `i` begins, with message `m`; `timedOut i`: `__enter__` raises
  `TimeoutError`;
* `leaving i`: the block ends, `__exit__` is called; `left i`, `leftLate i`: `__exit__` returns, or raises
  `TimeoutError`;
* `taken i m`, `freed i m`: on behalf of block `i` the loop takes message `m`, and gives its buffer back. -/
inductive Ev (V : Type) where
  | arrived (m : V)
  | entered (i : Nat) (m : V)
  | timedOut (i : Nat)
  | leaving (i : Nat)
  | left (i : Nat)
  | leftLate (i : Nat)
  | taken (i : Nat) (m : V)
  | freed (i : Nat) (m : V)
  deriving DecidableEq, Repr

/-- The thread: outside; in `future.result` of `__enter__` (sync.py:22, 75); past its timeout (sync.py:23-25); in the
block; in `future.result` of `__exit__` (sync.py:79-82). -/
inductive Main (V : Type) where
  | out
  | enters (i : Nat)
  | late (i : Nat)
  | inside (i : Nat) (m : V)
  | exits (i : Nat)
  deriving DecidableEq, Repr

/-- What the loop was asked to do: create the task of `__aenter__` of block `i`, cancel it, create that of
`__aexit__`. -/
inductive Todo where
  | enter (i : Nat)
  | cancel (i : Nat)
  | exit (i : Nat)
  deriving DecidableEq, Repr

/-- State.
* `calls`: number of blocks begun; `queue`: messages not yet taken; `todo`: what the loop was asked to do;
* `waiting`: blocks whose task waits for the queue; `ended`: those whose task has taken a message, not yet passed on to
  the future; `holding`: blocks whose generator holds a message;
* `fut`: the message in the future of `__enter__`; `gone`: futures that were cancelled; `exited`: blocks whose
  `__aexit__` has run. -/
structure St (V : Type) where
  main : Main V
  calls : Nat
  queue : List V
  todo : List Todo
  waiting : List Nat
  ended : List (Nat × V)
  holding : List (Nat × V)
  fut : Nat → Option V
  gone : List Nat
  exited : List Nat
  log : List (Ev V)

variable {V : Type}

/-- The beginning. -/
def init : St V :=
  { main := .out, calls := 0, queue := [], todo := [], waiting := [], ended := [], holding := [], fut := fun _ => none, gone := [], exited := [], log := [] }

/-- Append to the log. -/
def note (st : St V) (e : Ev V) : St V := { st with log := st.log ++ [e] }

/-- A message comes (messagechannel.py:331-361). -/
def arrive (st : St V) (m : V) : St V := note { st with queue := st.queue ++ [m] } (.arrived m)

/-- `__enter__` (sync.py:72-75). -/
def call (st : St V) : Option (St V) :=
  match st.main with
  | .out => some { st with main := .enters st.calls, calls := st.calls + 1, todo := st.todo ++ [.enter st.calls] }
  | _ => none

/-- `future.result` returns (sync.py:22). -/
def return_ (st : St V) : Option (St V) :=
  match st.main with
  | .enters i => (st.fut i).map (fun m => note { st with main := .inside i m } (.entered i m))
  | _ => none

/-- `future.result` raises as the timeout is over (sync.py:23). -/
def expire (st : St V) : Option (St V) :=
  match st.main with
  | .enters i => some { st with main := .late i }
  | _ => none

/-- `future.cancel()` and `raise TimeoutError` (sync.py:24-25).  A future that has its result is not cancelled. -/
def giveUp (st : St V) : Option (St V) :=
  match st.main with
  | .late i =>
    match st.fut i with
    | some _ => some (note { st with main := .out } (.timedOut i))
    | none => some (note { st with main := .out, gone := i :: st.gone, todo := st.todo ++ [.cancel i] } (.timedOut i))
  | _ => none

/-- The block ends and `__exit__` is called (sync.py:77-81). -/
def leave (st : St V) : Option (St V) :=
  match st.main with
  | .inside i _ => some (note { st with main := .exits i, todo := st.todo ++ [.exit i] } (.leaving i))
  | _ => none

/-- `future.result` of `__exit__` returns, or raises as the timeout is over (sync.py:82, 20-25). -/
def leaveDone (st : St V) (late : Bool) : Option (St V) :=
  match st.main with
  | .exits i =>
    if late then some (note { st with main := .out } (.leftLate i))
    else if i ∈ st.exited then some (note { st with main := .out } (.left i))
    else none
  | _ => none

/-- The generator of block `i` gives its message back (subclient.py:311-324). -/
def free (st : St V) (i : Nat) : St V :=
  match st.holding.find? (fun p => decide (p.1 = i)) with
  | some (_, m) => note { st with holding := st.holding.filter (fun p => decide (p.1 ≠ i)) } (.freed i m)
  | none => st

/-- The loop does what it was asked first. -/
def loop (st : St V) : Option (St V) :=
  match st.todo with
  | .enter i :: q => some { st with todo := q, waiting := st.waiting ++ [i] }
  | .cancel i :: q => some { st with todo := q, waiting := st.waiting.filter (fun x => decide (x ≠ i)) }
  | .exit i :: q => some { free { st with todo := q } i with exited := i :: st.exited }
  | [] => none

/-- The first task that waits takes the oldest message and holds it (subclient.py:298-312). -/
def take (st : St V) : Option (St V) :=
  match st.waiting, st.queue with
  | i :: ws, m :: q =>
    some (note { st with waiting := ws, queue := q, ended := st.ended ++ [(i, m)], holding := st.holding ++ [(i, m)] } (.taken i m))
  | _, _ => none

/-- The result of a task is passed on to its future, if that was not cancelled. -/
def deliver (st : St V) : Option (St V) :=
  match st.ended with
  | (i, m) :: q =>
    if i ∈ st.gone then some { st with ended := q }
    else some { st with ended := q, fut := fun x => if x = i then some m else st.fut x }
  | [] => none

/-- Does the thread still use block `i`? -/
def uses (st : St V) (i : Nat) : Bool :=
  match st.main with
  | .out => false
  | .enters j => decide (j = i)
  | .late j => decide (j = i)
  | .inside j _ => decide (j = i)
  | .exits j => decide (j = i)

/-- Nothing refers to the generator of block `i` any more: it is closed. -/
def collect (st : St V) (i : Nat) : Option (St V) :=
  if uses st i = false ∧ Todo.exit i ∉ st.todo ∧ (st.holding.any (fun p => decide (p.1 = i))) = true then some (free st i)
  else none

/-- The steps. -/
inductive Act (V : Type) where
  | arrive (m : V)
  | call
  | return_
  | expire
  | giveUp
  | leave
  | leaveDone (late : Bool)
  | loop
  | take
  | deliver
  | collect (i : Nat)
  deriving DecidableEq, Repr

/-- One step; `none` if it is not possible. -/
def step (st : St V) : Act V → Option (St V)
  | .arrive m => some (arrive st m)
  | .call => call st
  | .return_ => return_ st
  | .expire => expire st
  | .giveUp => giveUp st
  | .leave => leave st
  | .leaveDone late => leaveDone st late
  | .loop => loop st
  | .take => take st
  | .deliver => deliver st
  | .collect i => collect st i

/-- Several steps. -/
def run : List (Act V) → St V → Option (St V)
  | [], st => some st
  | a :: as, st => match step st a with | some st' => run as st' | none => none

end Ez.SyncZero
