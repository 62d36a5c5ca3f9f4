/-!
# Receiving synchronously, with a timeout

Source: `src/ezmsg/core/sync.py`: `_future_result` (20-25), `SyncSubscriber.recv` (96-98); `Subscriber.recv` and
`recv_zero_copy` (`src/ezmsg/core/subclient.py:271-324`); `asyncio.run_coroutine_threadsafe`, `_chain_future` and `Queue.get` and
`concurrent.futures.Future` of CPython.

One thread calls `recv` again and again; the loop runs in another thread. Calls are numbered. `run_coroutine_threadsafe` schedules the
creation of a task; cancelling the future that it returns schedules the cancellation of the task; the loop does what was
scheduled in order. A task that is cancelled while it waits for the queue takes no message, even if one is there already
(`Queue.get` passes it on). Once `Queue.get` has returned, the rest of `recv` does not await: the task ends in the same step, and
in a later one its result is given to the future.

Simplifications:
* Only this thread receives from the subscriber. The queue is a list of messages; stale notifications are left out.
* `recv` does not raise.
-/

namespace Ez
namespace SyncRecv

/-- A `concurrent.futures.Future`. -/
inductive Fut (V : Type) where
  | pending
  | cancelled
  | done (v : V)
deriving DecidableEq

/-- What the loop was asked to do. -/
inductive Todo where
  | create (i : Nat)
  | cancel (i : Nat)
deriving DecidableEq

/-- The calling thread: between calls; in `future.result(timeout)`, sync.py:22; in the `except` clause, 23-25. -/
inductive Main where
  | idle
  | waits
  | expired
deriving DecidableEq

/-- * `queue`: messages the subscriber was notified of
* `calls`: calls begun; the last one is number `calls - 1`; `fut`: their futures
* `todo`: what the loop was asked to do
* `active`: the tasks that wait for a message, in the order in which they will get one; `ended`: tasks whose result was not yet passed on
* `taken`: messages taken from the queue, with the call; `got`: messages returned; `late`: calls that raised `TimeoutError` -/
structure St (V : Type) where
  main : Main
  queue : List V
  calls : Nat
  fut : Nat → Fut V
  todo : List Todo
  active : List Nat
  ended : List (Nat × V)
  taken : List (Nat × V)
  got : List (Nat × V)
  late : List Nat

/-- * `arrive`: a message comes
* `call`: `run_coroutine_threadsafe`, sync.py:97; `expire`: the timeout in `future.result`; `return`: `future.result` returns;
  `raise`: `future.cancel()` and `raise`, 24-25
* `loop`: the loop does what it was asked to; `take`: the task takes a message and ends; `pass`: its result is passed on -/
inductive Act (V : Type) where
  | arrive (v : V)
  | call
  | expire
  | return
  | raise
  | loop
  | take
  | pass

variable {V : Type}

def init : St V := ⟨.idle, [], 0, fun _ => .pending, [], [], [], [], [], []⟩

def setFut (f : Nat → Fut V) (i : Nat) (x : Fut V) : Nat → Fut V := fun j => if j = i then x else f j

/-- One step; `none`: not possible now. -/
def step (s : St V) : Act V → Option (St V)
  | .arrive v => some { s with queue := s.queue ++ [v] }
  | .call =>
    match s.main with
    | .idle => some { s with main := .waits, calls := s.calls + 1, fut := setFut s.fut s.calls .pending,
                             todo := s.todo ++ [.create s.calls] }
    | _ => none
  | .expire =>
    match s.main, s.fut (s.calls - 1) with
    | .waits, .pending => some { s with main := .expired }
    | _, _ => none
  | .return =>
    match s.main, s.fut (s.calls - 1) with
    | .waits, .done v => some { s with main := .idle, got := s.got ++ [(s.calls - 1, v)] }
    | _, _ => none
  | .raise =>
    match s.main with
    | .expired =>
      let s1 := { s with main := .idle, late := s.late ++ [s.calls - 1] }
      match s.fut (s.calls - 1) with
      | .pending => some { s1 with fut := setFut s.fut (s.calls - 1) .cancelled, todo := s.todo ++ [.cancel (s.calls - 1)] }
      | _ => some s1
    | _ => none
  | .loop =>
    match s.todo with
    | [] => none
    | .create i :: ts => some { s with todo := ts, active := s.active ++ [i] }
    | .cancel i :: ts => some { s with todo := ts, active := s.active.filter (decide <| · ≠ i) }
  | .take =>
    match s.active, s.queue with
    | i :: is, v :: q => some { s with active := is, queue := q, ended := s.ended ++ [(i, v)], taken := s.taken ++ [(i, v)] }
    | _, _ => none
  | .pass =>
    match s.ended with
    | [] => none
    | (i, v) :: es =>
      match s.fut i with
      | .pending => some { s with ended := es, fut := setFut s.fut i (.done v) }
      | _ => some { s with ended := es }

/-- A run. -/
def run : List (Act V) → St V → Option (St V)
  | [], s => some s
  | a :: as, s => match step s a with | none => none | some s' => run as s'

end SyncRecv
end Ez
