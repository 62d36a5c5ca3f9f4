import Verif.Model.Py

/-!
# The synchronous interface: callbacks of a `SyncContext`

`sync.py` lets ordinary (not asynchronous) code subscribe with callbacks.  An event loop runs in
another thread; `spin_once` asks it for the messages which are ready (`_recv_any`), then calls the
callbacks in the calling thread, one message after the other, and hands every message back.

This file models `create_subscription` with a callback, `spin`, `spin_once`, `shutdown`,
`_finalize_shutdown`, `__enter__` (sync.py:136-159, 242-352) and `_recv_any` (sync.py:376-444),
together with the part of `Subscriber.recv_zero_copy` (subclient.py:286-324) which takes a
notification off the queue.

Simplifications.  One thread drives the context (`spin`, `spin_once`); `shutdown` may come from any
thread and from a callback.  A subscription with a callback is not read by hand as well.  `deepcopy`
of a message (sync.py:297-298) succeeds.  The queue of a subscription is a list: what a leaky queue
drops is C23.  A callback does not itself call `spin_once`.
-/

namespace Ez
namespace Spin

/-- What a notification in the queue of a subscriber leads to (subclient.py:300-315): a message,
nothing because its publisher is gone (`pub_id not in self._channels`), or `CacheMiss` (or another
exception) from `channel.get`, which hands the buffer back. -/
inductive Item (V : Type) where
  | msg (v : V)
  | stale
  | miss

/-- A `_recv_entry` task (sync.py:380-386): not yet run, waiting for a notification, done with a
message which it now holds, or done with an exception. -/
inductive Task (V : Type) where
  | fresh
  | waiting
  | got (v : V)
  | failed

/-- Where the thread which drives the context is: in other code (or between two rounds of `spin`),
in `spin_once` waiting for `_recv_any` (sync.py:278-292), in its `for` loop (sync.py:295), or in the
body of that loop from the callback up to the release (sync.py:300-315); `intr` says that the
callback raised something which is not an `Exception`. -/
inductive Phase (S V : Type) where
  | idle
  | recv (tasks : List (S × Task V))
  | disp (rest : List (S × V)) (processed : Bool)
  | calling (s : S) (v : V) (rest : List (S × V)) (intr : Bool)

/-- What can be observed: `arrived` a notification reaches the queue of a subscription, `called` its
callback is called, `released` the message is handed back, `lost` a message taken off the queue is
dropped without a call, `began` and `returned` and `raised` delimit calls of `spin_once`, `spinEnded`
the return of `spin`, `cleaned` the context is closed, `refused` a call on a closed context raises
`RuntimeError`. -/
inductive Ev (S V : Type) where
  | arrived (s : S) (i : Item V)
  | called (s : S) (v : V)
  | released (s : S) (v : V)
  | lost (s : S) (v : V)
  | began
  | returned (b : Bool)
  | raised
  | spinEnded
  | cleaned
  | refused

/-- The context: `_callback_subscriptions`, the queues of its subscribers, `_shutdown_requested`,
`_spinning`, `_closed`, and where its thread is. -/
structure St (S V : Type) where
  subs : List S := []
  queue : S → List (Item V) := fun _ => []
  requested : Bool := false
  spinning : Bool := false
  closed : Bool := false
  phase : Phase S V := .idle
  log : List (Ev S V) := []

/-- How a callback ends: normally, with an exception, normally after calling `shutdown()`, or with
`KeyboardInterrupt`. -/
inductive Outcome where
  | ok
  | fails
  | stops
  | interrupted
deriving DecidableEq

/-- The steps: see `step`. -/
inductive Act (S V : Type) where
  | subscribe (s : S)
  | arrive (s : S) (i : Item V)
  | enter
  | spin
  | iter
  | spinOnce
  | run (s : S)
  | wake (order : List S) (expired : Bool)
  | interrupt
  | callback (o : Outcome)
  | release
  | finish
  | shutdown

variable {S V : Type} [DecidableEq S]

/-- Append to the log. -/
def note (st : St S V) (es : List (Ev S V)) : St S V := { st with log := st.log ++ es }

/-- The messages held by finished tasks. -/
def holding : List (S × Task V) → List (S × V)
  | [] => []
  | (s, .got v) :: ts => (s, v) :: holding ts
  | _ :: ts => holding ts

/-- What `_finalize_shutdown` (sync.py:325-352) drops: if `_recv_any` is in progress it is cancelled,
and the messages its tasks hold are dropped with it; `spin_once` raises `CancelledError`. -/
def cancelRecv (st : St S V) : St S V :=
  match st.phase with
  | .recv ts =>
    note { st with phase := .idle } ((holding ts).map (fun p => .lost p.1 p.2) ++ [.raised])
  | _ => st

/-- `_finalize_shutdown` (sync.py:325-352). -/
def finalize (st : St S V) : St S V :=
  if st.closed then st
  else note (cancelRecv { st with closed := true }) [.cleaned]

/-- `shutdown` (sync.py:319-323). -/
def shutdown (st : St S V) : St S V :=
  let st := { st with requested := true }
  if st.spinning then st else finalize st

/-- `KeyboardInterrupt` leaves `spin_once`: out to the caller, or to the handler in `spin`
(sync.py:251-256), which shuts the context down and returns. -/
def leave (st : St S V) : St S V :=
  if st.spinning then
    note (finalize { st with requested := true, spinning := false }) [.spinEnded]
  else st

/-- The start of `spin_once` (sync.py:265-281) up to the first round of `_recv_any`
(sync.py:391-393): one task per subscription. -/
def begin (st : St S V) : St S V :=
  if st.requested then note st [.began, .returned false]
  else if st.subs.isEmpty then note st [.began, .returned false]
  else note { st with phase := .recv (st.subs.map (fun s => (s, .fresh))) } [.began]

/-- What a task gets from the queue (subclient.py:300-315): notifications of publishers which are
gone are skipped, and the first other one is taken.  With none left the task waits. -/
def fetch : List (Item V) → Task V × List (Item V)
  | [] => (.waiting, [])
  | .stale :: q => fetch q
  | .miss :: q => (.failed, q)
  | .msg v :: q => (.got v, q)

/-- A task runs: for the first time, or woken by a notification; a finished one does not. -/
def runOne (q : List (Item V)) : Task V → Task V × List (Item V)
  | .fresh => fetch q
  | .waiting => fetch q
  | .got v => (.got v, q)
  | .failed => (.failed, q)

/-- The task of `s` runs. -/
def runTask (s : S) (q : List (Item V)) : List (S × Task V) → List (S × Task V) × List (Item V)
  | [] => ([], q)
  | (r, t) :: ts =>
    if r = s then ((r, (runOne q t).1) :: ts, (runOne q t).2)
    else ((r, t) :: (runTask s q ts).1, (runTask s q ts).2)

/-- Has the task not yet run? -/
def Task.isFresh : Task V → Bool
  | .fresh => true
  | _ => false

/-- Is the task done? -/
def Task.isDone : Task V → Bool
  | .got _ => true
  | .failed => true
  | _ => false

/-- The message of `s` among `ms`, if there is one. -/
def pick (ms : List (S × V)) (s : S) : Option (S × V) := ms.find? (fun p => p.1 = s)

/-- `asyncio.wait` returns (sync.py:395-397): every task has run (they were scheduled before the
timer), and one is done or the time is over.  `done` is a set: its order is arbitrary, here `order`.
Waiting tasks are cancelled, which leaves their queues alone (sync.py:415-433).  Messages go to the
`for` loop of `spin_once`; without messages the next round starts unless the time is over
(sync.py:435-440). -/
def wake (st : St S V) (ts : List (S × Task V)) (order : List S) (expired : Bool) : St S V :=
  if ts.any (fun p => p.2.isFresh) then st
  else if !(ts.any (fun p => p.2.isDone) || expired) then st
  else if holding ts = [] then
    if expired then note { st with phase := .idle } [.returned false]
    else { st with phase := .recv (st.subs.map (fun s => (s, .fresh))) }
  else if (∀ p ∈ holding ts, p.1 ∈ order) ∧ order.Nodup then
    { st with phase := .disp (order.filterMap (pick (holding ts))) false }
  else st

/-- The steps.
* `subscribe s`: `create_subscription` with a callback (sync.py:178-197);
* `arrive`: a notification is put on the queue of `s`;
* `enter`: `__enter__` of the entered or closed context (sync.py:136-146);
* `spin`: `spin` is called (sync.py:242-247); `iter`: the head of its loop (sync.py:249-256);
* `spinOnce`: `spin_once` is called by other code than `spin`;
* `run s`: the task of `s` runs; `wake`: `asyncio.wait` returns;
* `interrupt`: `KeyboardInterrupt` while `spin_once` waits (sync.py:285-292);
* `callback`: the next callback is called and ends (sync.py:295-303);
* `release`: the message is handed back (sync.py:304-315), whatever the release itself raises; on a
  context which has been closed meanwhile `self._loop` is `None` and this raises `AttributeError`;
* `finish`: the end of the `for` loop (sync.py:317);
* `shutdown`: called from another thread, or by the code between two calls.
A step which is not possible changes nothing. -/
def step (st : St S V) : Act S V → St S V
  | .subscribe s =>
    if st.closed then note st [.refused]
    else if s ∈ st.subs then st else { st with subs := st.subs ++ [s] }
  | .arrive s i =>
    note { st with queue := fun r => if r = s then st.queue s ++ [i] else st.queue r } [.arrived s i]
  | .enter => if st.closed then note st [.refused] else st
  | .spin =>
    match st.phase with
    | .idle =>
      if st.spinning then st
      else if st.closed then note st [.refused]
      else if st.requested then note st [.spinEnded]
      else { st with spinning := true }
    | _ => st
  | .iter =>
    match st.phase with
    | .idle =>
      if !st.spinning then st
      else if st.requested then note (finalize { st with spinning := false }) [.spinEnded]
      else begin st
    | _ => st
  | .spinOnce =>
    match st.phase with
    | .idle =>
      if st.spinning then st
      else if st.closed then note st [.refused]
      else begin st
    | _ => st
  | .run s =>
    match st.phase with
    | .recv ts =>
      let r := runTask s (st.queue s) ts
      { st with
        phase := .recv r.1
        queue := fun q => if q = s then r.2 else st.queue q }
    | _ => st
  | .wake order expired =>
    match st.phase with
    | .recv ts => wake st ts order expired
    | _ => st
  | .interrupt =>
    match st.phase with
    | .recv _ => leave (cancelRecv st)
    | _ => st
  | .callback o =>
    match st.phase with
    | .disp ((s, v) :: rest) _ =>
      let st := note { st with phase := .calling s v rest (decide (o = .interrupted)) } [.called s v]
      if o = .stops then shutdown st else st
    | _ => st
  | .release =>
    match st.phase with
    | .calling s v rest intr =>
      if st.closed then
        note { st with phase := .idle } (rest.map (fun p => .lost p.1 p.2) ++ [.raised])
      else if intr then
        leave (note { st with phase := .idle }
          (.released s v :: rest.map (fun p => .lost p.1 p.2) ++ [.raised]))
      else note { st with phase := .disp rest true } [.released s v]
    | _ => st
  | .finish =>
    match st.phase with
    | .disp [] b => note { st with phase := .idle } [.returned b]
    | _ => st
  | .shutdown => shutdown st

/-- A run of steps. -/
def run (st : St S V) : List (Act S V) → St S V
  | [] => st
  | a :: as => run (step st a) as

end Spin
end Ez
