/-!
# The life of a synchronous context: its thread and the calls made through it

`SyncContext` (sync.py:111-356) starts a thread that runs an event loop, and every synchronous call
(`publish`, `recv`, `connect`, …) submits a coroutine to that loop and waits for its future
(sync.py:20-25).  Modelled: entering, calls from any number of threads, shutting down, and leaving
`new_threaded_event_loop` (backendprocess.py:825-937), as far as callers notice it.

Simplifications, stated:
* `spin` and `spin_once` are in `Model/SyncSpin.lean`; here they are calls like others.  Timeouts of
  calls are in `Model/SyncRecv.lean` and `Model/CancelPub.lean`; here calls wait without a limit.
* What the coroutine of a call does is left open: it ends at any time, with a result or an exception,
  or never.  The same for opening the session and for closing the graph context.
* `shutdown` is not called by another thread while `__enter__` waits for the server.
-/
set_option linter.unusedSimpArgs false

namespace Ez.Life

/-- What is seen from outside.
* `entered ok`: `__enter__` returned (`true`) or raised;
* `called k`, `ended k ok`: a call is made; it returns or raises;
* `shutCalled`, `shutDone ok`: `shutdown` is called; it returns or raises;
* `threadStarted`, `threadEnded`: of the thread of the loop, which is not a daemon
  (backendprocess.py:862-863), so that the interpreter waits for it. -/
inductive Ev (K : Type) where
  | entered (ok : Bool)
  | called (k : K)
  | ended (k : K) (ok : Bool)
  | shutCalled
  | shutDone (ok : Bool)
  | threadStarted
  | threadEnded
  deriving DecidableEq, Repr

/-- What has been submitted to the loop by `call_soon_threadsafe` and was not yet run: the coroutine of
a call (sync.py:34, 97), `_cancel_remaining` (backendprocess.py:893) and `loop.stop`
(backendprocess.py:934). -/
inductive Job (K : Type) where
  | call (k : K)
  | cancel
  | stop
  deriving DecidableEq, Repr

/-- How far `__enter__` or `_finalize_shutdown` have got.
* `entering`: waits for the session to be opened (sync.py:153-158);
* `cleaning`: waits for the graph context to be left (sync.py:340-345);
* `cancelling`: `_cancel_remaining` is submitted (backendprocess.py:893-895);
* `waiting ks`: it waits for the tasks it has cancelled (backendprocess.py:887);
* `stopping`: waits for the thread (backendprocess.py:934-935);
* `clearing`: the loop is closed, the attributes are not yet cleared (sync.py:350-352). -/
inductive Phase (K : Type) where
  | idle
  | entering
  | cleaning
  | cancelling
  | waiting (ks : List K)
  | stopping
  | clearing
  deriving DecidableEq, Repr

/-- State of one `SyncContext` (sync.py:114-128).
* `hasLoop`: `_loop` and `_loop_cm` are not `None`;
* `hasCtx`: `_graph_context` is not `None`;
* `closed`: `_closed`;
* `alive`: the loop runs;
* `dropped`: nobody refers to the context any more, so that the suspended generator
  `new_threaded_event_loop` has been closed, which runs its `finally` clause;
* `queue`: what was submitted to the loop, oldest first;
* `tasks`: the tasks of calls that have not ended. -/
structure St (K : Type) where
  hasLoop : Bool
  hasCtx : Bool
  closed : Bool
  alive : Bool
  dropped : Bool
  phase : Phase K
  queue : List (Job K)
  tasks : List K
  log : List (Ev K)
  deriving DecidableEq, Repr

variable {K : Type} [DecidableEq K]

/-- `SyncContext.__init__` (sync.py:114-128). -/
def init : St K :=
  { hasLoop := false, hasCtx := false, closed := false, alive := false, dropped := false, phase := .idle, queue := [], tasks := [], log := [] }

/-- Append to the log. -/
def note (st : St K) (es : List (Ev K)) : St K := { st with log := st.log ++ es }

/-- The head of `__enter__` (sync.py:138-150): a closed context raises, one that has a loop is returned
as it is, and otherwise the thread is started. -/
def enter (st : St K) : St K :=
  if st.closed then note st [.entered false]
  else if st.hasLoop then note st [.entered true]
  else note { st with hasLoop := true, alive := true, phase := .entering } [.threadStarted]

/-- The session is open, or `__aenter__` of the graph context has raised: `_future_result` raises before
`_graph_context` is set (sync.py:153-158).  The thread is left as it is. -/
def enterDone (st : St K) (ok : Bool) : St K :=
  if ok then note { st with hasCtx := true, phase := .idle } [.entered true]
  else note { st with phase := .idle } [.entered false]

/-- A call: `_ensure_started` (sync.py:354-356) raises without a loop or a graph context, and
`run_coroutine_threadsafe` raises if the loop is closed.  Otherwise the coroutine is submitted. -/
def call (st : St K) (k : K) : St K :=
  if st.hasLoop && st.hasCtx && st.alive then note { st with queue := st.queue ++ [.call k] } [.called k]
  else note st [.called k, .ended k false]

/-- Leaving `new_threaded_event_loop` begins (backendprocess.py:868-895): with strict shutdown the loop
is stopped at once, otherwise `_cancel_remaining` is submitted. -/
def leaveLoop (strict : Bool) (st : St K) : St K :=
  if strict then { st with phase := .stopping, queue := st.queue ++ [.stop] }
  else { st with phase := .cancelling, queue := st.queue ++ [.cancel] }

/-- `shutdown` and the head of `_finalize_shutdown` (sync.py:319-345).  Without a loop nothing is left to
do. -/
def shutdown (st : St K) : St K :=
  if st.closed then note st [.shutCalled, .shutDone true]
  else if st.hasLoop then note { st with closed := true, phase := .cleaning } [.shutCalled]
  else note { st with closed := true } [.shutCalled, .shutDone true]

/-- `__aexit__` of the graph context has ended (sync.py:340-348).  If it raises, so does `shutdown`, and
the loop is not left. -/
def cleaned (strict : Bool) (st : St K) (ok : Bool) : St K :=
  if ok then leaveLoop strict st
  else note { st with phase := .idle } [.shutDone false]

/-- The loop runs what was submitted first.
* The coroutine of a call becomes a task.
* `_cancel_remaining` (backendprocess.py:877-887) cancels all tasks and waits for them.
* `loop.stop` ends `run_forever`, hence the thread, and the loop is closed (backendprocess.py:934-936).
  What is still submitted, and the tasks, are not run any more. -/
def runJob (st : St K) : Option (St K) :=
  match st.queue with
  | [] => none
  | .call k :: q => some { st with queue := q, tasks := st.tasks ++ [k] }
  | .cancel :: q => some { st with queue := q, phase := .waiting st.tasks }
  | .stop :: q => some (note { st with queue := q, alive := false, phase := .clearing } [.threadEnded])

/-- The steps.  `call k` gives every call a name of its own; `done k ok` is the end of the task of a call,
by itself or because it was cancelled; `waited` is the end of `asyncio.wait`, because all tasks have
ended or because its second is over (backendprocess.py:887, 889-895); `clear` is sync.py:350-352; `drop`
is the end of the context object itself. -/
inductive Act (K : Type) where
  | enter
  | enterDone (ok : Bool)
  | call (k : K)
  | shutdown
  | cleaned (ok : Bool)
  | runJob
  | done (k : K) (ok : Bool)
  | waited (expired : Bool)
  | clear
  | drop
  deriving DecidableEq, Repr

/-- One step; `none` if it is not possible.  `strict`: the variable `EZMSG_STRICT_SHUTDOWN` is set. -/
def step (strict : Bool) (st : St K) : Act K → Option (St K)
  | .enter => if st.phase = .idle ∧ st.dropped = false then some (enter st) else none
  | .enterDone ok => if st.phase = .entering then some (enterDone st ok) else none
  | .call k => if Ev.called k ∈ st.log then none else some (call st k)
  | .shutdown => if st.dropped = false ∧ (st.phase = .idle ∨ st.closed = true) then some (shutdown st) else none
  | .cleaned ok => if st.phase = .cleaning ∧ (ok = true ∨ st.hasCtx = true) then some (cleaned strict st ok) else none
  | .runJob => if st.alive = true then runJob st else none
  | .done k ok =>
    if st.alive = true ∧ k ∈ st.tasks then
      some (note { st with tasks := st.tasks.filter (fun x => decide (x ≠ k)) } [.ended k ok])
    else none
  | .waited expired =>
    match st.phase with
    | .waiting ks => if expired = true ∨ ks.all (fun k => decide (k ∉ st.tasks)) = true then some { st with phase := .stopping, queue := st.queue ++ [.stop] } else none
    | _ => none
  | .clear =>
    if st.phase = .clearing then
      some (note { st with hasLoop := false, hasCtx := false, phase := .idle } (if st.dropped then [] else [.shutDone true]))
    else none
  | .drop => if st.phase = .idle ∧ st.dropped = false ∧ st.hasLoop = true then some (leaveLoop strict { st with dropped := true, closed := true }) else none

/-- Several steps. -/
def run (strict : Bool) : List (Act K) → St K → Option (St K)
  | [], st => some st
  | a :: as, st => match step strict st a with | some st' => run strict as st' | none => none

end Ez.Life
