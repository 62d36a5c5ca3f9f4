import Verif.Model.Py

/-!
# How a process answers the requests routed to it

Source: `src/ezmsg/core/processclient.py`: `_io_loop` (226-281), `_handle_route_request` (283-439), `_write_payload` (188-205).

* Requests and responses carry ids of type `R`, processes ids of type `P`. A payload is what `pickle.loads` makes of it.
* What the operations return (`ProcessPing`, ...) is named; its content is that of `Model/Profiling.lean` and of `_owned_units`.
* The handler is a function of the request; awaiting its coroutine is one step (what happens meanwhile: `Model/Control.lean`).
* Left out: error texts, times, `pid` and `host`; the connection breaking while a response is written.
-/

namespace Ez
namespace Route
variable {R P U : Type} [DecidableEq R] [DecidableEq P]

/-- `ProcessControlOperation`, graphmeta.py:216-222. -/
inductive Op where
  | ping | stats | snapshot | setTrace | traceBatch | updateField
deriving DecidableEq

/-- `request.operation`: a member of the enumeration, or a string. -/
inductive OpArg where
  | member (o : Op)
  | str (s : String)
  | other
deriving DecidableEq

/-- `ProcessControlOperation(s)`; `none` for a `ValueError`: graphmeta.py:217-222. -/
def Op.ofString (s : String) : Option Op :=
  if s = "PING" then some .ping
  else if s = "GET_PROCESS_STATS" then some .stats
  else if s = "GET_PROFILING_SNAPSHOT" then some .snapshot
  else if s = "SET_PROFILING_TRACE" then some .setTrace
  else if s = "GET_PROFILING_TRACE_BATCH" then some .traceBatch
  else if s = "UPDATE_SETTING_FIELD" then some .updateField
  else none

/-- `operation`: processclient.py:286-291. -/
def OpArg.resolve : OpArg → Option Op
  | .member o => some o
  | .str s => Op.ofString s
  | .other => none

/-- What `pickle.loads` makes of a payload. -/
inductive Loaded where
  /-- a `ProfilingTraceControl` with this `enabled` -/
  | control (enabled : Bool)
  | int (n : Int)
  | other
  /-- it raises -/
  | raises
deriving DecidableEq

/-- `ProcessControlRequest`, graphmeta.py. -/
structure Request (R : Type) where
  id : R
  op : OpArg
  payload : Option Loaded
deriving DecidableEq

/-- `ProcessControlErrorCode`, those used here: graphmeta.py:225-233. -/
inductive Code where
  | handlerNotConfigured | handlerError | invalidResponse | unsupportedOperation
deriving DecidableEq

/-- What a response carries. -/
inductive Out (P U : Type) where
  | ping (p : P)
  | stats (p : P) (units : List U)
  | snapshot
  /-- `trace_batch(max_samples=n)` -/
  | batch (n : Int)
  /-- something the handler put there; `picklable`: whether `pickle.dumps` takes it -/
  | custom (picklable : Bool)
deriving DecidableEq

/-- `ProcessControlResponse`, graphmeta.py:237-243. -/
structure Response (R P U : Type) where
  id : R
  ok : Bool
  payload : Option (Out P U)
  code : Option Code
  process : Option P
deriving DecidableEq

/-- What calling the handler gives, and what awaiting that gives if it is a coroutine. -/
inductive Handled (R P U : Type) where
  | response (r : Response R P U)
  /-- any other object, e.g. `None` -/
  | object
  /-- a coroutine that returns a response -/
  | coroutine (r : Response R P U)
  /-- a coroutine that returns something else -/
  | coroutineObject
  /-- an awaitable that is no coroutine, e.g. a `Future` with this result -/
  | future (r : Response R P U)
  /-- an `Exception`, from the call or from the coroutine -/
  | raises
  /-- a `CancelledError` from the coroutine, which is no `Exception` -/
  | cancelled
deriving DecidableEq

/-- * `me`: `_client_id`
* `units`: `sorted(_owned_units)`
* `handler`: `_request_handler`
* `tracing`: `PROFILES.trace_enabled()`; `pushing`: `_trace_push_task` runs -/
structure St (R P U : Type) where
  me : P
  units : List U
  handler : Option (Request R → Handled R P U)
  tracing : Bool
  pushing : Bool

/-- A refusal: e.g. processclient.py:341-347. -/
def refuse (st : St R P U) (q : Request R) (c : Code) : Response R P U := ⟨q.id, false, none, some c, some st.me⟩

/-- The end of `_handle_route_request`, with the handler's result: processclient.py:412-439. -/
def check (st : St R P U) (q : Request R) : Option (Response R P U) → Response R P U
  | none => refuse st q .invalidResponse
  | some r =>
    let r := if r.id = q.id then r else refuse st q .invalidResponse
    match r.process with
    | none => { r with process := some st.me }
    | some _ => r

/-- `_handle_route_request`, processclient.py:283-439; `none` for the response: `CancelledError`. -/
def handle (st : St R P U) (q : Request R) : St R P U × Option (Response R P U) :=
  match q.op.resolve with
  | some .ping => (st, some ⟨q.id, true, some (.ping st.me), none, some st.me⟩)
  | some .stats => (st, some ⟨q.id, true, some (.stats st.me st.units), none, some st.me⟩)
  | some .snapshot => (st, some ⟨q.id, true, some .snapshot, none, some st.me⟩)
  | some .setTrace =>
    match q.payload with
    | some (.control on) => ({ st with tracing := on, pushing := on }, some ⟨q.id, true, none, none, some st.me⟩)
    | _ => (st, some (refuse st q .invalidResponse))
  | some .traceBatch =>
    let n := match q.payload with
      | some (.int n) => max 1 n
      | _ => 1000
    (st, some ⟨q.id, true, some (.batch n), none, some st.me⟩)
  | _ =>
    match st.handler with
    | none => (st, some (refuse st q .handlerNotConfigured))
    | some f =>
      match f q with
      | .raises => (st, some (refuse st q .handlerError))
      | .cancelled => (st, none)
      | .response r => (st, some (check st q (some r)))
      | .coroutine r => (st, some (check st q (some r)))
      | .object => (st, some (check st q none))
      | .coroutineObject => (st, some (check st q none))
      | .future _ => (st, some (check st q none))

/-- What the server sends to a process. -/
inductive Item (R : Type) where
  /-- COMPLETE or ERROR -/
  | ack (ok : Bool)
  /-- a byte that is no command for processes -/
  | unknown
  | request (q : Request R)
  /-- a request whose payload is no `ProcessControlRequest` -/
  | unreadable
deriving DecidableEq

/-- What `_io_loop` does. -/
inductive Ev (R P U : Type) where
  /-- `_ack_queue.put_nowait` -/
  | ack (ok : Bool)
  | answer (r : Response R P U)
deriving DecidableEq

/-- Whether `pickle.dumps(response)` returns: processclient.py:200. -/
def picklable (r : Response R P U) : Bool :=
  match r.payload with
  | some (.custom b) => b
  | _ => true

/-- `_io_loop` over what arrives, processclient.py:232-277: what it does, and the state in which it waits for more; `none`: the task has
ended with an exception. -/
def ioLoop : St R P U → List (Item R) → List (Ev R P U) × Option (St R P U)
  | st, [] => ([], some st)
  | st, .ack b :: is => (.ack b :: (ioLoop st is).1, (ioLoop st is).2)
  | st, .unknown :: is => ioLoop st is
  | st, .unreadable :: is => ioLoop st is
  | st, .request q :: is =>
    match (handle st q).2 with
    | none => ([], none)
    | some r =>
      if picklable r then (.answer r :: (ioLoop (handle st q).1 is).1, (ioLoop (handle st q).1 is).2) else ([], none)

end Route
end Ez
