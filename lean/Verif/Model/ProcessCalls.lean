import Verif.Model.RouteRequest

/-!
# Asking a process about itself: from `GraphContext` through the server to the process and back

Source: `src/ezmsg/core/graphcontext.py`: `process_request` (590-618), `process_ping` (620-631), `process_stats` (633-646),
`process_profiling_snapshot` (648-662), `process_set_profiling_trace` (664-676), `process_profiling_trace_batch` (678-694),
`decode_process_payload` (715-734); `src/ezmsg/core/graphserver.py`: `_process_for_unit` (1231-1235), `_route_process_request` (1259-1321),
`_handle_session_process_request` (1323-1345). The process: `Model/RouteRequest.lean`.

* Payloads of requests are bytes; `Pickle` is `pickle.dumps` and `pickle.loads`. What a response carries is as after `pickle.loads`.
* One request at a time; requests that overlap are in `Model/Control.lean`. Request ids are made by the server.
* Left out: texts of errors; the timeout as a number (`Link.late`: the answer comes after it); a session that is closed.
-/

namespace Ez
namespace ProcessCalls
open Route
variable {R P U : Type} [DecidableEq R] [DecidableEq P] [DecidableEq U]

/-- `bytes` -/
abbrev Bytes := List UInt8

/-- `pickle.dumps` and `pickle.loads` for what requests carry: graphcontext.py:602, processclient.py:337, 374. -/
structure Pickle where
  dumps : Loaded → Bytes
  loads : Bytes → Loaded

/-- How the connection from the server to a process does: graphserver.py:1288-1305. -/
inductive Link where
  | works
  /-- `write` or `drain` raises -/
  | broken
  /-- the answer does not arrive within the timeout -/
  | late
deriving DecidableEq

/-- A `ProcessInfo` of the server with the process behind it; `units`: `info.units`: graphserver.py:1231-1235. -/
structure Proc (R P U : Type) where
  units : List U
  link : Link
  st : St R P U

/-- What the session gets: a response of the process, or one made by the server: graphserver.py:1279-1284, 1299-1305, 1312-1321. -/
inductive Reply (R P U : Type) where
  | process (r : Response R P U)
  | unroutable
  | writeFailed
  | timeout
deriving DecidableEq

/-- `response.ok` -/
def Reply.ok : Reply R P U → Bool
  | .process r => r.ok
  | _ => false

/-- `response.payload`: that of the responses of the server is the default `None`: graphmeta.py:240. -/
def Reply.payload : Reply R P U → Option (Out P U)
  | .process r => r.payload
  | _ => none

/-- The process gets a request: what it answers, and its state. No answer: the handler is cancelled, or the response cannot be pickled:
processclient.py:200, 262-272. -/
def serve (p : Proc R P U) (q : Request R) : Proc R P U × Reply R P U :=
  ({ p with st := (handle p.st q).1 },
    match (handle p.st q).2 with
    | none => .timeout
    | some r => if picklable r && p.link == .works then .process r else .timeout)

/-- `_route_process_request`: the first process that owns the unit: graphserver.py:1231-1235, 1259-1321. -/
def route (unit : U) (q : Request R) : List (Proc R P U) → List (Proc R P U) × Reply R P U
  | [] => ([], .unroutable)
  | p :: ps =>
    if unit ∈ p.units then
      if p.link = .broken then (p :: ps, .writeFailed)
      else ((serve p q).1 :: ps, (serve p q).2)
    else (p :: (route unit q ps).1, (route unit q ps).2)

/-- `_handle_session_process_request`: no bytes are no payload: graphserver.py:1331-1334. -/
def received (pk : Pickle) (b : Bytes) : Option Loaded := if 0 < b.length then some (pk.loads b) else none

/-- The name sent for an operation: graphcontext.py:604-606, graphmeta.py:217-222. -/
def opName : OpArg → OpArg
  | .member .ping => .str "PING"
  | .member .stats => .str "GET_PROCESS_STATS"
  | .member .snapshot => .str "GET_PROFILING_SNAPSHOT"
  | .member .setTrace => .str "SET_PROFILING_TRACE"
  | .member .traceBatch => .str "GET_PROFILING_TRACE_BATCH"
  | .member .updateField => .str "UPDATE_SETTING_FIELD"
  | o => o

/-- What is raised. -/
inductive Err where
  | valueError
  | runtimeError
deriving DecidableEq

/-- `process_request`, graphcontext.py:590-618; `id`: the id the server makes. -/
def request (pk : Pickle) (id : R) (ps : List (Proc R P U)) (unit : U) (op : OpArg) (payload : Option Bytes) (obj : Option Loaded) :
    List (Proc R P U) × Except Err (Reply R P U) :=
  if payload.isSome && obj.isSome then (ps, .error .valueError)
  else
    let payload := match obj with
      | some x => some (pk.dumps x)
      | none => payload
    let b := payload.getD []
    let res := route unit ⟨id, opName op, received pk b⟩ ps
    (res.1, .ok res.2)

/-- `expected_type` -/
inductive Ty where
  | object | ping | stats | snapshot | batch
deriving DecidableEq

/-- `expected_type is object or isinstance(decoded, expected_type)`: graphcontext.py:727-729. -/
def Ty.has : Ty → Out P U → Bool
  | .object, _ => true
  | .ping, .ping _ => true
  | .stats, .stats _ _ => true
  | .snapshot, .snapshot => true
  | .batch, .batch _ => true
  | _, _ => false

/-- `decode_process_payload`, graphcontext.py:715-734. -/
def decode (r : Reply R P U) (t : Ty) : Except Err (Out P U) :=
  if !r.ok then .error .runtimeError
  else match r.payload with
    | none => .error .runtimeError
    | some x => if t.has x then .ok x else .error .runtimeError

/-- `process_request`, then `decode_process_payload`: graphcontext.py:626-631. -/
def ask (pk : Pickle) (id : R) (ps : List (Proc R P U)) (unit : U) (op : Op) (obj : Option Loaded) (t : Ty) :
    List (Proc R P U) × Except Err (Out P U) :=
  let res := request pk id ps unit (.member op) none obj
  (res.1, res.2.bind fun r => decode r t)

/-- `process_ping`, graphcontext.py:620-631. -/
def ping (pk : Pickle) (id : R) (ps : List (Proc R P U)) (unit : U) := ask pk id ps unit .ping none .ping
/-- `process_stats`, graphcontext.py:633-646. -/
def stats (pk : Pickle) (id : R) (ps : List (Proc R P U)) (unit : U) := ask pk id ps unit .stats none .stats
/-- `process_profiling_snapshot`, graphcontext.py:648-662. -/
def snapshot (pk : Pickle) (id : R) (ps : List (Proc R P U)) (unit : U) := ask pk id ps unit .snapshot none .snapshot
/-- `process_profiling_trace_batch`, graphcontext.py:678-694. -/
def batch (pk : Pickle) (id : R) (ps : List (Proc R P U)) (unit : U) (n : Int) := ask pk id ps unit .traceBatch (some (.int n)) .batch
/-- `process_set_profiling_trace`, graphcontext.py:664-676. -/
def setTrace (pk : Pickle) (id : R) (ps : List (Proc R P U)) (unit : U) (on : Bool) :=
  request pk id ps unit (.member .setTrace) none (some (.control on))

end ProcessCalls
end Ez
