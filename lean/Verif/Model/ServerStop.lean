/-!
# The graph server's connections, its command lock, and how it stops

Sources: `src/ezmsg/core/graphserver.py`: `stop` (187-189), `run` (191-198), `_shutdown_async` (203-217), `_amain` (219-241), `api` (243-527),
the ends of `_handle_client` (562-566), `_handle_session` (632-640), `_handle_process` (710-748), `_handle_event_subscriber` (853-860),
`_handle_profiling_subscriber` (1017-1019); `src/ezmsg/core/shm.py`: `lease` (212-246).

A connection is what the server has of it: the task that serves it, and where that task waits.

Simplifications:
* Sections without suspension are one step. Updates of subscribers, which are awaited under the lock by `SUBSCRIBE`, `PUBLISH`, `CONNECT` and `DISCONNECT`, end by
  themselves (they have a timeout) and are left out; so is the time it takes to close a connection.
* Tasks of settings and topology streams, which take the lock before they are in their `try`, are like those of sessions. Those of profiling streams, which do not take it
  at their end, are like those of publishers.
* A request whose payload ends early raises in `api`, and asyncio closes the connection.
* The segments are cancelled in the order of the connections. A segment has one user.
* What the commands do to the graph is left out (`Model/GraphServer.lean`), and so is the command `SHUTDOWN`, which is `stop`.
-/

namespace Ez
namespace Halt

/-- Tasks that do not need the lock when they end (publishers, subscribers, channels), and those that do (sessions, processes, streams). -/
inductive Kind where
  | plain
  | locked
deriving DecidableEq

/-- What `api` makes of a connection without the lock, when the rest of the request is there: a new segment (graphserver.py:269-277), a lease of one (279-299), a client (301-429). -/
inductive What where
  | create
  | attach
  | client (k : Kind)
deriving DecidableEq

/-- Commands under the lock, graphserver.py:431-517: `SUBSCRIBE` and `PUBLISH`, which read the topic there; `CONNECT` and `DISCONNECT`, which read the topics there; `SYNC`, which waits for publishers there;
the others, which wait for nothing. -/
inductive Cmd where
  | join
  | edge
  | sync
  | quick
deriving DecidableEq

/-- Where the task of a connection is. -/
inductive Ph where
  /-- `api` waits for the command, graphserver.py:254 -/
  | idle
  /-- `api` waits for the rest of a request that does not need the lock -/
  | payload (w : What)
  /-- `api` waits for the lock, graphserver.py:433 -/
  | queued (c : Cmd)
  /-- `api` has the lock and waits for the rest of the request, or for publishers -/
  | holding (c : Cmd)
  /-- the client's task was made and has not run yet -/
  | newborn (k : Kind)
  /-- the client's task reads -/
  | serving (k : Kind)
  /-- the client's task waits for the lock, for a request -/
  | asking
  /-- the client's task waits for the lock in its `finally` -/
  | leaving
  /-- a lease of a segment -/
  | leased
  /-- the client's task was cancelled outside of its `try`; nobody closes the connection -/
  | orphan
  /-- the connection is closed -/
  | closed
deriving DecidableEq

/-- The first command of a connection. -/
inductive Req where
  /-- unknown publisher or segment, end of file -/
  | over
  | later (w : What)
  | cmd (c : Cmd)
deriving DecidableEq

/-- Where `monitor_shutdown` is, graphserver.py:227-232. -/
inductive Stage where
  | running
  /-- `gather` of these connections' tasks, 207-208 -/
  | gathering (ts : List Nat)
  /-- `await lease_task` of this connection, 212-216; whether a segment was made since -/
  | leasing (i : Nat) (changed : Bool)
  /-- `wait_closed`, 232 -/
  | waiting
  /-- the thread has ended, and `stop` returns -/
  | done
  /-- a `RuntimeError`: the dictionary changed during the iteration -/
  | crashed
deriving DecidableEq

/-- The server. Connections are numbered in the order in which they were accepted. `waits`: `Server.wait_closed` waits for all connections (since Python 3.12.1; before,
it returns at once). -/
structure St where
  conns : List Ph
  lock : Option Nat
  queue : List Nat
  listening : Bool
  stage : Stage
  waits : Bool
deriving DecidableEq

/-- The start. -/
def init (waits : Bool) : St := ⟨[], none, [], true, .running, waits⟩

/-- The connection's task is somewhere else now. -/
def St.to (st : St) (i : Nat) (p : Ph) : St := { st with conns := st.conns.set i p }

/-- What becomes of a connection when its client's task is cancelled (and it is not changed if it has none): graphserver.py:205-206. A task that has not run ends at once; one that waits for
the lock in its `finally` leaves it by the exception. -/
def cancel : Ph → Ph
  | .newborn _ => .orphan
  | .serving .plain => .closed
  | .serving .locked => .leaving
  | .asking => .leaving
  | .leaving => .orphan
  | p => p

/-- It has an unfinished task in `_client_tasks`. -/
def Ph.task : Ph → Bool
  | .newborn _ | .serving _ | .asking | .leaving => true
  | _ => false

/-- The task is over. -/
def Ph.over : Ph → Bool
  | .orphan | .closed => true
  | _ => false

/-- The connections with this property. -/
def St.which (st : St) (f : Ph → Bool) : List Nat := (List.range st.conns.length).filter fun i => (st.conns[i]?).any f

/-- The next lease to be cancelled; `wait_closed` after the last one. -/
def St.lease (st : St) : St :=
  match st.which (· == .leased) with
  | i :: _ => { st with stage := .leasing i false }
  | [] => { st with stage := .waiting }

/-- What happens. From outside: a connection (`accept`), what its peer sends (`sends`, `arrives`: what the command waits for; `asks`: a request of a session or process), the end of
the connection (`leaves`), a call of `stop`. The server's own: a task runs for the first time, the lock is given to the first who waits for it, steps of
`monitor_shutdown`. -/
inductive Act where
  | accept
  | sends (i : Nat) (r : Req)
  | arrives (i : Nat)
  | asks (i : Nat)
  | leaves (i : Nat)
  | stop
  | begins (i : Nat)
  | grant
  | gathered
  | released
  | finish
deriving DecidableEq

/-- One step; `none` if it is not possible. -/
def step (st : St) : Act → Option St
  | .accept => if st.listening then some { st with conns := st.conns ++ [.idle] } else none
  | .sends i r => match st.conns[i]? with
    | some .idle => match r with
      | .over => some (st.to i .closed)
      | .later w => some (st.to i (.payload w))
      | .cmd c => some { st.to i (.queued c) with queue := st.queue ++ [i] }
    | _ => none
  | .arrives i => match st.conns[i]? with
    | some (.payload .create) => some { st.to i .leased with stage := match st.stage with | .leasing j _ => .leasing j true | s => s }
    | some (.payload .attach) => some (st.to i .leased)
    | some (.payload (.client k)) => some (st.to i (.newborn k))
    | some (.holding .join) => some { st.to i (.newborn .plain) with lock := none }
    | some (.holding _) => some { st.to i .closed with lock := none }
    | _ => none
  | .asks i => match st.conns[i]? with
    | some (.serving .locked) => some { st.to i .asking with queue := st.queue ++ [i] }
    | _ => none
  | .leaves i => match st.conns[i]? with
    | some .idle | some (.payload _) | some (.serving .plain) | some .leased => some (st.to i .closed)
    | some (.serving .locked) => some { st.to i .leaving with queue := st.queue ++ [i] }
    | some (.holding .join) | some (.holding .edge) => some { st.to i .closed with lock := none }
    | _ => none
  | .stop => match st.stage with
    | .running => some { st with
        conns := st.conns.map cancel
        queue := (st.queue.filter fun i => !(st.conns[i]?).any Ph.task) ++ st.which (fun p => cancel p == .leaving)
        listening := false
        stage := .gathering (st.which Ph.task) }
    | _ => none
  | .begins i => match st.conns[i]? with
    | some (.newborn k) => some (st.to i (.serving k))
    | _ => none
  | .grant => match st.lock, st.queue with
    | none, i :: q => match st.conns[i]? with
      | some (.queued .quick) => some { st.to i .closed with queue := q }
      | some (.queued c) => some { st.to i (.holding c) with queue := q, lock := some i }
      | some .asking => some { st.to i (.serving .locked) with queue := q }
      | some .leaving => some { st.to i .closed with queue := q }
      | _ => none
    | _, _ => none
  | .gathered => match st.stage with
    | .gathering ts => if ts.all fun i => (st.conns[i]?).any Ph.over then some st.lease else none
    | _ => none
  | .released => match st.stage with
    | .leasing i changed =>
      let st' := if st.conns[i]? = some .leased then st.to i .closed else st
      some (if changed then { st' with stage := .crashed } else st'.lease)
    | _ => none
  | .finish => match st.stage with
    | .waiting => if !st.waits || st.conns.all (· == .closed) then some { st with stage := .done } else none
    | _ => none

/-- Several steps. -/
def run (st : St) : List Act → Option St
  | [] => some st
  | a :: as => match step st a with
    | some st' => run st' as
    | none => none

/-- The server's own steps. -/
def Act.own : Act → Bool
  | .begins _ | .grant | .gathered | .released | .finish => true
  | _ => false

end Halt
end Ez
