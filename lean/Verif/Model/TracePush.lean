/-!
# How trace samples go from a process to the graph server

Source: `src/ezmsg/core/processclient.py`: `_trace_push_loop` (459-483), `_ensure_trace_push_task` (441-448),
`_cancel_trace_push_task` (450-457), `_write_payload` (200-205), the requests `SET_PROFILING_TRACE` and `GET_PROFILING_TRACE_BATCH`
(358-362, 380-382), `close` (161-183); of `src/ezmsg/core/profiling.py`: `set_trace_control`, `trace_batch`, `trace_enabled`,
`_expire_trace_control_if_needed`.

* The registry is one list of samples (that `trace_batch` returns them in order: C67; that its buffers are bounded: `Model/Profiling.lean`).
* A task that ends sets `_trace_push_task` to `None` in the same step; `cancel` followed by `await task` is one step (the cancelled task
  does not wait for anything before it ends).
* A batch counts as sent when it is written to the connection, before `drain`.
* `recorded`, `sent`, `polled`, `cleared`, `lost` are records for the specification.
-/

namespace Ez
namespace Push
variable {A : Type}

/-- Where `_trace_push_loop` waits. -/
inductive Task (A : Type) where
  /-- `asyncio.sleep` -/
  | sleeping
  /-- for the write lock, with this batch -/
  | waiting (batch : List A)
  /-- `drain` -/
  | draining
deriving DecidableEq

/-- * `buf`: the samples in the registry
* `on`: `_default_trace_control.enabled`
* `task`: `_trace_push_task`
* `locked`: `_write_lock` is held by somebody else
* `recorded`: all samples recorded; `sent`: those written to the connection; `polled`: those given to `GET_PROFILING_TRACE_BATCH`;
  `cleared`: those removed by `_clear_trace_samples`; `lost`: those of a batch that was not written -/
structure St (A : Type) where
  buf : List A
  on : Bool
  task : Option (Task A)
  locked : Bool
  recorded : List A
  sent : List A
  polled : List A
  cleared : List A
  lost : List A
deriving DecidableEq

/-- Before anything happened. -/
def init : St A := ⟨[], false, none, false, [], [], [], [], []⟩

/-- What can happen. -/
inductive Act (A : Type) where
  /-- a publisher or subscriber records a sample -/
  | record (a : A)
  /-- `SET_PROFILING_TRACE` -/
  | control (on : Bool)
  /-- `GET_PROFILING_TRACE_BATCH` for `n` samples -/
  | poll (n : Nat)
  /-- a call notices that the time of the trace is up -/
  | expire
  /-- `sleep` returns; `_trace_push_max_samples` is `n` -/
  | wake (n : Nat)
  /-- the push task gets the write lock -/
  | grant
  /-- `drain` returns -/
  | drained
  /-- `drain` raises -/
  | broken
  /-- another task takes or gives back the write lock -/
  | lock
  | unlock
  /-- `close` -/
  | close
deriving DecidableEq

/-- `_clear_trace_samples`, profiling.py:438-442. -/
def St.clear (s : St A) : St A := { s with buf := [], cleared := s.cleared ++ s.buf }

/-- Cancelling the task, processclient.py:450-457, 166-171. -/
def St.cancel (s : St A) : St A :=
  match s.task with
  | some (.waiting b) => { s with task := none, lost := s.lost ++ b }
  | _ => { s with task := none }

/-- After the batch: `if not PROFILES.trace_enabled(): break`, processclient.py:473-474, 481-483. -/
def St.next (s : St A) : St A := { s with task := if s.on then some .sleeping else none }

/-- One step; `none` if it is not possible. -/
def step (s : St A) : Act A → Option (St A)
  | .record a => if s.on then some { s with buf := s.buf ++ [a], recorded := s.recorded ++ [a] } else some s
  | .control on =>
    let s := { s.clear with on := on }
    if on then some { s with task := s.task.or (some .sleeping) } else some s.cancel
  | .poll n => some { s with buf := s.buf.drop (max 1 n), polled := s.polled ++ s.buf.take (max 1 n) }
  | .expire => if s.on then some { s.clear with on := false } else none
  | .wake n =>
    match s.task with
    | some .sleeping =>
      let b := s.buf.take (max 1 n)
      if b.isEmpty then some s.next
      else
        let s := { s with buf := s.buf.drop (max 1 n) }
        if s.locked then some { s with task := some (.waiting b) }
        else some { s with task := some .draining, sent := s.sent ++ b }
    | _ => none
  | .grant =>
    match s.task with
    | some (.waiting b) => if s.locked then none else some { s with task := some .draining, sent := s.sent ++ b }
    | _ => none
  | .drained =>
    match s.task with
    | some .draining => some s.next
    | _ => none
  | .broken =>
    match s.task with
    | some .draining => some { s with task := none }
    | _ => none
  | .lock =>
    match s.task with
    | some .draining => none
    | _ => if s.locked then none else some { s with locked := true }
  | .unlock => if s.locked then some { s with locked := false } else none
  | .close => some s.cancel

/-- Several steps. -/
def run (s : St A) : List (Act A) → Option (St A)
  | [] => some s
  | a :: as => match step s a with
    | some s' => run s' as
    | none => none

end Push
end Ez
