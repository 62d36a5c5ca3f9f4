/-!
# Closing the task thread of a process

Source: `src/ezmsg/core/backendprocess.py`: `ShutdownSummary` (67-82), `run_loop` (808-822), `new_threaded_event_loop`
(825-936).

The thread that closes the loop, and the tasks of the loop, which go on meanwhile. `T` tasks.

Simplifications:
* A task that is cancelled may end, at any time, or go on; what it does is left open.
* The task of `_cancel_remaining` itself is not cancelled by others, so `fut.result()` raises nothing but `KeyboardInterrupt`
  (the branch 899-901 is left out). Interrupts at other moments are in `Model/Interrupt.lean`.
* Reading the two counts, logging and filling in the summary are one step.
-/

namespace Ez
namespace LoopClose

/-- `ShutdownSummary`, backendprocess.py:67-73. -/
structure Summary where
  cancelledTasks : Nat := 0
  executorActive : Nat := 0
  pendingTasks : Nat := 0
  suppressedErrors : Nat := 0
  forcedInterrupt : Bool := false
deriving DecidableEq

/-- `ShutdownSummary.unclean`, backendprocess.py:75-82. -/
def Summary.unclean (r : Summary) : Bool :=
  r.executorActive != 0 || r.pendingTasks != 0 || r.suppressedErrors != 0 || r.forcedInterrupt

/-- The warnings, backendprocess.py:904-923. -/
inductive Warning where
  | interrupted
  | timedOut (pending : Nat)
  | notClean (errors cancelled : Nat)
deriving DecidableEq

/-- Which warning is logged, backendprocess.py:904-923. -/
def warn (r : Summary) : Option Warning :=
  if r.cancelledTasks ≠ 0 ∨ r.suppressedErrors ≠ 0 ∨ r.forcedInterrupt = true ∨ r.pendingTasks ≠ 0 then
    if r.forcedInterrupt = true ∧ r.cancelledTasks = 0 ∧ r.suppressedErrors = 0 then some .interrupted
    else if r.pendingTasks ≠ 0 then some (.timedOut r.pendingTasks)
    else some (.notClean r.suppressedErrors r.cancelledTasks)
  else none

/-- Where the closing thread is: inside the `with` block; `_cancel_remaining` was submitted, 893; it waits for the tasks, 887;
it has returned; `KeyboardInterrupt`, 896-898; `loop.stop` was scheduled and the thread is joined, 934-935; done, 936. -/
inductive Phase (T : Type) where
  | inside
  | asked
  | waiting (tasks : List T)
  | returned (cancelled pending : Nat)
  | interrupted
  | stopping
  | closed
deriving DecidableEq

/-- `alive`: tasks not done; `cancelled`: tasks on which `cancel` was called by `_cancel_remaining`; `blocked`: a task keeps the
thread of the loop busy without awaiting; `errors`: `suppressed_shutdown_errors["count"]`. -/
structure St (T : Type) where
  phase : Phase T
  alive : List T
  cancelled : List T
  blocked : Bool
  errors : Nat
  summary : Summary
  warning : Option Warning

/-- * `spawn`, `finish`: a task starts; it ends, and if `err`, the handler of the loop is called for it
* `block`, `unblock`: a task begins, or ends, to keep the thread busy
* `begin`: the `with` block is left, 868-893
* `snap`: `_cancel_remaining` looks for tasks and cancels them, 878-886
* `allDone`, `timeout`: `asyncio.wait` returns, 887-888
* `interrupt`: `fut.result()` raises `KeyboardInterrupt`
* `record`: 903-934, with `active` jobs in the executor
* `stop`: the loop stops, the thread ends and the loop is closed -/
inductive Act (T : Type) where
  | spawn (t : T)
  | finish (t : T) (err : Bool)
  | block
  | unblock
  | begin
  | snap
  | allDone
  | timeout
  | interrupt
  | record (active : Nat)
  | stop
deriving DecidableEq

variable {T : Type} [DecidableEq T]

/-- The handler counts once `shutdown_suppress` is set, backendprocess.py:852-859, 875. -/
def Phase.suppressing : Phase T → Bool
  | .inside => false
  | _ => true

/-- Inside the `with` block. -/
def init (alive : List T) : St T := ⟨.inside, alive, [], false, 0, {}, none⟩

/-- One step; `strict`: `EZMSG_STRICT_SHUTDOWN` is set; `none`: not possible now. -/
def step (strict : Bool) (s : St T) : Act T → Option (St T)
  | .spawn t =>
    if s.phase = .closed ∨ s.blocked = true ∨ t ∈ s.alive ∨ t ∈ s.cancelled then none
    else some { s with alive := s.alive ++ [t] }
  | .finish t err =>
    if s.phase = .closed ∨ s.blocked = true ∨ t ∉ s.alive then none
    else some { s with
      alive := s.alive.filter fun u => decide (u ≠ t)
      errors := if err && s.phase.suppressing && !strict then s.errors + 1 else s.errors }
  | .block => if s.phase = .closed ∨ s.blocked = true ∨ s.alive = [] then none else some { s with blocked := true }
  | .unblock => if s.blocked = true then some { s with blocked := false } else none
  | .begin =>
    if s.phase = .inside then some { s with phase := if strict then .stopping else .asked } else none
  | .snap =>
    if s.phase = .asked ∧ s.blocked = false then
      some { s with phase := if s.alive = [] then .returned 0 0 else .waiting s.alive, cancelled := s.alive }
    else none
  | .allDone =>
    match s.phase with
    | .waiting ts =>
      if s.blocked = false ∧ ∀ t ∈ ts, t ∉ s.alive then some { s with phase := .returned ts.length 0 } else none
    | _ => none
  | .timeout =>
    match s.phase with
    | .waiting ts =>
      if s.blocked = false then
        some { s with phase := .returned ts.length (ts.filter fun t => decide (t ∈ s.alive)).length }
      else none
    | _ => none
  | .interrupt =>
    match s.phase with
    | .asked | .waiting _ | .returned _ _ => some { s with phase := .interrupted }
    | _ => none
  | .record active =>
    match s.phase with
    | .returned c p =>
      let r : Summary := ⟨c, active, p, s.errors, false⟩
      some { s with phase := .stopping, summary := r, warning := warn r }
    | .interrupted =>
      let r : Summary := ⟨0, active, 0, s.errors, true⟩
      some { s with phase := .stopping, summary := r, warning := warn r }
    | _ => none
  | .stop => if s.phase = .stopping ∧ s.blocked = false then some { s with phase := .closed } else none

/-- A run. -/
def run (strict : Bool) : List (Act T) → St T → Option (St T)
  | [], s => some s
  | a :: as, s => match step strict s a with | none => none | some s' => run strict as s'

end LoopClose
end Ez
