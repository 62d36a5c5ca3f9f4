/-!
# Interrupting `run`

Sources: `src/ezmsg/core/backend.py`: `_start_processes` (746-749), `_join_spawned_processes` (751-763), `_run_main_process` (765-826), `_shutdown_was_unclean` (828-835),
`_exit_with_sigint` (837-864), `_cleanup` (866-885); `src/ezmsg/core/backendprocess.py`: `ShutdownSummary.unclean` (76-82), `BackendProcess.run` (206-218), the barriers and
the end of `DefaultBackendProcess.process` (541-655), `new_threaded_event_loop` (869-937).

The main thread of `run_blocking` after `_initialize`, the processes that it starts, and the two barriers.

Simplifications:
* An interrupt (`KeyboardInterrupt`) comes where the main thread waits or starts a process. The few statements of an `except` clause are not interrupted.
* A process that was started: sets up, waits at the start barrier, runs, waits at the stop barrier, is over. Terminating a process ends it.
* What keeps the coroutines of a process running, and `term_ev`, which makes the processes cancel them, are left out but for whether the runner has set it: the processes end their run when
  they please.
* Unix, and without `EZMSG_STRICT_SHUTDOWN`. Exceptions other than `KeyboardInterrupt` come from setting up the main process, from its
  run, and from closing the graph context.
-/

namespace Ez
namespace Interrupt

/-- An exception. -/
inductive Exc where
  | keyboard
  | other
deriving DecidableEq

/-- Where a process is that was started. -/
inductive Child where
  /-- before `start_barrier.wait()`, backendprocess.py:428-548 -/
  | setup
  | atStart
  | running
  | atStop
  | over
deriving DecidableEq

/-- How `run_blocking` ends: it returns, it raises, or the program ends by `SIGINT` (backend.py:837-864). -/
inductive End where
  | returned
  | raised (e : Exc)
  | sigint
deriving DecidableEq

/-- Where the main thread is. `e`: the exception that goes on when the `finally` of `process` is over. -/
inductive Pc where
  /-- before `proc.start()`, or after the last one; backend.py:747 -/
  | starting
  /-- the process runs, and is not in `_spawned_processes` yet: backend.py:748-749 -/
  | listing
  /-- in `process`, before the start barrier -/
  | setup
  | atStart
  | running
  /-- in `stop_barrier.wait()`, backendprocess.py:596-601 -/
  | atStop (e : Option Exc)
  /-- in `shutdown_future.result()`, for the second time if `again`: 624-630 -/
  | units (e : Option Exc) (again : Bool)
  /-- in `revert_future.result()`: 632-641 -/
  | revert (e : Option Exc) (again : Bool)
  /-- in `process_close_future.result()`: 643-648 -/
  | client (e : Option Exc)
  /-- joining the processes after `process` has returned, backend.py:775 -/
  | joining
  /-- joining them after an interrupt, 786 -/
  | joining2
  /-- in the loop of the `finally`, joining: 800 -/
  | last
  /-- in `_cleanup`, waiting for the graph context to be closed (877); `final`: in the call at 813, after which there is no further attempt -/
  | context (final : Bool)
  /-- in `_cleanup`, waiting for the tasks of the loop to end: backendprocess.py:898-905 -/
  | tasks (final : Bool)
  /-- in `_cleanup`, joining the loop's thread: 935 -/
  | thread (final : Bool)
  | ended (r : End)
deriving DecidableEq

/-- A process that was started, and whether it is in `_spawned_processes`. -/
structure Proc where
  ph : Child
  listed : Bool
deriving DecidableEq

/-- `todo`: the number of processes still to be started. `interrupts`, `forced`: the variables of `_run_main_process`; `pending`: the exception that its `finally` passes on. `term`: `term_ev`. The barriers are open
(everybody has arrived) or broken (aborted). `cleanup`: `_cleanup_done`; `context`, `loop`: the graph context is open, and the loop's thread runs; `unclean`: what `_shutdown_was_unclean` says. -/
structure St where
  todo : Nat
  procs : List Proc
  pc : Pc
  interrupts : Nat
  forced : Bool
  pending : Option Exc
  term : Bool
  startOpen : Bool
  startBroken : Bool
  stopOpen : Bool
  stopBroken : Bool
  cleanup : Bool
  context : Bool
  loop : Bool
  unclean : Bool
deriving DecidableEq

/-- After `_initialize`: `n` processes besides the main one. -/
def init (n : Nat) : St := ⟨n, [], .starting, 0, false, none, false, false, false, false, false, false, true, true, false⟩

/-- The listed processes are terminated. -/
def terminate (ps : List Proc) : List Proc := ps.map fun p => if p.listed then { p with ph := .over } else p

/-- The listed processes are over: `_join_spawned_processes` returns. -/
def joined (ps : List Proc) : Bool := ps.all fun p => !p.listed || p.ph == .over

/-- An exception leaves the body of the `try` in `_run_main_process`: backend.py:778-783. -/
def St.throw (st : St) : Exc → St
  | .keyboard => { st with interrupts := st.interrupts + 1, term := true, pc := .joining2 }
  | .other => { st with pending := some .other, pc := .last }

/-- `process` ends, backendprocess.py:655. -/
def St.processEnds (st : St) : Option Exc → St
  | some e => st.throw e
  | none => { st with pc := .joining }

/-- `_cleanup` begins: backend.py:867-870. -/
def St.clean (st : St) (final : Bool) : St := { st with cleanup := true, pc := .context final }

/-- After the loop of the `finally`: backend.py:821-826. -/
def St.decide (st : St) : St :=
  let forced := st.forced || (st.interrupts != 0 && st.unclean)
  { st with forced, pc := .ended (if forced then .sigint else match st.pending with | some e => .raised e | none => .returned) }

/-- Aborting both barriers and terminating the processes: backend.py:792-796, 808-812. -/
def St.force (st : St) : St := { st with forced := true, startBroken := true, stopBroken := true, procs := terminate st.procs }

/-- An interrupt in the loop of the `finally`: backend.py:803-820. -/
def St.late (st : St) : St :=
  let st := { st with interrupts := st.interrupts + 1 }
  if 2 ≤ st.interrupts then
    if st.cleanup then st.force.decide else st.force.clean true
  else { st with term := true, pc := .last }

/-- The start barrier opens when everybody is there. -/
def St.opensStart (st : St) : St :=
  if st.pc == .atStart && st.todo == 0 && st.procs.all (fun p => p.ph == .atStart) && !st.startBroken then { st with startOpen := true } else st

/-- The main thread is in `stop_barrier.wait()`. -/
def Pc.isAtStop : Pc → Bool
  | .atStop _ => true
  | _ => false

/-- The stop barrier opens when everybody is there. -/
def St.opensStop (st : St) : St :=
  if st.pc.isAtStop && st.todo == 0 && st.procs.all (fun p => p.ph == .atStop) && !st.stopBroken then { st with stopOpen := true } else st

/-- An interrupt where the main thread is; `none` after the end. -/
def interrupt (st : St) : Option St :=
  match st.pc with
  | .starting | .listing | .setup => some (st.throw .keyboard)
  | .atStart | .running => some { st with pc := .atStop (some .keyboard) }.opensStop
  | .atStop _ => some st
  | .units e false => some { st with pc := .units e true }
  | .revert e false => some { st with pc := .revert e true }
  | .units _ true | .revert _ true | .client _ => some (st.throw .keyboard)
  | .joining => some (st.throw .keyboard)
  | .joining2 => some { st.force with interrupts := st.interrupts + 1, pc := .last }
  | .last => some st.late
  | .context true => some { st with pc := .ended (.raised .keyboard) }
  | .context false => some st.late
  | .tasks f => some { st with unclean := true, loop := false, pc := .thread f }
  | .thread true => some { st with pc := .ended (.raised .keyboard) }
  | .thread false => some st.late
  | .ended _ => none

/-- What happens: an interrupt of the main thread; its next step (`next`; `fails`: it raises; `unclean` when the tasks have ended: there were errors, or tasks or threads go on);
steps of a process (`child`; `childFails`: setting up fails; `childInterrupt`; `childDies`, not while it waits); the graph context is closed while nobody waits for it any more (`closes`). -/
inductive Act where
  | interrupt
  | next
  | fails
  | unclean
  | child (i : Nat)
  | childFails (i : Nat)
  | childInterrupt (i : Nat)
  | childDies (i : Nat)
  | closes
deriving DecidableEq

/-- The next step of the main thread, if it need not wait. -/
def next (st : St) : Option St :=
  match st.pc with
  | .starting => match st.todo with
    | 0 => some { st with pc := .setup }
    | n + 1 => some { st with todo := n, procs := st.procs ++ [⟨.setup, false⟩], pc := .listing }
  | .listing => some { st with procs := st.procs.map fun (p : Proc) => { p with listed := true }, pc := .starting }
  | .setup => some { st with pc := .atStart }.opensStart
  | .atStart => if st.startOpen then some { st with pc := .running } else if st.startBroken then some { st with pc := .atStop none }.opensStop else none
  | .running => some { st with pc := .atStop none }.opensStop
  | .atStop e => if st.stopOpen then some { st with term := true, pc := .units e false } else none
  | .units e _ => some { st with pc := .revert e false }
  | .revert e _ => some { st with pc := .client e }
  | .client e => some (st.processEnds e)
  | .joining => if joined st.procs then some { st with pc := .last } else none
  | .joining2 => if joined st.procs then some { st with pc := .last } else none
  | .last => if joined st.procs then some (if st.cleanup then st.decide else st.clean false) else none
  | .context f => some { st with context := false, pc := .tasks f }
  | .tasks f => some { st with loop := false, pc := .thread f }
  | .thread _ => some { st with procs := st.procs.map fun (p : Proc) => { p with listed := false } }.decide
  | .ended _ => none

/-- A process is somewhere else now. -/
def St.at (st : St) (i : Nat) (c : Child) : St := { st with procs := st.procs.modify i fun (p : Proc) => { p with ph := c } }

/-- The next step of a process. -/
def child (st : St) (i : Nat) : Option St :=
  match st.procs[i]? with
  | none => none
  | some p => match p.ph with
    | .setup => some (st.at i .atStart).opensStart
    | .atStart => if st.startOpen then some (st.at i .running) else if st.startBroken then some (st.at i .atStop).opensStop else none
    | .running => some (st.at i .atStop).opensStop
    | .atStop => if st.stopOpen then some { st.at i .over with term := true } else if st.stopBroken then some (st.at i .over) else none
    | .over => none

/-- One step; `none` if it is not possible. -/
def step (st : St) : Act → Option St
  | .interrupt => interrupt st
  | .next => next st
  | .fails => match st.pc with
    | .setup => some ({ st with startBroken := true }.throw .other)
    | .running => some { st with pc := .atStop (some .other) }.opensStop
    | .context _ => some { st with pc := .ended (.raised .other) }
    | _ => none
  | .unclean => match st.pc with
    | .tasks f => some { st with unclean := true, loop := false, pc := .thread f }
    | _ => none
  | .child i => child st i
  | .childFails i => match st.procs[i]? with
    | some p => if p.ph = .setup then some { st.at i .over with startBroken := true } else none
    | none => none
  | .childInterrupt i => match st.procs[i]? with
    | some p => match p.ph with
      | .setup => some (st.at i .over)
      | .atStart | .running => some (st.at i .atStop).opensStop
      | _ => some st
    | none => none
  | .childDies i => match st.procs[i]? with
    | some p => if p.ph = .setup ∨ p.ph = .running then some (st.at i .over) else none
    | none => none
  | .closes => if st.cleanup && st.context then some { st with context := false } else none

/-- Several steps. -/
def run (st : St) : List Act → Option St
  | [] => some st
  | a :: as => match step st a with
    | some st' => run st' as
    | none => none

end Interrupt
end Ez
