import Verif.Model.Py

/-!
# Starting and stopping the processes of a system

The units of a system are divided over processes (C34).  Every process sets up its units, waits at a
start barrier, runs the coroutines of its units, waits at a stop barrier and shuts down
(`DefaultBackendProcess.process`, backendprocess.py:326-655).  A `GraphRunner` starts them
(backend.py:622-672, 744-826).  This file models the processes together with the two barriers
(backend.py:118-122) and the event `term_ev`.

Simplifications.  What happens within the set-up of a process, within a coroutine and within the
shut-down of its units is one step each.  Interrupts are modelled only while coroutines run; forced
quitting (a second interrupt, which aborts both barriers and kills the processes) is not modelled.
Threads started by units (`@ez.thread`) have no shut-down mechanism (comment at
backendprocess.py:607-612) and are left out.
-/

namespace Ez
namespace Procs

/-- Where a process is in `process`: setting up (backendprocess.py:428-539), in
`start_barrier.wait()` (:548), running (:550-586), in `stop_barrier.wait()` (:598), shutting down
(:603-655), gone, or left by an exception during set-up (:541-544). -/
inductive Status where
  | setup
  | waitStart
  | running
  | waitStop
  | closing
  | gone
  | failed
deriving DecidableEq

/-- A process: where it is, the number of its coroutines which are still running, those which end by
themselves (`tasks`) and those which run until they are cancelled (`endless`, such as the loops of
subscribers), and whether its main function is running. -/
structure Proc where
  status : Status := .setup
  tasks : Nat := 0
  endless : Nat := 0
  main : Bool := false
deriving DecidableEq

/-- The caller of `start` (`busy`: starting the processes; `waiting`: in `start_barrier.wait()`,
backend.py:636; `started`), and joining the processes (backend.py:751-763), which `run_blocking`
comes to when its own process has ended. -/
inductive Runner where
  | busy
  | waiting
  | started
  | joining
  | joined
deriving DecidableEq

/-- A system: its processes, how many coroutines of each kind they have, whether they have a main
function, and whether it is started with `start` (then the runner waits at the start barrier too,
backend.py:119-121) or with `run_blocking`. -/
structure Cfg (P : Type) where
  ps : List P
  tasks : P → Nat
  endless : P → Nat
  main : P → Bool
  runner : Bool

/-- The processes, the runner, `term_ev`, and the barriers: `open` when all parties have arrived,
`broken` after `abort()`. -/
structure St (P : Type) where
  procs : P → Proc
  runner : Runner
  term : Bool := false
  startOpen : Bool := false
  startBroken : Bool := false
  stopOpen : Bool := false

/-- Before anything happens. -/
def init {P : Type} (cfg : Cfg P) : St P where
  procs := fun _ => {}
  runner := if cfg.runner then .busy else .joining

/-- The steps: see `step`. -/
inductive Act (P : Type) where
  | setupDone (p : P)
  | setupFails (p : P)
  | runnerArrives
  | pass (p : P)
  | broken (p : P)
  | runnerPass
  | runnerBroken
  | taskEnds (p : P)
  | cancel (p : P)
  | terminates (p : P)
  | terminatesLoop (p : P)
  | mainEnds (p : P)
  | mainTerminates (p : P)
  | mainFails (p : P)
  | interrupt (p : P)
  | finish (p : P)
  | passStop (p : P)
  | close (p : P)
  | stop
  | joins

variable {P : Type} [DecidableEq P]

/-- Change one process. -/
def setProc (st : St P) (p : P) (x : Proc) : St P :=
  { st with
    procs := fun q => if q = p then x else st.procs q }

/-- The start barrier opens when every process, and the runner if it takes part, waits there. -/
def checkStart (cfg : Cfg P) (st : St P) : St P :=
  if (∀ q ∈ cfg.ps, (st.procs q).status = .waitStart) ∧ (cfg.runner = true → st.runner = .waiting)
      ∧ st.startBroken = false then
    { st with startOpen := true }
  else st

/-- The stop barrier opens when every process waits there. -/
def checkStop (cfg : Cfg P) (st : St P) : St P :=
  if ∀ q ∈ cfg.ps, (st.procs q).status = .waitStop then { st with stopOpen := true } else st

/-- The steps; `none` if the step is not possible.
* `setupDone p`: all units, publishers and subscribers of `p` are set up, and it arrives at the start
  barrier (backendprocess.py:428-536, 548);
* `setupFails p`: an exception during set-up: the start barrier is aborted and the exception leaves
  `process` (:541-544), so that `p` does not come to the stop barrier;
* `runnerArrives`, `runnerPass`, `runnerBroken`: the runner at the start barrier (backend.py:634-645);
* `pass p`: the start barrier lets `p` go: coroutines start, publishers resume (:550-566);
* `broken p`: `BrokenBarrierError` at the start barrier (:588-589), then the stop barrier;
* `taskEnds p`: a coroutine ends by itself; `cancel p`: `monitor_termination` (:659-666) cancels one,
  `term_ev` being set;
* `terminates p`, `terminatesLoop p`: a coroutine of either kind raises `NormalTermination` (:718-721);
* `mainEnds p`: the main function returns; `mainTerminates p`: it raises `NormalTermination` (:572-573);
* `mainFails p`: it raises another exception, and `p` goes to the stop barrier (:591-598); `interrupt p`: so does `KeyboardInterrupt`;
* `finish p`: no coroutine is left (:578-586), and `p` arrives at the stop barrier;
* `passStop p`: the stop barrier lets `p` go, which sets `term_ev` (:598-603);
* `close p`: units are shut down, publishers and subscribers closed, and the process ends (:614-650);
* `stop`: `GraphRunner.stop` (backend.py:650-659); `joins`: every process has ended (:751-763). -/
def step (cfg : Cfg P) (st : St P) : Act P → Option (St P)
  | .setupDone p =>
    if p ∈ cfg.ps ∧ (st.procs p).status = .setup then
      some (checkStart cfg (setProc st p { st.procs p with status := .waitStart }))
    else none
  | .setupFails p =>
    if p ∈ cfg.ps ∧ (st.procs p).status = .setup then
      some { setProc st p { st.procs p with status := .failed } with startBroken := true }
    else none
  | .runnerArrives =>
    if st.runner = .busy then some (checkStart cfg { st with runner := .waiting }) else none
  | .pass p =>
    if p ∈ cfg.ps ∧ (st.procs p).status = .waitStart ∧ st.startOpen = true then
      some (setProc st p
        { status := .running, tasks := cfg.tasks p, endless := cfg.endless p, main := cfg.main p })
    else none
  | .broken p =>
    if p ∈ cfg.ps ∧ (st.procs p).status = .waitStart ∧ st.startBroken = true ∧ st.startOpen = false then
      some (checkStop cfg (setProc st p { st.procs p with status := .waitStop }))
    else none
  | .runnerPass =>
    if st.runner = .waiting ∧ st.startOpen = true then some { st with runner := .started } else none
  | .runnerBroken =>
    if st.runner = .waiting ∧ st.startBroken = true ∧ st.startOpen = false then
      some { st with runner := .joining, term := true }
    else none
  | .taskEnds p =>
    if p ∈ cfg.ps ∧ 0 < (st.procs p).tasks then
      some (setProc st p { st.procs p with tasks := (st.procs p).tasks - 1 })
    else none
  | .cancel p =>
    if p ∈ cfg.ps ∧ 0 < (st.procs p).endless ∧ st.term = true then
      some (setProc st p { st.procs p with endless := (st.procs p).endless - 1 })
    else none
  | .terminates p =>
    if p ∈ cfg.ps ∧ 0 < (st.procs p).tasks then
      some { setProc st p { st.procs p with tasks := (st.procs p).tasks - 1 } with term := true }
    else none
  | .terminatesLoop p =>
    if p ∈ cfg.ps ∧ 0 < (st.procs p).endless then
      some { setProc st p { st.procs p with endless := (st.procs p).endless - 1 } with term := true }
    else none
  | .mainTerminates p =>
    if p ∈ cfg.ps ∧ (st.procs p).status = .running ∧ (st.procs p).main = true then
      some { setProc st p { st.procs p with main := false } with term := true }
    else none
  | .mainEnds p =>
    if p ∈ cfg.ps ∧ (st.procs p).status = .running ∧ (st.procs p).main = true then
      some (setProc st p { st.procs p with main := false })
    else none
  | .mainFails p =>
    if p ∈ cfg.ps ∧ (st.procs p).status = .running ∧ (st.procs p).main = true then
      some (checkStop cfg (setProc st p { st.procs p with status := .waitStop, main := false }))
    else none
  | .interrupt p =>
    if p ∈ cfg.ps ∧ (st.procs p).status = .running then
      some (checkStop cfg (setProc st p { st.procs p with status := .waitStop, main := false }))
    else none
  | .finish p =>
    if p ∈ cfg.ps ∧ (st.procs p).status = .running ∧ (st.procs p).tasks = 0 ∧ (st.procs p).endless = 0
        ∧ (st.procs p).main = false then
      some (checkStop cfg (setProc st p { st.procs p with status := .waitStop }))
    else none
  | .passStop p =>
    if p ∈ cfg.ps ∧ (st.procs p).status = .waitStop ∧ st.stopOpen = true then
      some { setProc st p { st.procs p with status := .closing } with term := true }
    else none
  | .close p =>
    if p ∈ cfg.ps ∧ (st.procs p).status = .closing then
      some (setProc st p { st.procs p with status := .gone })
    else none
  | .stop =>
    if st.runner = .started then some { st with runner := .joining, term := true } else none
  | .joins =>
    if st.runner = .joining ∧ ∀ q ∈ cfg.ps, (st.procs q).status = .gone ∨ (st.procs q).status = .failed then
      some { st with runner := .joined }
    else none

/-- A run of steps; `none` if one of them is not possible. -/
def run (cfg : Cfg P) (st : St P) : List (Act P) → Option (St P)
  | [] => some st
  | a :: as => (step cfg st a).bind (fun st' => run cfg st' as)

end Procs
end Ez
