/-!
# The threads of a process

Source: `src/ezmsg/core/backendprocess.py`: `_DaemonThreadPoolExecutor` (85-126), `DefaultBackendProcess.process` (550-566),
`monitor_termination` (659-667); `ThreadPoolExecutor.submit` and `_worker` of CPython's `concurrent.futures.thread`.

The executor of the event loop of a process, used for the functions decorated with `thread`, for `monitor_termination`, and by
whatever the units run in it. `J` jobs (the futures that `submit` returns). `m : J` is the job of `monitor_termination`.

Simplifications:
* The queue of the executor is first in, first out; a thread takes a job and has it run as one step.
* The executor is not shut down meanwhile, and starting a thread does not fail.
* `monitor_termination` and what it calls, `task.cancel` for all tasks, are one step.
-/

namespace Ez
namespace Executor

/-- * `max`: `_max_workers`; `threads`: the number of threads started
* `submitted`, `started`: all jobs submitted and started so far, oldest first
* `over`: futures that are done or cancelled
* `counted`: jobs whose `submit` call has added one to `_active_count`; `told`: jobs whose callback has taken one off
* `term`: the termination event is set; `cancelled`: the tasks of the process were cancelled -/
structure St (J : Type) where
  max : Nat
  threads : Nat
  queue : List J
  running : List J
  submitted : List J
  started : List J
  over : List J
  counted : List J
  told : List J
  term : Bool
  cancelled : Bool

/-- * `submit`: `ThreadPoolExecutor.submit`; `count`: the rest of `_DaemonThreadPoolExecutor.submit`, 112-122
* `take`: an idle thread takes a job; `finish`: a job has ended; `cancel`: `Future.cancel`
* `tell`: the callback of a job that is done, 117-119
* `term`: somebody sets the termination event; `notice`: `monitor_termination` goes on -/
inductive Act (J : Type) where
  | submit (j : J)
  | count (j : J)
  | take
  | finish (j : J)
  | cancel (j : J)
  | tell (j : J)
  | term
  | notice

variable {J : Type} [DecidableEq J]

/-- A new executor, backendprocess.py:86-89. -/
def init (max : Nat) : St J := ⟨max, 0, [], [], [], [], [], [], [], false, false⟩

/-- `_adjust_thread_count`, backendprocess.py:91-110. -/
def adjust (max threads : Nat) : Nat := if threads ≥ max then threads else threads + 1

/-- `active_count`, backendprocess.py:124-126. -/
def activeCount (s : St J) : Int := s.counted.length - s.told.length

/-- One step; `none`: it is not possible now. -/
def step (m : J) (s : St J) : Act J → Option (St J)
  | .submit j =>
    if j ∈ s.submitted then none
    else some { s with queue := s.queue ++ [j], threads := adjust s.max s.threads, submitted := s.submitted ++ [j] }
  | .count j => if j ∈ s.submitted ∧ j ∉ s.counted then some { s with counted := j :: s.counted } else none
  | .take =>
    if s.running.length < s.threads then
      match s.queue with
      | [] => none
      | j :: q =>
        if j ∈ s.over then some { s with queue := q }
        else some { s with queue := q, running := s.running ++ [j], started := s.started ++ [j] }
    else none
  | .finish j =>
    if j ∈ s.running ∧ j ≠ m then some { s with running := s.running.erase j, over := j :: s.over } else none
  | .cancel j =>
    if j ∈ s.submitted ∧ j ∉ s.started ∧ j ∉ s.over then some { s with over := j :: s.over } else none
  | .tell j => if j ∈ s.counted ∧ j ∈ s.over ∧ j ∉ s.told then some { s with told := j :: s.told } else none
  | .term => some { s with term := true }
  | .notice =>
    if s.term = true ∧ m ∈ s.running then
      some { s with cancelled := true, running := s.running.erase m, over := m :: s.over }
    else none

/-- A run. -/
def run (m : J) : List (Act J) → St J → Option (St J)
  | [], s => some s
  | a :: as, s => match step m s a with | none => none | some s' => run m as s'

end Executor
end Ez
