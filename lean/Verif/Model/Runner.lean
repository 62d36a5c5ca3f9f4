/-!
# Running a unit's subscribing coroutines

Source: `src/ezmsg/core/backendprocess.py`, `task_wrapper` (669-737) and `handle_subscriber` (740-805).

`C` the coroutines subscribed to one stream, `M` messages, `S` output streams, `P` published objects.

One `handle_subscriber` call is sequential: between two of its awaits other coroutines run, but they cannot change what it
does next except through the messages that arrive. So it is a function of the messages received. What a coroutine does when
it is called (what it yields and how it ends) is arbitrary and may depend on all messages it was given before.

Left out: cancellation at shutdown, profiling, the `on_message` hook (see `Model/SettingsTrack.lean`), callables with a
wrong number of parameters.
-/

namespace Ez
namespace Runner

/-- How a call of the coroutine ends. -/
inductive Ending where
  | returned
  | complete
  | normalTermination
  | error
deriving DecidableEq

/-- What happens, in order. -/
inductive Ev (C M S P : Type) where
  | recv (m : M)
  | call (c : C) (m : M)
  | publish (c : C) (s : S) (p : P)
  | release (m : M)
  | closed
deriving DecidableEq

/-- The set of callables, `term_ev`, `_shutdown_errors`, whether the loop was left by an exception, and the history. -/
structure St (C M S P : Type) where
  callables : List C
  term : Bool
  errors : Bool
  raised : Bool
  log : List (Ev C M S P)

section
variable {C M S P : Type} [DecidableEq C] [DecidableEq S]

/-- The messages `c` was called with. -/
def calls (c : C) (log : List (Ev C M S P)) : List M :=
  log.filterMap (fun | .call c' m => if c' = c then some m else none | _ => none)

/-- What a coroutine yields and how it ends, given all messages it was called with, the current one last. -/
abbrev Behaviour (C M S P : Type) := C → List M → List (S × P) × Ending

/-- `wrapped_task` and the `except` clause around the call, backendprocess.py:703-735, 785-800: yielded objects go to the
streams that have a publisher (681-684); `strict`: `_strict_shutdown_enabled()`. -/
def invoke (strict : Bool) (pubs : List S) (beh : Behaviour C M S P) (m : M) (st : St C M S P) (c : C) : St C M S P :=
  let r := beh c (calls c st.log ++ [m])
  let st1 := { st with log := st.log ++ .call c m ::
    (r.1.filter (fun x => decide (x.1 ∈ pubs))).map (fun x => .publish c x.1 x.2) }
  match r.2 with
  | .returned => st1
  | .complete => { st1 with callables := st1.callables.filter (fun x => decide (x ≠ c)) }
  | .normalTermination =>
    { st1 with callables := st1.callables.filter (fun x => decide (x ≠ c)), term := true }
  | .error => { st1 with errors := true, raised := strict }

/-- `for callable in list(callables)`, backendprocess.py:785-800; an exception leaves the loop. -/
def invokeAll (strict : Bool) (pubs : List S) (beh : Behaviour C M S P) (m : M) : List C → St C M S P → St C M S P
  | [], st => st
  | c :: cs, st =>
    let st1 := invoke strict pubs beh m st c
    if st1.raised then st1 else invokeAll strict pubs beh m cs st1

/-- One message: received, passed on, released when the `async with` block is left (also by an exception),
backendprocess.py:775-802. `ord` is the order in which the set is iterated. -/
def round (strict : Bool) (pubs : List S) (beh : Behaviour C M S P) (ord : List C → List C) (m : M)
    (st : St C M S P) : St C M S P :=
  let st1 := invokeAll strict pubs beh m (ord st.callables) { st with log := st.log ++ [.recv m] }
  { st1 with log := st1.log ++ [.release m] }

/-- `handle_subscriber` on the messages that arrive; with none left it waits. backendprocess.py:769-805. -/
def handle (strict : Bool) (pubs : List S) (beh : Behaviour C M S P) (ord : List C → List C) :
    List M → St C M S P → St C M S P
  | [], st => if st.callables.isEmpty then { st with log := st.log ++ [.closed] } else st
  | m :: ms, st =>
    if st.callables.isEmpty then { st with log := st.log ++ [.closed] }
    else
      let st1 := round strict pubs beh ord m st
      if st1.raised then st1 else handle strict pubs beh ord ms st1

/-- The state at the start. -/
def start (cs : List C) : St C M S P := { callables := cs, term := false, errors := false, raised := false, log := [] }

end
end Runner
end Ez
