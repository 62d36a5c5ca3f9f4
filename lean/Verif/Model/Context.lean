import Verif.Model.Py

/-!
# Model of the life of a `GraphContext` (`src/ezmsg/core/graphcontext.py`)

What a context made: publishers and subscribers (clients, numbered), and connections of topics, which its session owns at
the graph server. One call of `revert` or `__aexit__` is under way at a time; other tasks use the context meanwhile.

Simplifications: what the graph server does with a command is one step (see `Model/ControlClients.lean` for the queue of commands, and
`Model/GraphServer.lean` for the server); metadata are left out. A client is `closed` once its `close()` was called, and
`failed` once one of the tasks that its `wait_closed()` awaits has ended with an exception other than
`CancelledError`, e.g. the `ValueError` of `Channel.create` in `Subscriber._graph_connection`, messagechannel.py:160,
subclient.py:236.
-/

namespace Ez
namespace Context

/-- Where `revert` and `__aexit__` are. -/
inductive Phase where
  | idle
  | waiting (todo : List Nat) (exit : Bool)
  | clearing (exit : Bool)
  | closing
  | raised
  | left
deriving DecidableEq

/-- A connection of two topics. -/
abbrev Edge := String × String

/-- * `tracked`: `_clients`; `edges`: `_edges`
* `session`: `_session_writer` is not `None`; `live`: its connection to the server works
* `owned`: the connections that the session owns at the server
* `server`: a graph server that the context has started is running
* `made`: all clients made with the context, and whether a call of `revert` was waiting or the context was left by then -/
structure St where
  tracked : PySet Nat
  closed : Nat → Bool
  failed : Nat → Bool
  edges : PySet Edge
  session : Bool
  live : Bool
  owned : PySet Edge
  server : Bool
  phase : Phase
  made : List (Nat × Bool)

/-- A context that was just entered; `s`: it has started a server: graphcontext.py:104-118, 741-744. -/
def entered (s : Bool) : St :=
  ⟨[], fun _ => false, fun _ => false, [], true, true, [], s, .idle, []⟩

/-- The call of `revert` is between its first and its last `await`, or the context was left. -/
def Phase.late : Phase → Bool
  | .idle => false
  | .raised => false
  | _ => true

/-- What happens.

* `create c`: `publisher` or `subscriber` returns, graphcontext.py:137-140, 152-155
* `close c`: somebody calls `close()`, e.g. `update_settings`, 481
* `discard c`: `update_settings` after it waited, 483
* `fail c`: a task of the client ends with an exception
* `connect e`, `disconnect e`: 157-195
* `lose`: the connection of the session breaks; the server forgets the session
* `begin exit`: `revert` is called, by `__aexit__` or otherwise, up to its first `await`, 765-769
* `waited c`, `raises c`: `await future` returns or raises, 770
* `waitedAll`: 772
* `clear`: SESSION_CLEAR and its answer, 774-793
* `leave`: `_close_session` and `_shutdown_servers`, 312-331, 736-739, 752-754 -/
inductive Act where
  | create (c : Nat)
  | close (c : Nat)
  | discard (c : Nat)
  | fail (c : Nat)
  | connect (e : Edge)
  | disconnect (e : Edge)
  | lose
  | begin (exit : Bool)
  | waited (c : Nat)
  | raises (c : Nat)
  | waitedAll
  | clear
  | leave
deriving DecidableEq

/-- `f` changed at one place. -/
def set (f : Nat → Bool) (c : Nat) : Nat → Bool := fun x => x == c || f x

/-- The steps. -/
inductive Step : St → Act → St → Prop
  | create (st : St) (c : Nat) (h : c ∉ st.made.map (·.1)) :
    Step st (.create c) { st with tracked := st.tracked.add c, made := st.made ++ [(c, st.phase.late)] }
  | close (st : St) (c : Nat) : Step st (.close c) { st with closed := set st.closed c }
  | discard (st : St) (c : Nat) (h : st.closed c = true) : Step st (.discard c) { st with tracked := st.tracked.discard c }
  | fail (st : St) (c : Nat) : Step st (.fail c) { st with failed := set st.failed c }
  | connect (st : St) (e : Edge) (h : st.session = true) (hl : st.live = true) :
    Step st (.connect e) { st with owned := st.owned.add e, edges := st.edges.add e }
  | disconnect (st : St) (e : Edge) (h : st.session = true) (hl : st.live = true) :
    Step st (.disconnect e) { st with owned := st.owned.discard e, edges := st.edges.discard e }
  | lose (st : St) : Step st .lose { st with live := false, owned := [] }
  | begin (st : St) (exit : Bool) (h : st.phase = .idle ∨ st.phase = .raised) :
    Step st (.begin exit) { st with closed := fun c => decide (c ∈ st.tracked) || st.closed c, phase := .waiting st.tracked exit }
  | waited (st : St) (c : Nat) (todo : List Nat) (exit : Bool) (h : st.phase = .waiting todo exit) (hc : c ∈ todo)
    (hf : st.failed c = false) : Step st (.waited c) { st with phase := .waiting (todo.filter (· ≠ c)) exit }
  | raises (st : St) (c : Nat) (todo : List Nat) (exit : Bool) (h : st.phase = .waiting todo exit) (hc : c ∈ todo)
    (hf : st.failed c = true) : Step st (.raises c) { st with phase := .raised }
  | waitedAll (st : St) (exit : Bool) (h : st.phase = .waiting [] exit) :
    Step st .waitedAll { st with tracked := [], phase := .clearing exit }
  | clear (st : St) (exit : Bool) (h : st.phase = .clearing exit) :
    Step st .clear { st with
      owned := if st.session && st.live then [] else st.owned
      edges := []
      phase := if exit then .closing else .idle }
  | leave (st : St) (h : st.phase = .closing) :
    Step st .leave { st with session := false, live := false, owned := [], edges := [], server := false, phase := .left }

/-- Runs, with what happened. -/
inductive Steps (st : St) : List Act → St → Prop
  | refl : Steps st [] st
  | step {as : List Act} {a : Act} {st' st'' : St} (h : Steps st as st') (s : Step st' a st'') : Steps st (as ++ [a]) st''

/-- `__aenter__`, graphcontext.py:741-744: `_ensure_servers` starts a server or finds one; `opens`: whether
`_open_session` succeeds. The second component says whether it raises. -/
def enter (starts opens : Bool) : St × Bool :=
  if opens then (entered starts, false)
  else ({ entered starts with session := false, live := false }, true)

end Context
end Ez
