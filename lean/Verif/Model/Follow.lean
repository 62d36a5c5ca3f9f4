/-!
# How a subscriber follows the graph server

Source: `Subscriber._graph_connection`, `src/ezmsg/core/subclient.py:180-269`, and the wait in
`Subscriber.create`, 86-89.

`P` names publishers. An `UPDATE` names the publishers the subscriber shall be connected to. The loop
registers with the channels of the new ones and unregisters from the others. `CHANNELS.register` fails if
the publisher is gone (`ValueError` from `Channel.create` if the server does not know it,
`ConnectionRefusedError` if nobody listens any more); `CHANNELS.unregister` removes the client and then
re-raises the exception the channel's task ended with, if it did and this was the last client
(channelmanager.py:122-127, messagechannel.py `wait_closed`). Neither is caught in the loop, only
`ConnectionResetError` and `BrokenPipeError` are, and those end it as well. Then the `finally` block runs.

Simplification: an `UPDATE` is handled in one step, what `register` and `unregister` do for each publisher
is part of the event.
-/

namespace Ez
namespace Follow
variable {P : Type} [DecidableEq P]

/-- `chans`: keys of `_channels`. `client p`: this subscriber is a client of the channel of `p`, so
messages of `p` reach it. `ready`: `_initialized`. `alive`: the loop runs. `answers`: number of
`COMPLETE`s written. -/
structure St (P : Type) where
  chans : List P
  client : P → Bool
  ready : Bool
  alive : Bool
  answers : Nat

def init : St P := { chans := [], client := fun _ => false, ready := false, alive := true, answers := 0 }

/-- What the loop reads. In `update ps new old reg unreg`, `new` and `old` are the orders in which the two
sets are traversed, `reg p` tells whether `register` returns, `unreg p` whether `unregister` does. -/
inductive Ev (P : Type) where
  | complete
  | update (ps new old : List P) (reg unreg : P → Bool)
  | unknown
  | eof (unreg : P → Bool)

def setClient (f : P → Bool) (p : P) (b : Bool) : P → Bool := fun q => if q = p then b else f q

/-- subclient.py:233-246. `false`: an exception left the loop. -/
def regLoop (reg : P → Bool) : List P → St P → St P × Bool
  | [], st => (st, true)
  | p :: ps, st =>
    if reg p then regLoop reg ps { st with chans := st.chans ++ [p], client := setClient st.client p true }
    else (st, false)

/-- subclient.py:249-251. -/
def unregLoop (unreg : P → Bool) : List P → St P → St P × Bool
  | [], st => (st, true)
  | p :: ps, st =>
    let st1 := { st with client := setClient st.client p false }
    if unreg p then unregLoop unreg ps { st1 with chans := st1.chans.filter (· ≠ p) }
    else (st1, false)

/-- subclient.py:266-269: a publisher whose `unregister` raised before is not registered any more, so
`unregister` raises `KeyError` for it. -/
def finalLoop (unreg : P → Bool) : List P → St P → St P
  | [], st => st
  | p :: ps, st =>
    if st.client p then
      let st1 := { st with client := setClient st.client p false }
      if unreg p then finalLoop unreg ps st1 else st1
    else st

/-- The loop ends. -/
def finish (unreg : P → Bool) (st : St P) : St P :=
  { finalLoop unreg st.chans st with alive := false }

/-- `new` lists `ps - cur_pubs` and `old` lists `cur_pubs - ps`, in some order. -/
def valid (st : St P) (ps new old : List P) : Prop :=
  new.Nodup ∧ old.Nodup ∧ (∀ p, p ∈ new ↔ p ∈ ps ∧ p ∉ st.chans) ∧ (∀ p, p ∈ old ↔ p ∈ st.chans ∧ p ∉ ps)

/-- One round of the loop, subclient.py:196-259. -/
def handle (st : St P) : Ev P → St P
  | .complete => { st with ready := true }
  | .update _ new old reg unreg =>
    match regLoop reg new st with
    | (st1, false) => finish unreg st1
    | (st1, true) =>
      match unregLoop unreg old st1 with
      | (st2, false) => finish unreg st2
      | (st2, true) => { st2 with answers := st2.answers + 1 }
  | .unknown => st
  | .eof unreg => finish unreg st

/-- What happens to `e`: it is handled if the loop still runs. -/
def read (st : St P) (e : Ev P) : St P := if st.alive then handle st e else st

/-- Everything the loop may read, oldest first, and the state this leads to. -/
inductive Run : List (Ev P) → St P → Prop where
  | init : Run [] init
  | step {es : List (Ev P)} {st : St P} (e : Ev P) : Run es st →
      (∀ ps new old reg unreg, e = .update ps new old reg unreg → st.alive = true → valid st ps new old) →
      Run (es ++ [e]) (read st e)

end Follow
end Ez
