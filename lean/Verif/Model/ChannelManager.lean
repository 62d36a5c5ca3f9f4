import Verif.Model.Py

/-!
# The channels of one process (`src/ezmsg/core/channelmanager.py`)

* `P` names a publisher together with its graph server address (the registry is keyed by both), `C` a client.
* A channel object is a number; `chans` remembers every channel ever created.
* `Channel.create` is the only suspension point of `_register`; a call that is inside it is an entry of `pending`.
  Everything else of `_register`, and `unregister` up to `channel.close()`, runs without suspension.
* A channel counts as open until the manager closes it. What the clients' queues and backpressure do is in the
  system model.
-/

namespace Ez
namespace Mgr
variable {P C K : Type} [DecidableEq P] [DecidableEq C] [DecidableEq K]

/-- A `Channel`: whose messages it carries, its `clients` (messagechannel.py:425-467), and whether it is open. -/
structure Chan (P C : Type) where
  pub : P
  clients : PySet C
  opened : Bool

/-- `ChannelManager`, all channels created so far, and the `_register` calls waiting for `Channel.create`. `K` names
calls. -/
structure Manager (P C K : Type) where
  registry : PyDict P Nat
  chans : List (Chan P C)
  pending : PyDict K (P × C)

def Manager.init : Manager P C K := { registry := [], chans := [], pending := [] }

/-- What happens: a call starts, `Channel.create` of a call ends well or badly, a client unregisters. -/
inductive Act (P C K : Type) where
  | register (k : K) (p : P) (c : C)
  | created (k : K)
  | createFailed (k : K)
  | unregister (p : P) (c : C)
  deriving DecidableEq, Repr

/-- What the caller sees. `idle` stands for an event that cannot happen (unknown or repeated call name). -/
inductive Reply (P C : Type) where
  | channel (p : P) (c : C) (n : Nat)
  | waiting
  | failed
  | done
  | keyError
  | idle
  deriving DecidableEq, Repr

/-- `channel.register_client`: messagechannel.py:425-443. -/
def registerClient (chans : List (Chan P C)) (n : Nat) (c : C) : List (Chan P C) :=
  chans.modify n (fun ch => { ch with clients := PySet.add ch.clients c })

/-- `_register` up to `Channel.create`: channelmanager.py:89-93, 97-98. -/
def register (m : Manager P C K) (k : K) (p : P) (c : C) : Reply P C × Manager P C K :=
  match m.registry.get? p with
  | some n => (.channel p c n, { m with chans := registerClient m.chans n c })
  | none => (.waiting, { m with pending := m.pending.set k (p, c) })

/-- `_register` after `Channel.create`: channelmanager.py:94-98. The registry is not looked at again. -/
def created (m : Manager P C K) (k : K) (p : P) (c : C) : Reply P C × Manager P C K :=
  let n := m.chans.length
  let chans := m.chans ++ [{ pub := p, clients := [], opened := true }]
  (.channel p c n, { registry := m.registry.set p n, chans := registerClient chans n c, pending := m.pending.pop k })

/-- `unregister`: channelmanager.py:114-129. -/
def unregister (m : Manager P C K) (p : P) (c : C) : Reply P C × Manager P C K :=
  match m.registry.get? p with
  | none => (.keyError, m)
  | some n =>
    match m.chans[n]? with
    | none => (.idle, m)
    | some ch =>
      if c ∉ ch.clients then (.keyError, m)
      else
        let cl := PySet.discard ch.clients c
        if cl.length = 0 then
          (.done, { m with registry := m.registry.pop p, chans := m.chans.set n { ch with clients := cl, opened := false } })
        else (.done, { m with chans := m.chans.set n { ch with clients := cl } })

/-- One step. -/
def step (m : Manager P C K) : Act P C K → Reply P C × Manager P C K
  | .register k p c => if (m.pending.get? k).isSome then (.idle, m) else register m k p c
  | .created k =>
    match m.pending.get? k with
    | none => (.idle, m)
    | some (p, c) => created m k p c
  | .createFailed k =>
    match m.pending.get? k with
    | none => (.idle, m)
    | some _ => (.failed, { m with pending := m.pending.pop k })
  | .unregister p c => unregister m p c

/-- Every history with the replies, oldest first, and the state it leads to. -/
inductive Run : List (Act P C K × Reply P C) → Manager P C K → Prop
  | init : Run [] .init
  | step {h m} (a : Act P C K) : Run h m → Run (h ++ [(a, (step m a).1)]) (step m a).2

end Mgr
end Ez
