import Verif.Model.Py

/-!
# When subscribers have applied their updates

The graph server tells subscribers their publishers (`_notify_subscriber`, `src/ezmsg/core/graphserver.py:1736-1758`) and waits for them to
confirm (`ClientInfo.sync_writer`, `src/ezmsg/core/netprotocol.py:121-138`; `_handle_client`, graphserver.py:529-566).

First, commands one at a time, as they are under `_command_lock` (`Updates`); then updates of one subscriber which overlap, as requests of
sessions send them outside of the lock, graphserver.py:1563-1564 (`Overlap`).
-/

namespace Ez
namespace Updates

variable {S : Type} [DecidableEq S]

/-- What the server does for a command. -/
inductive Item (S : Type) where
  /-- `_notify_subscriber`. -/
  | notify (s : S)
  /-- `COMPLETE` to the client who gave the command. -/
  | reply
  /-- `COMPLETE` to the subscriber who gave the command. -/
  | ready (s : S)
  deriving DecidableEq

/-- Commands, with the subscribers they concern. -/
inductive Cmd (S : Type) where
  /-- `Publisher.create` (graphserver.py:445-456). -/
  | publish (subs : List S)
  /-- `Subscriber.create` (graphserver.py:436-443, 456). -/
  | subscribe (s : S)
  /-- `GraphService.connect` and `disconnect` (graphserver.py:462-489); no subscribers if nothing has changed. -/
  | edge (subs : List S)
  /-- `GraphContext.connect` and `disconnect` (graphserver.py:1532-1566). -/
  | sessionEdge (subs : List S)
  deriving DecidableEq

/-- What is done for a command, in this order. -/
def Cmd.plan : Cmd S → List (Item S)
  | .publish subs => subs.map .notify ++ [.reply]
  | .subscribe s => [.notify s, .ready s]
  | .edge subs => .reply :: subs.map .notify
  | .sessionEdge subs => subs.map .notify ++ [.reply]

/-- The server and its subscribers.  `n` commands have been taken up; an update carries the number of its command. -/
structure St (S : Type) where
  n : Nat
  cur : Option (Cmd S)
  todo : List (Item S)
  /-- The first of `todo` is an update which has been written and not confirmed. -/
  waiting : Bool
  /-- `ClientInfo._pending`. -/
  pending : S → Bool
  /-- On the way to the subscriber: updates, and `none` for `COMPLETE`. -/
  inbox : S → List (Option Nat)
  /-- The updates it has applied (subclient.py:225-251). -/
  seen : S → List Nat
  /-- `Subscriber._initialized`. -/
  ready : S → Bool
  /-- `COMPLETE`s on the way to the server. -/
  acks : S → Nat
  /-- How often an update timed out. -/
  late : S → Nat

/-- `f` changed at `s`. -/
def upd {α : Type} (f : S → α) (s : S) (a : α) : S → α := fun t => if t = s then a else f t

/-- The first state. -/
def init : St S := ⟨0, none, [], false, fun _ => true, fun _ => [], fun _ => [], fun _ => false, fun _ => 0, fun _ => 0⟩

/-- What can happen. -/
inductive Act (S : Type) where
  | begin (c : Cmd S)
  | send (s : S)
  | timeout (s : S)
  | reply
  | tellReady (s : S)
  | apply (s : S)
  | becomeReady (s : S)
  | ack (s : S)
  deriving DecidableEq

/-- One step. -/
inductive Step : St S → Act S → St S → Prop where
  /-- The lock is free. -/
  | begin {st : St S} {c : Cmd S} (h : st.todo = []) : Step st (.begin c) { st with n := st.n + 1, cur := some c, todo := c.plan }
  /-- netprotocol.py:132-135. -/
  | send {st : St S} {s : S} {rest : List (Item S)} (h : st.todo = .notify s :: rest) (hw : st.waiting = false) (hp : st.pending s = true) :
      Step st (.send s) { st with waiting := true, pending := upd st.pending s false, inbox := upd st.inbox s (st.inbox s ++ [some st.n]) }
  /-- graphserver.py:1753, netprotocol.py:137-138. -/
  | timeout {st : St S} {s : S} {rest : List (Item S)} (h : st.todo = .notify s :: rest) (hw : st.waiting = true) :
      Step st (.timeout s) { st with todo := rest, waiting := false, pending := upd st.pending s true, late := upd st.late s (st.late s + 1) }
  | reply {st : St S} {rest : List (Item S)} (h : st.todo = .reply :: rest) : Step st .reply { st with todo := rest }
  | tellReady {st : St S} {s : S} {rest : List (Item S)} (h : st.todo = .ready s :: rest) :
      Step st (.tellReady s) { st with todo := rest, inbox := upd st.inbox s (st.inbox s ++ [none]) }
  /-- subclient.py:225-253. -/
  | apply {st : St S} {s : S} {k : Nat} {rest : List (Option Nat)} (h : st.inbox s = some k :: rest) :
      Step st (.apply s) { st with inbox := upd st.inbox s rest, seen := upd st.seen s (st.seen s ++ [k]), acks := upd st.acks s (st.acks s + 1) }
  /-- subclient.py:201-223. -/
  | becomeReady {st : St S} {s : S} {rest : List (Option Nat)} (h : st.inbox s = none :: rest) :
      Step st (.becomeReady s) { st with inbox := upd st.inbox s rest, ready := upd st.ready s true }
  /-- graphserver.py:556-557; somebody waits for it. -/
  | ack {st : St S} {s : S} {k : Nat} {rest : List (Item S)} (h : st.acks s = k + 1) (ht : st.todo = .notify s :: rest) (hw : st.waiting = true) :
      Step st (.ack s) { st with acks := upd st.acks s k, pending := upd st.pending s true, todo := rest, waiting := false }
  /-- Nobody waits for it. -/
  | ackIdle {st : St S} {s : S} {k : Nat} (h : st.acks s = k + 1) (hw : ¬ (st.waiting = true ∧ ∃ rest, st.todo = .notify s :: rest)) :
      Step st (.ack s) { st with acks := upd st.acks s k, pending := upd st.pending s true }

/-- Some steps. -/
inductive Steps : St S → List (Act S) → St S → Prop where
  | nil (st : St S) : Steps st [] st
  | snoc {st st1 st' : St S} {a : Act S} {as : List (Act S)} (t : Steps st as st1) (h : Step st1 a st') : Steps st (as ++ [a]) st'

namespace Overlap

/-! ## Updates of one subscriber which overlap -/

/-- Where a call of `_notify_subscriber` is: it waits for `_pending` before it writes, has been woken there, waits for the confirmation of
the update with a number, has been woken there, or has returned. -/
inductive Phase where
  | wait
  | woken
  | sent (k : Nat)
  | confirmed (k : Nat)
  | returned (k : Nat)
  deriving DecidableEq

/-- The calls so far, `_pending`, how many updates were written, applied by the subscriber, and how many confirmations were read. -/
structure St where
  calls : List Phase
  pending : Bool
  wrote : Nat
  applied : Nat
  acked : Nat

/-- The first state. -/
def init : St := ⟨[], true, 0, 0, 0⟩

/-- `asyncio.Event.set`: all who wait are woken. -/
def wake : Phase → Phase
  | .wait => .woken
  | .sent k => .confirmed k
  | p => p

/-- One step: a call, a woken call goes on, the subscriber applies an update, the server reads a confirmation.  A call finding `_pending`
set goes on without waiting (`asyncio.wait_for` runs it in place, Python 3.12 on). -/
inductive Step : St → St → Prop where
  | callFree {st : St} (h : st.pending = true) :
      Step st { st with calls := st.calls ++ [.sent (st.wrote + 1)], wrote := st.wrote + 1, pending := false }
  | callBusy {st : St} (h : st.pending = false) : Step st { st with calls := st.calls ++ [.wait] }
  | write {st : St} {i : Nat} (h : st.calls[i]? = some .woken) :
      Step st { st with calls := st.calls.set i (.sent (st.wrote + 1)), wrote := st.wrote + 1, pending := false }
  | finish {st : St} {i k : Nat} (h : st.calls[i]? = some (.confirmed k)) :
      Step st { st with calls := (st.calls.set i (.returned k)).map wake, pending := true }
  | apply {st : St} (h : st.applied < st.wrote) : Step st { st with applied := st.applied + 1 }
  | ack {st : St} (h : st.acked < st.applied) : Step st { st with acked := st.acked + 1, calls := st.calls.map wake, pending := true }

/-- Some steps. -/
inductive Steps : St → St → Prop where
  | refl (st : St) : Steps st st
  | tail {st st1 st' : St} (t : Steps st st1) (h : Step st1 st') : Steps st st'

end Overlap

end Updates
end Ez
