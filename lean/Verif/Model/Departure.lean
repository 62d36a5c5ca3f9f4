import Verif.Model.System

/-!
# A publisher leaves

Sources: `Publisher.close`, `src/ezmsg/core/pubclient.py:293-306`, `_handle_channel`, 402-437, and the
end of `Channel._publisher_connection`, `src/ezmsg/core/messagechannel.py:312-319`.

`Verif/Model/System.lean` has no step in which a publisher is closed; this model adds it. `close`
cancels the publisher's tasks; ending the task that serves a channel closes the connection to it, and
every channel notices that on its own, later: it leaves its read loop and clears its cache. Nobody tells
the subscribers: the graph server sends no update when a publisher leaves (see property C10), so the
channel stays in their `_channels`, and the notifications of messages not yet received stay in their
queues.

Simplifications: a channel may notice the end of the connection before it has read everything the
publisher wrote (as on a reset) or after (as on an orderly close); the call of `broadcast` under way
is abandoned where it is; the publisher's own entry in the channel of its process is not removed.
-/

namespace Ez
namespace Depart
open Sys

/-- The system, which publishers were closed (`left`) and which channels have seen the end of the
connection to their publisher (`hung`). -/
structure St (P K S V : Type) where
  sys : Sys.St P K S V
  left : P → Bool
  hung : K → Bool

/-- Steps: those of the system, `Publisher.close()`, and a channel reading the end of its connection. -/
inductive Act (P K S V : Type) where
  | sys (a : Sys.Act P K S V)
  | leave (p : P)
  | hangup (k : K)

section
variable {P K S V : Type} [DecidableEq P] [DecidableEq K] [DecidableEq S]

/-- The publisher whose tasks take the step: the caller of `broadcast`, `pause`, `resume` and `sync`,
and its connections to channels (`_channel_connect`, `_handle_channel`). The other steps are taken by
channels and subscribers. -/
def owner (cfg : Cfg P K S) : Sys.Act P K S V → Option P
  | .bcast p _ => some p
  | .gateResume p => some p
  | .slotResume p => some p
  | .send p _ => some p
  | .finish p => some p
  | .pause p => some p
  | .resume p => some p
  | .sync p => some p
  | .syncReturn p => some p
  | .ack k => some (cfg.pubOf k)
  | .connect k => some (cfg.pubOf k)
  | .eof k => some (cfg.pubOf k)
  | .deliver _ | .recv _ | .release _ _ | .link _ _ | .unlink _ _ | .close _ => none

def init (cfg : Cfg P K S) : St P K S V :=
  { sys := Sys.init cfg, left := fun _ => false, hung := fun _ => false }

/-- The end of `_publisher_connection`, messagechannel.py:312-314: what was not read is gone and the
cache is cleared. -/
def hangup (st : Sys.St P K S V) (k : K) : Sys.St P K S V :=
  setChan st k { st.chan k with wire := [], cache := (st.chan k).cache.clear }

/-- The step belongs to a publisher that was closed. -/
def blocked (cfg : Cfg P K S) (d : St P K S V) (a : Sys.Act P K S V) : Bool :=
  match owner cfg a with
  | some p => d.left p
  | none => false

/-- The transition function. -/
def step (cfg : Cfg P K S) (d : St P K S V) : Act P K S V → Res (St P K S V)
  | .sys a =>
    if blocked cfg d a then .disabled
    else match Sys.step cfg d.sys a with
      | .disabled => .disabled
      | .raised e => .raised e
      | .ok st => .ok { d with sys := st }
  | .leave p =>
    if d.left p then .disabled else .ok { d with left := upd d.left p true }
  | .hangup k =>
    if d.left (cfg.pubOf k) && (d.sys.chan k).opened && !(d.sys.chan k).closed && !d.hung k then
      .ok { d with sys := hangup d.sys k, hung := upd d.hung k true }
    else .disabled

/-- A run. -/
def run (cfg : Cfg P K S) (d : St P K S V) : List (Act P K S V) → Res (St P K S V)
  | [] => .ok d
  | a :: as =>
    match step cfg d a with
    | .disabled => .disabled
    | .raised e => .raised e
    | .ok d' => run cfg d' as

end
end Depart
end Ez
