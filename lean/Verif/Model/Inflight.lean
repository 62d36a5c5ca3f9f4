import Verif.Model.System

/-!
# The number of messages in flight that a publisher reports

Sources: `src/ezmsg/core/pubclient.py`, `src/ezmsg/core/profiling.py:93-94`. The publisher stores `Backpressure.pressure`
in its profile (`inflight_messages_current` of a snapshot, see `Model/Profiling.lean`) at four places. Here every state
of the system (`Model/System.lean`) is extended by the stored number of every publisher.
-/

namespace Ez
namespace Sys

variable {P K S V : Type} [DecidableEq P] [DecidableEq K] [DecidableEq S]

/-- The publisher that stores its pressure in the step `a`: after a lease for a channel (pubclient.py:560-561), at the
end of `broadcast` (568), after an acknowledgement (427-428), after the end of a channel (434-435). In-process delivery
(messagechannel.py:361) and releases by channels of the publisher's process (messagechannel.py:413-414) store nothing. -/
def sampled (cfg : Cfg P K S) (st : St P K S V) : Act P K S V → Option P
  | .send p ok =>
    match (st.pub p).job with
    | .sending _ (k :: _) => if (st.chan k).closed && !ok then none else some p
    | _ => none
  | .finish p => some p
  | .ack k => some (cfg.pubOf k)
  | .eof k => some (cfg.pubOf k)
  | _ => none

/-- A state with the stored numbers; initially 0 (profiling.py:36). -/
structure GSt (P K S V : Type) where
  sys : St P K S V
  gauge : P → Int

def ginit (cfg : Cfg P K S) : GSt P K S V := { sys := init cfg, gauge := fun _ => 0 }

def gstep (cfg : Cfg P K S) (g : GSt P K S V) (a : Act P K S V) : Res (GSt P K S V) :=
  match step cfg g.sys a with
  | .ok st' =>
    .ok { sys := st'
          gauge := match sampled cfg g.sys a with
            | some p => upd g.gauge p (st'.pub p).bp.pressure
            | none => g.gauge }
  | .raised e => .raised e
  | .disabled => .disabled

def grun (cfg : Cfg P K S) (g : GSt P K S V) : List (Act P K S V) → Res (GSt P K S V)
  | [] => .ok g
  | a :: as => match gstep cfg g a with
    | .ok g' => grun cfg g' as
    | .raised e => .raised e
    | .disabled => .disabled

end Sys
end Ez
