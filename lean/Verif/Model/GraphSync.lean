import Verif.Model.Py

/-!
# Pausing, resuming and synchronizing a whole graph

`GraphContext.sync/pause/resume` (`src/ezmsg/core/graphcontext.py:197-216`), the commands of the graph server
(`src/ezmsg/core/graphserver.py:491-508`), and the graph connection of publishers (`src/ezmsg/core/pubclient.py:323-364`).

* `order` are the registered publishers, in the order of `GraphServer.clients`.  Publishers do not come or go.
* A message of a publisher is in flight until all subscribers have released it; what is counted is one copy for each of its `subs`
  subscribers.  Units hold a message while they handle it and while they publish what they make of it (`handle_subscriber`,
  backendprocess.py:740-805); `fwd p q` says that a unit which handles messages of `p` may publish on `q`.  Subscribers which are leaky
  hold nothing and are left out.
* `broadcast` first waits until the publisher runs and then, if the buffer is not free, for the buffer (pubclient.py:485-500).  Which
  buffers are free is not modelled: with something in flight the buffer may be free or not, with nothing in flight it is.
* The server handles these commands one at a time (`_command_lock`, graphserver.py:426).
-/

namespace Ez
namespace GraphSync

variable {P : Type} [DecidableEq P]

/-- Commands the server sends to publishers. -/
inductive Cmd where
  | pause
  | resume
  | sync
  deriving DecidableEq

/-- The publishers of a graph. -/
structure Cfg (P : Type) where
  order : List P
  /-- How many subscribers a publisher has. -/
  subs : P → Nat
  fwd : P → P → Prop

/-- A unit which handles a message. -/
structure Unit (P : Type) where
  /-- The publisher of the message. -/
  src : P
  /-- It waits for a buffer of the publisher it publishes on next. -/
  waits : Bool
  /-- The publishers it will still publish on. -/
  todo : List P
  deriving DecidableEq

/-- The state of the graph. -/
structure St (P : Type) where
  /-- `Publisher._running`. -/
  running : P → Bool
  /-- Messages which wait for their subscribers. -/
  flying : P → Nat
  /-- Units which handle a message. -/
  held : List (Unit P)
  /-- Tasks which handle no message and wait for a buffer of a publisher. -/
  waiting : P → Nat
  /-- Commands on the way to a publisher. -/
  inbox : P → List Cmd
  /-- The publisher is in `sync` (pubclient.py:349-351). -/
  draining : P → Bool
  /-- The publishers the server still has to synchronize, the first being asked (graphserver.py:491-500). -/
  server : Option (List P)
  /-- How often `sync` was answered. -/
  replies : Nat

/-- `f` changed at `p`. -/
def upd {α : Type} (f : P → α) (p : P) (a : α) : P → α := fun q => if q = p then a else f q

/-- The first state: all run, nothing is in flight. -/
def init : St P := ⟨fun _ => true, fun _ => 0, [], fun _ => 0, fun _ => [], fun _ => false, none, 0⟩

/-- What can happen. -/
inductive Act (P : Type) where
  /-- A task which handles no message publishes on `p`. -/
  | emit (p : P)
  /-- It finds no free buffer. -/
  | emitWait (p : P)
  /-- A task which waited for a buffer publishes. -/
  | emitLate (p : P)
  /-- A unit takes a message of `p`; it will publish on `qs`. -/
  | take (p : P) (qs : List P)
  /-- The unit at a place in `held` publishes its next message. -/
  | put (i : Nat)
  /-- It finds no free buffer. -/
  | putWait (i : Nat)
  /-- It has published all and releases the message it holds. -/
  | done (i : Nat)
  /-- The server takes up a command of a client. -/
  | cmd (c : Cmd)
  /-- The graph connection of `p` reads a command. -/
  | recv (p : P)
  /-- `p` is drained and answers `COMPLETE`. -/
  | drained (p : P)

/-- The server asks the next publisher, or answers (graphserver.py:491-500). -/
def ask (s : St P) : List P → St P
  | [] => { s with server := none, replies := s.replies + 1 }
  | p :: rest => { s with server := some (p :: rest), inbox := upd s.inbox p (s.inbox p ++ [.sync]) }

/-- Messages of `p` in flight (`Backpressure`, pubclient.py:419-421). -/
def St.inflight (s : St P) (p : P) : Nat := s.flying p + (s.held.filter (fun h => decide (h.src = p))).length

/-- `p` publishes a message (pubclient.py:474-582). -/
def St.send (cfg : Cfg P) (s : St P) (p : P) : St P := { s with flying := upd s.flying p (s.flying p + cfg.subs p) }

/-- One step. -/
inductive Step (cfg : Cfg P) : St P → Act P → St P → Prop where
  | emit {s : St P} {p : P} (hp : p ∈ cfg.order) (hr : s.running p = true) : Step cfg s (.emit p) (s.send cfg p)
  | emitWait {s : St P} {p : P} (hp : p ∈ cfg.order) (hr : s.running p = true) (hf : 0 < s.inflight p) :
      Step cfg s (.emitWait p) { s with waiting := upd s.waiting p (s.waiting p + 1) }
  | emitLate {s : St P} {p : P} {n : Nat} (hw : s.waiting p = n + 1) :
      Step cfg s (.emitLate p) ({ s with waiting := upd s.waiting p n }.send cfg p)
  | take {s : St P} {p : P} {qs : List P} {n : Nat} (hf : s.flying p = n + 1) (hq : ∀ q ∈ qs, cfg.fwd p q) :
      Step cfg s (.take p qs) { s with flying := upd s.flying p n, held := ⟨p, false, qs⟩ :: s.held }
  | put {s : St P} {i : Nat} {p q : P} {w : Bool} {qs : List P} (hi : s.held[i]? = some ⟨p, w, q :: qs⟩)
      (hr : s.running q = true ∨ w = true) :
      Step cfg s (.put i) ({ s with held := s.held.set i ⟨p, false, qs⟩ }.send cfg q)
  | putWait {s : St P} {i : Nat} {p q : P} {qs : List P} (hi : s.held[i]? = some ⟨p, false, q :: qs⟩)
      (hr : s.running q = true) (hf : 0 < s.inflight q) :
      Step cfg s (.putWait i) { s with held := s.held.set i ⟨p, true, q :: qs⟩ }
  | done {s : St P} {i : Nat} {p : P} {w : Bool} (hi : s.held[i]? = some ⟨p, w, []⟩) :
      Step cfg s (.done i) { s with held := s.held.eraseIdx i }
  | tell {s : St P} {c : Cmd} (hc : c ≠ .sync) (hs : s.server = none) :
      Step cfg s (.cmd c) { s with inbox := fun p => if p ∈ cfg.order then s.inbox p ++ [c] else s.inbox p }
  | sync {s : St P} (hs : s.server = none) : Step cfg s (.cmd .sync) (ask s cfg.order)
  | recvPause {s : St P} {p : P} {cs : List Cmd} (hi : s.inbox p = .pause :: cs) (hd : s.draining p = false) :
      Step cfg s (.recv p) { s with inbox := upd s.inbox p cs, running := upd s.running p false }
  | recvResume {s : St P} {p : P} {cs : List Cmd} (hi : s.inbox p = .resume :: cs) (hd : s.draining p = false) :
      Step cfg s (.recv p) { s with inbox := upd s.inbox p cs, running := upd s.running p true }
  | recvSync {s : St P} {p : P} {cs : List Cmd} (hi : s.inbox p = .sync :: cs) (hd : s.draining p = false) :
      Step cfg s (.recv p) { s with inbox := upd s.inbox p cs, running := upd s.running p false, draining := upd s.draining p true }
  | drained {s : St P} {p : P} {rest : List P} (hd : s.draining p = true) (hq : s.inflight p = 0) (hs : s.server = some (p :: rest)) :
      Step cfg s (.drained p) (ask { s with draining := upd s.draining p false } rest)

/-- Some steps. -/
inductive Steps (cfg : Cfg P) : St P → List (Act P) → St P → Prop where
  | nil (s : St P) : Steps cfg s [] s
  | cons {s s1 s' : St P} {a : Act P} {as : List (Act P)} (h : Step cfg s a s1) (t : Steps cfg s1 as s') : Steps cfg s (a :: as) s'

end GraphSync
end Ez
