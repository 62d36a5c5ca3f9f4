import Verif.Model.System

/-!
# Overlapping `broadcast` calls on one publisher

The system of `Model/System.lean` with any number of `broadcast` calls of a publisher under way. What a call computed
before a suspension point stays with the call: `buf_idx` and `msg_id_bytes` (pubclient.py:488-489). What it reads from
the publisher after it, `self._msg_id`, is the current value: the id in the header of the serialized message is the
second kind, the id on the wire the first, and the channel asserts that they agree. The field `job` of the base system stays idle. Calls made
while the publisher is paused are left out (they take `buf_idx` after the wait).
-/

namespace Ez
namespace Overlap
open Sys

/-- Where a call is suspended. -/
inductive Phase (K : Type) where
  | slot (woken : Bool)
  | sending (todo : List K)
  | draining (k : K) (todo : List K)

/-- A `broadcast` call: its publisher, message, `msg_id_bytes`, `buf_idx`, and the id in the serialized header. -/
structure Call (P K V : Type) where
  pub : P
  val : V
  mid : Nat
  idx : Nat
  header : Nat
  phase : Phase K

/-- The base system, the calls under way, by name of the calling task, and the header ids of what is on the wires. -/
structure MSt (T P K S V : Type) where
  base : St P K S V
  calls : PyDict T (Call P K V)
  headers : K → List Nat

variable {T P K S V : Type} [DecidableEq T] [DecidableEq P] [DecidableEq K] [DecidableEq S]

/-- pubclient.py:508-533 for a call that has its buffer. -/
def begin (cfg : Cfg P K S) (st : MSt T P K S V) (t : T) (c : Call P K V) : Except Err (MSt T P K S V) :=
  let x := (st.base.pub c.pub).msgId
  let chans := (st.base.pub c.pub).chans
  let b1 := addLog st.base (.bcast c.pub c.val)
  match (match chans.find? (fun k => cfg.mode k == .local) with
    | some k => putLocal cfg b1 k x c.val
    | none => .ok b1) with
  | .error e => .error e
  | .ok b2 =>
    let b3 := if chans.any (fun k => cfg.mode k == .shm) then
        setPub b2 c.pub { b2.pub c.pub with shm := (b2.pub c.pub).shm.set c.idx (some (x, c.val)) }
      else b2
    .ok { st with
          base := b3
          calls := st.calls.set t { c with header := x, phase := .sending (chans.filter (fun k => cfg.mode k != .local)) } }

/-- `broadcast` is called by task `t`: pubclient.py:486-506. -/
def start (cfg : Cfg P K S) (st : MSt T P K S V) (t : T) (p : P) (v : V) : Except Err (MSt T P K S V) :=
  let m := (st.base.pub p).msgId
  let c : Call P K V := { pub := p, val := v, mid := m, idx := m % cfg.n p, header := m, phase := .slot false }
  match (st.base.pub p).bp.available (m % cfg.n p) with
  | none => .error .indexError
  | some true => begin cfg st t c
  | some false => .ok { st with calls := st.calls.set t c }

/-- `channel.writer.write(msg)` in the loop over the channels: pubclient.py:534-556. Nothing reaches a closed channel. -/
def write (cfg : Cfg P K S) (st : MSt T P K S V) (t : T) (c : Call P K V) (k : K) (todo : List K) : MSt T P K S V :=
  let calls := st.calls.set t { c with phase := .draining k todo }
  if (st.base.chan k).closed then { st with calls := calls }
  else
    { base := setChan st.base k { st.base.chan k with
        wire := (st.base.chan k).wire ++ [(c.mid, if cfg.mode k = .shm then .shm else .tcp c.val)] }
      calls := calls
      headers := upd st.headers k (st.headers k ++ [c.header]) }

/-- After `await channel.writer.drain()`: pubclient.py:557-558. -/
def drained (st : MSt T P K S V) (t : T) (c : Call P K V) (k : K) (todo : List K) : Except Err (MSt T P K S V) :=
  match (st.base.pub c.pub).bp.lease k c.idx with
  | none => .error .indexError
  | some bp =>
    .ok { st with
          base := setPub st.base c.pub { st.base.pub c.pub with bp := bp }
          calls := st.calls.set t { c with phase := .sending todo } }

/-- A message reaches channel `k`; in both transports the header id is compared with the id on the wire
(messagechannel.py:288-299). -/
def deliver (cfg : Cfg P K S) (st : MSt T P K S V) (k : K) : Res (MSt T P K S V) :=
  match (st.base.chan k).wire, st.headers k with
  | (m, pl) :: rest, h :: hs =>
    if pl matches .tcp _ ∧ h ≠ m then .raised .assertionError
    else match Sys.deliver cfg st.base k m pl rest with
      | .ok b => .ok { st with base := b, headers := upd st.headers k hs }
      | .error e => .raised e
  | _, _ => .disabled

/-- Calls waiting for a buffer whose event is set now are woken. -/
def wakeCalls (st : MSt T P K S V) : MSt T P K S V :=
  { st with calls := st.calls.map (fun tc => (tc.1,
      match tc.2.phase with
      | .slot w => { tc.2 with phase := .slot (w || ((st.base.pub tc.2.pub).bp.waitReady tc.2.idx).getD false) }
      | _ => tc.2)) }

/-- Steps: of the calls, and of everything else (`env`). -/
inductive Act (T P K S V : Type) where
  | start (t : T) (p : P) (v : V)
  | resume (t : T)
  | write (t : T)
  | drained (t : T)
  | finish (t : T)
  | env (a : Sys.Act P K S V)

/-- The transition function. -/
def step (cfg : Cfg P K S) (st : MSt T P K S V) : Act T P K S V → Res (MSt T P K S V)
  | .start t p v => if (st.calls.get? t).isSome || !(st.base.pub p).running then .disabled else .ofExcept (start cfg st t p v)
  | .resume t =>
    match st.calls.get? t with
    | some c => match c.phase with
      | .slot true => .ofExcept (begin cfg st t c)
      | _ => .disabled
    | none => .disabled
  | .write t =>
    match st.calls.get? t with
    | some c => match c.phase with
      | .sending (k :: todo) => .ok (write cfg st t c k todo)
      | _ => .disabled
    | none => .disabled
  | .drained t =>
    match st.calls.get? t with
    | some c => match c.phase with
      | .draining k todo => .ofExcept (drained st t c k todo)
      | _ => .disabled
    | none => .disabled
  | .finish t =>
    match st.calls.get? t with
    | some c => match c.phase with
      | .sending [] =>
        .ok { st with
              base := setPub st.base c.pub { st.base.pub c.pub with msgId := (st.base.pub c.pub).msgId + 1 }
              calls := st.calls.pop t }
      | _ => .disabled
    | none => .disabled
  | .env a =>
    match a with
    | .bcast .. | .gateResume _ | .slotResume _ | .send .. | .finish _ | .eof _ | .close _ => .disabled
    | .deliver k => deliver cfg st k
    | .connect k =>
      if st.calls.any (fun tc => decide (tc.2.pub = cfg.pubOf k)) then .disabled
      else match Sys.step cfg st.base (.connect k) with
        | .ok b => .ok { st with base := b }
        | .raised e => .raised e
        | .disabled => .disabled
    | a =>
      match Sys.step cfg st.base a with
      | .ok b => .ok (wakeCalls { st with base := b })
      | .raised e => .raised e
      | .disabled => .disabled

/-- A list of steps; `disabled` if one cannot be taken. -/
def run (cfg : Cfg P K S) : List (Act T P K S V) → MSt T P K S V → Res (MSt T P K S V)
  | [], st => .ok st
  | a :: as, st =>
    match step cfg st a with
    | .ok st' => run cfg as st'
    | r => r

def initM (cfg : Cfg P K S) : MSt T P K S V := { base := Sys.init cfg, calls := [], headers := fun _ => [] }

end Overlap
end Ez
