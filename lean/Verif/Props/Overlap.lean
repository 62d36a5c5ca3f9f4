import Verif.Model.Overlap
import Verif.Lemmas.Overlap
import Verif.Props.Delivery
import Verif.Lemmas.Py

/-!
# C47: overlapping broadcasts
-/

set_option linter.unusedSectionVars false
set_option linter.unusedSimpArgs false

namespace Ez
namespace Overlap
open Sys

/-- One publisher with `n` buffers, one channel, one subscriber with an ordinary queue. -/
def oneCfg (n : Nat) (m : Mode) : Cfg Unit Unit Unit :=
  { pubOf := fun _ => (), n := fun _ => n, mode := fun _ => m, direct := fun _ => m == .local, maxq := fun _ => none
    startPaused := fun _ => false }

/-- How a run ends and what was received, oldest first. -/
inductive Ending where
  | ok (got : List Char)
  | raised (e : Err)
  | disabled
  deriving DecidableEq

def ending (r : Res (MSt Bool Unit Unit Unit Char)) : Ending :=
  match r with
  | .ok st => .ok (st.base.log.reverse.filterMap (fun e => match e with | .recv _ _ _ v => some v | _ => none))
  | .raised e => .raised e
  | .disabled => .disabled

/-- Running from the start with a subscriber linked to the channel. -/
def from0 (cfg : Cfg Unit Unit Unit) (as : List (Act Bool Unit Unit Unit Char)) : Ending :=
  ending (run cfg ([.env (.connect ()), .env (.link () ())] ++ as) (initM cfg))

/-- A broadcast by task `t` from start to end. -/
def whole (t : Bool) (v : Char) : List (Act Bool Unit Unit Unit Char) := [.start t () v, .write t, .drained t, .finish t]
def wholeLocal (t : Bool) (v : Char) : List (Act Bool Unit Unit Unit Char) := [.start t () v, .finish t]
/-- The subscriber takes a message and is done with it. -/
def take1 : List (Act Bool Unit Unit Unit Char) := [.env (.recv ()), .env (.release () 0)]

/-- One call after the other works. -/
example : from0 (oneCfg 2 .tcp) (whole false 'A' ++ whole true 'B' ++ [.env (.deliver ()), .env (.deliver ())] ++ take1 ++ take1) =
    .ok ['A', 'B'] := by decide

/-- **C47 fails (same number).** The second call starts while the first is suspended in `drain`: both messages carry
the same id. The second replaces the first in the channel's cache, so the subscriber reads the second one when it asks
for the first, and its next `recv` raises `CacheMiss`. -/
theorem C47_negation_same_id :
    let overlap : List (Act Bool Unit Unit Unit Char) := [.start false () 'A', .write false, .start true () 'B', .write true,
      .drained false, .finish false, .drained true, .finish true, .env (.deliver ()), .env (.deliver ())]
    from0 (oneCfg 2 .tcp) (overlap ++ take1) = .ok ['B'] ∧
    from0 (oneCfg 2 .tcp) (overlap ++ take1 ++ [.env (.recv ())]) = .raised .cacheMiss := by decide

/-- **C47 fails (remote, backpressure).** Two calls wait for the same buffer. The one that goes second puts the id it
computed before waiting on the wire and a newer one into the message header; the channel's assertion fails and ends the
task that reads from the publisher. -/
theorem C47_negation_assertion :
    from0 (oneCfg 1 .tcp) (whole false 'A' ++ [.start false () 'B', .start true () 'C', .env (.deliver ())] ++ take1 ++
      [.env (.ack ()), .resume false, .write false, .drained false, .finish false, .resume true, .write true, .drained true,
       .finish true, .env (.deliver ())] ++ take1 ++ [.env (.deliver ())]) = .raised .assertionError := by decide

/-- **C47 fails (in-process, backpressure).** Two calls wait for the only buffer and are both woken when it becomes free.
The second one overwrites the message of the first: the subscriber's next `recv` raises `CacheMiss`. -/
theorem C47_negation_local :
    from0 (oneCfg 1 .local) (wholeLocal false 'A' ++ [.env (.recv ()), .start false () 'B', .start true () 'C', .env (.release () 0),
      .resume false, .finish false, .resume true, .finish true, .env (.recv ())]) = .raised .cacheMiss := by decide

/-! ## Serialised calls -/

variable {T P K S V : Type} [DecidableEq T] [DecidableEq P] [DecidableEq K] [DecidableEq S] {cfg : Cfg P K S}

/-- Executions in which every call finds its buffer free and is not interrupted: the steps of one call follow each other.
`n` is the number of channels it serves over a connection. -/
inductive SerialRun (cfg : Cfg P K S) : MSt T P K S V → Prop
  | init : SerialRun cfg (initM cfg)
  | env {st st'} (a : Sys.Act P K S V) : SerialRun cfg st → step cfg st (.env a) = .ok st' → SerialRun cfg st'
  | call {st st'} (t : T) (p : P) (v : V) (n : Nat) : SerialRun cfg st →
      (st.base.pub p).bp.available ((st.base.pub p).msgId % cfg.n p) = some true →
      run cfg ([.start t p v] ++ (List.replicate n [.write t, .drained t]).flatten ++ [.finish t]) st = .ok st' →
      SerialRun cfg st'

/-- The state of the system model while the call of `p` with message `v` still has to serve `todo`. -/
def asSys (p : P) (v : V) (todo : List K) (x : Nat) (b : St P K S V) : St P K S V :=
  mod (fun q => if q = p then some (some (v, todo), x) else none) (fun _ => none) b

theorem asSys_eq (p : P) (v : V) (todo : List K) (b : St P K S V) :
    setPub b p { b.pub p with job := .sending v todo } = asSys p v todo (b.pub p).msgId b := by
  simp only [asSys, mod, setPub, modC, St.mk.injEq, and_true, true_and]
  funext q
  by_cases e : q = p
  · subst e; simp [upd, modP, jobOf]
  · simp [upd, modP, e]

/-- What the invariant says between calls. -/
structure Rest (cfg : Cfg P K S) (st : MSt T P K S V) : Prop where
  calls : st.calls = []
  idle : Idle st.base
  reach : Reachable cfg st.base
  headers : ∀ k, st.headers k = (st.base.chan k).wire.map (·.1)

/-- What it says during a call. -/
structure Busy (cfg : Cfg P K S) (t : T) (p : P) (v : V) (todo : List K) (x : Nat) (st : MSt T P K S V) : Prop where
  calls : st.calls = [(t, { pub := p, val := v, mid := x, idx := x % cfg.n p, header := x, phase := .sending todo })]
  idle : Idle st.base
  msgId : (st.base.pub p).msgId = x
  reach : Reachable cfg (asSys p v todo x st.base)
  headers : ∀ k, st.headers k = (st.base.chan k).wire.map (·.1)

theorem start_busy {st st' : MSt T P K S V} {t : T} {p : P} {v : V} (h : Rest cfg st)
    (hav : (st.base.pub p).bp.available ((st.base.pub p).msgId % cfg.n p) = some true)
    (hs : step cfg st (.start t p v) = .ok st') : ∃ todo, Busy cfg t p v todo (st.base.pub p).msgId st' := by
  simp only [step] at hs
  split at hs
  · cases hs
  · rename_i hrun
    have hr : (st.base.pub p).running = true := by
      simp only [Bool.or_eq_true, not_or, Bool.not_eq_true, Bool.not_eq_false'] at hrun
      exact hrun.2
    have hs := ofExcept_eq_ok hs
    simp only [start, hav, begin] at hs
    generalize hx : (st.base.pub p).msgId = x at *
    let todo := (st.base.pub p).chans.filter (fun k => cfg.mode k != .local)
    -- the system model does the same
    have hb1 : addLog (setPub st.base p { st.base.pub p with job := .sending v todo }) (.bcast p v) =
        asSys p v todo x (addLog st.base (.bcast p v)) := by
      rw [asSys_eq, hx]; rfl
    let put (s : St P K S V) : St P K S V :=
      if (st.base.pub p).chans.any (fun k => cfg.mode k == .shm) then
        setPub s p { s.pub p with shm := (s.pub p).shm.set (x % cfg.n p) (some (x, v)) } else s
    have key : ∃ b2, Same (addLog st.base (.bcast p v)) b2 ∧
        st' = { st with
          base := put b2
          calls := st.calls.set t { pub := p, val := v, mid := x, idx := x % cfg.n p, header := x, phase := .sending todo } } ∧
        Sys.begin cfg st.base p v = .ok (put (asSys p v todo x b2)) := by
      simp only [Sys.begin, hx]
      have e : (List.filter (fun k => cfg.mode k != Mode.local) (st.base.pub p).chans) = todo := rfl
      have hb1' := hb1
      simp only [hx] at hb1'
      rw [e, hb1']
      cases hf : (st.base.pub p).chans.find? (fun k => cfg.mode k == .local) with
      | none =>
        simp only [hf, Except.ok.injEq] at hs
        exact ⟨_, Same.refl (by exact h.idle), hs.symm, rfl⟩
      | some k =>
        simp only [hf] at hs
        cases hm : putLocal cfg (addLog st.base (.bcast p v)) k x v with
        | error e => rw [hm] at hs; cases hs
        | ok b2 =>
          rw [hm] at hs
          simp only [Except.ok.injEq] at hs
          refine ⟨b2, same_of_comm (f := fun s => putLocal cfg s k x v) (by exact h.idle)
            (fun J W => mod_putLocal J W _ k x v) hm, hs.symm, ?_⟩
          simp only [asSys, mod_putLocal, hm, Except.map]
          rfl
    obtain ⟨b2, hsame, hs, hbeg⟩ := key
    have hput : put (asSys p v todo x b2) = asSys p v todo x (put b2) := by
      simp only [put]
      split
      · simp only [asSys, mod_setPub, mod_pub]
        congr 1
        simp [modP]
      · rfl
    have hsys : Sys.step cfg st.base (.bcast p v) = .ok (asSys p v todo x st'.base) := by
      simp only [Sys.step, h.idle p, hr, if_true, afterGate, hx, hav, hbeg, hput, hs]
      rfl
    subst hs
    have pj : ∀ q, ((put b2).pub q).job = (b2.pub q).job ∧ ((put b2).pub q).msgId = (b2.pub q).msgId := by
      intro q
      simp only [put]
      split
      · by_cases e : q = p
        · subst e; simp [setPub, upd]
        · simp [setPub, upd, e]
      · exact ⟨rfl, rfl⟩
    have pw : ∀ k, ((put b2).chan k).wire = (b2.chan k).wire := by
      intro k
      simp only [put]
      split <;> rfl
    refine ⟨todo, ?_, ?_, ?_, ?_, ?_⟩
    · rw [h.calls]; rfl
    · intro q; exact (pj q).1.trans (hsame.idle q)
    · exact (pj p).2.trans ((hsame.msgId p).trans hx)
    · exact h.reach.step hsys
    · intro k
      show st.headers k = _
      rw [pw k, hsame.wire k, h.headers k]
      rfl

theorem run_append (as bs : List (Act T P K S V)) : ∀ (st st'' : MSt T P K S V), run cfg (as ++ bs) st = .ok st'' →
    ∃ st', run cfg as st = .ok st' ∧ run cfg bs st' = .ok st'' := by
  induction as with
  | nil => intro st st'' h; exact ⟨st, rfl, h⟩
  | cons a as ih =>
    intro st st'' h
    simp only [List.cons_append, run] at h ⊢
    cases ha : step cfg st a with
    | ok st1 => rw [ha] at h; exact ih st1 st'' h
    | raised e => rw [ha] at h; cases h
    | disabled => rw [ha] at h; cases h

theorem asSys_send (p : P) (v : V) (todo todo' : List K) (x : Nat) (b : St P K S V) (bp : Backpressure K) :
    setPub (asSys p v todo x b) p { (asSys p v todo x b).pub p with bp := bp, job := .sending v todo' } =
      asSys p v todo' x (setPub b p { b.pub p with bp := bp }) := by
  simp only [asSys, mod, setPub, modC, St.mk.injEq, and_true, true_and]
  funext q
  by_cases e : q = p
  · subst e; simp [upd, modP, jobOf]
  · simp [upd, modP, e]

theorem send_busy {st st' : MSt T P K S V} {t : T} {p : P} {v : V} {todo : List K} {x : Nat} (h : Busy cfg t p v todo x st)
    (hs : run cfg [.write t, .drained t] st = .ok st') : ∃ todo', Busy cfg t p v todo' x st' := by
  have hget : ∀ c : Call P K V, PyDict.get? [(t, c)] t = some c := by intro c; simp [PyDict.get?]
  have hset : ∀ c d : Call P K V, PyDict.set [(t, c)] t d = [(t, d)] := by
    intro c d; simp [PyDict.set, hget, PyDict.modify]
  cases todo with
  | nil => simp [run, step, h.calls, hget] at hs
  | cons k todo =>
    refine ⟨todo, ?_⟩
    simp only [run, step, h.calls, hget, write, hset] at hs
    have hj : ((asSys p v (k :: todo) x st.base).pub p).job = .sending v (k :: todo) := by simp [asSys, modP, jobOf]
    have hbp : ((asSys p v (k :: todo) x st.base).pub p).bp = (st.base.pub p).bp := by simp [asSys]
    have hmx : ((asSys p v (k :: todo) x st.base).pub p).msgId = x := by simp [asSys, modP]
    have hch : (asSys p v (k :: todo) x st.base).chan k = st.base.chan k := rfl
    have hsend : Sys.step cfg (asSys p v (k :: todo) x st.base) (.send p true) =
        .ofExcept (Sys.sendTo cfg (asSys p v (k :: todo) x st.base) p v k todo true) := by
      simp only [Sys.step, hj]
    cases hcl : (st.base.chan k).closed with
    | true =>
      simp only [hcl, if_true, drained, hget] at hs
      cases hl : (st.base.pub p).bp.lease k (x % cfg.n p) with
      | none => simp [hl, Res.ofExcept] at hs
      | some bp =>
        simp only [hl, Res.ofExcept, hset, Res.ok.injEq] at hs
        subst hs
        refine ⟨rfl, ?_, ?_, ?_, ?_⟩
        · intro q
          by_cases e : q = p
          · subst e; simp [setPub, upd, h.idle q]
          · simp [setPub, upd, e, h.idle q]
        · simp [setPub, upd, h.msgId]
        · refine h.reach.step (hsend.trans ?_)
          simp only [Sys.sendTo, hch, hcl, hmx, hbp, hl, Bool.not_true, Bool.and_false, Bool.false_eq_true, if_false, if_true,
            Res.ofExcept]
          rw [← asSys_send p v (k :: todo) todo x st.base bp]
          simp only [hmx]
        · exact h.headers
    | false =>
      simp only [hcl, Bool.false_eq_true, if_false, drained, hget] at hs
      generalize hb1 : setChan st.base k _ = b1 at hs
      have hpb : b1.pub = st.base.pub := by rw [← hb1]; rfl
      rw [hpb] at hs
      cases hl : (st.base.pub p).bp.lease k (x % cfg.n p) with
      | none => simp [hl, Res.ofExcept] at hs
      | some bp =>
        simp only [hl, Res.ofExcept, hset, Res.ok.injEq] at hs
        subst hs
        subst hb1
        refine ⟨rfl, ?_, ?_, ?_, ?_⟩
        · intro q
          by_cases e : q = p
          · subst e; simp [setPub, upd, h.idle q]
          · simp [setPub, upd, e, Sys.setChan, h.idle q]
        · simp [setPub, upd, h.msgId]
        · refine h.reach.step (hsend.trans ?_)
          simp only [Sys.sendTo, hch, hcl, hmx, hbp, hl, Bool.not_true, Bool.and_false, Bool.false_eq_true, if_false,
            Res.ofExcept]
          have hA := asSys_send p v (k :: todo) todo x st.base bp
          simp only [hmx] at hA
          rw [hA, ← hcl]
          rfl
        · intro k'
          by_cases e : k' = k
          · subst e; simp [setPub, Sys.setChan, upd, h.headers k']
          · simp [setPub, Sys.setChan, upd, e, h.headers k']

theorem finish_rest {st st' : MSt T P K S V} {t : T} {p : P} {v : V} {todo : List K} {x : Nat} (h : Busy cfg t p v todo x st)
    (hs : step cfg st (.finish t) = .ok st') : Rest cfg st' := by
  have hget : ∀ c : Call P K V, PyDict.get? [(t, c)] t = some c := by intro c; simp [PyDict.get?]
  cases todo with
  | cons k todo => simp [step, h.calls, hget] at hs
  | nil =>
    simp only [step, h.calls, hget, Res.ok.injEq] at hs
    subst hs
    refine ⟨by simp [PyDict.pop], ?_, ?_, h.headers⟩
    · intro q
      by_cases e : q = p
      · subst e; simp [setPub, upd, h.idle q]
      · simp [setPub, upd, e, h.idle q]
    · have hj : ((asSys p v [] x st.base).pub p).job = .sending v [] := by simp [asSys, modP, jobOf]
      refine h.reach.step (a := .finish p) ?_
      simp only [Sys.step, hj, Res.ok.injEq]
      simp only [asSys, mod, setPub, modC, St.mk.injEq, and_true, true_and]
      funext q
      by_cases e : q = p
      · subst e
        simp [upd, modP, h.msgId, ← h.idle q]
      · simp [upd, modP, e]

theorem serial_rest {st : MSt T P K S V} (r : SerialRun cfg st) : Rest cfg st := by
  induction r with
  | init => exact ⟨rfl, fun _ => rfl, ⟨[], rfl⟩, fun _ => rfl⟩
  | @call st st' t p v n _ hav hs ih =>
    obtain ⟨st1, h01, h2⟩ := run_append _ _ st st' hs
    obtain ⟨st0, h0, h1⟩ := run_append _ _ st st1 h01
    have hb : ∃ todo, Busy cfg t p v todo (st.base.pub p).msgId st0 := by
      simp only [run] at h0
      cases ha : step cfg st (.start t p v) with
      | ok s => rw [ha] at h0; cases h0; exact start_busy ih hav ha
      | raised e => rw [ha] at h0; cases h0
      | disabled => rw [ha] at h0; cases h0
    have hb1 : ∃ todo, Busy cfg t p v todo (st.base.pub p).msgId st1 := by
      clear hs h0 h01 h2 ih
      generalize (st.base.pub p).msgId = x at hb ⊢
      induction n generalizing st0 with
      | zero => simp [run] at h1; subst h1; exact hb
      | succ n ih =>
        rw [List.replicate_succ, List.flatten_cons] at h1
        obtain ⟨s, ha, hr⟩ := run_append _ _ st0 st1 h1
        obtain ⟨todo, hb⟩ := hb
        exact ih s hr (send_busy hb ha)
    obtain ⟨todo, hb1⟩ := hb1
    simp only [run] at h2
    cases ha : step cfg st1 (.finish t) with
    | ok s => rw [ha] at h2; cases h2; exact finish_rest hb1 ha
    | raised e => rw [ha] at h2; cases h2
    | disabled => rw [ha] at h2; cases h2
  | @env st st' a _ hs ih =>
    have plain : ∀ b, Plain a → Sys.step cfg st.base a = .ok b → st' = { st with base := b } → Rest cfg st' := by
      rintro b ha hb rfl
      obtain ⟨h1, h2⟩ := step_plain ha ih.idle hb
      exact ⟨ih.calls, h1, ih.reach.step hb, fun k => by rw [h2 k]; exact ih.headers k⟩
    have hw : ∀ b : St P K S V, wakeCalls { st with base := b } = { st with base := b } := by
      intro b; simp [wakeCalls, ih.calls]
    cases a with
    | bcast p v => cases hs
    | gateResume p => cases hs
    | slotResume p => cases hs
    | send p ok => cases hs
    | finish p => cases hs
    | eof k => cases hs
    | close k => cases hs
    | deliver k =>
      simp only [step, deliver] at hs
      have hh := ih.headers k
      cases hwire : (st.base.chan k).wire with
      | nil => simp [hwire] at hs
      | cons mp rest =>
        obtain ⟨m, pl⟩ := mp
        rw [hwire, List.map_cons] at hh
        simp only [hwire, hh, ne_eq, not_true, and_false, if_false] at hs
        cases hb : Sys.deliver cfg st.base k m pl rest with
        | error e => rw [hb] at hs; cases hs
        | ok b =>
          rw [hb] at hs
          cases hs
          obtain ⟨h1, h2, h3⟩ := deliver_same ih.idle hb
          refine ⟨ih.calls, h1, ih.reach.step (a := .deliver k) (by simp [Sys.step, hwire, hb, Res.ofExcept]), ?_⟩
          intro k'
          by_cases e : k' = k
          · subst e
            simp [upd, h2]
          · simp [upd, e, h3 k' e, ih.headers k']
    | connect k =>
      simp only [step] at hs
      split at hs
      · cases hs
      · split at hs
        · rename_i b hb; cases hs; exact plain b trivial hb rfl
        · cases hs
        · cases hs
    | pause p =>
      simp only [step] at hs
      split at hs
      · rename_i b hb; cases hs; exact plain b trivial hb (hw b)
      · cases hs
      · cases hs
    | resume p =>
      simp only [step] at hs
      split at hs
      · rename_i b hb; cases hs; exact plain b trivial hb (hw b)
      · cases hs
      · cases hs
    | sync p =>
      simp only [step] at hs
      split at hs
      · rename_i b hb; cases hs; exact plain b trivial hb (hw b)
      · cases hs
      · cases hs
    | syncReturn p =>
      simp only [step] at hs
      split at hs
      · rename_i b hb; cases hs; exact plain b trivial hb (hw b)
      · cases hs
      · cases hs
    | ack k =>
      simp only [step] at hs
      split at hs
      · rename_i b hb; cases hs; exact plain b trivial hb (hw b)
      · cases hs
      · cases hs
    | recv s =>
      simp only [step] at hs
      split at hs
      · rename_i b hb; cases hs; exact plain b trivial hb (hw b)
      · cases hs
      · cases hs
    | release s j =>
      simp only [step] at hs
      split at hs
      · rename_i b hb; cases hs; exact plain b trivial hb (hw b)
      · cases hs
      · cases hs
    | link s k =>
      simp only [step] at hs
      split at hs
      · rename_i b hb; cases hs; exact plain b trivial hb (hw b)
      · cases hs
      · cases hs
    | unlink s k =>
      simp only [step] at hs
      split at hs
      · rename_i b hb; cases hs; exact plain b trivial hb (hw b)
      · cases hs
      · cases hs

/-- **C47 (partial).** Any number of tasks may use one publisher as long as every call finds its buffer free and runs to
its end without another call in between (for in-process delivery a call with a free buffer never suspends): what happens
is then an execution of the system of C19 to C28, so their theorems apply, and the ids on the wire and in the message
headers agree. Missing: calls that overlap, see the negations above. -/
theorem C47_serialised_partial {st : MSt T P K S V} (r : SerialRun cfg st) :
    Reachable cfg st.base ∧ (∀ k, st.headers k = (st.base.chan k).wire.map (·.1)) :=
  ⟨(serial_rest r).reach, (serial_rest r).headers⟩

/-- A step from a reachable state does not raise. -/
theorem Reachable_no_raise (hwf : cfg.WF) {st : St P K S V} (h : Reachable cfg st) (a : Sys.Act P K S V) (e : Err) :
    Sys.step cfg st a ≠ .raised e := by
  obtain ⟨as, h⟩ := h
  intro hs
  have := C19_never_raises (V := V) hwf (as ++ [a]) e
  rw [run_snoc as a h, hs] at this
  exact this rfl

/-- **C47 (partial).** With serialised calls no publisher, channel or subscriber code raises, in particular not the
assertion on message ids and not `CacheMiss`. -/
theorem C47_serialised_never_raises_partial (hwf : cfg.WF) {st : MSt T P K S V} (r : SerialRun cfg st)
    (a : Sys.Act P K S V) (e : Err) : step cfg st (.env a) ≠ .raised e := by
  have h := serial_rest r
  have key := fun a => Reachable_no_raise hwf h.reach a e
  intro hs
  cases a with
  | bcast p v => cases hs
  | gateResume p => cases hs
  | slotResume p => cases hs
  | send p ok => cases hs
  | finish p => cases hs
  | eof k => cases hs
  | close k => cases hs
  | deliver k =>
    simp only [step, deliver] at hs
    have hh := h.headers k
    cases hwire : (st.base.chan k).wire with
    | nil => simp [hwire] at hs
    | cons mp rest =>
      obtain ⟨m, pl⟩ := mp
      rw [hwire, List.map_cons] at hh
      simp only [hwire, hh, ne_eq, not_true, and_false, if_false] at hs
      refine key (.deliver k) ?_
      simp only [Sys.step, hwire]
      cases hb : Sys.deliver cfg st.base k m pl rest with
      | error e' => rw [hb] at hs; cases hs; rfl
      | ok b => rw [hb] at hs; cases hs
  | connect k =>
    simp only [step] at hs
    split at hs
    · cases hs
    · split at hs
      · cases hs
      · rename_i e' hb; cases hs; exact key _ hb
      · cases hs
  | pause p =>
    simp only [step] at hs
    split at hs
    · cases hs
    · rename_i hb; cases hs; exact key _ hb
    · cases hs
  | resume p =>
    simp only [step] at hs
    split at hs
    · cases hs
    · rename_i hb; cases hs; exact key _ hb
    · cases hs
  | sync p =>
    simp only [step] at hs
    split at hs
    · cases hs
    · rename_i hb; cases hs; exact key _ hb
    · cases hs
  | syncReturn p =>
    simp only [step] at hs
    split at hs
    · cases hs
    · rename_i hb; cases hs; exact key _ hb
    · cases hs
  | ack k =>
    simp only [step] at hs
    split at hs
    · cases hs
    · rename_i hb; cases hs; exact key _ hb
    · cases hs
  | recv s =>
    simp only [step] at hs
    split at hs
    · cases hs
    · rename_i hb; cases hs; exact key _ hb
    · cases hs
  | release s j =>
    simp only [step] at hs
    split at hs
    · cases hs
    · rename_i hb; cases hs; exact key _ hb
    · cases hs
  | link s k =>
    simp only [step] at hs
    split at hs
    · cases hs
    · rename_i hb; cases hs; exact key _ hb
    · cases hs
  | unlink s k =>
    simp only [step] at hs
    split at hs
    · cases hs
    · rename_i hb; cases hs; exact key _ hb
    · cases hs

/-- **C47 (partial).** With serialised calls a linked subscriber with an ordinary queue has received a gap-free prefix of
the messages of all tasks, in the order of the calls, from a message on that was not broadcast after the link. -/
theorem C47_serialised_received_partial (hwf : cfg.WF) {st : MSt T P K S V} (r : SerialRun cfg st) {s : S} {k : K}
    (hs : cfg.maxq s = none) (hk : (st.base.sub s).chans (cfg.pubOf k) = some k) :
    ∃ a, a ≤ sentBeforeLink cfg s k st.base.log ∧
      (recvd s k st.base.log).map (·.2) <+: (bcasts (cfg.pubOf k) st.base.log).drop a := by
  obtain ⟨a, h1, _, h3⟩ := C19_received_prefix hwf (serial_rest r).reach hs hk
  exact ⟨a, h1, h3⟩

/-- A serialised execution with two tasks, the second call while the first message is still in use. -/
example : ∃ st : MSt Bool Unit Unit Unit Char, SerialRun (oneCfg 2 .tcp) st ∧ (oneCfg 2 .tcp).WF ∧
    st.headers () = [1] ∧ (st.base.sub ()).queue ≠ [] := by
  refine ⟨_, .env (.deliver ()) (.call true () 'B' 1 (.call false () 'A' 1 (.env (.link () ()) (.env (.connect ()) .init rfl) rfl)
    rfl rfl) rfl rfl) rfl, ?_, ?_, ?_⟩
  · exact ⟨fun _ => Nat.succ_pos 1, fun _ h => (nomatch h), fun _ _ _ _ _ => rfl⟩
  · decide
  · decide

/-- **C47 (in-process, partial).** A call on a publisher all of whose channels are in its own process and whose buffer is
free has nothing left to wait for once it has started: it ends before any other task runs. -/
theorem C47_in_process_atomic_partial {st st' : MSt T P K S V} {t : T} {p : P} {v : V}
    (hl : ∀ k ∈ (st.base.pub p).chans, cfg.mode k = .local)
    (hav : (st.base.pub p).bp.available ((st.base.pub p).msgId % cfg.n p) = some true)
    (hs : step cfg st (.start t p v) = .ok st') : ∃ st'', step cfg st' (.finish t) = .ok st'' := by
  simp only [step] at hs
  split at hs
  · cases hs
  · have hs := ofExcept_eq_ok hs
    simp only [start, hav, begin] at hs
    split at hs
    · cases hs
    · cases hs
      have : (st.base.pub p).chans.filter (fun k => cfg.mode k != .local) = [] := by
        rw [List.filter_eq_nil_iff]
        intro k hk
        simp [hl k hk]
      simp only [step, Ez.PyDict.get?_set, this, if_true]
      exact ⟨_, rfl⟩

end Overlap
end Ez
