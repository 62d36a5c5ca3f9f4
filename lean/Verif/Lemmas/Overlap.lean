import Verif.Model.Overlap
import Verif.Props.Flow

/-!
# Serialised calls of the overlapping-broadcast model are runs of the system model
-/

set_option linter.unusedSectionVars false
set_option linter.unusedSimpArgs false

namespace Ez
namespace Overlap
open Sys
variable {T P K S V : Type} [DecidableEq T] [DecidableEq P] [DecidableEq K] [DecidableEq S]

/-- `idle` or `sending`. -/
def jobOf : Option (V × List K) → Job K V
  | none => .idle
  | some (v, t) => .sending v t

/-- Replace the jobs of some publishers by `idle` or `sending` jobs, their message counters, and the wires of some
channels. None of the functions that free buffers and notify clients looks at these. -/
def modP (J : P → Option (Option (V × List K) × Nat)) (p : P) (pb : PubSt K V) : PubSt K V :=
  match J p with
  | some (j, x) => { pb with job := jobOf j, msgId := x }
  | none => pb

def modC (W : K → Option (List (Nat × Payload V))) (k : K) (ch : ChanSt S V) : ChanSt S V :=
  match W k with
  | some w => { ch with wire := w }
  | none => ch

def mod (J : P → Option (Option (V × List K) × Nat)) (W : K → Option (List (Nat × Payload V))) (st : St P K S V) : St P K S V :=
  { st with pub := fun p => modP J p (st.pub p), chan := fun k => modC W k (st.chan k) }

variable (J : P → Option (Option (V × List K) × Nat)) (W : K → Option (List (Nat × Payload V)))

@[simp] theorem mod_pub (st : St P K S V) (p : P) : (mod J W st).pub p = modP J p (st.pub p) := rfl
@[simp] theorem mod_chan (st : St P K S V) (k : K) : (mod J W st).chan k = modC W k (st.chan k) := rfl
@[simp] theorem mod_sub (st : St P K S V) : (mod J W st).sub = st.sub := rfl
@[simp] theorem mod_log (st : St P K S V) : (mod J W st).log = st.log := rfl

theorem mod_setPub (st : St P K S V) (p : P) (x : PubSt K V) :
    mod J W (setPub st p x) = setPub (mod J W st) p (modP J p x) := by
  simp only [mod, setPub, St.mk.injEq, and_true, true_and]
  funext q
  simp only [upd]
  split
  · subst_vars; rfl
  · rfl

theorem mod_setChan (st : St P K S V) (k : K) (x : ChanSt S V) :
    mod J W (setChan st k x) = setChan (mod J W st) k (modC W k x) := by
  simp only [mod, setChan, St.mk.injEq, and_true, true_and]
  funext q
  simp only [upd]
  split
  · subst_vars; rfl
  · rfl

theorem mod_setSub (st : St P K S V) (s : S) (x : SubSt P K) :
    mod J W (setSub st s x) = setSub (mod J W st) s x := rfl

theorem mod_addLog (st : St P K S V) (e : Ev P K S V) : mod J W (addLog st e) = addLog (mod J W st) e := rfl

@[simp] theorem modP_bp (p : P) (pb : PubSt K V) : (modP J p pb).bp = pb.bp := by unfold modP; split <;> rfl
@[simp] theorem modC_bp (k : K) (ch : ChanSt S V) : (modC W k ch).bp = ch.bp := by unfold modC; split <;> rfl
@[simp] theorem modC_cache (k : K) (ch : ChanSt S V) : (modC W k ch).cache = ch.cache := by unfold modC; split <;> rfl
@[simp] theorem modC_clients (k : K) (ch : ChanSt S V) : (modC W k ch).clients = ch.clients := by
  unfold modC; split <;> rfl
@[simp] theorem modC_acks (k : K) (ch : ChanSt S V) : (modC W k ch).acks = ch.acks := by unfold modC; split <;> rfl

theorem modP_setBp (p : P) (pb : PubSt K V) (bp : Backpressure K) :
    { modP J p pb with bp := bp } = modP J p { pb with bp := bp } := by
  unfold modP; split <;> rfl

theorem modP_wake (n : Nat) (p : P) (pb : PubSt K V) : wake n (modP J p pb) = modP J p (wake n pb) := by
  unfold modP
  split
  · rename_i j x _
    cases j <;> rfl
  · rfl

theorem modC_setBp (k : K) (ch : ChanSt S V) (bp : Backpressure S) :
    { modC W k ch with bp := bp } = modC W k { ch with bp := bp } := by
  unfold modC; split <;> rfl
theorem modC_setCache (k : K) (ch : ChanSt S V) (c : MessageCache (Obj V) Unit) :
    { modC W k ch with cache := c } = modC W k { ch with cache := c } := by
  unfold modC; split <;> rfl
theorem modC_setAcks (k : K) (ch : ChanSt S V) (a : List Nat) :
    { modC W k ch with acks := a } = modC W k { ch with acks := a } := by
  unfold modC; split <;> rfl
theorem modC_setBpCache (k : K) (ch : ChanSt S V) (bp : Backpressure S) (c : MessageCache (Obj V) Unit) :
    { modC W k ch with bp := bp, cache := c } = modC W k { ch with bp := bp, cache := c } := by
  unfold modC; split <;> rfl
theorem modC_setBpCacheAcks (k : K) (ch : ChanSt S V) (bp : Backpressure S) (c : MessageCache (Obj V) Unit) (a : List Nat) :
    { modC W k ch with bp := bp, cache := c, acks := a } = modC W k { ch with bp := bp, cache := c, acks := a } := by
  unfold modC; split <;> rfl
theorem modC_setCacheAcks (k : K) (ch : ChanSt S V) (c : MessageCache (Obj V) Unit) (a : List Nat) :
    { modC W k ch with cache := c, acks := a } = modC W k { ch with cache := c, acks := a } := by
  unfold modC; split <;> rfl

variable {cfg : Cfg P K S}

theorem mod_pubFree (st : St P K S V) (k : K) (i : Option Nat) :
    pubFree cfg (mod J W st) k i = (pubFree cfg st k i).map (mod J W) := by
  simp only [pubFree, mod_pub, modP_bp]
  cases (st.pub (cfg.pubOf k)).bp.free k i with
  | none => rfl
  | some bp => simp only [Except.map, mod_setPub, modP_setBp, modP_wake]

theorem mod_releaseBp (st : St P K S V) (k : K) (m : Nat) (c : S) :
    releaseBp cfg (mod J W st) k m c = (releaseBp cfg st k m c).map (mod J W) := by
  simp only [releaseBp, mod_chan, modC_bp, modC_cache, modC_acks]
  cases (st.chan k).bp.free c (some (m % cfg.n (cfg.pubOf k))) with
  | none => rfl
  | some bp =>
    simp only
    match bp.available (m % cfg.n (cfg.pubOf k)) with
    | none => rfl
    | some false =>
      simp only [Except.map, mod_setChan]
      congr 2
      unfold modC; split <;> rfl
    | some true =>
      simp only
      cases (st.chan k).cache.release m with
      | error e => rfl
      | ok cache =>
        simp only
        split
        · rw [← mod_pubFree, mod_setChan]
          congr 2
          unfold modC; split <;> rfl
        · simp only [Except.map, mod_setChan]
          congr 2
          unfold modC; split <;> rfl

theorem mod_putNotif (st : St P K S V) (c : S) (item : P × Nat) :
    putNotif cfg (mod J W st) c item = (putNotif cfg st c item).map (mod J W) := by
  simp only [putNotif, mod_sub]
  cases cfg.maxq c with
  | none => rfl
  | some mx =>
    simp only
    match LeakyQueue.putNowait mx (st.sub c).queue item with
    | (none, q) => rfl
    | (some d, q) =>
      simp only
      cases (st.sub c).chans d.1 with
      | none => rfl
      | some k' =>
        simp only
        rw [← mod_setSub, mod_releaseBp]
        cases releaseBp cfg (setSub st c { st.sub c with queue := q }) k' d.2 c <;> rfl

theorem mod_notifyLoop (k : K) (m : Nat) : ∀ (cs : List S) (st : St P K S V),
    notifyLoop cfg k m cs (mod J W st) = (notifyLoop cfg k m cs st).map (mod J W)
  | [], st => rfl
  | c :: cs, st => by
    simp only [notifyLoop, mod_chan, modC_bp]
    cases (st.chan k).bp.lease c (m % cfg.n (cfg.pubOf k)) with
    | none => rfl
    | some bp =>
      simp only
      rw [modC_setBp, ← mod_setChan, mod_putNotif]
      cases putNotif cfg (setChan st k { st.chan k with bp := bp }) c (cfg.pubOf k, m) with
      | error e => rfl
      | ok st' => simp only [Except.map]; exact mod_notifyLoop k m cs st'

theorem mod_notify (st : St P K S V) (k : K) (m : Nat) :
    notify cfg (mod J W st) k m = (notify cfg st k m).map (fun r => (mod J W r.1, r.2)) := by
  simp only [notify, mod_chan, modC_clients]
  rw [mod_notifyLoop]
  cases notifyLoop cfg k m (st.chan k).clients st with
  | error e => rfl
  | ok st' =>
    simp only [Except.map, mod_chan, modC_bp]
    cases (st'.chan k).bp.available (m % cfg.n (cfg.pubOf k)) <;> rfl

theorem mod_putLocal (st : St P K S V) (k : K) (m : Nat) (v : V) :
    putLocal cfg (mod J W st) k m v = (putLocal cfg st k m v).map (mod J W) := by
  simp only [putLocal]
  split
  · rfl
  · rw [← mod_addLog, mod_notify]
    match notify cfg (addLog st (.arrived k)) k m with
    | .error e => rfl
    | .ok (st', false) => rfl
    | .ok (st', true) =>
      simp only [Except.map, mod_chan, modC_cache]
      cases (st'.chan k).cache.putLocal (.val v) m with
      | error e => rfl
      | ok cache =>
        simp only
        rw [modC_setCache, ← mod_setChan]
        simp only [mod_pub, modP_bp]
        cases ((setChan st' k { st'.chan k with cache := cache }).pub (cfg.pubOf k)).bp.lease k (m % cfg.n (cfg.pubOf k)) with
        | none => rfl
        | some bp => simp only [mod_setPub, modP_setBp]

/-! ## What is left alone -/

/-- The publishers' jobs are idle; restoring jobs, counters and wires of such a state changes nothing. -/
def Idle (st : St P K S V) : Prop := ∀ p, (st.pub p).job = .idle

def keepJ (st : St P K S V) : P → Option (Option (V × List K) × Nat) := fun p => some (none, (st.pub p).msgId)
def keepW (st : St P K S V) : K → Option (List (Nat × Payload V)) := fun k => some (st.chan k).wire

theorem mod_keep {st : St P K S V} (h : Idle st) : mod (keepJ st) (keepW st) st = st := by
  have h1 : (fun p => modP (keepJ st) p (st.pub p)) = st.pub := by
    funext p
    simp only [modP, keepJ, jobOf, ← h p]
  have h2 : (fun k => modC (keepW st) k (st.chan k)) = st.chan := by
    funext k
    simp only [modC, keepW]
  simp only [mod, h1, h2]

/-- Jobs, counters and wires are as before. -/
structure Same (st st' : St P K S V) : Prop where
  idle : Idle st'
  msgId : ∀ p, (st'.pub p).msgId = (st.pub p).msgId
  wire : ∀ k, (st'.chan k).wire = (st.chan k).wire

theorem same_of_mod {st st' : St P K S V} (h : mod (keepJ st) (keepW st) st' = st') : Same st st' := by
  refine ⟨fun p => ?_, fun p => ?_, fun k => ?_⟩
  · rw [← h]; rfl
  · rw [← h]; rfl
  · rw [← h]; rfl

/-- A function that commutes with the replacement keeps jobs, counters and wires. -/
theorem same_of_comm {f : St P K S V → Except Err (St P K S V)} {st st' : St P K S V} (hi : Idle st)
    (hf : ∀ J W, f (mod J W st) = (f st).map (mod J W)) (h : f st = .ok st') : Same st st' := by
  apply same_of_mod
  have := hf (keepJ st) (keepW st)
  rw [mod_keep hi, h] at this
  simp only [Except.map, Except.ok.injEq] at this
  exact this.symm

theorem Same.refl {st : St P K S V} (h : Idle st) : Same st st := ⟨h, fun _ => rfl, fun _ => rfl⟩

theorem Same.setChan {st st' : St P K S V} (h : Same st st') (k : K) (ch : ChanSt S V) (hw : ch.wire = (st.chan k).wire) :
    Same st (setChan st' k ch) := by
  refine ⟨h.idle, h.msgId, ?_⟩
  intro k'
  by_cases e : k' = k
  · subst e; simp [Sys.setChan, upd, hw]
  · simp [Sys.setChan, upd, e, h.wire k']

theorem notify_same {st st' : St P K S V} {k : K} {m : Nat} {b : Bool} (hi : Idle st)
    (h : notify cfg st k m = .ok (st', b)) : Same st st' := by
  apply same_of_mod
  have := mod_notify (cfg := cfg) (keepJ st) (keepW st) st k m
  rw [mod_keep hi, h] at this
  simp only [Except.map, Except.ok.injEq, Prod.mk.injEq, and_true] at this
  exact this.symm

/-- A delivery takes the first message off the wire. -/
theorem deliver_same {st st' : St P K S V} {k : K} {m : Nat} {pl : Payload V} {rest : List (Nat × Payload V)} (hi : Idle st)
    (h : Sys.deliver cfg st k m pl rest = .ok st') :
    Idle st' ∧ (st'.chan k).wire = rest ∧ ∀ k', k' ≠ k → (st'.chan k').wire = (st.chan k').wire := by
  unfold Sys.deliver at h
  split at h
  · cases h
  · split at h
    · cases h
    · rename_i o _ _ cache _
      have fin : ∀ st1, Same (addLog (setChan st k { st.chan k with cache := cache, wire := rest }) (.arrived k)) st1 →
          Idle st1 ∧ (st1.chan k).wire = rest ∧ ∀ k', k' ≠ k → (st1.chan k').wire = (st.chan k').wire := by
        intro st1 hs
        refine ⟨hs.idle, ?_, ?_⟩
        · rw [hs.wire]; simp [addLog, Sys.setChan]
        · intro k' hk'
          rw [hs.wire]; simp [addLog, Sys.setChan, upd, hk']
      split at h
      · cases h
      · rename_i st1 hn
        cases h
        exact fin _ (notify_same (by exact hi) hn)
      · rename_i st1 hn
        have hs := notify_same (by exact hi) hn
        split at h
        · cases h
        · cases h
          exact fin _ (hs.setChan k _ (hs.wire k))

/-- Steps other than broadcasting, delivering and closing keep jobs and wires. -/
def Plain : Sys.Act P K S V → Prop
  | .bcast .. | .gateResume _ | .slotResume _ | .send .. | .finish _ | .eof _ | .close _ | .deliver _ => False
  | _ => True

theorem step_plain {st st' : St P K S V} {a : Sys.Act P K S V} (ha : Plain a) (hi : Idle st)
    (h : Sys.step cfg st a = .ok st') : Idle st' ∧ ∀ k, (st'.chan k).wire = (st.chan k).wire := by
  have pubOnly : ∀ (p : P) (pb : PubSt K V), pb.job = .idle → Idle (setPub st p pb) := by
    intro p pb hj q
    by_cases e : q = p
    · subst e; simp [setPub, upd, hj]
    · simp [setPub, upd, e, hi q]
  cases a with
  | bcast p v => exact ha.elim
  | gateResume p => exact ha.elim
  | slotResume p => exact ha.elim
  | send p ok => exact ha.elim
  | finish p => exact ha.elim
  | eof k => exact ha.elim
  | close k => exact ha.elim
  | deliver k => exact ha.elim
  | pause p =>
    simp only [Sys.step, Res.ok.injEq] at h
    subst h
    exact ⟨pubOnly p _ (hi p), fun _ => rfl⟩
  | resume p =>
    simp only [Sys.step, Res.ok.injEq, hi p] at h
    subst h
    exact ⟨pubOnly p _ rfl, fun _ => rfl⟩
  | sync p =>
    simp only [Sys.step] at h
    split at h
    · cases h; exact ⟨pubOnly p _ (hi p), fun _ => rfl⟩
    · cases h
      refine ⟨?_, fun _ => rfl⟩
      intro q
      by_cases e : q = p
      · subst e; simp [setPub, upd, addLog, hi q]
      · simp [setPub, upd, addLog, e, hi q]
  | syncReturn p =>
    simp only [Sys.step] at h
    split at h
    · cases h
    · cases h; exact ⟨pubOnly p _ (hi p), fun _ => rfl⟩
  | ack k =>
    simp only [Sys.step] at h
    split at h
    · rename_i m rest _
      have h := ofExcept_eq_ok h
      have hs := same_of_comm (f := fun st => pubFree cfg st k (some (m % cfg.n (cfg.pubOf k))))
        (st := setChan st k { st.chan k with acks := rest }) hi (fun J W => mod_pubFree J W _ k _) h
      refine ⟨hs.idle, ?_⟩
      intro k'
      rw [hs.wire]
      by_cases e : k' = k
      · subst e; simp [Sys.setChan]
      · simp [Sys.setChan, upd, e]
    · cases h
  | recv s =>
    simp only [Sys.step] at h
    split at h
    · cases h
    · split at h
      · cases h; exact ⟨hi, fun _ => rfl⟩
      · split at h
        · cases h
        · cases h; exact ⟨hi, fun _ => rfl⟩
  | release s j =>
    simp only [Sys.step] at h
    split at h
    · cases h
    · split at h
      · cases h
      · rename_i p m _ _ k _
        have h := ofExcept_eq_ok h
        cases hr : releaseBp cfg (setSub st s { st.sub s with held := (st.sub s).held.eraseIdx j }) k m s with
        | error e => rw [hr] at h; cases h
        | ok st1 =>
          rw [hr] at h
          cases h
          have hs := same_of_comm (f := fun st => releaseBp cfg st k m s) (st := setSub st s _) hi
            (fun J W => mod_releaseBp J W _ k m s) hr
          exact ⟨hs.idle, hs.wire⟩
  | link s k =>
    simp only [Sys.step] at h
    split at h
    · cases h
    · cases h
      refine ⟨hi, ?_⟩
      intro k'
      by_cases e : k' = k
      · subst e; simp [Sys.setChan, setSub, addLog]
      · simp [Sys.setChan, setSub, addLog, upd, e]
  | unlink s k =>
    simp only [Sys.step] at h
    split at h
    · cases h
    · split at h
      · cases h
      · cases h
        refine ⟨hi, ?_⟩
        intro k'
        by_cases e : k' = k
        · subst e; simp [Sys.setChan, setSub, addLog]
        · simp [Sys.setChan, setSub, addLog, upd, e]
  | connect k =>
    simp only [Sys.step, hi (cfg.pubOf k)] at h
    split at h
    · cases h
    · cases h
      refine ⟨?_, ?_⟩
      · intro q
        by_cases e : q = cfg.pubOf k
        · subst e; simp [setPub, upd, addLog, Sys.setChan, hi]
        · simp [setPub, upd, addLog, Sys.setChan, e, hi q]
      · intro k'
        by_cases e : k' = k
        · subst e; simp [Sys.setChan, setPub, addLog]
        · simp [Sys.setChan, setPub, addLog, upd, e]

end Overlap
end Ez
