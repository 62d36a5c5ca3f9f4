import Verif.Model.CancelPub
import Verif.Lemmas.Overlap
import Verif.Lemmas.SystemQuiet
import Verif.Lemmas.SystemReach
import Verif.Props.Overlap

/-! # Publishing with a timeout -/

set_option linter.unusedSimpArgs false
set_option linter.unusedSectionVars false

namespace Ez.CancelPub
open Sys Ez.Overlap

variable {P K S V : Type} [DecidableEq P] [DecidableEq K] [DecidableEq S] {cfg : Cfg P K S}

/-! ## Calls that wait do not matter to anybody else -/

/-- The call waits for `_running` or for its buffer. -/
def Waits : Job K V → Prop
  | .gate _ _ => True
  | .slot _ _ => True
  | _ => False

/-- Publishers whose waiting call is taken away. -/
def Valid (J : P → Option (Option (V × List K) × Nat)) (st : St P K S V) : Prop :=
  ∀ p j, J p = some j → j = (none, (st.pub p).msgId) ∧ Waits (st.pub p).job

/- The state without these calls. -/
local notation "less " J:max st:max => mod J (fun _ => none) st

/-- The publisher whose call takes the step. -/
def caller : Sys.Act P K S V → Option P
  | .bcast p _ => some p
  | .gateResume p => some p
  | .slotResume p => some p
  | .send p _ => some p
  | .finish p => some p
  | _ => none

theorem modP_none {J : P → Option (Option (V × List K) × Nat)} {p : P} (h : J p = none) (pb : PubSt K V) : modP J p pb = pb := by
  simp [modP, h]

theorem less_begin {J : P → Option (Option (V × List K) × Nat)} {st st' : St P K S V} {p : P} {v : V} (hp : J p = none)
    (h : Sys.begin cfg st p v = .ok st') : Sys.begin cfg (less J st) p v = .ok (less J st') := by
  unfold Sys.begin at h ⊢
  simp only [mod_pub, modP_none hp] at h ⊢
  have e : ∀ x : PubSt K V, addLog (setPub (mod J (fun _ => none) st) p x) (.bcast p v) =
      mod J (fun _ => none) (addLog (setPub st p x) (.bcast p v)) := by
    intro x; rw [mod_addLog, mod_setPub, modP_none hp]
  rw [e]
  split at h
  · cases h
  · rename_i b2 hb
    simp only [Except.ok.injEq] at h
    subst h
    cases hf : (st.pub p).chans.find? (fun k => cfg.mode k == .local) with
    | none =>
      rw [hf] at hb
      simp only [Except.ok.injEq] at hb
      subst hb
      simp only [Except.ok.injEq]
      split
      · rw [mod_setPub, modP_none hp]; simp only [mod_pub, modP_none hp]
      · rfl
    | some k =>
      rw [hf] at hb
      simp only at hb
      simp only [mod_putLocal, hb, Except.map, Except.ok.injEq]
      split
      · rw [mod_setPub, modP_none hp]; simp only [mod_pub, modP_none hp]
      · rfl

theorem less_afterGate {J : P → Option (Option (V × List K) × Nat)} {st st' : St P K S V} {p : P} {v : V} (hp : J p = none)
    (h : afterGate cfg st p v = .ok st') : afterGate cfg (less J st) p v = .ok (less J st') := by
  unfold afterGate at h ⊢
  simp only [mod_pub, modP_none hp] at h ⊢
  split at h
  · cases h
  · rename_i e; try simp only [e]
    exact less_begin hp h
  · rename_i e
    simp only [Except.ok.injEq] at h
    subst h
    simp only [e, mod_setPub, modP_none hp]

theorem less_deliver {J : P → Option (Option (V × List K) × Nat)} {st st' : St P K S V} {k : K} {m : Nat} {pl : Payload V}
    {rest : List (Nat × Payload V)} (h : Sys.deliver cfg st k m pl rest = .ok st') :
    Sys.deliver cfg (less J st) k m pl rest = .ok (less J st') := by
  have hsh : ∀ q, (modP J q (st.pub q)).shm = (st.pub q).shm := by intro q; unfold modP; split <;> rfl
  have ha : arriving cfg (less J st) k m pl = arriving cfg st k m pl := by
    cases pl with
    | tcp v => rfl
    | shm => simp only [arriving, mod_pub, hsh]
  have hch : ∀ k', (less J st).chan k' = st.chan k' := fun _ => rfl
  have hset : ∀ (s : St P K S V) (k' : K) (x : ChanSt S V), setChan (less J s) k' x = less J (setChan s k' x) := by
    intro s k' x; rw [mod_setChan]; rfl
  unfold Sys.deliver at h ⊢
  rw [ha]
  split at h
  · cases h
  · rename_i o _
    simp only [hch]
    split at h
    · cases h
    · rename_i cache _
      simp only [hset]
      rw [← mod_addLog, mod_notify]
      split at h
      · cases h
      · rename_i st1 hn
        simp only [Except.ok.injEq] at h
        subst h
        simp only [hn, Except.map]
      · rename_i st1 hn
        simp only [hn, Except.map]
        split at h
        · cases h
        · rename_i c2 hc
          simp only [Except.ok.injEq] at h
          subst h
          have hch1 : ∀ k', (mod J (fun _ => none) st1).chan k' = st1.chan k' := fun _ => rfl
          simp only [hch1, hc, mod_setChan]
          rfl

theorem less_step {J : P → Option (Option (V × List K) × Nat)} {st st' : St P K S V} {a : Sys.Act P K S V} (hJ : Valid J st)
    (ha : ∀ p, caller a = some p → J p = none) (h : Sys.step cfg st a = .ok st') :
    Sys.step cfg (less J st) a = .ok (less J st') := by
  have hch : ∀ (s : St P K S V) k', (less J s).chan k' = s.chan k' := fun _ _ => rfl
  have hset : ∀ (s : St P K S V) (k' : K) (x : ChanSt S V), setChan (less J s) k' x = less J (setChan s k' x) := by
    intro s k' x; rw [mod_setChan]; rfl
  have hns : ∀ q v t, (modP J q (st.pub q)).job = .sending v t ↔ (st.pub q).job = .sending v t := by
    intro q v t
    cases hq : J q with
    | none => rw [modP_none hq]
    | some j =>
      obtain ⟨rfl, hw⟩ := hJ q j hq
      constructor
      · intro hh; simp [modP, hq, jobOf] at hh
      · intro hh; rw [hh] at hw; exact hw.elim
  cases a with
  | bcast p v =>
    have hp := ha p rfl
    simp only [Sys.step, mod_pub, modP_none hp] at h ⊢
    split at h
    · rename_i e
      try simp only [e]
      split at h
      · rename_i hr
        rw [if_pos hr]
        rw [show afterGate cfg (mod J (fun _ => none) st) p v = .ok (less J st') from less_afterGate hp (ofExcept_eq_ok h)]
        rfl
      · rename_i hr
        rw [if_neg hr]
        simp only [Res.ok.injEq] at h
        subst h
        rw [mod_setPub, modP_none hp]
    · cases h
  | gateResume p =>
    have hp := ha p rfl
    simp only [Sys.step, mod_pub, modP_none hp] at h ⊢
    split at h
    · rename_i e
      try simp only [e]
      rw [show afterGate cfg (mod J (fun _ => none) st) p _ = .ok (less J st') from less_afterGate hp (ofExcept_eq_ok h)]
      rfl
    · cases h
  | slotResume p =>
    have hp := ha p rfl
    simp only [Sys.step, mod_pub, modP_none hp] at h ⊢
    split at h
    · rename_i e
      try simp only [e]
      rw [show Sys.begin cfg (mod J (fun _ => none) st) p _ = .ok (less J st') from less_begin hp (ofExcept_eq_ok h)]
      rfl
    · cases h
  | send p ok =>
    have hp := ha p rfl
    simp only [Sys.step, mod_pub, modP_none hp] at h ⊢
    split at h
    · rename_i v k todo e
      try simp only [e]
      have h := ofExcept_eq_ok h
      have : sendTo cfg (mod J (fun _ => none) st) p v k todo ok = .ok (less J st') := by
        unfold sendTo at h ⊢
        simp only [mod_pub, modP_none hp] at h ⊢
        have hk : (mod J (fun _ => none) st).chan k = st.chan k := rfl
        rw [hk]
        split at h
        · simp only [Except.ok.injEq] at h
          subst h
          rename_i hc
          simp only [hc, if_true, mod_setPub, modP_none hp]
        · rename_i hc
          rw [if_neg hc]
          split at h
          · cases h
          · rename_i bp hb
            try simp only [hb]
            split at h
            · rename_i hc2
              rw [if_pos hc2]
              simp only [Except.ok.injEq] at h
              subst h
              simp only [mod_setPub, modP_none hp]
            · rename_i hc2
              rw [if_neg hc2]
              simp only [Except.ok.injEq] at h
              subst h
              rw [← hset, mod_setPub, modP_none hp]
      rw [this]
      rfl
    · cases h
  | finish p =>
    have hp := ha p rfl
    simp only [Sys.step, mod_pub, modP_none hp] at h ⊢
    split at h
    · rename_i e
      try simp only [e]
      simp only [Res.ok.injEq] at h
      subst h
      rw [mod_setPub, modP_none hp]
    · cases h
  | pause p =>
    simp only [Sys.step, Res.ok.injEq] at h ⊢
    subst h
    rw [mod_addLog, mod_setPub]
    simp only [mod_pub]
    congr 2
    unfold modP; split <;> rfl
  | resume p =>
    simp only [Sys.step, Res.ok.injEq] at h ⊢
    subst h
    rw [mod_addLog, mod_setPub]
    simp only [mod_pub]
    congr 2
    cases hq : J p with
    | none => simp only [modP, hq]
    | some j =>
      obtain ⟨rfl, hw⟩ := hJ p j hq
      simp only [modP, hq, jobOf]
  | sync p =>
    simp only [Sys.step] at h ⊢
    have hbp : ((less J st).pub p).bp = (st.pub p).bp := by simp
    have e1 : setPub (less J st) p { (less J st).pub p with running := false } = less J (setPub st p { st.pub p with running := false }) := by
      rw [mod_setPub]
      simp only [mod_pub]
      congr 1
      unfold modP; split <;> rfl
    rw [e1, hbp]
    split at h
    · rename_i hs
      rw [if_pos hs]
      simp only [Res.ok.injEq] at h ⊢
      subst h
      rfl
    · rename_i hs
      rw [if_neg hs]
      simp only [Res.ok.injEq] at h ⊢
      subst h
      have hw : ((less J st).pub p).syncWait = (st.pub p).syncWait := by simp only [mod_pub]; unfold modP; split <;> rfl
      rw [hw, ← mod_addLog, mod_setPub]
      simp only [mod_pub]
      congr 1
      unfold modP; split <;> rfl
  | syncReturn p =>
    have hw : ((less J st).pub p).syncWoken = (st.pub p).syncWoken := by simp only [mod_pub]; unfold modP; split <;> rfl
    simp only [Sys.step] at h ⊢
    rw [hw]
    split at h
    · cases h
    · rename_i hz
      rw [if_neg hz]
      simp only [Res.ok.injEq] at h ⊢
      subst h
      rw [mod_addLog, mod_setPub]
      simp only [mod_pub]
      congr 2
      unfold modP; split <;> rfl
  | deliver k =>
    simp only [Sys.step, hch] at h ⊢
    split at h
    · rename_i m pl rest e
      try simp only [e]
      rw [less_deliver (ofExcept_eq_ok h)]
      rfl
    · cases h
  | ack k =>
    simp only [Sys.step, hch] at h ⊢
    split at h
    · rename_i m rest e
      try simp only [e]
      rw [hset, mod_pubFree, ofExcept_eq_ok h]
      rfl
    · cases h
  | recv s =>
    simp only [Sys.step] at h ⊢
    have hsub : (less J st).sub = st.sub := rfl
    rw [hsub]
    split at h
    · cases h
    · rename_i p m q e
      try simp only [e]
      split at h
      · rename_i e2
        try simp only [e2]
        simp only [Res.ok.injEq] at h
        subst h
        rfl
      · rename_i k e2
        try simp only [e2]
        have hl : lookup cfg (less J st) k m = lookup cfg st k m := by
          simp only [lookup, hch]
          have hsh : ∀ q, (modP J q (st.pub q)).shm = (st.pub q).shm := by intro q; unfold modP; split <;> rfl
          have hd : ∀ o, deref cfg (less J st) k o = deref cfg st k o := by
            intro o; cases o <;> simp only [deref, mod_pub, hsh]
          simp only [hd]
        rw [hl]
        split at h
        · cases h
        · rename_i v e3
          try simp only [e3]
          simp only [Res.ok.injEq] at h
          subst h
          rfl
  | release s j =>
    simp only [Sys.step] at h ⊢
    have hsub : (less J st).sub = st.sub := rfl
    rw [hsub]
    split at h
    · cases h
    · rename_i p m e
      try simp only [e]
      split at h
      · cases h
      · rename_i k e2
        try simp only [e2]
        have h := ofExcept_eq_ok h
        rw [show setSub (less J st) s { st.sub s with held := (st.sub s).held.eraseIdx j } =
          mod J (fun _ => none) (setSub st s { st.sub s with held := (st.sub s).held.eraseIdx j }) from rfl, mod_releaseBp]
        cases hr : releaseBp cfg (setSub st s { st.sub s with held := (st.sub s).held.eraseIdx j }) k m s with
        | error e => rw [hr] at h; cases h
        | ok st1 =>
          rw [hr] at h
          simp only [Except.map, Except.ok.injEq] at h
          subst h
          rfl
  | link s k =>
    simp only [Sys.step] at h ⊢
    have hsub : (less J st).sub = st.sub := rfl
    rw [hsub, hch]
    split at h
    · cases h
    · rename_i hz
      rw [if_neg hz]
      simp only [Res.ok.injEq] at h ⊢
      subst h
      rw [hset]
      rfl
  | unlink s k =>
    simp only [Sys.step] at h ⊢
    have hsub : (less J st).sub = st.sub := rfl
    rw [hsub, hch]
    split at h
    · cases h
    · rename_i hz
      rw [if_neg hz]
      split at h
      · cases h
      · rename_i bp e
        try simp only [e]
        simp only [Res.ok.injEq] at h ⊢
        subst h
        rw [hset]
        rfl
  | connect k =>
    simp only [Sys.step] at h ⊢
    split at h
    · cases h
    · rename_i e
      split
      · rename_i v t e2
        exact absurd ((hns _ v t).1 e2) (e v t)
      rw [hch]
      split at h
      · cases h
      · rename_i hz
        rw [if_neg hz]
        simp only [Res.ok.injEq] at h ⊢
        subst h
        rw [hset, mod_addLog, mod_setPub]
        simp only [mod_pub]
        congr 2
        unfold modP; split <;> rfl
  | close k =>
    simp only [Sys.step, hch] at h ⊢
    split at h
    · rename_i hz
      rw [if_pos hz]
      simp only [Res.ok.injEq] at h ⊢
      subst h
      rw [hset]
    · cases h
  | eof k =>
    simp only [Sys.step] at h ⊢
    have hc : ((less J st).pub (cfg.pubOf k)).chans = (st.pub (cfg.pubOf k)).chans := by
      simp only [mod_pub]; unfold modP; split <;> rfl
    split at h
    · cases h
    · rename_i e
      split
      · rename_i v t e2
        exact absurd ((hns _ v t).1 e2) (e v t)
      rw [hch, hc]
      split at h
      · rename_i hz
        rw [if_pos hz]
        have h := ofExcept_eq_ok h
        rw [hset, mod_pubFree]
        cases hr : pubFree cfg (setChan st k { st.chan k with acks := [] }) k none with
        | error e => rw [hr] at h; cases h
        | ok st1 =>
          rw [hr] at h
          simp only [Except.map, Except.ok.injEq] at h
          subst h
          simp only [Except.map, Res.ofExcept, Res.ok.injEq]
          rw [mod_setPub]
          simp only [mod_pub]
          congr 1
          unfold modP; split <;> rfl
      · cases h

theorem putLocal_sending {st st' : St P K S V} {k : K} {m : Nat} {v w : V} {t : List K} {p : P}
    (h : putLocal cfg st k m v = .ok st') (hj : (st.pub p).job = .sending w t) : (st'.pub p).job = .sending w t := by
  unfold putLocal at h
  split at h
  · cases h
  · split at h
    · cases h
    · rename_i st1 hn
      simp only [Except.ok.injEq] at h
      subst h
      exact (((notify_eff hn).1.bystander p).sending w t).2 hj
    · rename_i st1 hn
      have hj1 : (st1.pub p).job = .sending w t := (((notify_eff hn).1.bystander p).sending w t).2 hj
      split at h
      · cases h
      · simp only at h
        split at h
        · cases h
        · simp only [Except.ok.injEq] at h
          subst h
          simp only [setPub, setChan, upd]
          split
          · rename_i e; rw [← e]; exact hj1
          · exact hj1

theorem begin_sending {st st' : St P K S V} {p : P} {v : V} (h : Sys.begin cfg st p v = .ok st') :
    ∃ t, (st'.pub p).job = .sending v t := by
  refine ⟨(st.pub p).chans.filter (fun k => cfg.mode k != .local), ?_⟩
  unfold Sys.begin at h
  simp only at h
  split at h
  · cases h
  · rename_i st2 hst
    have h2 : (st2.pub p).job = .sending v ((st.pub p).chans.filter (fun k => cfg.mode k != .local)) := by
      split at hst
      · exact putLocal_sending hst (by simp [setPub, addLog])
      · simp only [Except.ok.injEq] at hst
        subst hst
        simp [setPub, addLog]
    simp only [Except.ok.injEq] at h
    subst h
    split
    · simpa [setPub] using h2
    · exact h2

/-- What the call of `p` does in a step of its own. -/
theorem caller_step {st st' : St P K S V} {a : Sys.Act P K S V} {p : P} (hc : caller a = some p) (h : Sys.step cfg st a = .ok st') :
    (∃ j v, (st' = setPub st p { st.pub p with job := j }) ∧ Waits j ∧ Job.val j = some v ∧
      ((a = .bcast p v ∧ (st.pub p).job = .idle) ∨ (a = .gateResume p ∧ ∃ b, (st.pub p).job = .gate v b))) ∨
    (∃ v t, (st'.pub p).job = .sending v t ∧ bcasts p st'.log = bcasts p st.log ++ [v] ∧
      ((a = .bcast p v ∧ (st.pub p).job = .idle) ∨ (a ≠ .finish p ∧ ∃ b, (st.pub p).job = .gate v b ∨ (st.pub p).job = .slot v b))) ∨
    (∃ v t t', (st.pub p).job = .sending v t ∧ (st'.pub p).job = .sending v t' ∧ bcasts p st'.log = bcasts p st.log ∧ a ≠ .finish p) ∨
    (a = .finish p ∧ ∃ v, (st.pub p).job = .sending v [] ∧ (st'.pub p).job = .idle ∧ bcasts p st'.log = bcasts p st.log) := by
  have hag : ∀ v, afterGate cfg st p v = .ok st' → (st' = setPub st p { st.pub p with job := .slot v false }) ∨
      ∃ t, (st'.pub p).job = .sending v t ∧ bcasts p st'.log = bcasts p st.log ++ [v] := by
    intro v hv
    unfold afterGate at hv
    split at hv
    · cases hv
    · obtain ⟨t, ht⟩ := begin_sending hv
      exact Or.inr ⟨t, ht, begin_bcasts hv⟩
    · simp only [Except.ok.injEq] at hv
      exact Or.inl hv.symm
  cases a with
  | bcast q v =>
    simp only [caller, Option.some.injEq] at hc; subst hc
    simp only [Sys.step] at h
    split at h
    · rename_i e
      split at h
      · rcases hag v (ofExcept_eq_ok h) with h | ⟨t, h1, h2⟩
        · exact Or.inl ⟨_, v, h, trivial, rfl, Or.inl ⟨rfl, e⟩⟩
        · exact Or.inr (Or.inl ⟨v, t, h1, h2, Or.inl ⟨rfl, e⟩⟩)
      · simp only [Res.ok.injEq] at h
        exact Or.inl ⟨_, v, h.symm, trivial, rfl, Or.inl ⟨rfl, e⟩⟩
    · cases h
  | gateResume q =>
    simp only [caller, Option.some.injEq] at hc; subst hc
    simp only [Sys.step] at h
    split at h
    · rename_i v e
      rcases hag v (ofExcept_eq_ok h) with h | ⟨t, h1, h2⟩
      · exact Or.inl ⟨_, v, h, trivial, rfl, Or.inr ⟨rfl, _, e⟩⟩
      · exact Or.inr (Or.inl ⟨v, t, h1, h2, Or.inr ⟨(by intro h; cases h), _, Or.inl e⟩⟩)
    · cases h
  | slotResume q =>
    simp only [caller, Option.some.injEq] at hc; subst hc
    simp only [Sys.step] at h
    split at h
    · rename_i v e
      have h := ofExcept_eq_ok h
      obtain ⟨t, ht⟩ := begin_sending h
      exact Or.inr (Or.inl ⟨v, t, ht, begin_bcasts h, Or.inr ⟨(by intro h; cases h), _, Or.inr e⟩⟩)
    · cases h
  | send q ok =>
    simp only [caller, Option.some.injEq] at hc; subst hc
    simp only [Sys.step] at h
    split at h
    · rename_i v k todo e
      refine Or.inr (Or.inr (Or.inl ⟨v, _, todo, e, ?_⟩))
      have h := ofExcept_eq_ok h
      unfold sendTo at h
      simp only at h
      split at h
      · simp only [Except.ok.injEq] at h; subst h; simp [setPub]
      · split at h
        · cases h
        · split at h
          · simp only [Except.ok.injEq] at h; subst h; simp [setPub]
          · simp only [Except.ok.injEq] at h; subst h; simp [setPub, setChan]
    · cases h
  | finish q =>
    simp only [caller, Option.some.injEq] at hc; subst hc
    simp only [Sys.step] at h
    split at h
    · rename_i v e
      simp only [Res.ok.injEq] at h; subst h
      exact Or.inr (Or.inr (Or.inr ⟨rfl, v, e, by simp [setPub], by simp [setPub]⟩))
    · cases h
  | _ => cases hc

/-- Other steps leave the call of `p` where it is. -/
theorem other_step {strict : K → Prop} {st st' : St P K S V} {a : Sys.Act P K S V} {p : P} (hi : Inv cfg strict none st)
    (hi' : Inv cfg strict none st') (hc : caller a ≠ some p) (h : Sys.step cfg st a = .ok st') :
    (Waits (st'.pub p).job ↔ Waits (st.pub p).job) ∧ Job.val (st'.pub p).job = Job.val (st.pub p).job ∧
    (∀ v t, (st'.pub p).job = .sending v t ↔ (st.pub p).job = .sending v t) ∧ bcasts p st'.log = bcasts p st.log ∧
    (Waits (st.pub p).job → (st'.pub p).msgId = (st.pub p).msgId) := by
  have key : (Waits (st'.pub p).job ↔ Waits (st.pub p).job) ∧ Job.val (st'.pub p).job = Job.val (st.pub p).job ∧
      (∀ v t, (st'.pub p).job = .sending v t ↔ (st.pub p).job = .sending v t) ∧ bcasts p st'.log = bcasts p st.log := by
    by_cases hac : a.actor = some p
    · cases a with
      | pause q =>
        simp only [Act.actor, Option.some.injEq] at hac; subst hac
        simp only [Sys.step, Res.ok.injEq] at h; subst h
        simp [setPub, addLog, bcasts]
      | resume q =>
        simp only [Act.actor, Option.some.injEq] at hac; subst hac
        simp only [Sys.step, Res.ok.injEq] at h; subst h
        cases hj : (st.pub q).job <;> simp [setPub, addLog, bcasts, Waits, Job.val, hj]
      | sync q =>
        simp only [Act.actor, Option.some.injEq] at hac; subst hac
        simp only [Sys.step] at h
        split at h <;> simp only [Res.ok.injEq] at h <;> subst h <;> simp [setPub, addLog, bcasts]
      | syncReturn q =>
        simp only [Act.actor, Option.some.injEq] at hac; subst hac
        simp only [Sys.step] at h
        split at h
        · cases h
        · simp only [Res.ok.injEq] at h; subst h
          simp [setPub, addLog, bcasts]
      | bcast q v => exact absurd hac hc
      | gateResume q => exact absurd hac hc
      | slotResume q => exact absurd hac hc
      | send q ok => exact absurd hac hc
      | finish q => exact absurd hac hc
      | _ => cases hac
    · have hb := step_bystander (p := p) hi hac h
      refine ⟨?_, ?_, hb.sending, hb.bcasts⟩
      · cases hj : (st.pub p).job with
        | idle => rw [hb.idle.2 hj]
        | gate v b => rw [(hb.gate v b).2 hj]
        | slot v b =>
          obtain ⟨b', e⟩ := (hb.slot v).2 ⟨b, hj⟩
          rw [e]; exact ⟨fun _ => trivial, fun _ => trivial⟩
        | sending v t => rw [(hb.sending v t).2 hj]
      · cases hj : (st.pub p).job with
        | idle => rw [hb.idle.2 hj]
        | gate v b => rw [(hb.gate v b).2 hj]
        | slot v b =>
          obtain ⟨b', e⟩ := (hb.slot v).2 ⟨b, hj⟩
          rw [e]; rfl
        | sending v t => rw [(hb.sending v t).2 hj]
  refine ⟨key.1, key.2.1, key.2.2.1, key.2.2.2, ?_⟩
  intro hw
  have h1 := (hi.pub p).jobLen
  have h2 := (hi'.pub p).jobLen
  have hw' := key.1.2 hw
  rw [key.2.2.2, h1] at h2
  cases hj : (st.pub p).job <;> rw [hj] at hw h2 <;> cases hj' : (st'.pub p).job <;> rw [hj'] at hw' h2 <;>
    first | exact hw.elim | exact hw'.elim | exact h2.symm

/-! ## Calls that are given up before anything was sent -/

/-- Executions in which no call is cancelled while it sends. -/
inductive Clean (cfg : Cfg P K S) : CSt P K S V → Prop
  | init : Clean cfg (initC cfg)
  | step {st st' : CSt P K S V} (a : Act P K S V) : Clean cfg st →
      (∀ p v t, a = .cancel p → (st.base.pub p).job ≠ .sending v t) → step cfg st a = .ok st' → Clean cfg st'

theorem less_nobody (st : St P K S V) : (less (fun _ => none) st) = st := rfl

/-- Take the call of `p` away too. -/
def plus (J : P → Option (Option (V × List K) × Nat)) (p : P) (o : Option (Option (V × List K) × Nat)) :
    P → Option (Option (V × List K) × Nat) := fun q => if q = p then o else J q

theorem less_setJob {J J' : P → Option (Option (V × List K) × Nat)} {st : St P K S V} {p : P} {j : Job K V} (h : ∀ q, q ≠ p → J q = J' q)
    (hp : modP J p { st.pub p with job := j } = modP J' p (st.pub p)) :
    (less J (setPub st p { st.pub p with job := j })) = less J' st := by
  rw [mod_setPub, hp]
  simp only [mod, setPub, St.mk.injEq, and_true, true_and]
  funext q
  simp only [upd]
  split
  · rename_i e; subst e; rfl
  · rename_i e; simp only [modP, h q e]

theorem clean_sys (hwf : cfg.WF) {st st' : St P K S V} {a : Sys.Act P K S V}
    (ih : ∀ J, Valid J st → Reachable cfg (less J st)) (h : Sys.step cfg st a = .ok st') :
    ∀ J, Valid J st' → Reachable cfg (less J st') := by
  have hr : Reachable cfg st := ih (fun _ => none) (fun _ _ h => nomatch h)
  have hr' := hr.step h
  have hi := (hr.inv hwf).1
  have hi' := (hr'.inv hwf).1
  have back : ∀ J, Valid J st' → (∀ p, caller a = some p → J p = none) → Valid J st := by
    intro J hJ hc q j hq
    have hcq : caller a ≠ some q := by intro e; rw [hc q e] at hq; cases hq
    obtain ⟨o1, _, _, _, o5⟩ := other_step hi hi' hcq h
    obtain ⟨h1, h2⟩ := hJ q j hq
    have h2 := o1.1 h2
    exact ⟨by rw [h1, o5 h2], h2⟩
  intro J hJ
  by_cases hc : ∀ p, caller a = some p → J p = none
  · have hv := back J hJ hc
    exact (ih J hv).step (less_step hv hc h)
  · simp only [Classical.not_forall] at hc
    obtain ⟨p, hc, hp⟩ := hc
    cases hjp : J p with
    | none => exact absurd hjp hp
    | some j =>
      obtain ⟨hj1, hw⟩ := hJ p j hjp
      have hvr : Valid (plus J p none) st := by
        refine back _ ?_ ?_
        · intro q j' hq
          simp only [plus] at hq
          split at hq
          · cases hq
          · exact hJ q j' hq
        · intro q hq
          rw [hc] at hq
          cases hq
          simp [plus]
      rcases caller_step hc h with ⟨jb, v, e, _, _, ⟨_, hidle⟩ | ⟨_, b, hg⟩⟩ | ⟨v, t, e, _⟩ | ⟨v, _, t, _, e, _⟩ | ⟨_, v, _, e, _⟩
      · have : (less J st') = less (plus J p none) st := by
          rw [e]
          refine less_setJob (fun q hq => by simp [plus, hq]) ?_
          rw [e] at hj1
          simp only [setPub, upd_same] at hj1
          simp only [modP, hjp, hj1, plus, if_true, jobOf]
          rw [← hidle]
        rw [this]
        exact ih _ hvr
      · have hm : (st'.pub p).msgId = (st.pub p).msgId := by rw [e]; simp [setPub]
        have hv : Valid J st := by
          intro q j' hq
          by_cases hqp : q = p
          · subst hqp
            rw [hjp] at hq
            cases hq
            exact ⟨by rw [hj1, hm], by rw [hg]; trivial⟩
          · exact hvr q j' (by simp [plus, hqp, hq])
        have : (less J st') = less J st := by
          rw [e]
          refine less_setJob (fun q hq => rfl) ?_
          simp only [modP, hjp, hj1]
        rw [this]
        exact ih _ hv
      all_goals (rw [e] at hw; exact hw.elim)

theorem Clean.less (hwf : cfg.WF) {st : CSt P K S V} (h : Clean cfg st) : ∀ J, Valid J st.base → Reachable cfg (less J st.base) := by
  induction h with
  | init =>
    intro J hJ
    have : ∀ p, J p = none := by
      intro p
      cases hp : J p with
      | none => rfl
      | some j => exact (hJ p j hp).2.elim
    have e : J = fun _ => none := funext this
    rw [e]
    exact ⟨[], rfl⟩
  | @step st st' a _ hcl hs ih =>
    cases a with
    | sys a =>
      simp only [CancelPub.step] at hs
      split at hs
      · cases hs
      · cases hs
      · rename_i b hb
        have := clean_sys hwf ih hb
        split at hs <;> (simp only [Res.ok.injEq] at hs; subst hs; exact this)
    | timeout p =>
      simp only [CancelPub.step] at hs
      split at hs
      · simp only [Res.ok.injEq] at hs; subst hs; exact ih
      · cases hs
    | cancel p =>
      have hcl := fun v t => hcl p v t rfl
      simp only [CancelPub.step] at hs
      split at hs
      · split at hs
        · rename_i b hb
          simp only [Res.ok.injEq] at hs; subst hs
          have hw : Waits (st.base.pub p).job ∧ b = setPub st.base p { st.base.pub p with job := .idle } := by
            unfold cancelled at hb
            simp only at hb
            split at hb
            · rename_i e; rw [e]; simp only [Option.some.injEq] at hb; exact ⟨trivial, hb.symm⟩
            · rename_i e; rw [e]; simp only [Option.some.injEq] at hb; exact ⟨trivial, hb.symm⟩
            · rename_i v k t e; exact absurd e (hcl v (k :: t))
            · cases hb
            · cases hb
          obtain ⟨hw, rfl⟩ := hw
          intro J hJ
          simp only at hJ ⊢
          have hjp : J p = none := by
            cases hp : J p with
            | none => rfl
            | some j =>
              have := (hJ p j hp).2
              simp only [setPub, upd_same] at this
              exact this.elim
          have hv : Valid (plus J p (some (none, (st.base.pub p).msgId))) st.base := by
            intro q j hq
            simp only [plus] at hq
            split at hq
            · rename_i e; subst e; cases hq; exact ⟨rfl, hw⟩
            · rename_i e
              have := hJ q j hq
              simp only [setPub, upd_ne _ _ e] at this
              exact this
          have := ih _ hv
          rw [← less_setJob (J := J) (j := .idle) (p := p) (fun q hq => by simp [plus, hq]) ?_] at this
          · exact this
          · simp [modP, hjp, plus, jobOf]
        · cases hs
      · cases hs

/-- **C110 (nothing else is disturbed, partial).** As long as no call is cancelled while it is being sent, a system whose publishers give
up waiting calls is always in a state that the system without timeouts can reach too: everything shown about those states (order,
completeness, no overwriting, backpressure) holds. What is missing: calls that time out while they send. -/
theorem C110_as_without_timeouts_partial (hwf : cfg.WF) {st : CSt P K S V} (h : Clean cfg st) : Reachable cfg st.base :=
  h.less hwf (fun _ => none) (fun _ _ h => nomatch h)

/-! ## What was published -/

/-- Specification: the messages of the ended calls of `publish` on `p`. -/
def ended (p : P) (outs : List (P × V × Bool)) : List V := outs.filterMap (fun o => if o.1 = p then some o.2.1 else none)

/-- Specification: those whose call returned. -/
def returned (p : P) (outs : List (P × V × Bool)) : List V := outs.filterMap (fun o => if o.1 = p ∧ o.2.2 = true then some o.2.1 else none)

/-- The message being sent. -/
def sendingNow : Job K V → List V
  | .sending v _ => [v]
  | _ => []

/-- The message of the running call, which is counted as ended if its thread gave up. -/
def curNow (g : Bool) (j : Job K V) : List V := if g then (Job.val j).toList else []

structure Ord (p : P) (st : CSt P K S V) (B0 E0 : List V) : Prop where
  log : bcasts p st.base.log = B0 ++ sendingNow (st.base.pub p).job
  ends : ended p st.outs = E0 ++ curNow (st.gaveUp p) (st.base.pub p).job
  ret : (returned p st.outs).Sublist B0
  sub : B0.Sublist E0
  busy : st.gaveUp p = true → (Job.val (st.base.pub p).job).isSome = true

theorem ended_append (p : P) (l : List (P × V × Bool)) (o : P × V × Bool) :
    ended p (l ++ [o]) = ended p l ++ (if o.1 = p then [o.2.1] else []) := by
  unfold ended
  rw [List.filterMap_append]
  congr 1
  by_cases h : o.1 = p <;> simp [h]

theorem returned_append (p : P) (l : List (P × V × Bool)) (o : P × V × Bool) :
    returned p (l ++ [o]) = returned p l ++ (if o.1 = p ∧ o.2.2 = true then [o.2.1] else []) := by
  unfold returned
  rw [List.filterMap_append]
  congr 1
  by_cases h : o.1 = p ∧ o.2.2 = true <;> simp [h]

theorem ord_sys {strict : K → Prop} {st : CSt P K S V} {b : St P K S V} {a : Sys.Act P K S V} {p : P} (hi : Inv cfg strict none st.base)
    (hi' : Inv cfg strict none b) (hf : a ≠ .finish p) (h : Sys.step cfg st.base a = .ok b) {outs : List (P × V × Bool)} {g : P → Bool}
    (ho : ended p outs = ended p st.outs ∧ returned p outs = returned p st.outs) (hg : g p = st.gaveUp p) {B0 E0 : List V} (H : Ord p st B0 E0) :
    Ord p (⟨b, g, outs⟩ : CSt P K S V) B0 E0 := by
  by_cases hc : caller a = some p
  · rcases caller_step hc h with ⟨j, v, e, hw, hv, ⟨_, hidle⟩ | ⟨_, x, hgt⟩⟩ | ⟨v, t, e, hb, ⟨_, hidle⟩ | ⟨_, x, hgt⟩⟩ |
        ⟨v, t, t', e, e', hb, _⟩ | ⟨e, _⟩
    · have hgu : st.gaveUp p = false := by
        cases hgu : st.gaveUp p with
        | false => rfl
        | true => have := H.busy hgu; rw [hidle] at this; cases this
      have hjb : (b.pub p).job = j := by rw [e]; simp [setPub]
      have hsn : sendingNow j = ([] : List V) := by cases j <;> first | rfl | exact hw.elim
      refine ⟨?_, ?_, by simp only [ho.2]; exact H.ret, H.sub, ?_⟩
      · have := H.log
        rw [hidle] at this
        simp only [hjb, hsn]
        rw [e]
        exact this
      · have := H.ends
        rw [hgu] at this
        simp only [ho.1, hg, hgu]
        exact this
      · simp only [hg, hgu]; intro h; cases h
    · have hjb : (b.pub p).job = j := by rw [e]; simp [setPub]
      have hsn : sendingNow j = ([] : List V) := by cases j <;> first | rfl | exact hw.elim
      refine ⟨?_, ?_, by simp only [ho.2]; exact H.ret, H.sub, ?_⟩
      · have := H.log
        rw [hgt] at this
        simp only [hjb, hsn]
        rw [e]
        exact this
      · have := H.ends
        rw [hgt] at this
        simp only [ho.1, hg, hjb, curNow, hv]
        exact this
      · simp only [hjb, hv]; intro _; rfl
    · have hgu : st.gaveUp p = false := by
        cases hgu : st.gaveUp p with
        | false => rfl
        | true => have := H.busy hgu; rw [hidle] at this; cases this
      refine ⟨?_, ?_, by simp only [ho.2]; exact H.ret, H.sub, ?_⟩
      · have := H.log
        rw [hidle] at this
        simp only [hb, e, sendingNow, this, List.append_nil]
      · have := H.ends
        rw [hgu] at this
        simp only [ho.1, hg, hgu]
        exact this
      · simp only [hg, hgu]; intro h; cases h
    · have hval : Job.val (st.base.pub p).job = some v ∧ sendingNow (st.base.pub p).job = [] := by
        rcases hgt with e | e <;> rw [e] <;> exact ⟨rfl, rfl⟩
      refine ⟨?_, ?_, by simp only [ho.2]; exact H.ret, H.sub, ?_⟩
      · have := H.log
        rw [hval.2] at this
        simp only [hb, e, sendingNow, this, List.append_nil]
      · have := H.ends
        rw [curNow, hval.1] at this
        simp only [ho.1, hg, e, curNow, Job.val]
        exact this
      · simp only [e]; intro _; rfl
    · refine ⟨?_, ?_, by simp only [ho.2]; exact H.ret, H.sub, ?_⟩
      · have := H.log
        rw [e] at this
        simp only [hb, e', sendingNow, this]
      · have := H.ends
        rw [e] at this
        simp only [ho.1, hg, e', curNow, Job.val]
        exact this
      · simp only [e']; intro _; rfl
    · exact absurd e hf
  · obtain ⟨_, o2, o3, o4, _⟩ := other_step hi hi' hc h
    have hsn : sendingNow (b.pub p).job = sendingNow (st.base.pub p).job := by
      cases hj : (st.base.pub p).job with
      | sending v t => rw [(o3 v t).2 hj]
      | _ =>
        cases hj' : (b.pub p).job with
        | sending v t => rw [(o3 v t).1 hj'] at hj; cases hj
        | _ => rfl
    refine ⟨?_, ?_, by simp only [ho.2]; exact H.ret, H.sub, ?_⟩
    · simp only [o4, hsn]; exact H.log
    · simp only [ho.1, hg, curNow, o2]; exact H.ends
    · simp only [hg, o2]; exact H.busy

theorem Clean.ord (hwf : cfg.WF) {st : CSt P K S V} (h : Clean cfg st) (p : P) : ∃ B0 E0, Ord p st B0 E0 := by
  induction h with
  | init => exact ⟨[], [], rfl, rfl, List.Sublist.refl _, List.Sublist.refl _, fun h => nomatch h⟩
  | @step st st' a hc hcl hs ih =>
    have hr := C110_as_without_timeouts_partial hwf hc
    have hi := (hr.inv hwf).1
    obtain ⟨B0, E0, H⟩ := ih
    cases a with
    | sys a =>
      simp only [CancelPub.step] at hs
      split at hs
      · cases hs
      · cases hs
      · rename_i b hb
        have hi' := ((hr.step hb).inv hwf).1
        by_cases hf : a = .finish p
        · subst hf
          simp only [Res.ok.injEq] at hs
          rcases caller_step (p := p) rfl hb with ⟨_, _, _, _, _, ⟨e, _⟩ | ⟨e, _⟩⟩ | ⟨_, _, _, _, ⟨e, _⟩ | ⟨e, _⟩⟩ | ⟨_, _, _, _, _, _, e⟩ |
            ⟨_, v, ej, ei, el⟩
          · cases e
          · cases e
          · cases e
          · exact absurd rfl e
          · exact absurd rfl e
          · have hl := H.log
            have he := H.ends
            rw [ej] at hl he
            simp only [sendingNow] at hl
            refine ⟨B0 ++ [v], E0 ++ [v], ?_⟩
            subst hs
            rw [ej]
            cases hg : st.gaveUp p with
            | false =>
              rw [hg] at he
              simp only [Job.val]
              refine ⟨?_, ?_, ?_, ?_, ?_⟩
              · simp only [ei, el, hl, sendingNow, List.append_nil]
              · simp only [upd_same, curNow, ended_append, he, if_true]
                simp
              · simp only [returned_append, and_self, if_true]
                exact H.ret.append (List.Sublist.refl _)
              · exact H.sub.append (List.Sublist.refl _)
              · simp
            | true =>
              rw [hg] at he
              refine ⟨?_, ?_, ?_, ?_, ?_⟩
              · simp only [ei, el, hl, sendingNow, List.append_nil]
              · simp only [upd_same, curNow, he, Job.val, if_true]
                simp
              · exact H.ret.trans (List.sublist_append_left _ _)
              · exact H.sub.append (List.Sublist.refl _)
              · simp
        · refine ⟨B0, E0, ?_⟩
          split at hs
          · rename_i q
            have hqp : p ≠ q := fun e => hf (by rw [e])
            simp only [Res.ok.injEq] at hs; subst hs
            refine ord_sys hi hi' hf hb ?_ (by simp [upd, hqp]) H
            split
            · simp only [ended_append, returned_append, if_neg (Ne.symm hqp), if_neg (fun h : q = p ∧ _ => hqp h.1.symm), List.append_nil, and_self]
            · exact ⟨rfl, rfl⟩
          · simp only [Res.ok.injEq] at hs; subst hs
            exact ord_sys hi hi' hf hb ⟨rfl, rfl⟩ rfl H
    | timeout q =>
      simp only [CancelPub.step] at hs
      split at hs
      · rename_i v hg hv
        simp only [Res.ok.injEq] at hs; subst hs
        refine ⟨B0, E0, H.log, ?_, ?_, H.sub, ?_⟩
        · by_cases e : q = p
          · subst e
            have := H.ends
            rw [hg] at this
            simp only [ended_append, if_true, upd_same, curNow, hv, this]
            simp
          · simp only [ended_append, if_neg e, List.append_nil, upd_ne _ _ (Ne.symm e)]
            exact H.ends
        · simp only [returned_append]
          simpa using H.ret
        · by_cases e : q = p
          · subst e; intro _; simp only [hv]; rfl
          · simp only [upd_ne _ _ (Ne.symm e)]; exact H.busy
      · cases hs
    | cancel q =>
      simp only [CancelPub.step] at hs
      split at hs
      · rename_i hg
        split at hs
        · rename_i b hb
          simp only [Res.ok.injEq] at hs; subst hs
          have hcl := fun v t => hcl q v t rfl
          have hw : sendingNow (st.base.pub q).job = [] ∧ b = setPub st.base q { st.base.pub q with job := .idle } := by
            unfold cancelled at hb
            simp only at hb
            split at hb
            · rename_i e; rw [e]; simp only [Option.some.injEq] at hb; exact ⟨rfl, hb.symm⟩
            · rename_i e; rw [e]; simp only [Option.some.injEq] at hb; exact ⟨rfl, hb.symm⟩
            · rename_i v k t e; exact absurd e (hcl v (k :: t))
            · cases hb
            · cases hb
          obtain ⟨hw, rfl⟩ := hw
          by_cases e : q = p
          · subst e
            have hl := H.log
            rw [hw] at hl
            refine ⟨B0, ended q st.outs, ?_, ?_, H.ret, ?_, ?_⟩
            · simp only [setPub, upd_same, sendingNow]; exact hl
            · simp [curNow]
            · rw [H.ends]; exact H.sub.trans (List.sublist_append_left _ _)
            · simp
          · refine ⟨B0, E0, ?_, ?_, H.ret, H.sub, ?_⟩
            · simp only [setPub, upd_ne _ _ (Ne.symm e)]; exact H.log
            · simp only [setPub, upd_ne _ _ (Ne.symm e)]; exact H.ends
            · simp only [setPub, upd_ne _ _ (Ne.symm e)]; exact H.busy
        · cases hs
      · cases hs

/-- Specification: the message of the call that is being waited for. -/
def waitedFor (p : P) (st : CSt P K S V) : List V := if st.gaveUp p then [] else (Job.val (st.base.pub p).job).toList

/-- **C110 (what was published, partial).** As long as no call is cancelled while it is being sent: every message whose call returned was
published, every published message is that of an ended call or of the present one, and all that in the order of the calls. What
is missing: calls that time out while they send, and that a call that timed out published nothing. -/
theorem C110_returned_then_published_partial (hwf : cfg.WF) {st : CSt P K S V} (h : Clean cfg st) (p : P) :
    (returned p st.outs).Sublist (bcasts p st.base.log) ∧
    (bcasts p st.base.log).Sublist (ended p st.outs ++ waitedFor p st) := by
  obtain ⟨B0, E0, H⟩ := h.ord hwf p
  constructor
  · rw [H.log]; exact H.ret.trans (List.sublist_append_left _ _)
  · rw [H.log, H.ends]
    have hcur : (sendingNow (st.base.pub p).job).Sublist (curNow (st.gaveUp p) (st.base.pub p).job ++ waitedFor p st) := by
      cases hg : st.gaveUp p <;> cases hj : (st.base.pub p).job <;> simp [sendingNow, curNow, waitedFor, hg, hj, Job.val]
    rw [List.append_assoc]
    exact H.sub.append hcur

/-- **C110 (a waiting call is withdrawn).** Cancelling a call that waits for `resume` or for its buffer leaves the publisher idle and nothing
else changed: no message is on any wire, none in any cache, and the next call gets the same message id. -/
theorem C110_waiting_call_withdrawn {st st' : CSt P K S V} {p : P} (hw : Waits (st.base.pub p).job) (h : step cfg st (.cancel p) = .ok st') :
    (st'.base.pub p).job = .idle ∧ (st'.base.pub p).msgId = (st.base.pub p).msgId ∧ (st'.base.pub p).bp = (st.base.pub p).bp ∧
    st'.base.chan = st.base.chan ∧ st'.base.sub = st.base.sub ∧ st'.base.log = st.base.log ∧ st'.outs = st.outs ∧
    ∀ q, q ≠ p → st'.base.pub q = st.base.pub q := by
  simp only [step] at h
  split at h
  · split at h
    · rename_i b hb
      simp only [Res.ok.injEq] at h; subst h
      unfold cancelled at hb
      simp only at hb
      cases hj : (st.base.pub p).job with
      | gate v b' =>
        rw [hj] at hb
        simp only [Option.some.injEq] at hb; subst hb
        exact ⟨by simp [setPub], by simp [setPub], by simp [setPub], rfl, rfl, rfl, rfl, fun q hq => by simp [setPub, upd, hq]⟩
      | slot v b' =>
        rw [hj] at hb
        simp only [Option.some.injEq] at hb; subst hb
        exact ⟨by simp [setPub], by simp [setPub], by simp [setPub], rfl, rfl, rfl, rfl, fun q hq => by simp [setPub, upd, hq]⟩
      | idle => rw [hj] at hw; exact hw.elim
      | sending v t => rw [hj] at hw; exact hw.elim
    · cases h
  · cases h

/-! ## Calls that time out while they send -/

/-- How a run ends, what was received, and the ended calls, oldest first. -/
inductive Ending where
  | ok (got : List Char) (outs : List (Char × Bool))
  | raised (e : Err)
  | disabled
  deriving DecidableEq

def ending (r : Res (CSt Unit Unit Unit Char)) : Ending :=
  match r with
  | .ok st => .ok (st.base.log.reverse.filterMap (fun e => match e with | .recv _ _ _ v => some v | _ => none)) (st.outs.map (·.2))
  | .raised e => .raised e
  | .disabled => .disabled

def from0 (cfg : Cfg Unit Unit Unit) (as : List (Act Unit Unit Unit Char)) : Ending :=
  ending (run cfg ([.sys (.connect ()), .sys (.link () ())] ++ as) (initC cfg))

/-- A call that is not given up. -/
def whole (v : Char) : List (Act Unit Unit Unit Char) := [.sys (.bcast () v), .sys (.send () true), .sys (.finish ())]

/-- A call that is given up and cancelled while `drain` waits. -/
def givenUp (v : Char) : List (Act Unit Unit Unit Char) := [.sys (.bcast () v), .timeout (), .cancel ()]

def take1 : List (Act Unit Unit Unit Char) := [.sys (.recv ()), .sys (.release () 0)]

/-- One buffer: 'A' is published, the call for 'B' waits for the buffer and is given up, the call for 'C' waits until 'A' was read; the
subscriber receives 'A' and 'C'. -/
def patient : List (Act Unit Unit Unit Char) :=
  whole 'A' ++ [.sys (.bcast () 'B'), .timeout (), .cancel (), .sys (.bcast () 'C'), .sys (.deliver ())] ++ take1 ++
    [.sys (.ack ()), .sys (.slotResume ()), .sys (.send () true), .sys (.finish ()), .sys (.deliver ())] ++ take1

example : from0 (oneCfg 1 .tcp) patient = .ok ['A', 'C'] [('A', true), ('B', false), ('C', true)] := by decide

/-- No call of the run is cancelled while it sends. -/
def cleanRun (cfg : Cfg P K S) : List (Act P K S V) → CSt P K S V → Bool
  | [], _ => true
  | a :: as, st =>
    (match a with
      | .cancel p => match (st.base.pub p).job with | .sending _ _ => false | _ => true
      | _ => true) &&
    (match step cfg st a with
      | .ok st' => cleanRun cfg as st'
      | _ => true)

theorem clean_of_run : ∀ (as : List (Act P K S V)) {st st' : CSt P K S V}, Clean cfg st → cleanRun cfg as st = true → run cfg as st = .ok st' →
    Clean cfg st'
  | [], st, st', h, _, hr => by
    simp only [run, Res.ok.injEq] at hr
    exact hr ▸ h
  | a :: as, st, st', h, hc, hr => by
    simp only [cleanRun, Bool.and_eq_true] at hc
    simp only [run] at hr
    cases hs : step cfg st a with
    | ok st1 =>
      rw [hs] at hr hc
      refine clean_of_run as (.step a h ?_ hs) hc.2 hr
      intro p v t e hj
      subst e
      simp only [hj] at hc
      exact absurd hc.1 (by decide)
    | raised e => rw [hs] at hr; cases hr
    | disabled => rw [hs] at hr; cases hr

example : ∃ st : CSt Unit Unit Unit Char, Clean (oneCfg 1 .tcp) st ∧ (oneCfg 1 .tcp).WF ∧ returned () st.outs = ['A', 'C'] ∧
    ended () st.outs = ['A', 'B', 'C'] ∧ bcasts () st.base.log = ['A', 'C'] :=
  ⟨_, clean_of_run ([.sys (.connect ()), .sys (.link () ())] ++ patient) .init rfl rfl,
    ⟨fun _ => Nat.succ_pos 0, fun _ h => (nomatch h), fun _ _ _ _ _ => rfl⟩, rfl, rfl, rfl⟩

example : ∃ (st st' : CSt Unit Unit Unit Char), Waits (st.base.pub ()).job ∧ step (oneCfg 1 .tcp) st (.cancel ()) = .ok st' ∧
    (st.base.pub ()).msgId = 1 := by
  refine ⟨match run (oneCfg 1 .tcp) ([.sys (.connect ()), .sys (.link () ())] ++ whole 'A' ++ [.sys (.bcast () 'B'), .timeout ()])
    (initC (oneCfg 1 .tcp)) with | .ok st => st | _ => initC (oneCfg 1 .tcp), _, ?_, rfl, rfl⟩
  trivial

/-- **C110 fails (same number).** `publish('A', timeout)` raises `TimeoutError` while the connection is slow, `publish('B')` returns. Both
messages carry the same id: the subscriber reads 'B' when it is told of 'A', and its next `recv` raises `CacheMiss`. -/
theorem C110_negation_same_id :
    from0 (oneCfg 2 .tcp) (givenUp 'A' ++ whole 'B' ++ [.sys (.deliver ()), .sys (.deliver ())] ++ take1) =
      .ok ['B'] [('A', false), ('B', true)] ∧
    from0 (oneCfg 2 .tcp) (givenUp 'A' ++ whole 'B' ++ [.sys (.deliver ()), .sys (.deliver ())] ++ take1 ++ [.sys (.recv ())]) =
      .raised .cacheMiss := by decide

/-- **C110 fails (timed out but published).** `publish('A', timeout)` raises `TimeoutError` just before the call is done: the subscriber
receives 'A', and again if the caller publishes it again. -/
theorem C110_negation_published_twice :
    from0 (oneCfg 2 .tcp) ([.sys (.bcast () 'A'), .timeout (), .sys (.send () true), .sys (.finish ())] ++ whole 'A' ++
      [.sys (.deliver ()), .sys (.deliver ())] ++ take1 ++ take1) = .ok ['A', 'A'] [('A', false), ('A', true)] := by decide

/-- **C110 fails (overwritten while in use).** Over shared memory the buffer of the message that was given up is not leased: the next
call overwrites it while the subscriber is inside its `recv_zero_copy` block, although it has the only buffer. -/
theorem C110_negation_overwritten :
    let held : List (Act Unit Unit Unit Char) := [.sys (.connect ()), .sys (.link () ())] ++ givenUp 'A' ++ [.sys (.deliver ()), .sys (.recv ())]
    (∃ st, run (oneCfg 1 .shm) held (initC (oneCfg 1 .shm)) = .ok st ∧ lookup (oneCfg 1 .shm) st.base () 0 = .ok 'A') ∧
    (∃ st, run (oneCfg 1 .shm) (held ++ [.sys (.bcast () 'B')]) (initC (oneCfg 1 .shm)) = .ok st ∧ (st.base.sub ()).held = [((), 0)] ∧
      lookup (oneCfg 1 .shm) st.base () 0 = .ok 'B') := by
  refine ⟨⟨_, rfl, rfl⟩, ⟨_, rfl, rfl, rfl⟩⟩

/-- **C110 (the timeout takes effect).** A call that waits can time out at any moment and is then given up; `publish` raises for its message, which is in
no channel, and the publisher takes the next call. -/
theorem C110_timeout_takes_effect {st : CSt P K S V} {p : P} (hw : Waits (st.base.pub p).job) (hg : st.gaveUp p = false) :
    ∃ v st1 st2, Job.val (st.base.pub p).job = some v ∧ step cfg st (.timeout p) = .ok st1 ∧ step cfg st1 (.cancel p) = .ok st2 ∧
      st2.outs = st.outs ++ [(p, v, false)] ∧ (st2.base.pub p).job = .idle ∧ st2.gaveUp p = false ∧ st2.base.chan = st.base.chan ∧
      st2.base.log = st.base.log ∧ ∀ w, step cfg st2 (.sys (.bcast p w)) ≠ .disabled := by
  cases hj : (st.base.pub p).job with
  | gate v b =>
    refine ⟨v, { st with gaveUp := upd st.gaveUp p true, outs := st.outs ++ [(p, v, false)] },
      ⟨setPub st.base p { st.base.pub p with job := .idle }, upd (upd st.gaveUp p true) p false, st.outs ++ [(p, v, false)]⟩,
      rfl, by simp [step, hg, hj, Job.val], by simp [step, cancelled, hj], rfl, by simp [setPub], by simp, rfl, rfl, fun w => ?_⟩
    simp only [step, Sys.step, setPub, upd_same]
    split
    · rename_i hx
      split at hx
      · unfold Res.ofExcept at hx
        split at hx <;> cases hx
      · cases hx
    · simp
    · simp
  | slot v b =>
    refine ⟨v, { st with gaveUp := upd st.gaveUp p true, outs := st.outs ++ [(p, v, false)] },
      ⟨setPub st.base p { st.base.pub p with job := .idle }, upd (upd st.gaveUp p true) p false, st.outs ++ [(p, v, false)]⟩,
      rfl, by simp [step, hg, hj, Job.val], by simp [step, cancelled, hj], rfl, by simp [setPub], by simp, rfl, rfl, fun w => ?_⟩
    simp only [step, Sys.step, setPub, upd_same]
    split
    · rename_i hx
      split at hx
      · unfold Res.ofExcept at hx
        split at hx <;> cases hx
      · cases hx
    · simp
    · simp
  | idle => rw [hj] at hw; exact hw.elim
  | sending v t => rw [hj] at hw; exact hw.elim

/-- A publisher with one buffer, whose second message waits for the first to be given back: it can time out, and a third is taken. -/
example : ∃ st : CSt Unit Unit Unit Char,
    run (oneCfg 1 .tcp) ([.sys (.connect ()), .sys (.link () ())] ++ whole 'A' ++ [.sys (.bcast () 'B')]) (initC (oneCfg 1 .tcp)) = .ok st ∧
    Waits (st.base.pub ()).job ∧ st.gaveUp () = false := by
  refine ⟨_, rfl, ?_, ?_⟩
  · trivial
  · rfl

end Ez.CancelPub
