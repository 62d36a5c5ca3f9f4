import Verif.Lemmas.SystemDrain

/-! # Paused publishers -/

set_option linter.unusedSectionVars false
set_option linter.unusedSimpArgs false

namespace Ez.Sys
variable {P K S V : Type} [DecidableEq P] [DecidableEq K] [DecidableEq S]
variable {cfg : Cfg P K S} {strict : K → Prop} {st st' st'' : St P K S V} {p : P}

/-- What happens to publisher `p` in a step that is not its own: leases may be freed and waiting tasks
woken up, nothing else. -/
structure Bystander (p : P) (st st' : St P K S V) : Prop where
  running : (st'.pub p).running = (st.pub p).running
  idle : (st'.pub p).job = .idle ↔ (st.pub p).job = .idle
  gate : ∀ v b, (st'.pub p).job = .gate v b ↔ (st.pub p).job = .gate v b
  sending : ∀ v t, (st'.pub p).job = .sending v t ↔ (st.pub p).job = .sending v t
  slot : ∀ v, (∃ b, (st'.pub p).job = .slot v b) ↔ ∃ b, (st.pub p).job = .slot v b
  bpInv : (st.pub p).bp.Inv → (st'.pub p).bp.Inv
  holdsLe : ∀ k i, (st.pub p).bp.Inv → (st'.pub p).bp.Holds k i → (st.pub p).bp.Holds k i
  woken : (st.pub p).bp.Inv → (st'.pub p).syncWoken = (st.pub p).syncWoken ∨ NoLease (st'.pub p)
  bcasts : bcasts p st'.log = bcasts p st.log

theorem Bystander.trans (h : Bystander p st st') (h' : Bystander p st' st'') : Bystander p st st'' where
  running := h'.running.trans h.running
  idle := h'.idle.trans h.idle
  gate v b := (h'.gate v b).trans (h.gate v b)
  sending v b := (h'.sending v b).trans (h.sending v b)
  slot v := (h'.slot v).trans (h.slot v)
  bpInv hi := h'.bpInv (h.bpInv hi)
  holdsLe k i hi hh := h.holdsLe k i hi (h'.holdsLe k i (h.bpInv hi) hh)
  woken hi := by
    rcases h'.woken (h.bpInv hi) with e | e
    · rcases h.woken hi with e' | e'
      · exact Or.inl (e.trans e')
      · exact Or.inr (fun k i hh => e' k i (h'.holdsLe k i (h.bpInv hi) hh))
    · exact Or.inr e
  bcasts := h'.bcasts.trans h.bcasts

theorem bcasts_drops (p : P) (ds l : List (Ev P K S V)) (h : OnlyDrops ds) :
    bcasts p (ds ++ l) = bcasts p l := by
  induction ds with
  | nil => rfl
  | cons e ds ih =>
    obtain ⟨c, k, m, rfl⟩ := h e (List.mem_cons_self ..)
    simp only [List.cons_append, bcasts]
    exact ih (fun e he => h e (List.mem_cons_of_mem _ he))

theorem Eff.bystander (h : Eff st st') (p : P) : Bystander p st st' where
  running := h.running p
  idle := h.idle p
  gate := h.gate p
  sending := h.sending p
  slot := h.slot p
  bpInv := h.bpInv p
  holdsLe := h.holdsLe p
  woken := h.woken p
  bcasts := by
    obtain ⟨ds, h1, h2⟩ := h.log
    rw [h1]
    exact bcasts_drops p ds _ h2

/-- The publisher is untouched. -/
theorem Bystander.of (h1 : st'.pub p = st.pub p) (h2 : Sys.bcasts p st'.log = Sys.bcasts p st.log) :
    Bystander p st st' where
  running := by rw [h1]
  idle := by rw [h1]
  gate _ _ := by rw [h1]
  sending _ _ := by rw [h1]
  slot _ := by rw [h1]
  bpInv := by rw [h1]; exact id
  holdsLe _ _ := by rw [h1]; exact fun _ => id
  woken _ := by rw [h1]; exact Or.inl rfl
  bcasts := h2

/-- As seen from a state with the same publishers and log. -/
theorem Bystander.from (h : Bystander p st st') (h1 : st.pub p = st''.pub p) (h2 : st.log = st''.log) :
    Bystander p st'' st' :=
  (Bystander.of h1 (by rw [h2])).trans h

theorem putLocal_bystander {k : K} {m : Nat} {v : V} (h : putLocal cfg st k m v = .ok st')
    (hp : p ≠ cfg.pubOf k) : Bystander p st st' := by
  obtain ⟨st0, e1, e2, e3, _, e5, _, _⟩ := putLocal_eff h
  have h1 : Bystander p st (addLog st (.arrived k)) := Bystander.of rfl rfl
  exact (h1.trans (e1.bystander p)).trans (Bystander.of (e5 p hp) (by rw [e2]))

theorem putLocal_bcasts {k : K} {m : Nat} {v : V} (h : putLocal cfg st k m v = .ok st') (p : P) :
    bcasts p st'.log = bcasts p st.log := by
  obtain ⟨st0, e1, e2, _⟩ := putLocal_eff h
  rw [e2, (e1.bystander p).bcasts]
  rfl

theorem begin_bcasts {q : P} {v : V} (h : begin cfg st q v = .ok st') :
    bcasts q st'.log = bcasts q st.log ++ [v] := by
  unfold begin at h
  simp only at h
  have h1 : bcasts q (begun cfg st q v).log = bcasts q st.log ++ [v] := by
    simp only [begun, addLog, setPub, bcasts, if_true]
  split at h
  · cases h
  · rename_i st2 hst
    simp only [Except.ok.injEq] at h
    have h2 : bcasts q st2.log = bcasts q (begun cfg st q v).log := by
      split at hst
      · exact putLocal_bcasts hst q
      · simp only [Except.ok.injEq] at hst
        subst hst
        rfl
    have h3 : st'.log = st2.log := by
      subst h
      split <;> rfl
    rw [h3, h2, h1]

theorem begin_bystander (hi : Inv cfg strict none st) {q : P} {v : V} (h : begin cfg st q v = .ok st')
    (hp : p ≠ q) : Bystander p st st' := by
  unfold begin at h
  simp only at h
  have h1 : Bystander p st (begun cfg st q v) := Bystander.of (by
    simp only [begun, addLog, setPub, upd_ne _ _ hp]) (by
    simp only [begun, addLog, setPub, bcasts, if_neg (Ne.symm hp)])
  split at h
  · cases h
  · rename_i st2 hst
    simp only [Except.ok.injEq] at h
    have h2 : Bystander p (begun cfg st q v) st2 := by
      split at hst
      · rename_i k hf
        have hk := List.mem_of_find?_eq_some hf
        have := ((hi.pub q).chansPub k hk).1
        exact putLocal_bystander hst (by rw [this]; exact hp)
      · simp only [Except.ok.injEq] at hst
        subst hst
        exact Bystander.of rfl rfl
    have h3 : Bystander p st2 st' := by
      subst h
      split
      · exact Bystander.of (by simp only [setPub, upd_ne _ _ hp]) rfl
      · exact Bystander.of rfl rfl
    exact (h1.trans h2).trans h3

theorem afterGate_bystander (hi : Inv cfg strict none st) {q : P} {v : V} (h : afterGate cfg st q v = .ok st')
    (hp : p ≠ q) : Bystander p st st' := by
  unfold afterGate at h
  split at h
  · cases h
  · exact begin_bystander hi h hp
  · simp only [Except.ok.injEq] at h
    subst h
    exact Bystander.of (by simp only [setPub, upd_ne _ _ hp]) rfl

theorem sendTo_bystander {q : P} {v : V} {k : K} {todo : List K} {ok : Bool}
    (h : sendTo cfg st q v k todo ok = .ok st') (hp : p ≠ q) : Bystander p st st' := by
  unfold sendTo at h
  simp only at h
  split at h
  · simp only [Except.ok.injEq] at h; subst h; exact Bystander.of (by simp only [setPub, upd_ne _ _ hp]) rfl
  · split at h
    · cases h
    · split at h
      · simp only [Except.ok.injEq] at h; subst h; exact Bystander.of (by simp only [setPub, upd_ne _ _ hp]) rfl
      · simp only [Except.ok.injEq] at h; subst h
        exact Bystander.of (by simp only [setPub, setChan, upd_ne _ _ hp]) rfl

/-- The publisher whose own task takes the step. -/
def Act.actor : Act P K S V → Option P
  | .bcast p _ => some p
  | .gateResume p => some p
  | .slotResume p => some p
  | .send p _ => some p
  | .finish p => some p
  | .pause p => some p
  | .resume p => some p
  | .sync p => some p
  | .syncReturn p => some p
  | _ => none

theorem step_bystander (hi : Inv cfg strict none st) {a : Act P K S V} (ha : a.actor ≠ some p)
    (h : step cfg st a = .ok st') : Bystander p st st' := by
  have hne : ∀ q, a.actor = some q → p ≠ q := by
    rintro q hq rfl; exact ha hq
  cases a with
  | bcast q v =>
    have hp := hne q rfl
    simp only [step] at h
    split at h
    · split at h
      · exact afterGate_bystander hi (ofExcept_eq_ok h) hp
      · simp only [Res.ok.injEq] at h; subst h; exact Bystander.of (by simp only [setPub, upd_ne _ _ hp]) rfl
    · cases h
  | gateResume q =>
    simp only [step] at h
    split at h
    · exact afterGate_bystander hi (ofExcept_eq_ok h) (hne q rfl)
    · cases h
  | slotResume q =>
    simp only [step] at h
    split at h
    · exact begin_bystander hi (ofExcept_eq_ok h) (hne q rfl)
    · cases h
  | send q ok =>
    simp only [step] at h
    split at h
    · exact sendTo_bystander (ofExcept_eq_ok h) (hne q rfl)
    · cases h
  | finish q =>
    have hp := hne q rfl
    simp only [step] at h
    split at h
    · simp only [Res.ok.injEq] at h; subst h; exact Bystander.of (by simp only [setPub, upd_ne _ _ hp]) rfl
    · cases h
  | pause q =>
    have hp := hne q rfl
    simp only [step, Res.ok.injEq] at h; subst h
    exact Bystander.of (by simp only [addLog, setPub, upd_ne _ _ hp]) rfl
  | resume q =>
    have hp := hne q rfl
    simp only [step, Res.ok.injEq] at h; subst h
    exact Bystander.of (by simp only [addLog, setPub, upd_ne _ _ hp]) rfl
  | sync q =>
    have hp := hne q rfl
    simp only [step] at h
    split at h
    · simp only [Res.ok.injEq] at h; subst h
      exact Bystander.of (by simp only [addLog, setPub, upd_ne _ _ hp]) rfl
    · simp only [Res.ok.injEq] at h; subst h
      exact Bystander.of (by simp only [addLog, setPub, upd_ne _ _ hp]) rfl
  | syncReturn q =>
    have hp := hne q rfl
    simp only [step] at h
    split at h
    · cases h
    · simp only [Res.ok.injEq] at h; subst h
      exact Bystander.of (by simp only [addLog, setPub, upd_ne _ _ hp]) rfl
  | deliver k =>
    simp only [step] at h
    split at h
    · obtain ⟨st0, e1, e2, e3, _⟩ := deliver_eff (ofExcept_eq_ok h)
      exact ((e1.bystander p).trans (Bystander.of (st' := addLog st0 (.arrived k)) rfl rfl)).trans (e2.bystander p)
    · cases h
  | ack k =>
    simp only [step] at h
    split at h
    · obtain ⟨e0, _, _, _⟩ := pubFree_eff (ofExcept_eq_ok h)
      exact (e0.bystander p).from rfl rfl
    · cases h
  | recv s =>
    simp only [step] at h
    split at h
    · cases h
    · split at h
      · simp only [Res.ok.injEq] at h; subst h; exact Bystander.of rfl rfl
      · split at h
        · cases h
        · simp only [Res.ok.injEq] at h; subst h; exact Bystander.of rfl rfl
  | release s j =>
    simp only [step] at h
    split at h
    · cases h
    · split at h
      · cases h
      · rename_i pp m hj _ k hk
        have h1 := ofExcept_eq_ok h
        cases hr : releaseBp cfg (setSub st s { st.sub s with held := (st.sub s).held.eraseIdx j }) k m s with
        | error e => rw [hr] at h1; cases h1
        | ok st1 =>
          rw [hr] at h1
          simp only [Except.map, Except.ok.injEq] at h1
          subst h1
          obtain ⟨e0, _⟩ := releaseBp_eff hr
          exact Bystander.trans ((e0.bystander p).from rfl rfl)
            (Bystander.of (st' := addLog st1 (.done s k m)) rfl rfl)
  | link s k =>
    simp only [step] at h
    split at h
    · cases h
    · simp only [Res.ok.injEq] at h; subst h; exact Bystander.of rfl rfl
  | unlink s k =>
    simp only [step] at h
    split at h
    · cases h
    · split at h
      · cases h
      · simp only [Res.ok.injEq] at h; subst h; exact Bystander.of rfl rfl
  | connect k =>
    simp only [step] at h
    split at h
    · cases h
    · split at h
      · cases h
      · simp only [Res.ok.injEq] at h; subst h
        by_cases hp : p = cfg.pubOf k
        · subst hp
          constructor <;> simp [addLog, setPub, setChan, upd_same, bcasts]
        · exact Bystander.of (by simp only [addLog, setPub, setChan, upd_ne _ _ hp]) rfl
  | close k =>
    simp only [step] at h
    split at h
    · simp only [Res.ok.injEq] at h; subst h; exact Bystander.of rfl rfl
    · cases h
  | eof k =>
    simp only [step] at h
    split at h
    · cases h
    · split at h
      · have h1 := ofExcept_eq_ok h
        cases hr : pubFree cfg (setChan st k { st.chan k with acks := [] }) k none with
        | error e => rw [hr] at h1; cases h1
        | ok st1 =>
          rw [hr] at h1
          simp only [Except.map, Except.ok.injEq] at h1
          obtain ⟨e0, _, _, _⟩ := pubFree_eff hr
          refine Bystander.trans (st'' := st') ((e0.bystander p).from (st'' := st) rfl rfl) ?_
          subst h1
          by_cases hp : p = cfg.pubOf k
          · subst hp
            constructor <;> simp [addLog, setPub, setChan, upd_same, bcasts]
          · exact Bystander.of (by simp only [addLog, setPub, setChan, upd_ne _ _ hp]) rfl
      · cases h

theorem drains_actor {a : Act P K S V} (h : a.drains = true) (p : P) : a.actor ≠ some p := by
  cases a <;> first | (cases h; done) | simp [Act.actor]

/-- Publisher `p` is paused and no broadcast of it is past the gate. -/
def Quiet (p : P) (st : St P K S V) : Prop :=
  (st.pub p).running = false ∧ ((st.pub p).job = .idle ∨ ∃ v, (st.pub p).job = .gate v false)

/-- A paused publisher stays quiet, sends nothing, and gets no new leases until it is resumed. -/
theorem quiet_step (hi : Inv cfg strict none st) {a : Act P K S V} (ha : a ≠ .resume p)
    (h : step cfg st a = .ok st') (hq : Quiet p st) :
    Quiet p st' ∧ bcasts p st'.log = bcasts p st.log ∧
      (∀ k i, (st'.pub p).bp.Holds k i → (st.pub p).bp.Holds k i) ∧
      ((st.pub p).syncWoken = 0 ∨ NoLease (st.pub p) → (st'.pub p).syncWoken = 0 ∨ NoLease (st'.pub p)) := by
  have hbp := (hi.pub p).bpInv
  by_cases hac : a.actor = some p
  · obtain ⟨hr, hj⟩ := hq
    cases a with
    | bcast q v =>
      simp only [Act.actor, Option.some.injEq] at hac; subst hac
      simp only [step] at h
      split at h
      · rw [if_neg (by simp [hr])] at h
        simp only [Res.ok.injEq] at h; subst h
        refine ⟨⟨?_, ?_⟩, rfl, ?_, ?_⟩
        · simpa [setPub] using hr
        · simp [setPub]
        · simp [setPub]
        · simp [setPub, NoLease]
      · cases h
    | gateResume q =>
      simp only [Act.actor, Option.some.injEq] at hac; subst hac
      rcases hj with e | ⟨v, e⟩ <;> simp [step, e] at h
    | slotResume q =>
      simp only [Act.actor, Option.some.injEq] at hac; subst hac
      rcases hj with e | ⟨v, e⟩ <;> simp [step, e] at h
    | send q ok =>
      simp only [Act.actor, Option.some.injEq] at hac; subst hac
      rcases hj with e | ⟨v, e⟩ <;> simp [step, e] at h
    | finish q =>
      simp only [Act.actor, Option.some.injEq] at hac; subst hac
      rcases hj with e | ⟨v, e⟩ <;> simp [step, e] at h
    | pause q =>
      simp only [Act.actor, Option.some.injEq] at hac; subst hac
      simp only [step, Res.ok.injEq] at h; subst h
      refine ⟨⟨?_, ?_⟩, rfl, ?_, ?_⟩
      · simp [setPub, addLog]
      · simpa [setPub, addLog] using hj
      · simp [setPub, addLog]
      · simp [setPub, NoLease, addLog]
    | resume q =>
      simp only [Act.actor, Option.some.injEq] at hac; subst hac
      exact absurd rfl ha
    | sync q =>
      simp only [Act.actor, Option.some.injEq] at hac; subst hac
      simp only [step] at h
      split at h
      all_goals
        simp only [Res.ok.injEq] at h; subst h
        refine ⟨⟨?_, ?_⟩, rfl, ?_, ?_⟩
        · simp [setPub, addLog]
        · simpa [setPub, addLog] using hj
        · simp [setPub, addLog]
        · simp [setPub, NoLease, addLog]
    | syncReturn q =>
      simp only [Act.actor, Option.some.injEq] at hac; subst hac
      simp only [step] at h
      split at h
      · cases h
      · simp only [Res.ok.injEq] at h; subst h
        refine ⟨⟨?_, ?_⟩, rfl, ?_, ?_⟩
        · simpa [setPub, addLog] using hr
        · simpa [setPub, addLog] using hj
        · simp [setPub, addLog]
        · rintro (e | e)
          · left; simp [setPub, addLog, e]
          · right; simpa [setPub, NoLease, addLog] using e
    | _ => cases hac
  · have hb := step_bystander (p := p) hi hac h
    refine ⟨⟨hb.running.trans hq.1, ?_⟩, hb.bcasts, fun k i => hb.holdsLe k i hbp, ?_⟩
    · rcases hq.2 with e | ⟨v, e⟩
      · exact Or.inl (hb.idle.2 e)
      · exact Or.inr ⟨v, (hb.gate v false).2 e⟩
    · rintro (e | e)
      · rcases hb.woken hbp with e' | e'
        · exact Or.inl (e'.trans e)
        · exact Or.inr e'
      · exact Or.inr (fun k i hh => e k i (hb.holdsLe k i hbp hh))

end Ez.Sys
