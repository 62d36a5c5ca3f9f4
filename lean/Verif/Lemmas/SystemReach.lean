import Verif.Lemmas.SystemEffect

/-! # Invariants of reachable states -/

set_option linter.unusedSectionVars false
set_option linter.unusedSimpArgs false

namespace Ez.Sys
variable {P K S V : Type} [DecidableEq P] [DecidableEq K] [DecidableEq S]
variable {cfg : Cfg P K S} {strict : K → Prop} {st st' st'' : St P K S V}

theorem recvd_quiet (s : S) (k : K) (es l : List (Ev P K S V)) (h : ∀ e ∈ es, e.quiet = true) :
    recvd s k (es ++ l) = recvd s k l ∧ startId cfg s k (es ++ l) = startId cfg s k l ∧
    sentBeforeLink cfg s k (es ++ l) = sentBeforeLink cfg s k l ∧ finished s k (es ++ l) = finished s k l := by
  induction es with
  | nil => exact ⟨rfl, rfl, rfl, rfl⟩
  | cons e es ih =>
    have ih := ih (fun e he => h e (List.mem_cons_of_mem _ he))
    have he := h e (List.mem_cons_self ..)
    cases e with
    | linked _ _ => cases he
    | recv _ _ _ _ => cases he
    | done _ _ _ => cases he
    | _ => exact ih

/-- Facts about reachable states beyond `Inv`. -/
structure Extra (cfg : Cfg P K S) (st : St P K S V) : Prop where
  queue : QueueOk cfg st
  start : ∀ s k, (st.sub s).chans (cfg.pubOf k) = some k →
    startId cfg s k st.log ≤ sentBeforeLink cfg s k st.log
  fin : ∀ s k m, (st.sub s).chans (cfg.pubOf k) = some k → m ∈ (recvd s k st.log).map (·.1) →
    m ∈ finished s k st.log ∨ (cfg.pubOf k, m) ∈ (st.sub s).held
  finRec : ∀ s k m, m ∈ finished s k st.log → m ∈ (recvd s k st.log).map (·.1)

theorem Extra.calm (h : Extra cfg st) (hc : Calm cfg st st') : Extra cfg st' := by
  obtain ⟨es, hl, hq⟩ := hc.log
  refine ⟨hc.queue h.queue, ?_, ?_, ?_⟩
  · intro s k hk
    obtain ⟨_, h2, h3, _⟩ := recvd_quiet (cfg := cfg) s k es st.log hq
    rw [hl, h2, h3]
    rw [hc.links] at hk
    exact h.start s k hk
  · intro s k m hk hm
    obtain ⟨h1, _, _, h4⟩ := recvd_quiet (cfg := cfg) s k es st.log hq
    rw [hl, h1] at hm
    rw [hl, h4, hc.held]
    rw [hc.links] at hk
    exact h.fin s k m hk hm
  · intro s k m hm
    obtain ⟨h1, _, _, h4⟩ := recvd_quiet (cfg := cfg) s k es st.log hq
    rw [hl, h4] at hm
    rw [hl, h1]
    exact h.finRec s k m hm

theorem extra_init : Extra cfg (init cfg : St P K S V) := by
  refine ⟨?_, ?_, ?_, ?_⟩
  · intro s mx _ hp; simp [init]; omega
  · intro s k hk; cases hk
  · intro s k m hk; cases hk
  · intro s k m hm; cases hm

theorem queue_setSub {s : S} {sb : SubSt P K} (hq : QueueOk cfg st)
    (hl : sb.queue.length ≤ (st.sub s).queue.length) (hs : st'.sub = upd st.sub s sb) : QueueOk cfg st' := by
  intro c mx h1 h2
  rw [hs]
  by_cases hc : c = s
  · subst hc
    rw [upd_same]
    have := hq c mx h1 h2
    omega
  · rw [upd_ne _ _ hc]; exact hq c mx h1 h2

theorem step_extra (h : Inv cfg strict none st) (hx : Extra cfg st) {a : Act P K S V}
    (hs : step cfg st a = .ok st') : Extra cfg st' := by
  by_cases ho : a.own = false
  · exact hx.calm (step_calm ho hs)
  · cases a with
    | recv s =>
      simp only [step] at hs
      split at hs
      · cases hs
      · rename_i p m q hq
        obtain ⟨k, hk⟩ := (h.sub s).linked p m (Or.inl (by rw [hq]; exact List.mem_cons_self ..))
        have hkp := (h.sub s).chanPub p k hk
        subst hkp
        obtain ⟨v, h1, _, _⟩ := recv_ok h hq hk
        simp only [hk, h1, Res.ok.injEq] at hs
        subst hs
        refine ⟨queue_setSub (s := s) hx.queue ?_ rfl, ?_, ?_, ?_⟩
        · simp [hq]
        · intro c k' hk'
          refine hx.start c k' ?_
          simp only [addLog, setSub] at hk'
          by_cases hc : c = s
          · subst hc; simpa using hk'
          · simpa [upd_ne _ _ hc] using hk'
        · intro c k' m' hk' hm
          simp only [addLog, setSub, recvd, finished] at hk' hm ⊢
          by_cases hc : c = s
          · subst hc
            simp only [upd_same] at hk' ⊢
            by_cases hkk : k = k'
            · subst hkk
              simp only [and_self, if_true, List.map_append, List.mem_append, List.map_cons, List.map_nil,
                List.mem_singleton] at hm
              simp only [List.mem_append, List.mem_singleton, Prod.mk.injEq, true_and]
              rcases hm with hm | hm
              · rcases hx.fin c k m' hk' hm with e | e
                · exact Or.inl e
                · exact Or.inr (Or.inl e)
              · exact Or.inr (Or.inr hm)
            · simp only [hkk, and_false, if_false] at hm
              rcases hx.fin c k' m' hk' hm with e | e
              · exact Or.inl e
              · exact Or.inr (List.mem_append_left _ e)
          · have hc' : ¬ s = c := fun e => hc e.symm
            simp only [hc', false_and, if_false] at hm
            simp only [upd_ne _ _ hc] at hk' ⊢
            exact hx.fin c k' m' hk' hm
        · intro c k' m' hm
          simp only [addLog, recvd, finished] at hm ⊢
          have := hx.finRec c k' m' hm
          split
          · rw [List.map_append, List.mem_append]; exact Or.inl this
          · exact this
    | release s j =>
      simp only [step] at hs
      split at hs
      · cases hs
      · rename_i p m hj
        split at hs
        · cases hs
        · rename_i k hk
          have hkp := (h.sub s).chanPub p k hk
          subst hkp
          obtain ⟨st1, h1, _, _, h2, h3⟩ := release_ok h hj hk
          have hmem : (cfg.pubOf k, m) ∈ (st.sub s).held := List.mem_of_getElem? hj
          have hrec := (h.sub s).heldRec k m hk hmem
          rw [h1] at hs
          simp only [Except.map, Res.ofExcept, Res.ok.injEq] at hs
          subst hs
          refine ⟨?_, ?_, ?_, ?_⟩
          · refine queue_setSub (s := s) (st' := addLog st1 (.done s k m)) hx.queue (Nat.le_refl _) ?_
              (sb := { st.sub s with held := (st.sub s).held.eraseIdx j })
            exact h3
          · intro c k' hk'
            simp only [addLog, startId, sentBeforeLink, h2]
            refine hx.start c k' ?_
            simp only [addLog, h3] at hk'
            by_cases hc : c = s
            · subst hc; simpa using hk'
            · simpa [upd_ne _ _ hc] using hk'
          · intro c k' m' hk' hm
            simp only [addLog, recvd, finished, h2, h3] at hk' hm ⊢
            by_cases hc : c = s
            · subst hc
              simp only [upd_same] at hk' ⊢
              by_cases hkk : k = k'
              · subst hkk
                simp only [and_self, if_true, List.mem_append, List.mem_singleton]
                rcases hx.fin c k m' hk' hm with e | e
                · exact Or.inl (Or.inl e)
                · by_cases hmm : m' = m
                  · exact Or.inl (Or.inr hmm)
                  · refine Or.inr ((mem_eraseIdx_nodup (h.sub c).heldNodup hj _).2 ⟨e, ?_⟩)
                    simp [hmm]
              · simp only [hkk, and_false, if_false]
                rcases hx.fin c k' m' hk' hm with e | e
                · exact Or.inl e
                · refine Or.inr ((mem_eraseIdx_nodup (h.sub c).heldNodup hj _).2 ⟨e, ?_⟩)
                  intro e'
                  simp only [Prod.mk.injEq] at e'
                  rw [e'.1, hk] at hk'
                  cases hk'
                  exact hkk rfl
            · have hc' : ¬ s = c := fun e => hc e.symm
              simp only [hc', false_and, if_false]
              simp only [upd_ne _ _ hc] at hk' ⊢
              exact hx.fin c k' m' hk' hm
          · intro c k' m' hm
            simp only [addLog, recvd, finished, h2] at hm ⊢
            split at hm
            · rename_i hc
              obtain ⟨rfl, rfl⟩ := hc
              rw [List.mem_append] at hm
              rcases hm with hm | hm
              · exact hx.finRec s k m' hm
              · simp at hm; rw [hm]; exact hrec
            · exact hx.finRec c k' m' hm
    | link s k =>
      simp only [step] at hs
      split at hs
      · cases hs
      · simp only [Res.ok.injEq] at hs
        subst hs
        refine ⟨queue_setSub (s := s) hx.queue (Nat.le_refl _) rfl (sb := { st.sub s with chans := upd (st.sub s).chans (cfg.pubOf k) (some k) }), ?_, ?_, ?_⟩
        · intro c k' hk'
          simp only [addLog, setSub, setChan, startId, sentBeforeLink] at hk' ⊢
          split
          · exact (h.chan k').nxtLe
          · rename_i hne
            refine hx.start c k' ?_
            by_cases hc : c = s
            · subst hc
              simp only [upd_same] at hk'
              by_cases hp : cfg.pubOf k' = cfg.pubOf k
              · rw [hp, upd_same] at hk'
                cases hk'
                exact absurd ⟨rfl, rfl⟩ hne
              · rwa [upd_ne _ _ hp] at hk'
            · rwa [upd_ne _ _ hc] at hk'
        · intro c k' m' hk' hm
          simp only [addLog, setSub, setChan, recvd, finished] at hk' hm ⊢
          split at hm
          · cases hm
          · rename_i hne
            rw [if_neg hne]
            by_cases hc : c = s
            · subst hc
              simp only [upd_same] at hk' ⊢
              refine hx.fin c k' m' ?_ hm
              by_cases hp : cfg.pubOf k' = cfg.pubOf k
              · rw [hp, upd_same] at hk'
                cases hk'
                exact absurd ⟨rfl, rfl⟩ hne
              · rwa [upd_ne _ _ hp] at hk'
            · rw [upd_ne _ _ hc] at hk' ⊢
              exact hx.fin c k' m' hk' hm
        · intro c k' m' hm
          simp only [addLog, setSub, setChan, recvd, finished] at hm ⊢
          split at hm
          · cases hm
          · rename_i hne
            rw [if_neg hne]
            exact hx.finRec c k' m' hm
    | unlink s k =>
      simp only [step] at hs
      split at hs
      · cases hs
      · rename_i hcond
        rw [not_or] at hcond
        split at hs
        · cases hs
        · simp only [Res.ok.injEq] at hs
          subst hs
          have hnk : ∀ k', (upd (st.sub s).chans (cfg.pubOf k) none) (cfg.pubOf k') = some k' →
              (st.sub s).chans (cfg.pubOf k') = some k' := by
            intro k' hk'
            by_cases hp : cfg.pubOf k' = cfg.pubOf k
            · rw [hp, upd_same] at hk'; cases hk'
            · rwa [upd_ne _ _ hp] at hk'
          refine ⟨queue_setSub (s := s) hx.queue ?_ rfl (sb := { st.sub s with
            queue := rotateOut (cfg.pubOf k) (st.sub s).queue.length (st.sub s).queue
            chans := upd (st.sub s).chans (cfg.pubOf k) none }), ?_, ?_, ?_⟩
          · show (rotateOut _ _ _).length ≤ _
            rw [rotateOut_eq]
            exact List.length_filter_le ..
          · intro c k' hk'
            simp only [addLog, setSub, setChan, startId, sentBeforeLink] at hk' ⊢
            refine hx.start c k' ?_
            by_cases hc : c = s
            · subst hc; rw [upd_same] at hk'; exact hnk k' hk'
            · rwa [upd_ne _ _ hc] at hk'
          · intro c k' m' hk' hm
            simp only [addLog, setSub, setChan, recvd, finished] at hk' hm ⊢
            by_cases hc : c = s
            · subst hc
              rw [upd_same] at hk' ⊢
              exact hx.fin c k' m' (hnk k' hk') hm
            · rw [upd_ne _ _ hc] at hk' ⊢
              exact hx.fin c k' m' hk' hm
          · intro c k' m' hm
            exact hx.finRec c k' m' hm
    | _ => exact absurd rfl ho

/-- Only `link` links. -/
theorem step_links (h : Inv cfg strict none st) {a : Act P K S V} (hs : step cfg st a = .ok st') {s : S} {k : K}
    (hk : (st'.sub s).chans (cfg.pubOf k) = some k) :
    (st.sub s).chans (cfg.pubOf k) = some k ∨ a = .link s k := by
  by_cases ho : a.own = false
  · rw [(step_calm ho hs).links] at hk; exact Or.inl hk
  · cases a with
    | recv s0 =>
      left
      simp only [step] at hs
      split at hs
      · cases hs
      · rename_i p m q hq
        obtain ⟨k0, hk0⟩ := (h.sub s0).linked p m (Or.inl (by rw [hq]; exact List.mem_cons_self ..))
        have hkp := (h.sub s0).chanPub p k0 hk0
        subst hkp
        obtain ⟨v, h1, _, _⟩ := recv_ok h hq hk0
        simp only [hk0, h1, Res.ok.injEq] at hs
        subst hs
        simp only [addLog, setSub] at hk
        by_cases hc : s = s0
        · subst hc; simpa using hk
        · simpa [upd_ne _ _ hc] using hk
    | release s0 j =>
      left
      simp only [step] at hs
      split at hs
      · cases hs
      · rename_i p m hj
        split at hs
        · cases hs
        · rename_i k0 hk0
          have hs := ofExcept_eq_ok hs
          cases hr : releaseBp cfg (setSub st s0 { st.sub s0 with held := (st.sub s0).held.eraseIdx j }) k0 m s0 with
          | error e => rw [hr] at hs; cases hs
          | ok st1 =>
            rw [hr] at hs
            simp only [Except.map, Except.ok.injEq] at hs
            subst hs
            have e1 := (releaseBp_eff hr).1.links s
            simp only [addLog] at hk
            rw [e1] at hk
            simp only [setSub] at hk
            by_cases hc : s = s0
            · subst hc; simpa using hk
            · simpa [upd_ne _ _ hc] using hk
    | link s0 k0 =>
      simp only [step] at hs
      split at hs
      · cases hs
      · simp only [Res.ok.injEq] at hs
        subst hs
        simp only [addLog, setSub, setChan] at hk
        by_cases hc : s = s0
        · subst hc
          rw [upd_same] at hk
          simp only at hk
          by_cases hp : cfg.pubOf k = cfg.pubOf k0
          · rw [hp, upd_same] at hk
            cases hk
            exact Or.inr rfl
          · rw [upd_ne _ _ hp] at hk; exact Or.inl hk
        · rw [upd_ne _ _ hc] at hk; exact Or.inl hk
    | unlink s0 k0 =>
      left
      simp only [step] at hs
      split at hs
      · cases hs
      · split at hs
        · cases hs
        · simp only [Res.ok.injEq] at hs
          subst hs
          simp only [addLog, setSub, setChan] at hk
          by_cases hc : s = s0
          · subst hc
            rw [upd_same] at hk
            simp only at hk
            by_cases hp : cfg.pubOf k = cfg.pubOf k0
            · rw [hp, upd_same] at hk; cases hk
            · rw [upd_ne _ _ hp] at hk; exact hk
          · rw [upd_ne _ _ hc] at hk; exact hk
    | _ => exact absurd rfl ho

/-- Leases that are absent now need no explanation by the past. -/
theorem Inv.strengthen (h : Inv cfg strict none st) {O : K → Prop}
    (hO : ∀ k, O k → strict k ∨ ∀ i, ¬ (st.pub (cfg.pubOf k)).bp.Holds k i) : Inv cfg O none st := by
  refine ⟨?_, h.pub, h.sub, h.cl, h.shut⟩
  intro k
  have hk := h.chan k
  refine { hk with noleak := ?_ }
  intro hs hcl i hh
  rcases hO k hs with e | e
  · exact hk.noleak e hcl i hh
  · exact absurd hh (e i)

/-! ## Runs -/

theorem run_ok (hwf : cfg.WF) (as : List (Act P K S V)) : ∀ {st : St P K S V},
    Inv cfg (fun _ => False) none st → Extra cfg st →
    run cfg st as = .disabled ∨ ∃ st', run cfg st as = .ok st' ∧ Inv cfg (fun _ => False) none st' ∧ Extra cfg st' := by
  induction as with
  | nil => intro st h hx; exact Or.inr ⟨st, rfl, h, hx⟩
  | cons a as ih =>
    intro st h hx
    rcases step_ok hwf h a (fun _ => False.elim) with h1 | ⟨st1, h1, h2⟩
    · exact Or.inl (by simp only [run, h1])
    · simp only [run, h1]
      exact ih h2 (step_extra h hx h1)

theorem Reachable.inv (hwf : cfg.WF) (h : Reachable cfg st) : Inv cfg (fun _ => False) none st ∧ Extra cfg st := by
  obtain ⟨as, h⟩ := h
  rcases run_ok hwf as (inv_init hwf) (extra_init (cfg := cfg)) with h1 | ⟨st', h1, h2⟩
  · rw [h1] at h; cases h
  · rw [h1] at h; cases h; exact h2

theorem run_snoc (as : List (Act P K S V)) (a : Act P K S V) : ∀ {st st1 : St P K S V},
    run cfg st as = .ok st1 → run cfg st (as ++ [a]) = step cfg st1 a := by
  induction as with
  | nil =>
    intro st st1 h
    simp only [run, Res.ok.injEq] at h
    subst h
    simp only [List.nil_append, run]
    cases step cfg st a <;> rfl
  | cons b as ih =>
    intro st st1 h
    simp only [run, List.cons_append] at h ⊢
    cases hs : step cfg st b with
    | disabled => rw [hs] at h; cases h
    | raised e => rw [hs] at h; cases h
    | ok st2 => rw [hs] at h; exact ih h

theorem Reachable.step (h : Reachable cfg st) {a : Act P K S V} (hs : Sys.step cfg st a = .ok st') :
    Reachable cfg st' := by
  obtain ⟨as, h⟩ := h
  exact ⟨as ++ [a], by rw [run_snoc as a h]; exact hs⟩

theorem ReachableOrderly.reachable {O : K → Prop} (h : ReachableOrderly cfg O st) : Reachable cfg st := by
  induction h with
  | init => exact ⟨[], rfl⟩
  | step _ _ hs ih => exact ih.step hs

theorem ReachableOrderly.inv {O : K → Prop} (hwf : cfg.WF) (h : ReachableOrderly cfg O st) : Inv cfg O none st := by
  induction h with
  | init => exact inv_init hwf
  | step _ hl hs ih =>
    rcases step_ok hwf ih _ hl with h1 | ⟨st1, h1, h2⟩
    · rw [h1] at hs; cases hs
    · rw [h1] at hs; cases hs; exact h2

end Ez.Sys
