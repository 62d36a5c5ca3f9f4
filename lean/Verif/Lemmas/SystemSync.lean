import Verif.Lemmas.SystemQuiet

/-! # No `sync()` call is forgotten -/

set_option linter.unusedSectionVars false
set_option linter.unusedSimpArgs false

namespace Ez.Sys
variable {P K S V : Type} [DecidableEq P] [DecidableEq K] [DecidableEq S]
variable {cfg : Cfg P K S} {strict : K → Prop} {st st' st'' : St P K S V} {p : P}

/-- In a step that neither calls `sync()` of `p` nor lets one return, the waiting calls are kept. -/
def Acct (p : P) (st st' : St P K S V) : Prop :=
  (st.pub p).bp.Inv → (st'.pub p).bp.Inv ∧ SyncKept (st.pub p) (st'.pub p) ∧
    syncCalls p st'.log = syncCalls p st.log ∧ syncReturns p st'.log = syncReturns p st.log

theorem Acct.trans (h : Acct p st st') (h' : Acct p st' st'') : Acct p st st'' := by
  intro hi
  obtain ⟨a1, a2, a3, a4⟩ := h hi
  obtain ⟨b1, b2, b3, b4⟩ := h' a1
  exact ⟨b1, a2.trans b2, b3.trans a3, b4.trans a4⟩

theorem sync_drops (p : P) (ds l : List (Ev P K S V)) (h : OnlyDrops ds) :
    syncCalls p (ds ++ l) = syncCalls p l ∧ syncReturns p (ds ++ l) = syncReturns p l := by
  induction ds with
  | nil => exact ⟨rfl, rfl⟩
  | cons e ds ih =>
    obtain ⟨c, k, m, rfl⟩ := h e (List.mem_cons_self ..)
    simp only [List.cons_append, syncCalls, syncReturns]
    exact ih (fun e he => h e (List.mem_cons_of_mem _ he))

theorem Eff.acct (h : Eff st st') (p : P) : Acct p st st' := by
  intro hi
  obtain ⟨ds, h1, h2⟩ := h.log
  rw [h1]
  exact ⟨h.bpInv p hi, h.sync p hi, sync_drops p ds _ h2⟩

theorem Acct.of (h1 : (st'.pub p).bp = (st.pub p).bp) (h2 : (st'.pub p).syncWait = (st.pub p).syncWait)
    (h3 : (st'.pub p).syncWoken = (st.pub p).syncWoken)
    (h4 : syncCalls p st'.log = syncCalls p st.log) (h5 : syncReturns p st'.log = syncReturns p st.log) :
    Acct p st st' := by
  intro hi
  refine ⟨by rw [h1]; exact hi, ⟨by rw [h2, h3], ?_⟩, h4, h5⟩
  unfold SyncBusy NoLease
  rw [h1, h2]
  exact id

theorem Acct.of0 (h1 : st'.pub = st.pub) (h4 : syncCalls p st'.log = syncCalls p st.log)
    (h5 : syncReturns p st'.log = syncReturns p st.log) : Acct p st st' :=
  Acct.of (by rw [h1]) (by rw [h1]) (by rw [h1]) h4 h5

/-- `q` is given a state with the same leases and waiters. -/
theorem setPub_acct {q : P} {pb : PubSt K V} (h1 : pb.bp = (st.pub q).bp)
    (h2 : pb.syncWait = (st.pub q).syncWait) (h3 : pb.syncWoken = (st.pub q).syncWoken) :
    Acct p st (setPub st q pb) := by
  by_cases hp : p = q
  · subst hp
    exact Acct.of (by simp only [setPub, upd_same, h1]) (by simp only [setPub, upd_same, h2])
      (by simp only [setPub, upd_same, h3]) rfl rfl
  · exact Acct.of (by simp only [setPub, upd_ne _ _ hp]) (by simp only [setPub, upd_ne _ _ hp])
      (by simp only [setPub, upd_ne _ _ hp]) rfl rfl

/-- `q` is given an additional lease. -/
theorem lease_acct {q : P} {k : K} {i : Nat} {bp : Backpressure K} {pb : PubSt K V}
    (hl : (st.pub q).bp.lease k i = some bp) (h1 : pb.bp = bp)
    (h2 : pb.syncWait = (st.pub q).syncWait) (h3 : pb.syncWoken = (st.pub q).syncWoken) :
    Acct p st (setPub st q pb) := by
  by_cases hp : p = q
  · subst hp
    intro hi
    obtain ⟨a1, _, _, a4⟩ := Backpressure.lease_spec hi hl
    simp only [setPub, upd_same]
    refine ⟨by rw [h1]; exact a1, ⟨by rw [h2, h3], ?_⟩, trivial, trivial⟩
    intro hb h0 hn
    apply hb (by rw [← h2]; exact h0)
    intro k' i' hh
    apply hn k' i'
    rw [h1]
    exact (a4 k' i').2 (Or.inl hh)
  · exact Acct.of (by simp only [setPub, upd_ne _ _ hp]) (by simp only [setPub, upd_ne _ _ hp])
      (by simp only [setPub, upd_ne _ _ hp]) rfl rfl

theorem putLocal_acct {k : K} {m : Nat} {v : V} (h : putLocal cfg st k m v = .ok st') : Acct p st st' := by
  unfold putLocal at h
  have h0 : Acct p st (addLog st (.arrived k)) := Acct.of0 rfl rfl rfl
  split at h
  · cases h
  · split at h
    · cases h
    · rename_i st1 hn
      simp only [Except.ok.injEq] at h
      subst h
      exact h0.trans ((notify_eff hn).1.acct p)
    · rename_i st1 hn
      split at h
      · cases h
      · rename_i cache _
        simp only at h
        split at h
        · cases h
        · rename_i bp hl
          simp only [Except.ok.injEq] at h
          subst h
          refine ((h0.trans ((notify_eff hn).1.acct p)).trans
            (st'' := setChan st1 k { st1.chan k with cache := cache }) (Acct.of0 rfl rfl rfl)).trans ?_
          exact lease_acct hl rfl rfl rfl

theorem begin_acct {q : P} {v : V} (h : begin cfg st q v = .ok st') : Acct p st st' := by
  unfold begin at h
  simp only at h
  have h1 : Acct p st (begun cfg st q v) :=
    (setPub_acct (pb := { st.pub q with job := .sending v ((st.pub q).chans.filter (fun k => cfg.mode k != .local)) })
      rfl rfl rfl).trans (Acct.of0 rfl rfl rfl)
  split at h
  · cases h
  · rename_i st2 hst
    simp only [Except.ok.injEq] at h
    have h2 : Acct p (begun cfg st q v) st2 := by
      split at hst
      · exact putLocal_acct hst
      · simp only [Except.ok.injEq] at hst
        subst hst
        exact Acct.of0 rfl rfl rfl
    have h3 : Acct p st2 st' := by
      subst h
      split
      · exact setPub_acct rfl rfl rfl
      · exact Acct.of0 rfl rfl rfl
    exact (h1.trans h2).trans h3

theorem afterGate_acct {q : P} {v : V} (h : afterGate cfg st q v = .ok st') : Acct p st st' := by
  unfold afterGate at h
  split at h
  · cases h
  · exact begin_acct h
  · simp only [Except.ok.injEq] at h
    subst h
    exact setPub_acct rfl rfl rfl

theorem sendTo_acct {q : P} {v : V} {k : K} {todo : List K} {ok : Bool}
    (h : sendTo cfg st q v k todo ok = .ok st') : Acct p st st' := by
  unfold sendTo at h
  simp only at h
  split at h
  · simp only [Except.ok.injEq] at h; subst h; exact setPub_acct rfl rfl rfl
  · split at h
    · cases h
    · rename_i bp hl
      split at h
      · simp only [Except.ok.injEq] at h; subst h
        exact lease_acct hl rfl rfl rfl
      · simp only [Except.ok.injEq] at h; subst h
        refine Acct.trans (st' := setPub st q { st.pub q with bp := bp, job := .sending v todo }) ?_ (Acct.of0 rfl rfl rfl)
        exact lease_acct hl rfl rfl rfl

theorem step_acct {a : Act P K S V} (ha : a ≠ .sync p) (ha' : a ≠ .syncReturn p)
    (h : step cfg st a = .ok st') : Acct p st st' := by
  cases a with
  | bcast q v =>
    simp only [step] at h
    split at h
    · split at h
      · exact afterGate_acct (ofExcept_eq_ok h)
      · simp only [Res.ok.injEq] at h; subst h; exact setPub_acct rfl rfl rfl
    · cases h
  | gateResume q =>
    simp only [step] at h
    split at h
    · exact afterGate_acct (ofExcept_eq_ok h)
    · cases h
  | slotResume q =>
    simp only [step] at h
    split at h
    · exact begin_acct (ofExcept_eq_ok h)
    · cases h
  | send q ok =>
    simp only [step] at h
    split at h
    · exact sendTo_acct (ofExcept_eq_ok h)
    · cases h
  | finish q =>
    simp only [step] at h
    split at h
    · simp only [Res.ok.injEq] at h; subst h; exact setPub_acct rfl rfl rfl
    · cases h
  | pause q =>
    simp only [step, Res.ok.injEq] at h; subst h
    exact Acct.trans (setPub_acct (q := q) (pb := { st.pub q with running := false }) rfl rfl rfl) (Acct.of0 rfl rfl rfl)
  | resume q =>
    simp only [step, Res.ok.injEq] at h; subst h
    refine Acct.trans (st' := setPub st q { st.pub q with running := true, job := _ }) ?_ (Acct.of0 rfl rfl rfl)
    exact setPub_acct rfl rfl rfl
  | sync q =>
    have hp : p ≠ q := by rintro rfl; exact ha rfl
    simp only [step] at h
    split at h
    · simp only [Res.ok.injEq] at h; subst h
      apply Acct.of <;> simp [addLog, setPub, upd_ne _ _ hp, syncCalls, syncReturns, Ne.symm hp]
    · simp only [Res.ok.injEq] at h; subst h
      apply Acct.of <;> simp [addLog, setPub, upd_ne _ _ hp, syncCalls, syncReturns, Ne.symm hp]
  | syncReturn q =>
    have hp : p ≠ q := by rintro rfl; exact ha' rfl
    simp only [step] at h
    split at h
    · cases h
    · simp only [Res.ok.injEq] at h; subst h
      apply Acct.of <;> simp [addLog, setPub, upd_ne _ _ hp, syncCalls, syncReturns, Ne.symm hp]
  | deliver k =>
    simp only [step] at h
    split at h
    · obtain ⟨st0, e1, e2, e3, _⟩ := deliver_eff (ofExcept_eq_ok h)
      exact ((e1.acct p).trans (Acct.of0 (st' := addLog st0 (.arrived k)) rfl rfl rfl)).trans (e2.acct p)
    · cases h
  | ack k =>
    simp only [step] at h
    split at h
    · obtain ⟨e0, _, _, _⟩ := pubFree_eff (ofExcept_eq_ok h)
      exact (Acct.of0 (st := st) rfl rfl rfl).trans (e0.acct p)
    · cases h
  | recv s =>
    simp only [step] at h
    split at h
    · cases h
    · split at h
      · simp only [Res.ok.injEq] at h; subst h; exact Acct.of0 rfl rfl rfl
      · split at h
        · cases h
        · simp only [Res.ok.injEq] at h; subst h; exact Acct.of0 rfl rfl rfl
  | release s j =>
    simp only [step] at h
    split at h
    · cases h
    · split at h
      · cases h
      · rename_i pp m hj _ k hk
        have h1 := ofExcept_eq_ok h
        cases hr : releaseBp cfg (setSub st s { st.sub s with held := (st.sub s).held.eraseIdx j }) k m s with
        | error e => rw [hr] at h1; cases h1
        | ok st1 =>
          rw [hr] at h1
          simp only [Except.map, Except.ok.injEq] at h1
          subst h1
          obtain ⟨e0, _⟩ := releaseBp_eff hr
          exact ((Acct.of0 (st := st) rfl rfl rfl).trans (e0.acct p)).trans
            (Acct.of0 (st' := addLog st1 (.done s k m)) rfl rfl rfl)
  | link s k =>
    simp only [step] at h
    split at h
    · cases h
    · simp only [Res.ok.injEq] at h; subst h; exact Acct.of0 rfl rfl rfl
  | unlink s k =>
    simp only [step] at h
    split at h
    · cases h
    · split at h
      · cases h
      · simp only [Res.ok.injEq] at h; subst h; exact Acct.of0 rfl rfl rfl
  | connect k =>
    simp only [step] at h
    split at h
    · cases h
    · split at h
      · cases h
      · simp only [Res.ok.injEq] at h; subst h
        by_cases hp : p = cfg.pubOf k
        · subst hp
          apply Acct.of <;> simp [addLog, setPub, setChan, upd_same, syncCalls, syncReturns]
        · apply Acct.of <;> simp [addLog, setPub, setChan, upd_ne _ _ hp, syncCalls, syncReturns]
  | close k =>
    simp only [step] at h
    split at h
    · simp only [Res.ok.injEq] at h; subst h; exact Acct.of0 rfl rfl rfl
    · cases h
  | eof k =>
    simp only [step] at h
    split at h
    · cases h
    · split at h
      · have h1 := ofExcept_eq_ok h
        cases hr : pubFree cfg (setChan st k { st.chan k with acks := [] }) k none with
        | error e => rw [hr] at h1; cases h1
        | ok st1 =>
          rw [hr] at h1
          simp only [Except.map, Except.ok.injEq] at h1
          obtain ⟨e0, _, _, _⟩ := pubFree_eff hr
          refine ((Acct.of0 (st := st) rfl rfl rfl).trans (e0.acct p)).trans ?_
          subst h1
          by_cases hp : p = cfg.pubOf k
          · subst hp
            apply Acct.of <;> simp [addLog, setPub, setChan, upd_same, syncCalls, syncReturns]
          · apply Acct.of <;> simp [addLog, setPub, setChan, upd_ne _ _ hp, syncCalls, syncReturns]
      · cases h

/-- The waiting `sync()` calls are those that were made and have not returned; they wait only while there
is a lease. -/
theorem step_sync {a : Act P K S V} (hi : (st.pub p).bp.Inv) (hb : SyncBusy (st.pub p))
    (hc : syncCalls p st.log = syncReturns p st.log + (st.pub p).syncWait + (st.pub p).syncWoken)
    (h : step cfg st a = .ok st') :
    SyncBusy (st'.pub p) ∧
      syncCalls p st'.log = syncReturns p st'.log + (st'.pub p).syncWait + (st'.pub p).syncWoken := by
  by_cases ha : a = .sync p
  · subst ha
    simp only [step] at h
    split at h
    · simp only [Res.ok.injEq] at h; subst h
      simp only [addLog, setPub, upd_same, syncCalls, syncReturns, if_true, SyncBusy, NoLease]
      exact ⟨hb, by omega⟩
    · rename_i hs
      simp only [Res.ok.injEq] at h; subst h
      simp only [addLog, setPub, upd_same, syncCalls, syncReturns, if_true, SyncBusy, NoLease]
      exact ⟨fun _ hn => hs ((syncReady_iff hi).2 hn), by omega⟩
  · by_cases ha' : a = .syncReturn p
    · subst ha'
      simp only [step] at h
      split at h
      · cases h
      · simp only [Res.ok.injEq] at h; subst h
        simp only [addLog, setPub, upd_same, syncCalls, syncReturns, if_true, SyncBusy, NoLease]
        exact ⟨hb, by omega⟩
    · obtain ⟨_, a2, a3, a4⟩ := step_acct ha ha' h hi
      exact ⟨a2.2 hb, by have := a2.1; omega⟩

end Ez.Sys
