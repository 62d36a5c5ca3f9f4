import Verif.Model.Inflight
import Verif.Lemmas.SystemSync
import Verif.Lemmas.SystemReach

/-!
# C66: the number of messages in flight a publisher reports
-/

set_option linter.unusedSectionVars false
set_option linter.unusedSimpArgs false

namespace Ez.Sys
variable {P K S V : Type} [DecidableEq P] [DecidableEq K] [DecidableEq S]
variable {cfg : Cfg P K S} {st st' st'' : St P K S V} {p : P}

/-! ## Specification -/

/-- Number of buffers of `p` that some channel still uses. -/
def inUse (cfg : Cfg P K S) (st : St P K S V) (p : P) : Nat :=
  ((List.range (cfg.n p)).filter (fun i => (st.pub p).bp.available i != some true)).length

/-- The publisher's `broadcast` has started to deliver and has not ended. -/
def Sending (st : St P K S V) (p : P) : Prop := ∃ v todo, (st.pub p).job = .sending v todo

/-- No channel of `p` lives in the process of `p`. -/
def NoDirect (cfg : Cfg P K S) (p : P) : Prop := ∀ k, cfg.pubOf k = p → cfg.direct k = false

/-! ## What a step that stores nothing does to the leases -/

structure Calmer (cfg : Cfg P K S) (p : P) (st st' : St P K S V) : Prop where
  shrink : (st.pub p).bp.Inv → (st'.pub p).bp.Inv ∧
    (Sending st' p ∨ (¬ Sending st p ∧ ∀ k i, (st'.pub p).bp.Holds k i → (st.pub p).bp.Holds k i))
  same : NoDirect cfg p → (st'.pub p).bp = (st.pub p).bp

theorem Calmer.trans (h : Calmer cfg p st st') (h' : Calmer cfg p st' st'') : Calmer cfg p st st'' where
  shrink hi := by
    obtain ⟨a, b⟩ := h.shrink hi
    obtain ⟨a', b'⟩ := h'.shrink a
    refine ⟨a', ?_⟩
    rcases b' with b' | ⟨b1, b2⟩
    · exact .inl b'
    · rcases b with b | ⟨c1, c2⟩
      · exact absurd b b1
      · exact .inr ⟨c1, fun k i x => c2 k i (b2 k i x)⟩
  same hn := (h'.same hn).trans (h.same hn)

theorem Calmer.of (h1 : (st'.pub p).bp = (st.pub p).bp) (h2 : Sending st p → Sending st' p) : Calmer cfg p st st' where
  shrink hi := by
    rw [h1]
    refine ⟨hi, ?_⟩
    by_cases hs : Sending st p
    · exact .inl (h2 hs)
    · exact .inr ⟨hs, fun _ _ x => x⟩
  same _ := h1

theorem Calmer.of0 (h : st'.pub = st.pub) : Calmer cfg p st st' :=
  .of (by rw [h]) (by unfold Sending; rw [h]; exact fun x => x)

theorem Calmer.before (h' : Calmer cfg p st' st'') (h : st'.pub = st.pub) : Calmer cfg p st st'' :=
  (Calmer.of0 h).trans h'

theorem Calmer.after (h : Calmer cfg p st st') (h' : st''.pub = st'.pub) : Calmer cfg p st st'' :=
  h.trans (.of0 h')

theorem Calmer.refl : Calmer cfg p st st := .of0 rfl

theorem Eff.calmer (h : Eff st st') (h' : NoDirect cfg p → (st'.pub p).bp = (st.pub p).bp) : Calmer cfg p st st' where
  shrink hi := by
    refine ⟨h.bpInv p hi, ?_⟩
    by_cases hs : Sending st p
    · obtain ⟨v, t, hs⟩ := hs
      exact .inl ⟨v, t, (h.sending p v t).2 hs⟩
    · exact .inr ⟨hs, fun k i x => h.holdsLe p k i hi x⟩
  same := h'

theorem setPub_calmer {q : P} {pb : PubSt K V} (h1 : pb.bp = (st.pub q).bp)
    (h2 : q = p → Sending st p → ∃ v t, pb.job = .sending v t) : Calmer cfg p st (setPub st q pb) := by
  by_cases hp : p = q
  · subst hp
    refine .of (by simp only [setPub, upd_same, h1]) ?_
    intro hs
    obtain ⟨v, t, e⟩ := h2 rfl hs
    exact ⟨v, t, by simp only [setPub, upd_same, e]⟩
  · refine .of (by simp only [setPub, upd_ne _ _ hp]) ?_
    unfold Sending
    simp only [setPub, upd_ne _ _ hp]; exact fun x => x

/-! Freeing: the leases of a publisher without a channel in its process do not change. -/

theorem pubFree_other {k : K} {i : Option Nat} (h : pubFree cfg st k i = .ok st') (hk : cfg.pubOf k ≠ p) :
    (st'.pub p).bp = (st.pub p).bp := by
  unfold pubFree at h
  simp only at h
  split at h
  · cases h
  · simp only [Except.ok.injEq] at h
    subst h
    simp only [setPub, upd_ne _ _ (Ne.symm hk)]

theorem releaseBp_same {k : K} {m : Nat} {c : S} (h : releaseBp cfg st k m c = .ok st') (hn : NoDirect cfg p) :
    (st'.pub p).bp = (st.pub p).bp := by
  unfold releaseBp at h
  simp only at h
  split at h
  · cases h
  · split at h
    · cases h
    · simp only [Except.ok.injEq] at h; subst h; rfl
    · split at h
      · cases h
      · split at h
        · rename_i hd
          by_cases hk : cfg.pubOf k = p
          · rw [hn k hk] at hd; cases hd
          · exact (pubFree_other h hk).trans rfl
        · simp only [Except.ok.injEq] at h; subst h; rfl

theorem putNotif_same {c : S} {item : P × Nat} (h : putNotif cfg st c item = .ok st') (hn : NoDirect cfg p) :
    (st'.pub p).bp = (st.pub p).bp := by
  unfold putNotif at h
  cases hm : cfg.maxq c with
  | none =>
    rw [hm] at h
    simp only [Except.ok.injEq] at h
    subst h; rfl
  | some mx =>
    rw [hm] at h
    simp only at h
    cases hpn : LeakyQueue.putNowait mx (st.sub c).queue item with
    | mk d q =>
      rw [hpn] at h
      cases d with
      | none => simp only [Except.ok.injEq] at h; subst h; rfl
      | some d =>
        simp only at h
        split at h
        · simp only [Except.ok.injEq] at h; subst h; rfl
        · rename_i k' _
          cases hr : releaseBp cfg (setSub st c { st.sub c with queue := q }) k' d.2 c with
          | error e => rw [hr] at h; cases h
          | ok st1 =>
            rw [hr] at h
            simp only [Except.map, Except.ok.injEq] at h
            subst h
            exact (releaseBp_same hr hn).trans rfl

theorem notifyLoop_same {k : K} {m : Nat} (hn : NoDirect cfg p) (cs : List S) : ∀ {st st' : St P K S V},
    notifyLoop cfg k m cs st = .ok st' → (st'.pub p).bp = (st.pub p).bp := by
  induction cs with
  | nil =>
    intro st st' h
    simp only [notifyLoop, Except.ok.injEq] at h
    subst h; rfl
  | cons c cs ih =>
    intro st st' h
    simp only [notifyLoop] at h
    split at h
    · cases h
    · split at h
      · cases h
      · rename_i st1 h1
        exact (ih h).trans ((putNotif_same h1 hn).trans rfl)

theorem notify_same {k : K} {m : Nat} {b : Bool} (h : notify cfg st k m = .ok (st', b)) (hn : NoDirect cfg p) :
    (st'.pub p).bp = (st.pub p).bp := by
  unfold notify at h
  split at h
  · cases h
  · rename_i st1 h1
    split at h
    · cases h
    · simp only [Except.ok.injEq, Prod.mk.injEq] at h
      obtain ⟨rfl, _⟩ := h
      exact notifyLoop_same hn _ h1

theorem notify_calmer {k : K} {m : Nat} {b : Bool} (h : notify cfg st k m = .ok (st', b)) : Calmer cfg p st st' :=
  (notify_eff h).1.calmer (notify_same h)

theorem deliver_calmer {k : K} {m : Nat} {pl : Payload V} {rest : List (Nat × Payload V)}
    (h : deliver cfg st k m pl rest = .ok st') : Calmer cfg p st st' := by
  unfold deliver at h
  split at h
  · cases h
  · split at h
    · cases h
    · split at h
      · cases h
      · rename_i st1 hn
        simp only [Except.ok.injEq] at h
        subst h
        exact Calmer.before (notify_calmer hn) rfl
      · rename_i st1 hn
        split at h
        · cases h
        · simp only [Except.ok.injEq] at h
          subst h
          exact (Calmer.before (st := st) (notify_calmer hn) rfl).after rfl

theorem putLocal_calmer {k : K} {m : Nat} {v : V} (h : putLocal cfg st k m v = .ok st')
    (hs : cfg.pubOf k = p → Sending st p) : Calmer cfg p st st' := by
  unfold putLocal at h
  have h0 : Calmer cfg p st (addLog st (.arrived k)) := .of0 rfl
  split at h
  · cases h
  · rename_i hd
    split at h
    · cases h
    · rename_i st1 hn
      simp only [Except.ok.injEq] at h
      subst h
      exact h0.trans (notify_calmer hn)
    · rename_i st1 hn
      split at h
      · cases h
      · rename_i cache _
        simp only at h
        split at h
        · cases h
        · rename_i bp hl
          simp only [Except.ok.injEq] at h
          subst h
          refine ((h0.trans (notify_calmer hn)).trans
            (st'' := setChan st1 k { st1.chan k with cache := cache }) (.of0 rfl)).trans ?_
          by_cases hp : cfg.pubOf k = p
          · subst hp
            refine ⟨fun hi => ⟨?_, .inl ?_⟩, fun hnd => ?_⟩
            · simp only [setPub, upd_same]
              exact (Backpressure.lease_spec hi hl).1
            · obtain ⟨v', t, e⟩ := hs rfl
              have := ((notify_eff hn).1.sending (cfg.pubOf k) v' t).2 e
              exact ⟨v', t, by simp only [setPub, upd_same]; exact this⟩
            · exact absurd (hnd k rfl) hd
          · refine .of ?_ ?_
            · simp only [setPub, upd_ne _ _ (Ne.symm hp)]
            · unfold Sending
              simp only [setPub, upd_ne _ _ (Ne.symm hp)]; exact fun x => x

theorem begin_calmer {q : P} {v : V} (hc : ∀ k ∈ (st.pub q).chans, cfg.pubOf k = q) (h : begin cfg st q v = .ok st') :
    Calmer cfg p st st' := by
  unfold begin at h
  simp only at h
  have h1 : Calmer cfg p st (begun cfg st q v) :=
    (setPub_calmer (pb := { st.pub q with job := .sending v ((st.pub q).chans.filter (fun k => cfg.mode k != .local)) })
      rfl (fun _ _ => ⟨_, _, rfl⟩)).trans (.of0 rfl)
  split at h
  · cases h
  · rename_i st2 hst
    simp only [Except.ok.injEq] at h
    have h2 : Calmer cfg p (begun cfg st q v) st2 := by
      split at hst
      · rename_i k hk
        refine putLocal_calmer hst ?_
        rw [hc k (List.mem_of_find?_eq_some hk)]
        rintro rfl
        exact ⟨v, (st.pub q).chans.filter (fun k => cfg.mode k != .local), by simp [begun, addLog, setPub]⟩
      · simp only [Except.ok.injEq] at hst
        subst hst
        exact .of0 rfl
    have h3 : Calmer cfg p st2 st' := by
      subst h
      split
      · refine setPub_calmer rfl ?_
        rintro rfl hs; exact hs
      · exact .of0 rfl
    exact (h1.trans h2).trans h3

theorem afterGate_calmer {q : P} {v : V} (hc : ∀ k ∈ (st.pub q).chans, cfg.pubOf k = q)
    (hj : q = p → ¬ Sending st p) (h : afterGate cfg st q v = .ok st') : Calmer cfg p st st' := by
  unfold afterGate at h
  split at h
  · cases h
  · exact begin_calmer hc h
  · simp only [Except.ok.injEq] at h
    subst h
    exact setPub_calmer rfl (fun e hs => absurd hs (hj e))

theorem sendTo_fails {q : P} {v : V} {k : K} {todo : List K} {ok : Bool} (hf : (st.chan k).closed && !ok)
    (h : sendTo cfg st q v k todo ok = .ok st') : Calmer cfg p st st' := by
  unfold sendTo at h
  simp only at h
  rw [if_pos hf] at h
  simp only [Except.ok.injEq] at h; subst h
  exact setPub_calmer rfl (fun _ _ => ⟨_, _, rfl⟩)

theorem sendTo_other {q : P} {v : V} {k : K} {todo : List K} {ok : Bool} (hq : q ≠ p)
    (h : sendTo cfg st q v k todo ok = .ok st') : Calmer cfg p st st' := by
  have h0 : ∀ pb, Calmer cfg p st (setPub st q pb) := by
    intro pb
    refine .of (by simp only [setPub, upd_ne _ _ (Ne.symm hq)]) ?_
    unfold Sending
    simp only [setPub, upd_ne _ _ (Ne.symm hq)]; exact fun x => x
  unfold sendTo at h
  simp only at h
  split at h
  · simp only [Except.ok.injEq] at h; subst h; exact h0 _
  · split at h
    · cases h
    · split at h
      · simp only [Except.ok.injEq] at h; subst h; exact h0 _
      · simp only [Except.ok.injEq] at h; subst h
        exact (h0 _).trans (.of0 rfl)

/-- A step that does not store the pressure of `p`. -/
theorem step_calmer {a : Act P K S V} (hc : ∀ q, ∀ k ∈ (st.pub q).chans, cfg.pubOf k = q)
    (ha : sampled cfg st a ≠ some p) (h : step cfg st a = .ok st') : Calmer cfg p st st' := by
  have hns : ∀ q, (∀ v t, (st.pub q).job ≠ .sending v t) → q = p → ¬ Sending st p := by
    rintro q hj rfl ⟨v, t, e⟩
    exact hj v t e
  cases a with
  | bcast q v =>
    simp only [step] at h
    split at h
    · rename_i hj
      split at h
      · exact afterGate_calmer (hc q) (hns q (by simp [hj])) (ofExcept_eq_ok h)
      · simp only [Res.ok.injEq] at h; subst h
        exact setPub_calmer rfl (fun e hs => absurd hs (hns q (by simp [hj]) e))
    · cases h
  | gateResume q =>
    simp only [step] at h
    split at h
    · rename_i hj
      exact afterGate_calmer (hc q) (hns q (by simp [hj])) (ofExcept_eq_ok h)
    · cases h
  | slotResume q =>
    simp only [step] at h
    split at h
    · exact begin_calmer (hc q) (ofExcept_eq_ok h)
    · cases h
  | send q ok =>
    simp only [step] at h
    split at h
    · rename_i v k todo hj
      by_cases hf : ((st.chan k).closed && !ok) = true
      · exact sendTo_fails hf (ofExcept_eq_ok h)
      · refine sendTo_other ?_ (ofExcept_eq_ok h)
        rintro rfl
        simp only [sampled, hj] at ha
        rw [if_neg hf] at ha
        exact ha rfl
    · cases h
  | finish q =>
    have hq : p ≠ q := by rintro rfl; exact ha rfl
    simp only [step] at h
    split at h
    · simp only [Res.ok.injEq] at h; subst h
      exact setPub_calmer rfl (fun e _ => absurd e.symm hq)
    · cases h
  | pause q =>
    simp only [step, Res.ok.injEq] at h; subst h
    refine (setPub_calmer (q := q) (pb := { st.pub q with running := false }) rfl ?_).trans (.of0 rfl)
    rintro rfl hs; exact hs
  | resume q =>
    simp only [step, Res.ok.injEq] at h; subst h
    refine Calmer.trans (st' := setPub st q { st.pub q with running := true, job := _ }) (setPub_calmer rfl ?_)
      (.of0 rfl)
    rintro rfl ⟨v, t, e⟩
    exact ⟨v, t, by simp only [e]⟩
  | sync q =>
    simp only [step] at h
    have h1 : Calmer cfg p st (addLog (setPub st q { st.pub q with running := false }) (.syncing q)) := by
      refine (setPub_calmer (q := q) (pb := { st.pub q with running := false }) rfl ?_).trans (.of0 rfl)
      rintro rfl hs; exact hs
    split at h
    · simp only [Res.ok.injEq] at h; subst h
      exact h1.trans (.of0 rfl)
    · simp only [Res.ok.injEq] at h; subst h
      refine h1.trans (setPub_calmer rfl ?_)
      rintro rfl hs; exact hs
  | syncReturn q =>
    simp only [step] at h
    split at h
    · cases h
    · simp only [Res.ok.injEq] at h; subst h
      refine Calmer.trans (st' := setPub st q { st.pub q with syncWoken := (st.pub q).syncWoken - 1 })
        (setPub_calmer rfl ?_) (.of0 rfl)
      rintro rfl hs; exact hs
  | deliver k =>
    simp only [step] at h
    split at h
    · exact deliver_calmer (ofExcept_eq_ok h)
    · cases h
  | ack k =>
    have hq : cfg.pubOf k ≠ p := by intro e; exact ha (by rw [← e]; rfl)
    simp only [step] at h
    split at h
    · have h1 := ofExcept_eq_ok h
      obtain ⟨e0, _, _, _⟩ := pubFree_eff h1
      exact Calmer.before (e0.calmer (fun _ => pubFree_other h1 hq)) rfl
    · cases h
  | recv s =>
    simp only [step] at h
    split at h
    · cases h
    · split at h
      · simp only [Res.ok.injEq] at h; subst h; exact .of0 rfl
      · split at h
        · cases h
        · simp only [Res.ok.injEq] at h; subst h; exact .of0 rfl
  | release s j =>
    simp only [step] at h
    split at h
    · cases h
    · split at h
      · cases h
      · rename_i pp m hj _ k hk
        have h1 := ofExcept_eq_ok h
        cases hr : releaseBp cfg (setSub st s { st.sub s with held := (st.sub s).held.eraseIdx j }) k m s with
        | error e => rw [hr] at h1; cases h1
        | ok st1 =>
          rw [hr] at h1
          simp only [Except.map, Except.ok.injEq] at h1
          subst h1
          obtain ⟨e0, _⟩ := releaseBp_eff hr
          exact (Calmer.before (st := st) (e0.calmer (releaseBp_same hr)) rfl).after rfl
  | link s k =>
    simp only [step] at h
    split at h
    · cases h
    · simp only [Res.ok.injEq] at h; subst h; exact .of0 rfl
  | unlink s k =>
    simp only [step] at h
    split at h
    · cases h
    · split at h
      · cases h
      · simp only [Res.ok.injEq] at h; subst h; exact .of0 rfl
  | connect k =>
    simp only [step] at h
    split at h
    · cases h
    · split at h
      · cases h
      · simp only [Res.ok.injEq] at h; subst h
        by_cases hp : p = cfg.pubOf k
        · subst hp
          exact .of (by simp only [addLog, setPub, upd_same]) (by
            simp only [Sending, addLog, setPub, upd_same]; exact fun x => x)
        · exact .of (by simp only [addLog, setPub, setChan, upd_ne _ _ hp]) (by
            simp only [Sending, addLog, setPub, setChan, upd_ne _ _ hp]; exact fun x => x)
  | close k =>
    simp only [step] at h
    split at h
    · simp only [Res.ok.injEq] at h; subst h; exact .of0 rfl
    · cases h
  | eof k =>
    have hq : cfg.pubOf k ≠ p := by intro e; exact ha (by rw [← e]; rfl)
    simp only [step] at h
    split at h
    · cases h
    · split at h
      · have h1 := ofExcept_eq_ok h
        cases hr : pubFree cfg (setChan st k { st.chan k with acks := [] }) k none with
        | error e => rw [hr] at h1; cases h1
        | ok st1 =>
          rw [hr] at h1
          simp only [Except.map, Except.ok.injEq] at h1
          obtain ⟨e0, _, _, _⟩ := pubFree_eff hr
          refine (Calmer.before (st := st) (e0.calmer (fun _ => pubFree_other hr hq)) rfl).trans ?_
          subst h1
          exact setPub_calmer rfl (fun e _ => absurd e hq)
      · cases h

/-! ## Counting -/

theorem filter_length_le {α : Type} {f g : α → Bool} (l : List α) (h : ∀ x ∈ l, g x = true → f x = true) :
    (l.filter g).length ≤ (l.filter f).length := by
  induction l with
  | nil => simp
  | cons x l ih =>
    have := ih (fun y hy => h y (List.mem_cons_of_mem _ hy))
    have hx := h x List.mem_cons_self
    simp only [List.filter_cons]
    split <;> split <;> simp_all <;> omega

theorem inUse_pressure {g : St P K S V} (hi : (g.pub p).bp.Inv) (hl : (g.pub p).bp.buffers.length = cfg.n p) :
    (g.pub p).bp.pressure = (inUse cfg g p : Int) := by
  unfold inUse
  rw [← hl]
  exact Backpressure.pressure_count hi

theorem inUse_le : inUse cfg st p ≤ cfg.n p := by
  unfold inUse
  exact Nat.le_trans (List.length_filter_le _ _) (by simp)

theorem inUse_mono (hi : (st.pub p).bp.Inv) (hi' : (st'.pub p).bp.Inv) (hl : (st.pub p).bp.buffers.length = cfg.n p)
    (hl' : (st'.pub p).bp.buffers.length = cfg.n p)
    (h : ∀ k i, (st'.pub p).bp.Holds k i → (st.pub p).bp.Holds k i) : inUse cfg st' p ≤ inUse cfg st p := by
  unfold inUse
  refine filter_length_le _ (fun i hm he => ?_)
  have hm := List.mem_range.1 hm
  simp only [bne_iff_ne, ne_eq] at he ⊢
  rw [Backpressure.available_iff hi' (by omega)] at he
  rw [Backpressure.available_iff hi (by omega)]
  exact fun hx => he (fun u hu => hx u (h u i hu))

/-! ## The invariant of the stored number -/

structure Gauged (cfg : Cfg P K S) (g : GSt P K S V) : Prop where
  reach : Reachable cfg g.sys
  exact : ∀ p, NoDirect cfg p → g.gauge p = inUse cfg g.sys p
  high : ∀ p, ¬ Sending g.sys p → (inUse cfg g.sys p : Int) ≤ g.gauge p
  range : ∀ p, 0 ≤ g.gauge p ∧ g.gauge p ≤ cfg.n p

theorem gstep_ok {g g' : GSt P K S V} {a : Act P K S V} (h : gstep cfg g a = .ok g') :
    step cfg g.sys a = .ok g'.sys ∧ g'.gauge = match sampled cfg g.sys a with
      | some p => upd g.gauge p (g'.sys.pub p).bp.pressure
      | none => g.gauge := by
  unfold gstep at h
  split at h
  · rename_i st' hs
    simp only [Res.ok.injEq] at h
    subst h
    exact ⟨hs, rfl⟩
  · cases h
  · cases h

theorem gauge_sampled {g g' : GSt P K S V} {a : Act P K S V} (h : gstep cfg g a = .ok g')
    (hs : sampled cfg g.sys a = some p) : g'.gauge p = (g'.sys.pub p).bp.pressure := by
  rw [(gstep_ok h).2, hs]
  simp only [upd_same]

theorem gauge_kept {g g' : GSt P K S V} {a : Act P K S V} (h : gstep cfg g a = .ok g')
    (hs : sampled cfg g.sys a ≠ some p) : g'.gauge p = g.gauge p := by
  rw [(gstep_ok h).2]
  split
  · rename_i q hq
    rw [upd_ne]
    rintro rfl; exact hs hq
  · rfl

theorem Gauged.init (hwf : cfg.WF) : Gauged cfg (ginit cfg : GSt P K S V) := by
  have hr : Reachable cfg (Sys.init cfg : St P K S V) := ⟨[], rfl⟩
  have h0 : ∀ p, inUse cfg (Sys.init cfg : St P K S V) p = 0 := by
    intro p
    have := inUse_pressure ((hr.inv hwf).1.pub p).bpInv ((hr.inv hwf).1.pub p).bpLen
    have h1 : ((Sys.init cfg : St P K S V).pub p).bp.pressure = 0 := rfl
    omega
  refine ⟨hr, fun p _ => ?_, fun p _ => ?_, fun p => ?_⟩
  · show (0 : Int) = inUse cfg (Sys.init cfg) p
    rw [h0]; rfl
  · show (inUse cfg (Sys.init cfg) p : Int) ≤ 0
    rw [h0]; decide
  · show (0 : Int) ≤ 0 ∧ (0 : Int) ≤ cfg.n p
    omega

theorem Gauged.step (hwf : cfg.WF) {g g' : GSt P K S V} {a : Act P K S V} (hg : Gauged cfg g)
    (h : gstep cfg g a = .ok g') : Gauged cfg g' := by
  have hs := (gstep_ok h).1
  have hr' := hg.reach.step hs
  have hi := fun p => ((hg.reach.inv hwf).1.pub p)
  have hi' := fun p => ((hr'.inv hwf).1.pub p)
  have hc : ∀ p, sampled cfg g.sys a ≠ some p → Calmer cfg p g.sys g'.sys := fun p hp =>
    step_calmer (fun q k hk => ((hi q).chansPub k hk).1) hp hs
  have hp' := fun p => inUse_pressure (hi' p).bpInv (hi' p).bpLen
  refine ⟨hr', fun p hn => ?_, fun p hn => ?_, fun p => ?_⟩
  · by_cases hp : sampled cfg g.sys a = some p
    · rw [gauge_sampled h hp, hp']
    · rw [gauge_kept h hp, hg.exact p hn]
      unfold inUse
      rw [(hc p hp).same hn]
  · by_cases hp : sampled cfg g.sys a = some p
    · rw [gauge_sampled h hp, hp']; exact Int.le_refl _
    · rw [gauge_kept h hp]
      obtain ⟨_, hs' | ⟨h1, h2⟩⟩ := (hc p hp).shrink (hi p).bpInv
      · exact absurd hs' hn
      · have := hg.high p h1
        have := inUse_mono (hi p).bpInv (hi' p).bpInv (hi p).bpLen (hi' p).bpLen h2
        omega
  · by_cases hp : sampled cfg g.sys a = some p
    · rw [gauge_sampled h hp, hp']
      have := inUse_le (cfg := cfg) (st := g'.sys) (p := p)
      omega
    · rw [gauge_kept h hp]; exact hg.range p

theorem Gauged.grun (hwf : cfg.WF) (as : List (Act P K S V)) : ∀ {g g' : GSt P K S V}, Gauged cfg g →
    grun cfg g as = .ok g' → Gauged cfg g' := by
  induction as with
  | nil =>
    intro g g' hg h
    simp only [Sys.grun, Res.ok.injEq] at h
    subst h; exact hg
  | cons a as ih =>
    intro g g' hg h
    simp only [Sys.grun] at h
    split at h
    · rename_i g1 h1
      exact ih (hg.step hwf h1) h
    · cases h
    · cases h

/-! ## Claims -/

/-- C66 (first half; see `C66_stays_high`): if no channel lives in the publisher's process, the stored number is at
every moment the number of its buffers in use. -/
theorem C66_exact_across_processes_partial (hwf : cfg.WF) (as : List (Act P K S V)) {g : GSt P K S V}
    (h : grun cfg (ginit cfg) as = .ok g) (hn : NoDirect cfg p) : g.gauge p = inUse cfg g.sys p :=
  ((Gauged.init hwf).grun hwf as h).exact p hn

/-- C66: whenever the publisher is not inside `broadcast` with a message under delivery, the stored number is not
below the number of buffers in use. -/
theorem C66_never_low_between_broadcasts (hwf : cfg.WF) (as : List (Act P K S V)) {g : GSt P K S V}
    (h : grun cfg (ginit cfg) as = .ok g) (hn : ¬ Sending g.sys p) : (inUse cfg g.sys p : Int) ≤ g.gauge p :=
  ((Gauged.init hwf).grun hwf as h).high p hn

/-- C66: the stored number lies between 0 and the number of buffers. -/
theorem C66_range (hwf : cfg.WF) (as : List (Act P K S V)) {g : GSt P K S V}
    (h : grun cfg (ginit cfg) as = .ok g) (p : P) : 0 ≤ g.gauge p ∧ g.gauge p ≤ cfg.n p :=
  ((Gauged.init hwf).grun hwf as h).range p

/-- C66: at the end of a broadcast, after an acknowledgement and after a channel has left, the stored number is
exact, wherever the channels live. -/
theorem C66_exact_when_stored (hwf : cfg.WF) (as : List (Act P K S V)) {g g' : GSt P K S V} {a : Act P K S V}
    (h : grun cfg (ginit cfg) as = .ok g) (h' : gstep cfg g a = .ok g')
    (ha : a = .finish p ∨ ∃ k, cfg.pubOf k = p ∧ (a = .ack k ∨ a = .eof k)) : g'.gauge p = inUse cfg g'.sys p := by
  have hg := (Gauged.init hwf).grun hwf as h
  have hi' := ((hg.step hwf h').reach.inv hwf).1.pub p
  rw [gauge_sampled (p := p) h', inUse_pressure hi'.bpInv hi'.bpLen]
  rcases ha with rfl | ⟨k, rfl, rfl | rfl⟩ <;> rfl

/-! ## The stored number can stay too high -/

namespace InflightExample

/-- Publisher and subscriber in one process. -/
def near : Cfg Unit Unit Unit where
  pubOf _ := ()
  n _ := 2
  mode _ := .local
  direct _ := true
  maxq _ := none
  startPaused _ := false

/-- A publisher with two channels elsewhere (shared memory, TCP). -/
def far : Cfg Unit Bool Bool where
  pubOf _ := ()
  n _ := 2
  mode k := if k then .shm else .tcp
  direct _ := false
  maxq _ := none
  startPaused _ := false

/-- One channel in the process of the publisher, one elsewhere. -/
def mixed : Cfg Unit Bool Bool where
  pubOf _ := ()
  n _ := 2
  mode k := if k then .local else .tcp
  direct k := k
  maxq _ := none
  startPaused _ := false

theorem near_wf : near.WF := ⟨fun _ => Nat.zero_lt_two, fun _ _ => rfl, fun _ _ _ _ _ => rfl⟩

theorem far_wf : far.WF := by
  refine ⟨fun _ => Nat.zero_lt_two, fun k h => ?_, fun k _ h => ?_⟩ <;> cases k <;> cases h

theorem mixed_wf : mixed.WF := by
  refine ⟨fun _ => Nat.zero_lt_two, fun k h => ?_, fun k k' h h' _ => ?_⟩
  · cases k
    · cases h
    · rfl
  · cases k
    · cases h
    · cases k'
      · cases h'
      · rfl

/-- The message is published, taken and released. -/
def consumed : List (Act Unit Unit Unit Char) :=
  [.connect (), .link () (), .bcast () 'a', .finish (), .recv (), .release () 0]

def gaugeAfter {K S : Type} [DecidableEq K] [DecidableEq S] (cfg : Cfg Unit K S) (as : List (Act Unit K S Char)) :
    Option (Int × Nat) :=
  match grun cfg (ginit cfg) as with
  | .ok g => some (g.gauge (), inUse cfg g.sys ())
  | _ => none

theorem gaugeAfter_some {K S : Type} [DecidableEq K] [DecidableEq S] {cfg : Cfg Unit K S}
    {as : List (Act Unit K S Char)} {x : Int × Nat} (h : gaugeAfter cfg as = some x) :
    ∃ g, grun cfg (ginit cfg) as = .ok g ∧ g.gauge () = x.1 ∧ inUse cfg g.sys () = x.2 := by
  unfold gaugeAfter at h
  split at h
  · rename_i g hg
    simp only [Option.some.injEq] at h
    subst h
    exact ⟨g, hg, rfl, rfl⟩
  · cases h

end InflightExample

open InflightExample in
/-- C66 fails for subscribers in the publisher's process: the message was taken and released, no buffer is in use, and
the publisher goes on reporting one message in flight until it publishes again. -/
theorem C66_stays_high : near.WF ∧ ∃ g : GSt Unit Unit Unit Char, grun near (ginit near) consumed = .ok g ∧
    g.gauge () = 1 ∧ inUse near g.sys () = 0 := by
  obtain ⟨g, h, h1, h2⟩ := gaugeAfter_some (show gaugeAfter near consumed = some (1, 0) by decide +kernel)
  exact ⟨near_wf, g, h, h1, h2⟩

namespace InflightExample

def farRun : List (Act Unit Bool Bool Char) :=
  [.connect true, .connect false, .link true true, .link false false, .bcast () 'a', .send () true, .send () true,
   .finish (), .bcast () 'b', .send () true, .send () true, .finish (), .deliver true, .recv true, .release true 0]

/-- `C66_exact_across_processes_partial`: two messages in flight, then (after the acknowledgements of the first one) one. -/
example : gaugeAfter far farRun = some (2, 2) ∧
    gaugeAfter far (farRun ++ [.ack true, .deliver false, .recv false, .release false 0]) = some (2, 2) ∧
    gaugeAfter far (farRun ++ [.ack true, .deliver false, .recv false, .release false 0, .ack false]) = some (1, 1) ∧
    NoDirect far () := by
  refine ⟨by decide +kernel, by decide +kernel, by decide +kernel, fun _ _ => rfl⟩

/-- `C66_never_low_between_broadcasts` needs its hypothesis: in the middle of a broadcast the message is already
delivered in the process and not yet counted; at the end of the broadcast it is. -/
example : gaugeAfter mixed [.connect true, .connect false, .link true true, .link false false, .bcast () 'a'] =
      some (0, 1) ∧
    gaugeAfter mixed [.connect true, .connect false, .link true true, .link false false, .bcast () 'a',
      .send () true, .finish ()] = some (1, 1) := by
  refine ⟨by decide +kernel, by decide +kernel⟩

/-- `C66_exact_when_stored`: the end of the next broadcast corrects the number; so does an acknowledgement by a channel
elsewhere. -/
example : gaugeAfter near (consumed ++ [.bcast () 'b', .finish ()]) = some (1, 1) ∧
    gaugeAfter mixed [.connect true, .connect false, .link true true, .link false false, .bcast () 'a',
      .send () true, .finish (), .recv true, .release true 0, .deliver false, .recv false, .release false 0] =
      some (1, 1) ∧
    gaugeAfter mixed [.connect true, .connect false, .link true true, .link false false, .bcast () 'a',
      .send () true, .finish (), .recv true, .release true 0, .deliver false, .recv false, .release false 0,
      .ack false] = some (0, 0) := by
  refine ⟨by decide +kernel, by decide +kernel, by decide +kernel⟩

end InflightExample

end Ez.Sys
