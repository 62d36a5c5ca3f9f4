import Verif.Props.Delivery
import Verif.Lemmas.SystemSync

/-!
# C22, C24, C25, C27, C28: progress, departures, pause and sync
-/

set_option linter.unusedSectionVars false
set_option linter.unusedSimpArgs false

namespace Ez.Sys
variable {P K S V : Type} [DecidableEq P] [DecidableEq K] [DecidableEq S]
variable {cfg : Cfg P K S} {O : K → Prop} {st st' : St P K S V}

/-! ## C22: progress -/

theorem drains_orderly {a : Act P K S V} (ha : a.drains = true) (k : K) (_ : O k) : ¬ LeavesEarly cfg st k a := by
  rintro ⟨s, m, rfl, _⟩
  cases ha

theorem ReachableOrderly.drain (h : ReachableOrderly cfg O st) (as : List (Act P K S V)) :
    (∀ a ∈ as, a.drains = true) → run cfg st as = .ok st' → ReachableOrderly cfg O st' := by
  induction as generalizing st with
  | nil => intro _ hr; simp only [run, Res.ok.injEq] at hr; subst hr; exact h
  | cons a as ih =>
    intro ha hr
    simp only [run] at hr
    split at hr
    · cases hr
    · cases hr
    · rename_i st1 hs
      exact ih (h.step (drains_orderly (ha a (List.mem_cons_self ..))) hs)
        (fun b hb => ha b (List.mem_cons_of_mem _ hb)) hr

/-- **C22.** If a publisher waits for buffer space (and no subscriber ever left one of its channels with
unfinished messages), some delivery, acknowledgement, receive, release or end of a closed connection can happen
next. -/
theorem C22_progress (hwf : cfg.WF) (h : ReachableOrderly cfg O st) {p : P}
    (hO : ∀ k, cfg.pubOf k = p → O k) {v : V} (hj : (st.pub p).job = .slot v false) :
    ∃ a : Act P K S V, a.drains = true ∧ ∃ st', step cfg st a = .ok st' := by
  have hi := h.inv hwf
  apply Classical.byContradiction
  intro hno
  have hd : ∀ a : Act P K S V, a.drains = true → step cfg st a = .disabled := by
    intro a ha
    rcases step_ok hwf hi a (drains_orderly ha) with h1 | ⟨st1, h1, _⟩
    · exact h1
    · exact absurd ⟨a, ha, st1, h1⟩ hno
  have hn := drained hwf (p := p) hi hO hd (by rw [hj]; intro _ _ e; cases e)
  obtain ⟨k, hk⟩ := (hi.pub p).slotBusy v hj
  exact hn k _ hk

/-- **C22**, termination: with finitely many channels and subscribers there is a bound on the number of
such steps, however they are chosen. -/
theorem C22_draining_ends (hwf : cfg.WF) (h : Reachable cfg st) {ks : List K} {ss : List S} (hk : ks.Nodup)
    (hka : ∀ k, k ∈ ks) (hs : ss.Nodup) (hsa : ∀ s, s ∈ ss) :
    ∃ bound, ∀ (as : List (Act P K S V)) st', (∀ a ∈ as, a.drains = true) → run cfg st as = .ok st' →
      as.length ≤ bound := by
  refine ⟨work cfg ks ss st, ?_⟩
  intro as
  induction as generalizing st with
  | nil => intro st' _ _; exact Nat.zero_le _
  | cons a as ih =>
    intro st' ha hr
    simp only [run] at hr
    split at hr
    · cases hr
    · cases hr
    · rename_i st1 hst
      have h1 := ih (h.step hst) st' (fun b hb => ha b (List.mem_cons_of_mem _ hb)) hr
      have h2 := drain_work (h.inv hwf).1 hk hka hs hsa (ha a (List.mem_cons_self ..)) hst
      simp only [List.length_cons]
      omega

/-- **C22**, the end of draining: however readers drain until nothing is left to do, the publisher has no
backpressure left, and if it was waiting for buffer space its broadcast now goes ahead. -/
theorem C22_drained (hwf : cfg.WF) (h : ReachableOrderly cfg O st) {as : List (Act P K S V)}
    (ha : ∀ a ∈ as, a.drains = true) (hr : run cfg st as = .ok st')
    (hd : ∀ a : Act P K S V, a.drains = true → step cfg st' a = .disabled) {p : P}
    (hO : ∀ k, cfg.pubOf k = p → O k) (hj : ∀ v todo, (st.pub p).job ≠ .sending v todo) :
    (st'.pub p).bp.syncReady = true ∧
    (∀ v b, (st.pub p).job = .slot v b → ∃ st'', step cfg st' (.slotResume p) = .ok st'' ∧
      bcasts p st''.log = bcasts p st'.log ++ [v]) := by
  have h' := h.drain as ha hr
  have hi := h'.inv hwf
  have hby : ∀ (as : List (Act P K S V)) (st : St P K S V), ReachableOrderly cfg O st →
      (∀ a ∈ as, a.drains = true) → run cfg st as = .ok st' →
      (∀ v, (∃ b, (st'.pub p).job = .slot v b) ↔ ∃ b, (st.pub p).job = .slot v b) ∧
      (∀ v b, (st'.pub p).job = .sending v b ↔ (st.pub p).job = .sending v b) := by
    intro as
    induction as with
    | nil =>
      intro st _ _ hr
      simp only [run, Res.ok.injEq] at hr; subst hr
      exact ⟨fun _ => Iff.rfl, fun _ _ => Iff.rfl⟩
    | cons a as ih =>
      intro st ho ha hr
      simp only [run] at hr
      split at hr
      · cases hr
      · cases hr
      · rename_i st1 hs
        have hda := ha a (List.mem_cons_self ..)
        obtain ⟨h1, h3⟩ := ih st1 (ho.step (drains_orderly hda) hs)
          (fun b hb => ha b (List.mem_cons_of_mem _ hb)) hr
        have hb := step_bystander (p := p) (ho.inv hwf) (drains_actor hda p) hs
        exact ⟨fun v => (h1 v).trans (hb.slot v), fun v b => (h3 v b).trans (hb.sending v b)⟩
  obtain ⟨b1, b3⟩ := hby as st h ha hr
  have hj' : ∀ v todo, (st'.pub p).job ≠ .sending v todo := fun v todo e => hj v todo ((b3 v todo).1 e)
  have hn := drained hwf hi hO hd hj'
  refine ⟨(syncReady_iff (hi.pub p).bpInv).2 hn, ?_⟩
  intro v b hjj
  obtain ⟨b', hb'⟩ := (b1 v).2 ⟨b, hjj⟩
  have hv' : (st'.pub p).job = .slot v true := by
    cases b' with
    | true => exact hb'
    | false =>
      obtain ⟨k, hk⟩ := (hi.pub p).slotBusy v hb'
      exact absurd hk (hn k _)
  rcases step_ok hwf hi (.slotResume p) (by rintro _ _ ⟨_, _, e, _⟩; cases e) with h1 | ⟨st2, h1, _⟩
  · simp only [step, hv'] at h1
    cases hb : begin cfg st' p v with
    | error e => rw [hb] at h1; cases h1
    | ok st2 => rw [hb] at h1; cases h1
  · refine ⟨st2, h1, ?_⟩
    simp only [step, hv'] at h1
    exact begin_bcasts (ofExcept_eq_ok h1)

/-- A run in which no subscriber is unlinked is orderly. -/
theorem orderly_of_run {as : List (Act P K S V)} (ha : ∀ a ∈ as, ∀ s k, a ≠ .unlink s k) :
    ∀ {st st' : St P K S V}, ReachableOrderly cfg O st → run cfg st as = .ok st' → ReachableOrderly cfg O st' := by
  induction as with
  | nil => intro st st' h hr; simp only [run, Res.ok.injEq] at hr; subst hr; exact h
  | cons a as ih =>
    intro st st' h hr
    simp only [run] at hr
    split at hr
    · cases hr
    · cases hr
    · rename_i st1 hs
      refine ih (fun b hb => ha b (List.mem_cons_of_mem _ hb)) (h.step ?_ hs) hr
      rintro k _ ⟨s, m, rfl, _⟩
      exact ha _ (List.mem_cons_self ..) s k rfl

/-- **C22** with fixed links: if no subscriber is ever unlinked, a publisher waiting for buffer space can
always be unblocked. -/
theorem C22_progress_fixed_links (hwf : cfg.WF) {as : List (Act P K S V)} (ha : ∀ a ∈ as, ∀ s k, a ≠ .unlink s k)
    (hr : run cfg (init cfg) as = .ok st) {p : P} {v : V} (hj : (st.pub p).job = .slot v false) :
    ∃ a : Act P K S V, a.drains = true ∧ ∃ st', step cfg st a = .ok st' :=
  C22_progress hwf (O := fun _ => True) (orderly_of_run ha ReachableOrderly.init hr) (fun _ _ => trivial) hj

/-- Two messages fill both buffers of the demo system; the third broadcast waits. -/
def demoBlocked : List (Act Unit (Fin 3) (Fin 3) Char) :=
  demoSetup ++ demoSend 'a' ++ demoSend 'b' ++ [.bcast () 'c']

theorem after_orderly {as : List (Act P K S V)} (ha : ∀ a ∈ as, ∀ s k, a ≠ .unlink s k) :
    ReachableOrderly cfg O (after cfg as) := by
  unfold after
  split
  · rename_i st h; exact orderly_of_run ha ReachableOrderly.init h
  · exact ReachableOrderly.init

/-- No step of the list is an `unlink`. -/
def noUnlink (as : List (Act P K S V)) : Bool :=
  as.all fun a => match a with
    | .unlink _ _ => false
    | _ => true

theorem noUnlink_spec {as : List (Act P K S V)} (h : noUnlink as = true) : ∀ a ∈ as, ∀ s k, a ≠ .unlink s k := by
  rintro a ha s k rfl
  have := List.all_eq_true.1 h _ ha
  cases this

/-- The hypotheses of C22 are met: the third broadcast waits for a buffer. -/
example : ReachableOrderly demo (fun _ => True) (after demo demoBlocked) ∧
    ((after demo demoBlocked).pub ()).job = .slot 'c' false :=
  ⟨after_orderly (noUnlink_spec rfl), rfl⟩

/-- ... and a run to the end of draining exists. -/
def demoDrain : List (Act Unit (Fin 3) (Fin 3) Char) :=
  [.deliver 1, .deliver 1, .deliver 2, .deliver 2, .recv 0, .recv 0, .release 0 1, .release 0 0, .recv 1,
    .release 1 0, .recv 1, .release 1 0, .recv 2, .release 2 0, .ack 1, .ack 1, .ack 2, .ack 2]

example : (∀ a ∈ demoDrain, a.drains = true) ∧
    ((after demo (demoBlocked ++ demoDrain)).pub ()).job = .slot 'c' true ∧
    ((after demo (demoBlocked ++ demoDrain)).pub ()).bp.pressure = 0 := by
  refine ⟨?_, rfl, rfl⟩
  intro a ha
  simp [demoDrain] at ha
  rcases ha with rfl | rfl | rfl | rfl | rfl | rfl | rfl | rfl | rfl | rfl | rfl | rfl | rfl | rfl <;> rfl

/-! ## C24: leaky subscribers -/

/-- What keeps a publisher's buffer leased once deliveries and acknowledgements have been processed: a
notified and unfinished message. -/
theorem lease_unfinished1 (hi : Inv cfg O none st) {k : K} (hst : O k)
    (hj : ∀ v todo, (st.pub (cfg.pubOf k)).job ≠ .sending v todo)
    (d1 : step cfg st (.deliver k) = .disabled) (d2 : step cfg st (.ack k) = .disabled)
    (d3 : step cfg st (.eof k) = .disabled) {i : Nat} (hh : (st.pub (cfg.pubOf k)).bp.Holds k i) :
    (st.chan k).wire = [] ∧ ∃ s m, m % cfg.n (cfg.pubOf k) = i ∧ Unfinished cfg st k s m := by
  have hp := hi.pub (cfg.pubOf k)
  have hmem := hp.holdsMem k i hh
  have hc := hi.chan k
  have hcl : (st.chan k).closed = false := by
    cases hcl : (st.chan k).closed with
    | false => rfl
    | true =>
      exfalso
      obtain ⟨st1, h2, _⟩ := eof_ok hi hj hcl
      cases hjj : (st.pub (cfg.pubOf k)).job with
      | sending v todo => exact hj _ _ hjj
      | _ =>
        simp only [step, hjj] at d3
        rw [if_pos (by simp [hcl, hmem]), h2] at d3
        cases d3
  have hw : (st.chan k).wire = [] := by
    simp only [step] at d1
    cases hw : (st.chan k).wire with
    | nil => rfl
    | cons x rest =>
      obtain ⟨m', pl⟩ := x
      obtain ⟨st1, h2, _⟩ := deliver_ok hi hw
      rw [hw] at d1
      simp only [h2] at d1
      cases d1
  have ha : (st.chan k).acks = [] := by
    simp only [step] at d2
    cases ha : (st.chan k).acks with
    | nil => rfl
    | cons m' rest =>
      obtain ⟨st1, h2, _⟩ := ack_ok hi ha
      rw [ha] at d2
      simp only [h2] at d2
      cases d2
  obtain ⟨m, hm, hl⟩ := hc.noleak hst hcl i hh
  refine ⟨hw, ?_⟩
  rcases hl with (hl | ⟨c, hl⟩ | hl) | hl
  · rw [hw] at hl; cases hl
  · exact ⟨c, m, hm, hl⟩
  · rw [ha] at hl; cases hl
  · cases hl

theorem lease_unfinished (hi : Inv cfg O none st) {p : P} (hst : ∀ k, cfg.pubOf k = p → O k)
    (hj : ∀ v todo, (st.pub p).job ≠ .sending v todo)
    (hd : ∀ k, cfg.pubOf k = p → step cfg st (.deliver k) = .disabled ∧ step cfg st (.ack k) = .disabled ∧
      step cfg st (.eof k) = .disabled) {k : K} {i : Nat} (hh : (st.pub p).bp.Holds k i) :
    cfg.pubOf k = p ∧ (st.chan k).wire = [] ∧ ∃ s m, m % cfg.n p = i ∧ Unfinished cfg st k s m := by
  have hp := hi.pub p
  have hkp := (hp.chansPub k (hp.holdsMem k i hh)).1
  subst hkp
  obtain ⟨d1, d2, d3⟩ := hd k rfl
  exact ⟨rfl, lease_unfinished1 hi (hst k rfl) hj d1 d2 d3 hh⟩

/-- **C24**, partial: if every subscriber of the publisher is leaky with `max_queue < num_buffers`, then once
deliveries and acknowledgements are processed the next buffer is available, without any subscriber
receiving anything — unless a subscriber is still inside the receive block of the message
`num_buffers` before the next one (this exception is missing in C24 as stated). -/
theorem C24_available_partial (hwf : cfg.WF) (h : ReachableOrderly cfg O st) {p : P}
    (hO : ∀ k, cfg.pubOf k = p → O k)
    (hl : ∀ s k, (st.sub s).chans p = some k → ∃ mx, cfg.maxq s = some mx ∧ 0 < mx ∧ mx < cfg.n p)
    (hj : ∀ v todo, (st.pub p).job ≠ .sending v todo)
    (hd : ∀ k, cfg.pubOf k = p → step cfg st (.deliver k) = .disabled ∧ step cfg st (.ack k) = .disabled ∧
      step cfg st (.eof k) = .disabled)
    (hh : ∀ s m, (p, m) ∈ (st.sub s).held → m + cfg.n p ≠ (bcasts p st.log).length) :
    (st.pub p).bp.available ((st.pub p).msgId % cfg.n p) = some true ∧
      ∀ v, (st.pub p).job ≠ .slot v false := by
  have hi := h.inv hwf
  have hx := (h.reachable.inv hwf).2
  have hp := hi.pub p
  have hpos := hwf.pos p
  have hlen : (bcasts p st.log).length = (st.pub p).msgId := by
    have := hp.jobLen
    split at this
    · rename_i e; exact absurd e (hj _ _)
    · exact this
  have hno : ∀ k, ¬ (st.pub p).bp.Holds k ((st.pub p).msgId % cfg.n p) := by
    intro k hhold
    obtain ⟨rfl, hw, s, m, hm, hu⟩ := lease_unfinished hi hO hj hd hhold
    have hc := hi.chan k
    have hr := hc.recent m (Or.inl (Or.inr (Or.inl ⟨s, hu⟩)))
    rw [hlen] at hr hh
    have hne : m + cfg.n (cfg.pubOf k) = (st.pub (cfg.pubOf k)).msgId := by
      have h1 : ((st.pub (cfg.pubOf k)).msgId - m) % cfg.n (cfg.pubOf k) = 0 :=
        Nat.sub_mod_eq_zero_of_mod_eq hm.symm
      have h2 : (st.pub (cfg.pubOf k)).msgId - m ≤ cfg.n (cfg.pubOf k) := by omega
      rcases Nat.lt_or_ge ((st.pub (cfg.pubOf k)).msgId - m) (cfg.n (cfg.pubOf k)) with e | e
      · rw [Nat.mod_eq_of_lt e] at h1; omega
      · omega
    obtain ⟨hk, hq | hq⟩ := hu
    · obtain ⟨o1, o2, o3⟩ := linked_open hi hk
      have hend := hc.wireEnd o1 o3
      have hsent : sentOf cfg st k = (bcasts (cfg.pubOf k) st.log).length := by
        unfold sentOf
        split
        · rename_i hjj; exact absurd hjj (hj _ _)
        · rfl
      rw [hw, hsent, hlen] at hend
      obtain ⟨a, h1, h2, h3, _⟩ := seq_of hi hk
      have hmq := mem_qids.2 hq
      rw [h3, List.mem_range'_1] at hmq
      obtain ⟨mx, e1, e2, e3⟩ := hl s k hk
      have hql := hx.queue s mx e1 e2
      have : (qids (cfg.pubOf k) (st.sub s).queue).length ≤ (st.sub s).queue.length := by
        unfold qids; rw [List.length_map]; exact List.length_filter_le _ _
      simp only [List.length_nil, Nat.add_zero] at hend
      omega
    · exact hh s m hq hne
  have hlt : (st.pub p).msgId % cfg.n p < (st.pub p).bp.buffers.length := by
    rw [hp.bpLen]; exact Nat.mod_lt _ hpos
  refine ⟨(Backpressure.available_iff hp.bpInv hlt).2 hno, ?_⟩
  intro v hv
  obtain ⟨k, hk⟩ := hp.slotBusy v hv
  exact hno k hk

/-- One publisher with three buffers, one process over TCP, one leaky subscriber with `max_queue = 1`. -/
def leakyCfg : Cfg Unit Unit Unit where
  pubOf _ := ()
  n _ := 3
  mode _ := .tcp
  direct _ := false
  maxq _ := some 1
  startPaused _ := false

theorem leakyCfg_wf : leakyCfg.WF where
  pos _ := Nat.zero_lt_succ 2
  localDirect := by intro k h; cases h
  localOne := by intro k k' h; cases h

def leakySend (v : Char) : List (Act Unit Unit Unit Char) :=
  [.bcast () v, .send () true, .finish (), .deliver ()]

/-- The subscriber is inside the receive block of message 0 when messages 1, 2 and 3 are broadcast. -/
def leakyHold : List (Act Unit Unit Unit Char) :=
  [.connect (), .link () ()] ++ leakySend 'a' ++ [.recv ()] ++ leakySend 'b' ++ leakySend 'c' ++
    [.ack (), .bcast () 'd']

/-- **C24** as stated fails: with `max_queue + 1 < num_buffers` and one message held, all deliveries and
acknowledgements processed, the publisher is blocked. -/
theorem C24_negation : ∃ st : St Unit Unit Unit Char, ReachableOrderly leakyCfg (fun _ => True) st ∧
    (∀ s, leakyCfg.maxq s = some 1 ∧ ((1 : Int) + 1 < leakyCfg.n ())) ∧ (∀ s, (st.sub s).held.length ≤ 1) ∧
    (∀ k, step leakyCfg st (.deliver k) = .disabled ∧ step leakyCfg st (.ack k) = .disabled ∧
      step leakyCfg st (.eof k) = .disabled) ∧
    (st.pub ()).job = .slot 'd' false ∧
    (st.pub ()).bp.available ((st.pub ()).msgId % leakyCfg.n ()) = some false :=
  ⟨after leakyCfg leakyHold, after_orderly (noUnlink_spec rfl), fun _ => ⟨rfl, by decide⟩, fun _ => Nat.le_refl 1,
    fun _ => ⟨rfl, rfl, rfl⟩, rfl, rfl⟩

/-- The hypotheses of the partial theorem are met: the subscriber never receives, four messages go
through. -/
def leakyFree : List (Act Unit Unit Unit Char) :=
  [.connect (), .link () ()] ++ leakySend 'a' ++ leakySend 'b' ++ leakySend 'c' ++ [.ack (), .ack ()] ++
    leakySend 'd' ++ [.ack ()]

example : ReachableOrderly leakyCfg (fun _ => True) (after leakyCfg leakyFree) ∧
    (bcasts () (after leakyCfg leakyFree).log).length = 4 ∧ ((after leakyCfg leakyFree).sub ()).held = [] ∧
    ((after leakyCfg leakyFree).sub ()).queue = [((), 3)] ∧
    (∀ k, step leakyCfg (after leakyCfg leakyFree) (.deliver k) = .disabled ∧
      step leakyCfg (after leakyCfg leakyFree) (.ack k) = .disabled ∧
      step leakyCfg (after leakyCfg leakyFree) (.eof k) = .disabled) ∧
    ((after leakyCfg leakyFree).pub ()).job = .idle :=
  ⟨after_orderly (noUnlink_spec rfl), rfl, rfl, rfl, fun _ => ⟨rfl, rfl, rfl⟩, rfl⟩

/-! ## C25: departing subscribers -/

/-- **C25**, channel side, partial: unlinking a subscriber frees all its leases on the channel, removes
exactly the publisher's notifications from its queue, and leaves the other clients' leases alone.
(That the publisher's buffers become free is missing, see `C25_negation`.) -/
theorem C25_unlink_partial (hwf : cfg.WF) (h : Reachable cfg st) {s : S} {k : K}
    (hs : step cfg st (.unlink s k) = .ok st') :
    (∀ i, ¬ (st'.chan k).bp.Holds s i) ∧ s ∉ (st'.chan k).clients ∧
    (∀ c i, c ≠ s → ((st'.chan k).bp.Holds c i ↔ (st.chan k).bp.Holds c i)) ∧
    (∀ c, c ≠ s → (c ∈ (st'.chan k).clients ↔ c ∈ (st.chan k).clients)) ∧
    (st'.sub s).queue = (st.sub s).queue.filter (fun x => decide (x.1 ≠ cfg.pubOf k)) := by
  have hi := (h.inv hwf).1
  simp only [step] at hs
  split at hs
  · cases hs
  · split at hs
    · cases hs
    · rename_i bp hf
      simp only [Res.ok.injEq] at hs
      subst hs
      obtain ⟨b1, b2, b3⟩ := Backpressure.free_spec (hi.chan k).bpInv hf
      refine ⟨?_, ?_, ?_, ?_, ?_⟩
      · intro i
        simp only [addLog, setSub, setChan, upd_same, b3]
        rintro ⟨_, h2⟩
        exact h2 (by simp)
      · simp [addLog, setSub, setChan]
      · intro c i hc
        simp only [addLog, setSub, setChan, upd_same, b3]
        exact ⟨fun hh => hh.1, fun hh => ⟨hh, fun e => hc e.1⟩⟩
      · intro c hc
        simp [addLog, setSub, setChan, hc]
      · simp only [addLog, setSub, setChan, upd_same]
        rw [rotateOut_eq]
        apply List.filter_congr
        intro x _
        by_cases e : x.1 = cfg.pubOf k <;> simp [e]

/-- **C25**, partial: a subscriber that leaves without unfinished messages leaves nothing behind: every
buffer of the publisher leased to the channel afterwards is on account of a message under way, of
another client that has not finished, or of an acknowledgement under way. -/
theorem C25_orderly_partial (hwf : cfg.WF) {s : S} {k : K} (h : ReachableOrderly cfg (fun k' => k' = k) st)
    (hl : ∀ m, ¬ Unfinished cfg st k s m) (hs : step cfg st (.unlink s k) = .ok st')
    (hcl : (st'.chan k).closed = false) {i : Nat} (hh : (st'.pub (cfg.pubOf k)).bp.Holds k i) :
    ∃ m, m % cfg.n (cfg.pubOf k) = i ∧ (m ∈ (st'.chan k).wire.map (·.1) ∨
      (∃ c, c ≠ s ∧ Unfinished cfg st' k c m) ∨ m ∈ (st'.chan k).acks) := by
  have h' : ReachableOrderly cfg (fun k' => k' = k) st' := h.step (by
    rintro k' hk ⟨s', m, e, hu⟩
    cases e
    exact hl m hu) hs
  have hi := h'.inv hwf
  obtain ⟨m, hm, hlv⟩ := (hi.chan k).noleak rfl hcl i hh
  refine ⟨m, hm, ?_⟩
  rcases hlv with (e | ⟨c, e⟩ | e) | e
  · exact Or.inl e
  · refine Or.inr (Or.inl ⟨c, ?_, e⟩)
    rintro rfl
    have := (C25_unlink_partial hwf h.reachable hs).2.1
    exact this ((hi.cl c k).2 e.1)
  · exact Or.inr (Or.inr e)
  · cases e

/-- **C25**, last client: when the connection of a closed channel has been noticed, none of the publisher's
buffers is leased to it any more, whatever was unfinished. -/
theorem C25_closed_frees_all (hwf : cfg.WF) (h : Reachable cfg st) {k : K}
    (hs : step cfg st (.eof k) = .ok st') (i : Nat) : ¬ (st'.pub (cfg.pubOf k)).bp.Holds k i := by
  have hi := (h.inv hwf).1
  simp only [step] at hs
  split at hs
  · cases hs
  · split at hs
    · have hs := ofExcept_eq_ok hs
      unfold pubFree at hs
      simp only at hs
      split at hs
      · cases hs
      · rename_i bp hf
        have hb := (Backpressure.free_spec (hi.pub (cfg.pubOf k)).bpInv hf).2.2
        simp only [Except.map, Except.ok.injEq] at hs
        subst hs
        simp only [setPub, upd_same, wake_bp]
        intro hh
        exact ((hb k i).1 hh).2 (by simp)
    · cases hs

/-- One publisher with a single buffer, one process over TCP, two subscribers in it. -/
def pairCfg : Cfg Unit Unit (Fin 2) where
  pubOf _ := ()
  n _ := 1
  mode _ := .tcp
  direct _ := false
  maxq _ := none
  startPaused _ := false

theorem pairCfg_wf : pairCfg.WF where
  pos _ := Nat.zero_lt_succ 0
  localDirect := by intro k h; cases h
  localOne := by intro k k' h; cases h

/-- Subscriber 1 finishes message 0; subscriber 0 leaves with message 0 in its queue. -/
def pairLeave : List (Act Unit Unit (Fin 2) Char) :=
  [.connect (), .link 0 (), .link 1 (), .bcast () 'a', .send () true, .finish (), .deliver (), .recv 1,
    .release 1 0, .unlink 0 (), .bcast () 'b']

/-- **C25** as stated fails: the buffer that only the departed subscriber was holding stays leased. The
publisher waits for it, nothing is under way, nobody holds or awaits a message, and no delivery,
acknowledgement, receive or release is possible. -/
theorem C25_negation : ∃ st : St Unit Unit (Fin 2) Char, Reachable pairCfg st ∧
    (st.sub 1).chans () = some () ∧ (st.pub ()).job = .slot 'b' false ∧
    (∀ k s m, ¬ Unfinished pairCfg st k s m) ∧ (∀ k, (st.chan k).wire = [] ∧ (st.chan k).acks = []) ∧
    (∀ a : Act Unit Unit (Fin 2) Char, a.drains = true → step pairCfg st a = .disabled) := by
  refine ⟨after pairCfg pairLeave, after_reachable _ _, rfl, rfl, ?_, fun _ => ⟨rfl, rfl⟩, ?_⟩
  · rintro k s m ⟨_, hu⟩
    match s with
    | 0 => rcases hu with hu | hu <;> cases hu
    | 1 => rcases hu with hu | hu <;> cases hu
  · intro a ha
    cases a with
    | deliver k => rfl
    | ack k => rfl
    | recv s => match s with
      | 0 => rfl
      | 1 => rfl
    | release s j => match s with
      | 0 => rfl
      | 1 => rfl
    | eof k => rfl
    | _ => cases ha

/-- The hypotheses of the partial theorems are met if subscriber 0 finishes first. -/
def pairOrderly : List (Act Unit Unit (Fin 2) Char) :=
  [.connect (), .link 0 (), .link 1 (), .bcast () 'a', .send () true, .finish (), .deliver (), .recv 0,
    .release 0 0]

example : ReachableOrderly pairCfg (fun _ => True) (after pairCfg pairOrderly) ∧
    (∀ m, ¬ Unfinished pairCfg (after pairCfg pairOrderly) () 0 m) ∧
    Unfinished pairCfg (after pairCfg pairOrderly) () 1 0 ∧
    ∃ st', step pairCfg (after pairCfg pairOrderly) (.unlink 0 ()) = .ok st' :=
  ⟨after_orderly (noUnlink_spec rfl), (by rintro m ⟨_, hu | hu⟩ <;> cases hu), ⟨rfl, Or.inl (by decide)⟩, _, rfl⟩

/-- The last client leaves with an unfinished message; the channel is closed. -/
example : ∃ st', step pairCfg (after pairCfg (pairLeave ++ [.unlink 1 (), .close ()])) (.eof ()) = .ok st' ∧
    (st'.pub ()).job = .slot 'b' true := ⟨_, rfl, rfl⟩

/-! ## C27: no listeners -/

/-- **C27.** Broadcasting into channels without clients leaves no lasting lease, in every reachable state and
whatever else happens in the system: take channels `O` without clients and without leases (for instance
freshly connected ones); as long as nobody is linked to them, however many messages are broadcast, once
what is under way to one of them has been delivered and acknowledged, nothing is leased to it. -/
theorem C27_no_lasting_lease (hwf : cfg.WF) (h : Reachable cfg st) (hc : ∀ k, O k → (st.chan k).clients = [])
    (hn : ∀ k, O k → ∀ i, ¬ (st.pub (cfg.pubOf k)).bp.Holds k i) {as : List (Act P K S V)}
    (ha : ∀ a ∈ as, ∀ s k, O k → a ≠ .link s k) (hr : run cfg st as = .ok st') {k : K} (hk : O k)
    (hj : ∀ v todo, (st'.pub (cfg.pubOf k)).job ≠ .sending v todo)
    (d1 : step cfg st' (.deliver k) = .disabled) (d2 : step cfg st' (.ack k) = .disabled)
    (d3 : step cfg st' (.eof k) = .disabled) (i : Nat) : ¬ (st'.pub (cfg.pubOf k)).bp.Holds k i := by
  have hi0 : Inv cfg O none st := (h.inv hwf).1.strengthen (fun k hk => Or.inr (hn k hk))
  have hl0 : ∀ k, O k → ∀ s, (st.sub s).chans (cfg.pubOf k) ≠ some k := by
    intro k hk s e
    have := (hi0.cl s k).2 e
    rw [hc k hk] at this
    cases this
  have key : ∀ (as : List (Act P K S V)) (st : St P K S V), Inv cfg O none st →
      (∀ k, O k → ∀ s, (st.sub s).chans (cfg.pubOf k) ≠ some k) → (∀ a ∈ as, ∀ s k, O k → a ≠ .link s k) →
      run cfg st as = .ok st' → Inv cfg O none st' ∧ (∀ k, O k → ∀ s, (st'.sub s).chans (cfg.pubOf k) ≠ some k) := by
    intro as
    induction as with
    | nil => intro st hi hl _ hr; simp only [run, Res.ok.injEq] at hr; subst hr; exact ⟨hi, hl⟩
    | cons a as ih =>
      intro st hi hl ha hr
      simp only [run] at hr
      split at hr
      · cases hr
      · cases hr
      · rename_i st1 hs
        rcases step_ok hwf hi a (by
          rintro k hk ⟨s, m, rfl, hu⟩
          exact hl k hk s hu.1) with h1 | ⟨st2, h1, h2⟩
        · rw [h1] at hs; cases hs
        · rw [h1] at hs; cases hs
          refine ih _ h2 ?_ (fun b hb => ha b (List.mem_cons_of_mem _ hb)) hr
          intro k hk s e
          rcases step_links hi h1 e with e' | e'
          · exact hl k hk s e'
          · exact ha a (List.mem_cons_self ..) s k hk e'
  obtain ⟨hi, hl⟩ := key as st hi0 hl0 ha hr
  intro hh
  obtain ⟨_, s, m, _, hu⟩ := lease_unfinished1 hi hk hj d1 d2 d3 hh
  exact hl k hk s hu.1

/-- The hypotheses are met by a system in which another channel of the same publisher has a client. -/
example : ∃ st', run demo (after demo [.connect 0, .connect 1, .connect 2, .link 0 0]) ([Act.bcast () 'a', .send () true,
      .send () true, .finish (), .deliver 1, .deliver 2, .ack 1, .ack 2] : List (Act Unit (Fin 3) (Fin 3) Char)) = .ok st' ∧
    (st'.pub ()).bp.pressure = 1 ∧ step demo st' (.deliver 1) = .disabled ∧ step demo st' (.ack 1) = .disabled ∧
    ((after demo [.connect 0, .connect 1, .connect 2, .link 0 0] : St Unit (Fin 3) (Fin 3) Char).chan 1).clients = [] :=
  ⟨_, rfl, rfl, rfl, rfl, rfl⟩

/-- **C27.** If no channel of the publisher has a client, then once what is under way has been delivered and
acknowledged (and the ends of closed connections noticed), the publisher has no backpressure at all. -/
theorem C27_no_clients_no_lease (hwf : cfg.WF) (h : ReachableOrderly cfg O st) {p : P}
    (hO : ∀ k, cfg.pubOf k = p → O k)
    (hc : ∀ k, cfg.pubOf k = p → (st.chan k).clients = [])
    (hj : ∀ v todo, (st.pub p).job ≠ .sending v todo)
    (hd : ∀ k, cfg.pubOf k = p → step cfg st (.deliver k) = .disabled ∧ step cfg st (.ack k) = .disabled ∧
      step cfg st (.eof k) = .disabled) :
    (st.pub p).bp.syncReady = true ∧ (∀ i, i < cfg.n p → (st.pub p).bp.available i = some true) ∧
      ∀ v, (st.pub p).job ≠ .slot v false := by
  have hi := h.inv hwf
  have hp := hi.pub p
  have hno : ∀ k i, ¬ (st.pub p).bp.Holds k i := by
    intro k i hh
    obtain ⟨rfl, _, s, m, _, hu⟩ := lease_unfinished hi hO hj hd hh
    have := (hi.cl s k).2 hu.1
    rw [hc k rfl] at this
    cases this
  refine ⟨(syncReady_iff hp.bpInv).2 hno, ?_, ?_⟩
  · intro i hi'
    exact (Backpressure.available_iff hp.bpInv (by rw [hp.bpLen]; exact hi')).2 (fun k => hno k i)
  · intro v hv
    obtain ⟨k, hk⟩ := hp.slotBusy v hv
    exact hno k _ hk

/-- **C27**, the other half: those deliveries and acknowledgements come to an end by themselves. With no
clients, no receive or release is involved: if the publisher waits for a buffer, a delivery, an
acknowledgement or the end of a closed connection is possible. -/
theorem C27_progress (hwf : cfg.WF) (h : ReachableOrderly cfg O st) {p : P}
    (hO : ∀ k, cfg.pubOf k = p → O k)
    (hc : ∀ k, cfg.pubOf k = p → (st.chan k).clients = []) {v : V} (hj : (st.pub p).job = .slot v false) :
    ∃ k, cfg.pubOf k = p ∧ ((∃ st', step cfg st (.deliver k) = .ok st') ∨ (∃ st', step cfg st (.ack k) = .ok st') ∨
      (∃ st', step cfg st (.eof k) = .ok st')) := by
  apply Classical.byContradiction
  intro hno
  have hi := h.inv hwf
  have key : ∀ k, cfg.pubOf k = p → ∀ a : Act P K S V, a.drains = true → (¬ ∃ st', step cfg st a = .ok st') →
      step cfg st a = .disabled := by
    intro k _ a ha hn
    rcases step_ok hwf hi a (drains_orderly ha) with h1 | ⟨st1, h1, _⟩
    · exact h1
    · exact absurd ⟨st1, h1⟩ hn
  have := C27_no_clients_no_lease hwf h hO hc (by rw [hj]; intro _ _ e; cases e) (by
    intro k hk
    refine ⟨key k hk _ rfl ?_, key k hk _ rfl ?_, key k hk _ rfl ?_⟩
    · intro e; exact hno ⟨k, hk, Or.inl e⟩
    · intro e; exact hno ⟨k, hk, Or.inr (Or.inl e)⟩
    · intro e; exact hno ⟨k, hk, Or.inr (Or.inr e)⟩)
  exact this.2.2 v hj

/-- Two messages to three channels without clients: the third broadcast waits only until the
acknowledgements are in. -/
def demoNobody : List (Act Unit (Fin 3) (Fin 3) Char) :=
  [.connect 0, .connect 1, .connect 2] ++ demoSend 'a' ++ demoSend 'b' ++ [.bcast () 'c']

example : ReachableOrderly demo (fun _ => True) (after demo demoNobody) ∧
    (∀ k, ((after demo demoNobody).chan k).clients = []) ∧
    ((after demo demoNobody).pub ()).job = .slot 'c' false :=
  ⟨after_orderly (noUnlink_spec rfl), by decide, rfl⟩

example : ∀ k, step demo (after demo (demoNobody ++ [.deliver 1, .deliver 1, .deliver 2, .deliver 2, .ack 1, .ack 1,
      .ack 2, .ack 2])) (.deliver k) = .disabled := by
  intro k
  match k with
  | 0 => rfl
  | 1 => rfl
  | 2 => rfl

/-! ## C28: pause, resume, sync -/

/-- Runs in which `p` is not resumed. -/
def NoResume (p : P) (as : List (Act P K S V)) : Prop := ∀ a ∈ as, a ≠ .resume p

theorem quiet_run (hwf : cfg.WF) {p : P} (as : List (Act P K S V)) : ∀ {st st' : St P K S V},
    Reachable cfg st → Quiet p st → NoResume p as → run cfg st as = .ok st' →
    Reachable cfg st' ∧ Quiet p st' ∧ bcasts p st'.log = bcasts p st.log ∧
      (∀ k i, (st'.pub p).bp.Holds k i → (st.pub p).bp.Holds k i) ∧
      ((st.pub p).syncWoken = 0 ∨ NoLease (st.pub p) → (st'.pub p).syncWoken = 0 ∨ NoLease (st'.pub p)) := by
  induction as with
  | nil =>
    intro st st' h hq _ hr
    simp only [run, Res.ok.injEq] at hr; subst hr
    exact ⟨h, hq, rfl, fun _ _ => id, id⟩
  | cons a as ih =>
    intro st st' h hq ha hr
    simp only [run] at hr
    split at hr
    · cases hr
    · cases hr
    · rename_i st1 hs
      obtain ⟨q1, q2, q3, q4⟩ := quiet_step (h.inv hwf).1 (ha a (List.mem_cons_self ..)) hs hq
      obtain ⟨r0, r1, r2, r3, r4⟩ := ih (h.step hs) q1 (fun b hb => ha b (List.mem_cons_of_mem _ hb)) hr
      exact ⟨r0, r1, r2.trans q2, fun k i hh => q3 k i (r3 k i hh), fun e => r4 (q4 e)⟩

/-- **C28**, pause, partial: from a state in which the publisher is paused and no broadcast call is past the
gate, nothing is broadcast, whatever happens, until `resume` is called. (A broadcast call that was
already waiting for a buffer when `pause` was called is not held back: `C28_negation_pause`.) -/
theorem C28_paused_partial (hwf : cfg.WF) (h : Reachable cfg st) {p : P} (hr : (st.pub p).running = false)
    (hj : (st.pub p).job = .idle ∨ ∃ v, (st.pub p).job = .gate v false) {as : List (Act P K S V)}
    (ha : NoResume p as) (hrun : run cfg st as = .ok st') :
    bcasts p st'.log = bcasts p st.log ∧
      (∀ k i, (st'.pub p).bp.Holds k i → (st.pub p).bp.Holds k i) ∧ (st'.pub p).running = false := by
  obtain ⟨_, h1, h2, h3, _⟩ := quiet_run hwf as h ⟨hr, hj⟩ ha hrun
  exact ⟨h2, h3, h1.1⟩

/-- **C28**, resume: a broadcast call held back by the gate goes on after `resume`: it is assigned the next
message number, or waits for a buffer. -/
theorem C28_resume_releases (hwf : cfg.WF) (h : Reachable cfg st) {p : P} {v : V} {b : Bool}
    (hj : (st.pub p).job = .gate v b) :
    ∃ st1 st2, step cfg st (.resume p) = .ok st1 ∧ step cfg st1 (.gateResume p) = .ok st2 ∧
      (bcasts p st2.log = bcasts p st.log ++ [v] ∨ (st2.pub p).job = .slot v false) := by
  have h1 : ∃ st1, step cfg st (.resume p) = .ok st1 ∧ (st1.pub p).job = .gate v true ∧
      bcasts p st1.log = bcasts p st.log := by
    refine ⟨_, rfl, ?_, rfl⟩
    simp only [addLog, setPub, upd_same, hj]
  obtain ⟨st1, e1, e2, e3⟩ := h1
  have hr1 := h.step e1
  rcases step_ok hwf (hr1.inv hwf).1 (.gateResume p) (fun _ => False.elim) with h2 | ⟨st2, h2, _⟩
  · simp only [step, e2] at h2
    cases hb : afterGate cfg st1 p v with
    | error e => rw [hb] at h2; cases h2
    | ok st2 => rw [hb] at h2; cases h2
  · refine ⟨st1, st2, e1, h2, ?_⟩
    simp only [step, e2] at h2
    have h3 := ofExcept_eq_ok h2
    unfold afterGate at h3
    split at h3
    · cases h3
    · left; rw [begin_bcasts h3, e3]
    · right
      simp only [Except.ok.injEq] at h3
      subst h3
      simp only [setPub, upd_same]

/-- No reader holds or awaits any message of `p`, and none is under way. -/
def Drained (cfg : Cfg P K S) (st : St P K S V) (p : P) : Prop :=
  ∀ k, cfg.pubOf k = p → (st.chan k).wire = [] ∧ (st.chan k).acks = [] ∧ ∀ s m, ¬ Unfinished cfg st k s m

theorem drained_of_noLease {strict : K → Prop} (hi : Inv cfg strict none st) {p : P} (hn : NoLease (st.pub p)) :
    Drained cfg st p := by
  rintro k rfl
  have hc := hi.chan k
  have key : ∀ m, ¬ Live (st.chan k) (Unfinished cfg st k) m := by
    intro m hl
    exact hn k _ (hc.live m hl (by simp [exOf]))
  refine ⟨?_, ?_, ?_⟩
  · cases hw : (st.chan k).wire with
    | nil => rfl
    | cons x l => exact absurd (Or.inl (by rw [hw]; exact List.mem_cons_self ..)) (key x.1)
  · cases hw : (st.chan k).acks with
    | nil => rfl
    | cons x l => exact absurd (Or.inr (Or.inr (by rw [hw]; exact List.mem_cons_self ..))) (key x)
  · intro s m hu
    exact key m (Or.inr (Or.inl ⟨s, hu⟩))

/-- **C28**, sync, partial: `sync` pauses the publisher; if no broadcast call was past the gate when it was
called (and no earlier `sync` call is about to return) and the publisher is not resumed, it returns
only when no reader holds or awaits any message of the publisher. (With a broadcast call waiting for a
buffer it may return too early: `C28_negation_sync`.) -/
theorem C28_sync_partial (hwf : cfg.WF) (h : Reachable cfg st) {p : P} {st1 : St P K S V}
    (hj : (st.pub p).job = .idle ∨ ∃ v, (st.pub p).job = .gate v false) (hw : (st.pub p).syncWoken = 0)
    (hs : step cfg st (.sync p) = .ok st1) {as : List (Act P K S V)} (ha : NoResume p as)
    (hrun : run cfg st1 as = .ok st') :
    (st1.pub p).running = false ∧
    (Ev.synced p ∈ st1.log.take 1 → Drained cfg st1 p) ∧
    (∀ st2, step cfg st' (.syncReturn p) = .ok st2 → Drained cfg st' p ∧ Drained cfg st2 p) := by
  have hi := (h.inv hwf).1
  have h1 := h.step hs
  have hbp := (hi.pub p).bpInv
  have hfacts : Quiet p st1 ∧ (st1.pub p).syncWoken = 0 ∧ (Ev.synced p ∈ st1.log.take 1 → NoLease (st1.pub p)) := by
    simp only [step] at hs
    split at hs
    · rename_i hsr
      simp only [Res.ok.injEq] at hs; subst hs
      refine ⟨⟨?_, ?_⟩, ?_, ?_⟩
      · simp [addLog, setPub]
      · simpa [addLog, setPub] using hj
      · simpa [addLog, setPub] using hw
      · intro _
        have := (syncReady_iff hbp).1 hsr
        simpa [addLog, setPub, NoLease] using this
    · simp only [Res.ok.injEq] at hs; subst hs
      refine ⟨⟨?_, ?_⟩, ?_, ?_⟩
      · simp [addLog, setPub]
      · simpa [addLog, setPub] using hj
      · simpa [addLog, setPub] using hw
      · simp [addLog, setPub]
  obtain ⟨q1, q2, q3⟩ := hfacts
  obtain ⟨r0, r1, r2, r3, r4⟩ := quiet_run hwf as h1 q1 ha hrun
  refine ⟨q1.1, fun e => drained_of_noLease (h1.inv hwf).1 (q3 e), ?_⟩
  intro st2 hst2
  have hn : NoLease (st'.pub p) := by
    rcases r4 (Or.inl q2) with e | e
    · simp only [step, e, if_true] at hst2; cases hst2
    · exact e
  refine ⟨drained_of_noLease (r0.inv hwf).1 hn, ?_⟩
  have hr2 := r0.step hst2
  refine drained_of_noLease (hr2.inv hwf).1 ?_
  simp only [step] at hst2
  split at hst2
  · cases hst2
  · simp only [Res.ok.injEq] at hst2; subst hst2
    simpa [addLog, setPub, NoLease] using hn

/-- The publisher fills its only buffer; a second broadcast waits for it. -/
def pairBlocked : List (Act Unit Unit (Fin 2) Char) :=
  [.connect (), .link 0 (), .bcast () 'a', .send () true, .finish (), .deliver (), .bcast () 'b']

def pairFree : List (Act Unit Unit (Fin 2) Char) := [.recv 0, .release 0 0, .ack ()]

theorem sync_run (hwf : cfg.WF) (p : P) (as : List (Act P K S V)) : ∀ {st : St P K S V}, Reachable cfg st →
    SyncBusy (st.pub p) →
    syncCalls p st.log = syncReturns p st.log + (st.pub p).syncWait + (st.pub p).syncWoken →
    run cfg st as = .ok st' → SyncBusy (st'.pub p) ∧
      syncCalls p st'.log = syncReturns p st'.log + (st'.pub p).syncWait + (st'.pub p).syncWoken := by
  induction as with
  | nil => intro st _ h1 h2 hr; simp only [run, Res.ok.injEq] at hr; subst hr; exact ⟨h1, h2⟩
  | cons a as ih =>
    intro st h h1 h2 hr
    simp only [run] at hr
    split at hr
    · cases hr
    · cases hr
    · rename_i st1 hs
      obtain ⟨b1, b2⟩ := step_sync ((h.inv hwf).1.pub p).bpInv h1 h2 hs
      exact ih (h.step hs) b1 b2 hr

theorem sync_reach (hwf : cfg.WF) (h : Reachable cfg st) (p : P) :
    SyncBusy (st.pub p) ∧
      syncCalls p st.log = syncReturns p st.log + (st.pub p).syncWait + (st.pub p).syncWoken := by
  obtain ⟨as, hr⟩ := h
  exact sync_run hwf p as (st := init cfg) ⟨[], rfl⟩ (fun h => absurd h (by simp [init])) rfl hr

theorem run_returns (p : P) : ∀ (n : Nat) {st : St P K S V}, (st.pub p).syncWoken = n →
    ∃ st', run cfg st (List.replicate n (.syncReturn p)) = .ok st' ∧
      syncReturns p st'.log = syncReturns p st.log + n ∧ syncCalls p st'.log = syncCalls p st.log := by
  intro n
  induction n with
  | zero => intro st _; exact ⟨st, rfl, rfl, rfl⟩
  | succ n ih =>
    intro st h
    let st1 := addLog (setPub st p { st.pub p with syncWoken := (st.pub p).syncWoken - 1 }) (.synced p)
    have hs : step cfg st (.syncReturn p) = .ok st1 := by
      simp only [step, h, Nat.add_one_ne_zero, if_false, st1]
    obtain ⟨st', h1, h2, h3⟩ := ih (st := st1) (by simp only [st1, addLog, setPub, upd_same, h]; rfl)
    refine ⟨st', by simp only [List.replicate, run, hs, h1], ?_, ?_⟩
    · rw [h2]; simp only [st1, addLog, setPub, syncReturns, if_true]; omega
    · rw [h3]; simp only [st1, addLog, setPub, syncCalls]

/-- **C28**, sync returns: in every reachable state the `sync` calls that have not returned are waiting or
woken up, and if no channel holds a buffer of the publisher, all of them can return now. -/
theorem C28_sync_returns (hwf : cfg.WF) (h : Reachable cfg st) (p : P)
    (hn : ∀ k i, ¬ (st.pub p).bp.Holds k i) :
    ∃ n st', run cfg st (List.replicate n (.syncReturn p)) = .ok st' ∧
      syncReturns p st'.log = syncCalls p st'.log ∧ syncCalls p st'.log = syncCalls p st.log := by
  obtain ⟨h1, h2⟩ := sync_reach hwf h p
  have h0 : (st.pub p).syncWait = 0 := by
    rcases Nat.eq_zero_or_pos (st.pub p).syncWait with e | e
    · exact e
    · exact absurd hn (h1 e)
  obtain ⟨st', r1, r2, r3⟩ := run_returns (cfg := cfg) p _ (st := st) rfl
  exact ⟨_, st', r1, by omega, r3⟩

/-- **C28**, sync returns in the end: if no broadcast call is sending when the readers drain their queues,
and nobody left a channel of the publisher with unfinished messages, then every `sync` call can return
once nothing is left to drain. -/
theorem C28_sync_returns_drained (hwf : cfg.WF) (h : ReachableOrderly cfg O st) {as : List (Act P K S V)}
    (ha : ∀ a ∈ as, a.drains = true) (hr : run cfg st as = .ok st')
    (hd : ∀ a : Act P K S V, a.drains = true → step cfg st' a = .disabled) {p : P}
    (hO : ∀ k, cfg.pubOf k = p → O k) (hj : ∀ v todo, (st.pub p).job ≠ .sending v todo) :
    ∃ n st'', run cfg st' (List.replicate n (.syncReturn p)) = .ok st'' ∧
      syncReturns p st''.log = syncCalls p st''.log ∧ syncCalls p st''.log = syncCalls p st'.log := by
  have h' := h.drain as ha hr
  have hi := h'.inv hwf
  exact C28_sync_returns hwf h'.reachable p
    ((syncReady_iff (hi.pub p).bpInv).1 (C22_drained hwf h ha hr hd hO hj).1)

/-- **C28** as stated fails for `pause`: the publisher is paused and not resumed, yet the call that was
waiting for a buffer consumes a message number and sends. -/
theorem C28_negation_pause : ∃ (st st' : St Unit Unit (Fin 2) Char) (as : List (Act Unit Unit (Fin 2) Char)),
    Reachable pairCfg st ∧ (st.pub ()).running = false ∧ NoResume () as ∧ run pairCfg st as = .ok st' ∧
    (st'.pub ()).running = false ∧ (bcasts () st.log).length < (bcasts () st'.log).length := by
  refine ⟨after pairCfg (pairBlocked ++ [.pause ()]), after pairCfg (pairBlocked ++ [.pause ()] ++ pairFree ++ [.slotResume ()]),
    pairFree ++ [.slotResume ()], after_reachable _ _, rfl, ?_, rfl, rfl, by decide⟩
  intro a ha
  simp [pairFree] at ha
  rcases ha with rfl | rfl | rfl | rfl <;> (intro e; cases e)

/-- **C28** as stated fails for `sync`: it returns while a message is on its way to a subscriber. -/
theorem C28_negation_sync : ∃ (st st1 st' st2 : St Unit Unit (Fin 2) Char) (as : List (Act Unit Unit (Fin 2) Char)),
    Reachable pairCfg st ∧ step pairCfg st (.sync ()) = .ok st1 ∧ NoResume () as ∧ run pairCfg st1 as = .ok st' ∧
    step pairCfg st' (.syncReturn ()) = .ok st2 ∧ ¬ Drained pairCfg st2 () := by
  refine ⟨after pairCfg pairBlocked, after pairCfg (pairBlocked ++ [.sync ()]),
    after pairCfg (pairBlocked ++ [.sync ()] ++ pairFree ++ [.slotResume (), .send () true]),
    after pairCfg (pairBlocked ++ [.sync ()] ++ pairFree ++ [.slotResume (), .send () true, .syncReturn ()]),
    pairFree ++ [.slotResume (), .send () true], after_reachable _ _, rfl, ?_, rfl, rfl, ?_⟩
  · intro a ha
    simp [pairFree] at ha
    rcases ha with rfl | rfl | rfl | rfl | rfl <;> (intro e; cases e)
  · intro hd
    have := (hd () rfl).1
    revert this
    decide

/-- The hypotheses of the partial theorems are met: one message outstanding, `sync` is called, then a
broadcast (held at the gate), the reader finishes, `sync` returns. -/
def pairSync : List (Act Unit Unit (Fin 2) Char) :=
  [.connect (), .link 0 (), .bcast () 'a', .send () true, .finish (), .deliver ()]

example : ((after pairCfg pairSync).pub ()).job = .idle ∧ ((after pairCfg pairSync).pub ()).syncWoken = 0 ∧
    Unfinished pairCfg (after pairCfg pairSync) () 0 0 ∧
    ∃ st1 st' st2, step pairCfg (after pairCfg pairSync) (.sync ()) = .ok st1 ∧
      run pairCfg st1 (.bcast () 'b' :: pairFree) = .ok st' ∧ (st'.pub ()).job = .gate 'b' false ∧
      step pairCfg st' (.syncReturn ()) = .ok st2 :=
  ⟨rfl, rfl, ⟨rfl, Or.inl (by decide)⟩, _, _, _, rfl, rfl, rfl, rfl⟩

/-- Two `sync` calls wait for the message; once it is finished nothing is left to drain and both return. -/
example : syncCalls () (after pairCfg (pairSync ++ [.sync (), .sync ()])).log = 2 ∧
    ((after pairCfg (pairSync ++ [.sync (), .sync ()])).pub ()).syncWait = 2 ∧
    (∀ v todo, ((after pairCfg (pairSync ++ [.sync (), .sync ()])).pub ()).job ≠ .sending v todo) ∧
    (∀ a ∈ pairFree, a.drains = true) ∧
    ((after pairCfg (pairSync ++ [.sync (), .sync ()] ++ pairFree)).pub ()).bp.syncReady = true ∧
    syncReturns () (after pairCfg (pairSync ++ [.sync (), .sync ()] ++ pairFree ++
      [.syncReturn (), .syncReturn ()])).log = 2 := by
  refine ⟨rfl, rfl, ?_, by simp [pairFree, Act.drains], rfl, rfl⟩
  intro v todo e
  cases e

end Ez.Sys
