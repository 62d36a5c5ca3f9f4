import Verif.Lemmas.SystemStep

/-! # Every step preserves the invariant and raises nothing -/

set_option linter.unusedSectionVars false
set_option linter.unusedSimpArgs false

namespace Ez.Sys
variable {P K S V : Type} [DecidableEq P] [DecidableEq K] [DecidableEq S]
variable {cfg : Cfg P K S} {strict : K → Prop} {cur : Cur K S} {st st' : St P K S V}

theorem upd_self {α β : Type} [DecidableEq α] (f : α → β) (a : α) : upd f a (f a) = f := by
  funext x
  by_cases h : x = a
  · subst h; simp
  · simp [upd_ne _ _ h]

/-- The invariant without the part about channel `k`. -/
structure InvEx (cfg : Cfg P K S) (strict : K → Prop) (k : K) (st : St P K S V) : Prop where
  chan : ∀ k', k' ≠ k → CI cfg strict st none k'
  pub : ∀ p, PubOk cfg (st.pub p) (bcasts p st.log) (fun k => (st.chan k).opened = true) True p
  sub : ∀ s, SubOk cfg (st.sub s) st.log (uptoOf cfg none st.log s) s
  cl : ∀ s k, s ∈ (st.chan k).clients ↔ (st.sub s).chans (cfg.pubOf k) = some k
  shut : ∀ k, (st.chan k).opened = false → (st.chan k).clients = []

theorem Inv.ex (h : Inv cfg strict none st) (k : K) : InvEx cfg strict k st :=
  ⟨fun k' _ => h.chan k', h.pubT, h.sub, h.cl, h.shut⟩

theorem Inv.exCur {k : K} {x : Nat} (h : Inv cfg strict (some (k, x, [])) st)
    (hm : cfg.mode k ≠ .local) : InvEx cfg strict k st :=
  ⟨fun _ hk => h.endOther hk, fun p => (h.pub p).mono (fun _ => readyMode hm), h.endSub, h.cl, h.shut⟩

/-- A step that changes channel `k`, its publisher and the log. -/
theorem InvEx.chanPub {k : K} (h : InvEx cfg strict k st) (ch : ChanSt S V) (pb : PubSt K V)
    (log' : List (Ev P K S V))
    (hst : st' = { pub := upd st.pub (cfg.pubOf k) pb, chan := upd st.chan k ch, sub := st.sub, log := log' })
    (hb : ∀ p, bcasts p log' = bcasts p st.log)
    (hn : ∀ k', k' ≠ k → nextId cfg k' log' = nextId cfg k' st.log)
    (hci : CI cfg strict st' none k)
    (hoth : ∀ k', k' ≠ k → cfg.pubOf k' = cfg.pubOf k →
      (∀ i, pb.bp.Holds k' i ↔ (st.pub (cfg.pubOf k)).bp.Holds k' i) ∧
      (k' ∈ pb.chans ↔ k' ∈ (st.pub (cfg.pubOf k)).chans))
    (hshm : pb.shm = (st.pub (cfg.pubOf k)).shm)
    (hsent : ∀ k', k' ≠ k → cfg.pubOf k' = cfg.pubOf k → sentOf cfg st' k' = sentOf cfg st k')
    (hpo : PubOk cfg pb (bcasts (cfg.pubOf k) st.log) (fun k => (st'.chan k).opened = true) True
      (cfg.pubOf k))
    (hop : (st.chan k).opened = true → ch.opened = true)
    (hcl : ch.clients = (st.chan k).clients)
    (hsh : ch.opened = false → ch.clients = [])
    (hsub : ∀ s, SubOk cfg (st.sub s) log' (uptoOf cfg none log' s) s) :
    Inv cfg strict none st' := by
  subst hst
  refine ⟨?_, ?_, hsub, ?_, ?_⟩
  · intro k'
    by_cases hk : k' = k
    · subst hk; exact hci
    · refine CI.transfer (h.chan k' hk) ?_ ?_ ?_ (hb _) ?_ (upd_ne _ _ hk) (fun _ _ => Iff.rfl) (hn k' hk)
      · intro i
        by_cases hp : cfg.pubOf k' = cfg.pubOf k
        · simp only [hp, upd_same]; exact (hoth k' hk hp).1 i
        · simp only [upd_ne _ _ hp]
      · by_cases hp : cfg.pubOf k' = cfg.pubOf k
        · simp only [hp, upd_same]; exact (hoth k' hk hp).2
        · simp only [upd_ne _ _ hp]
      · by_cases hp : cfg.pubOf k' = cfg.pubOf k
        · exact hsent k' hk hp
        · refine sentOf_congr ?_ (hb _)
          intro v todo
          simp only [upd_ne _ _ hp]
      · by_cases hp : cfg.pubOf k' = cfg.pubOf k
        · simp only [hp, upd_same]; exact hshm
        · simp only [upd_ne _ _ hp]
  · intro q
    simp only [hb]
    by_cases hq : q = cfg.pubOf k
    · subst hq
      simp only [upd_same]
      exact hpo.mono (fun _ => trivial)
    · simp only [upd_ne _ _ hq]
      have := (h.pub q).mono (r' := readyOf cfg (none : Cur K S) q) (fun _ => trivial)
      refine { this with chansPub := ?_ }
      intro k' hk'
      obtain ⟨a, b⟩ := this.chansPub k' hk'
      refine ⟨a, ?_⟩
      by_cases hk : k' = k
      · subst hk; rw [upd_same]; exact hop b
      · rw [upd_ne _ _ hk]; exact b
  · intro s k'
    rw [← h.cl s k']
    by_cases hk : k' = k
    · subst hk; simp only [upd_same, hcl]
    · simp only [upd_ne _ _ hk]
  · intro k'
    by_cases hk : k' = k
    · subst hk; simp only [upd_same]; exact hsh
    · simp only [upd_ne _ _ hk]; exact h.shut k'

/-- A step that changes only channel `k`. -/
theorem InvEx.chanOnly {k : K} (h : InvEx cfg strict k st) (ch : ChanSt S V)
    (hci : CI cfg strict (setChan st k ch) none k)
    (hop : ch.opened = (st.chan k).opened)
    (hcl : ch.clients = (st.chan k).clients) :
    Inv cfg strict none (setChan st k ch) := by
  refine h.chanPub ch (st.pub (cfg.pubOf k)) st.log ?_ (fun _ => rfl) (fun _ _ => rfl) hci
    (fun _ _ _ => ⟨fun _ => Iff.rfl, Iff.rfl⟩) rfl ?_ ?_ (by rw [hop]; exact id) hcl ?_ h.sub
  · simp only [setChan, upd_self]
  · intro k' _ _; exact sentOf_congr (fun _ _ => Iff.rfl) rfl
  · have := h.pub (cfg.pubOf k)
    refine { this with chansPub := ?_ }
    intro k' hk'
    obtain ⟨a, b⟩ := this.chansPub k' hk'
    refine ⟨a, ?_⟩
    simp only [setChan]
    by_cases hk : k' = k
    · subst hk; rw [upd_same, hop]; exact b
    · rw [upd_ne _ _ hk]; exact b
  · rw [hop, hcl]; exact h.shut k

/-! ## The publisher's own steps -/

theorem afterGate_ok (h : Inv cfg strict none st) (hwf : cfg.WF) {p : P} {v : V}
    (hj : ∀ v todo, (st.pub p).job ≠ .sending v todo) :
    ∃ st', afterGate cfg st p v = .ok st' ∧ Inv cfg strict none st' := by
  have hp := h.pubT p
  have hlt : (st.pub p).msgId % cfg.n p < (st.pub p).bp.buffers.length := by
    rw [hp.bpLen]; exact Nat.mod_lt _ (hwf.pos p)
  unfold afterGate
  rcases Backpressure.available_dichotomy hlt with ha | ha
  · rw [ha]
    exact begin_ok h hwf hj ((Backpressure.available_iff hp.bpInv hlt).1 ha)
  · rw [ha]
    refine ⟨_, rfl, h.pubOnly p _ rfl rfl rfl ?_ ?_⟩
    · refine { hp with jobLen := ?_, slotFree := ?_, slotBusy := ?_, todo := ?_ }
      · have := msgId_of_idle hp hj; exact this
      · intro w hw; cases hw
      · intro w _
        exact Classical.byContradiction fun hno => by
          have := (Backpressure.available_iff hp.bpInv hlt).2 (fun u hu => hno ⟨u, hu⟩)
          rw [ha] at this; cases this
      · intro w todo hw; cases hw
    · intro k hk _ _
      rw [sentOf_idle, sentOf_idle]
      · rfl
      · rw [hk]; exact hj
      · intro w todo; rw [hk]; simp [setPub]

theorem jobChange_ok (h : Inv cfg strict none st) {p : P} {j : Job K V} {r : Bool} {a b : Nat}
    (hj : ∀ v todo, (st.pub p).job ≠ .sending v todo) (hj' : ∀ v todo, j ≠ .sending v todo)
    (hs : ∀ v b, j ≠ .slot v b) :
    Inv cfg strict none (setPub st p
      { st.pub p with job := j, running := r, syncWait := a, syncWoken := b }) := by
  have hp := h.pubT p
  refine h.pubOnly p _ rfl rfl rfl ?_ ?_
  · refine { hp with jobLen := ?_, slotFree := ?_, slotBusy := (fun v hv => absurd hv (hs v false)), todo := ?_ }
    · have := msgId_of_idle hp hj
      cases j with
      | sending v t => exact absurd rfl (hj' v t)
      | _ => exact this
    · intro v hv; exact absurd hv (hs v true)
    · intro w todo hw; exact absurd hw (hj' w todo)
  · intro k hk _ _
    rw [sentOf_idle, sentOf_idle]
    · rfl
    · rw [hk]; exact hj
    · intro w todo; rw [hk]; simp only [setPub, upd_same]; exact hj' w todo

theorem sameJob_ok (h : Inv cfg strict none st) {p : P} {r : Bool} {a b : Nat} :
    Inv cfg strict none (setPub st p
      { st.pub p with running := r, syncWait := a, syncWoken := b }) := by
  have hp := h.pubT p
  refine h.pubOnly p _ rfl rfl rfl { hp with } ?_
  intro k hk _ _
  refine sentOf_congr ?_ rfl
  intro v todo
  subst hk
  simp only [setPub, upd_same]

theorem finish_ok (h : Inv cfg strict none st) {p : P} {v : V}
    (hj : (st.pub p).job = .sending v []) :
    Inv cfg strict none (setPub st p { st.pub p with job := .idle, msgId := (st.pub p).msgId + 1 }) := by
  have hp := h.pubT p
  refine h.pubOnly p _ rfl rfl rfl ?_ ?_
  · refine { hp with jobLen := ?_, slotFree := ?_, slotBusy := (by intro w hw; cases hw), todo := ?_ }
    · have := hp.jobLen; rw [hj] at this; exact this
    · intro w hw; cases hw
    · intro w todo hw; cases hw
  · intro k hk _ _
    rw [sentOf_idle]
    · unfold sentOf
      rw [hk, hj]
      simp [setPub]
    · intro w todo; rw [hk]; simp [setPub]

/-- Serving one channel. -/
theorem sendTo_ok (h : Inv cfg strict none st) (hwf : cfg.WF) {p : P} {v : V} {k : K} {todo : List K}
    {ok : Bool} (hj : (st.pub p).job = .sending v (k :: todo)) :
    ∃ st', sendTo cfg st p v k todo ok = .ok st' ∧ Inv cfg strict none st' := by
  have hp := h.pubT p
  obtain ⟨t1, t2, t3⟩ := hp.todo v _ hj
  obtain ⟨t4, t5, t6⟩ := t3 k (List.mem_cons_self ..)
  have hlen := hp.jobLen
  rw [hj] at hlen
  have hkp := (hp.chansPub k t4).1
  subst hkp
  have hnd := List.nodup_cons.1 t1
  have hsent0 : sentOf cfg st k = (st.pub (cfg.pubOf k)).msgId := by
    unfold sentOf; rw [hj]; simp [hlen]
  have hpo : ∀ bp : Backpressure K, bp.Inv → bp.buffers.length = cfg.n (cfg.pubOf k) →
      (∀ k' i, bp.Holds k' i → k' ∈ (st.pub (cfg.pubOf k)).chans) →
      PubOk cfg { st.pub (cfg.pubOf k) with bp := bp, job := .sending v todo }
        (bcasts (cfg.pubOf k) st.log) (fun k => (st.chan k).opened = true) True (cfg.pubOf k) := by
    intro bp h1 h2 h3
    refine { hp with bpInv := h1, bpLen := h2, jobLen := hlen, slotFree := ?_, slotBusy := (by intro w hw; cases hw), todo := ?_, holdsMem := h3 }
    · intro w hw; cases hw
    · intro w todo' hw
      cases hw
      exact ⟨hnd.2, t2, fun k' hk' => t3 k' (List.mem_cons_of_mem _ hk')⟩
  have hsoth : ∀ (st' : St P K S V), st'.log = st.log → (st'.pub (cfg.pubOf k)).job = .sending v todo →
      ∀ k', k' ≠ k → cfg.pubOf k' = cfg.pubOf k → sentOf cfg st' k' = sentOf cfg st k' := by
    intro st' h1 h2 k' hk hpk
    unfold sentOf
    rw [hpk, h1, h2, hj]
    simp [hk]
  have hsk : ∀ (st' : St P K S V), st'.log = st.log → (st'.pub (cfg.pubOf k)).job = .sending v todo →
      sentOf cfg st' k = (st.pub (cfg.pubOf k)).msgId + 1 := by
    intro st' h1 h2
    unfold sentOf
    rw [h1, h2]
    simp [hnd.1, hlen]
  unfold sendTo
  simp only
  have hlt : (st.pub (cfg.pubOf k)).msgId % cfg.n (cfg.pubOf k) < (st.pub (cfg.pubOf k)).bp.buffers.length := by
    rw [hp.bpLen]; exact Nat.mod_lt _ (hwf.pos _)
  obtain ⟨bp', hl⟩ := lease_isSome (bp := (st.pub (cfg.pubOf k)).bp) (c := k) hlt
  obtain ⟨b1, b2, _, b3⟩ := Backpressure.lease_spec hp.bpInv hl
  have hmem' : ∀ k' i, bp'.Holds k' i → k' ∈ (st.pub (cfg.pubOf k)).chans := by
    intro k' i hh
    rcases (b3 _ _).1 hh with hh | hh
    · exact hp.holdsMem k' i hh
    · rw [hh.1]; exact t4
  have hoth' : ∀ k', k' ≠ k → cfg.pubOf k' = cfg.pubOf k →
      (∀ i, bp'.Holds k' i ↔ (st.pub (cfg.pubOf k)).bp.Holds k' i) ∧
      (k' ∈ (st.pub (cfg.pubOf k)).chans ↔ k' ∈ (st.pub (cfg.pubOf k)).chans) := by
    intro k' hk _
    refine ⟨fun i => ?_, Iff.rfl⟩
    rw [b3]
    constructor
    · rintro (hh | hh)
      · exact hh
      · exact absurd hh.1 hk
    · exact Or.inl
  by_cases hcl : (st.chan k).closed = true
  · cases ok with
    | false =>
      rw [if_pos (by simp [hcl])]
      refine ⟨_, rfl, (h.ex k).chanPub (st.chan k) { st.pub (cfg.pubOf k) with job := .sending v todo } st.log
        (by simp only [setPub, upd_self]) (fun _ => rfl) (fun _ _ => rfl) ?_
        (fun _ _ _ => ⟨fun _ => Iff.rfl, Iff.rfl⟩) rfl ?_ ?_ id rfl (h.shut k) h.sub⟩
      · refine CI.of ((h.chan k).sentIrrel ((st.pub (cfg.pubOf k)).msgId + 1) ?_) ?_ ?_ ?_ rfl ?_ rfl
          (fun _ _ => Iff.rfl) rfl
        · intro hc; rw [hcl] at hc; cases hc
        · intro i; simp only [setPub, upd_same]
        · simp only [setPub, upd_same]
        · exact hsk _ rfl (by simp only [setPub, upd_same])
        · simp only [setPub, upd_same]
      · exact hsoth _ rfl (by simp only [setPub, upd_same])
      · exact hpo _ hp.bpInv hp.bpLen hp.holdsMem
    | true =>
      rw [if_neg (by simp), hl]
      simp only [hcl, if_true]
      refine ⟨_, rfl, (h.ex k).chanPub (st.chan k) { st.pub (cfg.pubOf k) with bp := bp', job := .sending v todo } st.log
        (by simp only [setPub, upd_self]) (fun _ => rfl) (fun _ _ => rfl) ?_
        hoth' rfl ?_ ?_ id rfl (h.shut k) h.sub⟩
      · refine CI.of ((h.chan k).closedLease t4 hcl ((st.pub (cfg.pubOf k)).msgId + 1)
          (i0 := (st.pub (cfg.pubOf k)).msgId % cfg.n (cfg.pubOf k))) ?_ ?_ ?_ rfl ?_ rfl
          (fun _ _ => Iff.rfl) rfl
        · intro i; simp only [setPub, upd_same]; rw [b3]; simp
        · simp only [setPub, upd_same]
        · exact hsk _ rfl (by simp only [setPub, upd_same])
        · simp only [setPub, upd_same]
      · exact hsoth _ rfl (by simp only [setPub, upd_same])
      · exact hpo _ b1 (b2.trans hp.bpLen) hmem'
  · rw [if_neg (by simp [hcl]), hl]
    simp only
    rw [if_neg hcl]
    have hcl' : (st.chan k).closed = false := by simpa using hcl
    have hc0 := h.chan k
    rw [show exOf (none : Cur K S) k = none from rfl] at hc0
    unfold CI at hc0
    rw [hsent0] at hc0
    refine ⟨_, rfl, (h.ex k).chanPub { st.chan k with
        wire := (st.chan k).wire ++ [((st.pub (cfg.pubOf k)).msgId, if cfg.mode k = .shm then .shm else .tcp v)] }
        { st.pub (cfg.pubOf k) with bp := bp', job := .sending v todo } st.log
        rfl (fun _ => rfl) (fun _ _ => rfl) ?_
        hoth' rfl ?_ ?_ id rfl (h.shut k) h.sub⟩
    · refine CI.of (hc0.wirePush hlen t4 hcl' t5 (pl := if cfg.mode k = .shm then .shm else .tcp v) ?_ ?_) ?_ ?_ ?_ rfl ?_ ?_
          (fun _ _ => Iff.rfl) rfl
      · by_cases hm : cfg.mode k = .shm
        · rw [if_pos hm]; exact Or.inl ⟨hm, rfl⟩
        · rw [if_neg hm]; exact Or.inr ⟨v, rfl, t2⟩
      · intro hm; exact ⟨v, t6 trivial hm, t2⟩
      · intro i; simp only [setPub, setChan, upd_same]; rw [b3]; simp
      · simp only [setPub, setChan, upd_same]
      · exact hsk _ rfl (by simp only [setPub, setChan, upd_same])
      · simp only [setPub, setChan, upd_same]
      · simp only [setPub, setChan, upd_same]
    · exact hsoth _ rfl (by simp only [setPub, setChan, upd_same])
    · have := hpo _ b1 (b2.trans hp.bpLen) hmem'
      refine { this with chansPub := ?_ }
      intro k' hk'
      obtain ⟨a, b⟩ := this.chansPub k' hk'
      refine ⟨a, ?_⟩
      simp only [setChan, setPub]
      by_cases hk : k' = k
      · subst hk; rw [upd_same]; exact b
      · rw [upd_ne _ _ hk]; exact b

/-! ## Messages arriving at a channel, acknowledgements arriving at the publisher -/

theorem arriving_ok (h : Inv cfg strict none st) {k : K} {m : Nat} {pl : Payload V}
    {rest : List (Nat × Payload V)} (hw : (st.chan k).wire = (m, pl) :: rest) :
    ∃ o, arriving cfg st k m pl = .ok o ∧
      ((cfg.mode k = .shm ∧ o = .view (m % cfg.n (cfg.pubOf k))) ∨
        ∃ v, o = .val v ∧ (bcasts (cfg.pubOf k) st.log)[m]? = some v) := by
  have hc := h.chan k
  have hmem : (m, pl) ∈ (st.chan k).wire := by rw [hw]; exact List.mem_cons_self ..
  rcases hc.wireOk m pl hmem with ⟨h1, rfl⟩ | ⟨v, rfl, h2⟩
  · obtain ⟨v, h3, _⟩ := hc.shmOk h1 m (Or.inl (List.mem_map.2 ⟨_, hmem, rfl⟩))
    unfold arriving
    rw [h3]
    exact ⟨.view (m % cfg.n (cfg.pubOf k)), by simp, Or.inl ⟨h1, rfl⟩⟩
  · exact ⟨.val v, rfl, Or.inr ⟨v, rfl, h2⟩⟩

theorem deliver_ok (h : Inv cfg strict none st) {k : K} {m : Nat} {pl : Payload V}
    {rest : List (Nat × Payload V)} (hw : (st.chan k).wire = (m, pl) :: rest) :
    ∃ st', deliver cfg st k m pl rest = .ok st' ∧ Inv cfg strict none st' := by
  have hc := h.chan k
  obtain ⟨o, ho, hobj⟩ := arriving_ok h hw
  have hml : cfg.mode k ≠ .local := by
    intro hm
    have := hc.wireNone (Or.inl hm)
    rw [hw] at this; cases this
  have hpos : 0 < (st.chan k).cache.slots.length := by rw [hc.cacheLen]; exact hc.pos
  obtain ⟨cache', hput⟩ := (MessageCache.put_ok_iff (st.chan k).cache
      { object := o, msgId := m, mem := some () }).2 hpos
  have hput' : (st.chan k).cache.putFromMem () o m = .ok cache' := hput
  obtain ⟨e1, e2, e3⟩ := hc.wirePop hw hput'
  obtain ⟨c1, _, c2, _⟩ := MessageCache.put_spec hput
  unfold deliver
  rw [ho]
  simp only
  rw [hput']
  simp only
  have hn0 : nextId cfg k (Ev.arrived k :: st.log) = nextId cfg k st.log + 1 := by simp [nextId]
  have hmid : Inv cfg strict (some (k, m, (st.chan k).clients))
      (addLog (setChan st k { st.chan k with cache := cache', wire := rest }) (.arrived k)) := by
    refine ⟨?_, ?_, ?_, ?_, ?_⟩
    · intro k'
      by_cases hk : k' = k
      · subst hk
        rw [show exOf (some (k', m, (st.chan k').clients)) k' = some m by simp [exOf]]
        refine CI.of e3 (fun _ => Iff.rfl) Iff.rfl ?_ rfl rfl ?_ (fun _ _ => Iff.rfl) hn0
        · exact sentOf_congr (fun _ _ => Iff.rfl) rfl
        · simp only [addLog, setChan, upd_same]
      · rw [show exOf (some (k, m, (st.chan k).clients)) k' = none by simp [exOf, hk]]
        refine CI.transfer (h.chan k') (fun _ => Iff.rfl) Iff.rfl ?_ rfl rfl ?_ (fun _ _ => Iff.rfl) ?_
        · exact sentOf_congr (fun _ _ => Iff.rfl) rfl
        · simp only [addLog, setChan, upd_ne _ _ hk]
        · have hkk : ¬ k = k' := fun e => hk e.symm
          simp [addLog, setChan, nextId, hkk]
    · intro q
      have := (h.pub q).mono (r' := readyOf cfg (some (k, m, (st.chan k).clients)) q) (fun _ => readyNone q)
      refine { this with chansPub := ?_ }
      intro k' hk'
      obtain ⟨a, b⟩ := this.chansPub k' hk'
      refine ⟨a, ?_⟩
      simp only [addLog, setChan]
      by_cases hk : k' = k
      · subst hk; rw [upd_same]; exact b
      · rw [upd_ne _ _ hk]; exact b
    · intro s
      refine (h.sub s).congrLog (fun _ => rfl) (fun _ => rfl) ?_ (fun _ _ _ hm => hm)
      intro k' hlk
      simp only [uptoOf, addLog, setChan]
      by_cases hk : k' = k
      · subst hk
        rw [if_pos ⟨rfl, (h.cl s k').2 hlk⟩, hn0]; rfl
      · have hkk : ¬ k = k' := fun e => hk e.symm
        simp [nextId, hk, hkk]
    · intro s k'
      have := h.cl s k'
      simp only [addLog, setChan]
      by_cases hk : k' = k
      · subst hk; simp only [upd_same]; exact this
      · simp only [upd_ne _ _ hk]; exact this
    · intro k'
      simp only [addLog, setChan]
      by_cases hk : k' = k
      · subst hk; simp only [upd_same]; exact h.shut k'
      · simp only [upd_ne _ _ hk]; exact h.shut k'
  have hcl : ((addLog (setChan st k { st.chan k with cache := cache', wire := rest }) (.arrived k)).chan k).clients
      = (st.chan k).clients := by simp only [addLog, setChan, upd_same]
  obtain ⟨st1, b, n1, n2, n3, n4, n5⟩ := notify_ok (k := k) (x := m)
    (st := addLog (setChan st k { st.chan k with cache := cache', wire := rest }) (.arrived k))
    (by rw [hcl]; exact hmid) (by show nextId cfg k (Ev.arrived k :: st.log) = m + 1; rw [hn0, e1])
  rw [n1]
  have hx : exOf (some (k, m, ([] : List S))) k = some m := by simp [exOf]
  have hhold := n3.holdsCur k m hx e2
  have hslot := n3.cacheCur k m hx
  simp only [addLog, setChan, upd_same] at hslot
  rw [c2] at hslot
  simp only [hc.cacheLen, if_true] at hslot
  have hci := n2.endSelf
  cases b with
  | true =>
    obtain ⟨c, hpc⟩ := n4 rfl
    refine ⟨st1, rfl, ⟨?_, ?_, n2.endSub, n2.cl, n2.shut⟩⟩
    · intro k'
      by_cases hk : k' = k
      · subst hk
        refine hci.endDeliver hpc hhold ⟨_, hslot, rfl, ?_⟩
        rw [n3.bcasts]
        exact hobj
      · exact n2.endOther hk
    · intro q; exact (n2.pub q).mono (fun _ => readyMode hml)
  | false =>
    simp only
    have hl1 : (st1.chan k).cache.slots.length = cfg.n (cfg.pubOf k) := hci.cacheLen
    have hrel : (st1.chan k).cache.release m =
        .ok ((st1.chan k).cache.releaseSlot (m % (st1.chan k).cache.slots.length)) := by
      rcases MessageCache.release_spec (c := (st1.chan k).cache) (id := m)
        (by rw [hl1]; exact hc.pos) with ⟨e, _, _, hr⟩ | ⟨hne, _⟩
      · exact hr
      · exact absurd rfl (hne _ (by rw [hl1]; exact hslot))
    rw [hrel]
    refine ⟨_, rfl, (n2.exCur hml).chanOnly _ ?_ rfl rfl⟩
    refine CI.of (hci.endNobodyAck (n5 rfl) hhold hrel) (fun _ => Iff.rfl) Iff.rfl ?_ rfl rfl ?_
      (fun _ _ => Iff.rfl) rfl
    · exact sentOf_congr (fun _ _ => Iff.rfl) rfl
    · simp only [setChan, upd_same]

theorem pubFree_eq {k : K} {i : Option Nat} {bp : Backpressure K}
    (hf : (st.pub (cfg.pubOf k)).bp.free k i = some bp) :
    pubFree cfg st k i = .ok (setPub st (cfg.pubOf k)
      (wake (cfg.n (cfg.pubOf k)) { st.pub (cfg.pubOf k) with bp := bp })) := by
  unfold pubFree
  simp only [hf]

theorem ack_ok (h : Inv cfg strict none st) {k : K} {m : Nat} {rest : List Nat}
    (ha : (st.chan k).acks = m :: rest) :
    ∃ st', pubFree cfg (setChan st k { st.chan k with acks := rest }) k
        (some (m % cfg.n (cfg.pubOf k))) = .ok st' ∧ Inv cfg strict none st' := by
  have hc := h.chan k
  have hp := h.pubT (cfg.pubOf k)
  obtain ⟨bp', hf⟩ := free_isSome_some (bp := (st.pub (cfg.pubOf k)).bp) (k := k)
    (i := m % cfg.n (cfg.pubOf k)) (by rw [hp.bpLen]; exact Nat.mod_lt _ hc.pos)
  obtain ⟨b1, b2, b3⟩ := Backpressure.free_spec hp.bpInv hf
  have hpo := pubFree_pub hp hc.pos hf
  rw [pubFree_eq (st := setChan st k { st.chan k with acks := rest }) hf]
  refine ⟨_, rfl, (h.ex k).chanPub { st.chan k with acks := rest }
    (wake (cfg.n (cfg.pubOf k)) { st.pub (cfg.pubOf k) with bp := bp' }) st.log rfl (fun _ => rfl)
    (fun _ _ => rfl) ?_ ?_ rfl ?_ ?_ id rfl (h.shut k) h.sub⟩
  · refine CI.of (hc.ackPop ha) ?_ ?_ ?_ rfl ?_ ?_ (fun _ _ => Iff.rfl) rfl
    · intro i
      simp only [setPub, setChan, upd_same, wake_bp]
      rw [b3]
      simp [eq_comm]
    · simp only [setPub, setChan, upd_same, wake_chans]
    · refine sentOf_congr ?_ rfl
      intro v todo
      simp only [setPub, setChan, upd_same, wake_sending]
    · simp only [setPub, setChan, upd_same, wake_shm]
    · simp only [setPub, setChan, upd_same]
  · intro k' hk _
    refine ⟨fun i => ?_, Iff.rfl⟩
    rw [wake_bp, b3]
    constructor
    · intro hh; exact hh.1
    · intro hh; exact ⟨hh, fun e => hk e.1⟩
  · intro k' _ hpk
    refine sentOf_congr ?_ rfl
    intro v todo
    rw [hpk]
    simp only [setPub, setChan, upd_same, wake_sending]
  · refine { hpo with chansPub := ?_ }
    intro k' hk'
    obtain ⟨a, b⟩ := hpo.chansPub k' hk'
    refine ⟨a, ?_⟩
    simp only [setPub, setChan]
    by_cases hk : k' = k
    · subst hk; rw [upd_same]; exact b
    · rw [upd_ne _ _ hk]; exact b

/-! ## Channels come and go -/

theorem connect_ok (h : Inv cfg strict none st) {k : K}
    (hj : ∀ v todo, (st.pub (cfg.pubOf k)).job ≠ .sending v todo)
    (ho : (st.chan k).opened = false) :
    Inv cfg strict none (addLog (setPub (setChan st k { st.chan k with opened := true }) (cfg.pubOf k)
        { st.pub (cfg.pubOf k) with chans := (st.pub (cfg.pubOf k)).chans ++ [k] }) (.connected k)) := by
  have hc := h.chan k
  have hp := h.pubT (cfg.pubOf k)
  have hnm : k ∉ (st.pub (cfg.pubOf k)).chans := by
    intro hm
    have := (hp.chansPub k hm).2
    simp only [ho] at this
    cases this
  refine (h.ex k).chanPub { st.chan k with opened := true }
    { st.pub (cfg.pubOf k) with chans := (st.pub (cfg.pubOf k)).chans ++ [k] }
    (.connected k :: st.log) rfl (fun _ => rfl) ?_ ?_ ?_ rfl ?_ ?_ (fun _ => rfl) rfl ?_ ?_
  · intro k' hk
    have hkk : ¬ k = k' := fun e => hk e.symm
    simp [nextId, hkk]
  · refine CI.of (hc.connect hnm) ?_ ?_ ?_ rfl ?_ ?_ (fun _ _ => Iff.rfl) ?_
    · intro i; simp only [addLog, setPub, setChan, upd_same]
    · simp only [addLog, setPub, setChan, upd_same]; simp
    · rw [sentOf_idle]
      · rfl
      · intro v todo; simp only [addLog, setPub, setChan, upd_same]; exact hj v todo
    · simp only [addLog, setPub, setChan, upd_same]
    · simp only [addLog, setPub, setChan, upd_same]
    · simp [addLog, nextId, setPub, setChan]
  · intro k' hk _
    refine ⟨fun _ => Iff.rfl, ?_⟩
    simp [hk]
  · intro k' _ hpk
    refine sentOf_congr ?_ rfl
    intro v todo
    rw [hpk]
    simp only [addLog, setPub, setChan, upd_same]
  · refine { hp with todo := ?_, chansPub := ?_, chansNodup := ?_, holdsMem := ?_ }
    · intro v todo hv; exact absurd hv (hj v todo)
    · intro k' hk'
      simp only [List.mem_append, List.mem_singleton] at hk'
      simp only [addLog, setPub, setChan]
      by_cases hk : k' = k
      · subst hk; exact ⟨rfl, by rw [upd_same]⟩
      · rw [upd_ne _ _ hk]
        rcases hk' with hk' | hk'
        · exact hp.chansPub k' hk'
        · exact absurd hk' hk
    · rw [List.nodup_append]
      refine ⟨hp.chansNodup, by simp, ?_⟩
      intro a ha b hb
      simp only [List.mem_singleton] at hb
      subst hb
      intro e; subst e
      exact hnm ha
    · intro k' i hh
      exact List.mem_append_left _ (hp.holdsMem k' i hh)
  · intro e; cases e
  · intro s
    refine (h.sub s).congrLog (fun _ => rfl) (fun _ => rfl) ?_ (fun _ _ _ hm => hm)
    intro k' hlk
    simp only [uptoOf]
    by_cases hk : k' = k
    · subst hk
      have := (h.cl s k').2 hlk
      rw [h.shut k' ho] at this
      cases this
    · have hkk : ¬ k = k' := fun e => hk e.symm
      simp [nextId, hkk]

theorem close_ok (h : Inv cfg strict none st) {k : K} (hm : cfg.mode k ≠ .local)
    (hcl : (st.chan k).clients = []) :
    Inv cfg strict none (setChan st k { st.chan k with
        closed := true, wire := [], cache := (st.chan k).cache.clear }) := by
  refine (h.ex k).chanOnly _ ?_ rfl rfl
  refine CI.of ((h.chan k).close hcl hm) (fun _ => Iff.rfl) Iff.rfl ?_ rfl rfl ?_ (fun _ _ => Iff.rfl) rfl
  · exact sentOf_congr (fun _ _ => Iff.rfl) rfl
  · simp only [setChan, upd_same]

theorem eof_ok (h : Inv cfg strict none st) {k : K}
    (hj : ∀ v todo, (st.pub (cfg.pubOf k)).job ≠ .sending v todo)
    (hcl : (st.chan k).closed = true) :
    ∃ st', (pubFree cfg (setChan st k { st.chan k with acks := [] }) k none).map
          (fun st' => setPub st' (cfg.pubOf k) { st'.pub (cfg.pubOf k) with
            chans := (st'.pub (cfg.pubOf k)).chans.filter (· != k) }) = .ok st' ∧
      Inv cfg strict none st' := by
  have hc := h.chan k
  have hp := h.pubT (cfg.pubOf k)
  obtain ⟨bp', hf⟩ := Backpressure.free_none_isSome hp.bpInv k
  obtain ⟨b1, b2, b3⟩ := Backpressure.free_spec hp.bpInv hf
  have hpo := pubFree_pub hp hc.pos hf
  have hwj : ∀ v todo, (wake (cfg.n (cfg.pubOf k)) { st.pub (cfg.pubOf k) with bp := bp' }).job ≠ .sending v todo := by
    intro v todo hv
    rw [wake_sending] at hv
    exact hj v todo hv
  rw [pubFree_eq (st := setChan st k { st.chan k with acks := [] }) hf]
  refine ⟨_, rfl, (h.ex k).chanPub { st.chan k with acks := [] }
    { wake (cfg.n (cfg.pubOf k)) { st.pub (cfg.pubOf k) with bp := bp' } with
      chans := (st.pub (cfg.pubOf k)).chans.filter (· != k) } st.log ?_ (fun _ => rfl)
    (fun _ _ => rfl) ?_ ?_ rfl ?_ ?_ id rfl (h.shut k) h.sub⟩
  · simp only [setPub, setChan, upd_same, wake_chans]
    congr 1
    funext x
    by_cases hx : x = cfg.pubOf k
    · subst hx; simp only [upd_same]
    · simp only [upd_ne _ _ hx]
  · refine CI.of (hc.eof hcl (bcasts (cfg.pubOf k) st.log).length) ?_ ?_ ?_ rfl ?_ ?_ (fun _ _ => Iff.rfl) rfl
    · intro i
      simp only [setPub, setChan, upd_same, wake_bp]
      rw [b3]
      simp
    · simp only [setPub, setChan, upd_same, wake_chans]; simp
    · rw [sentOf_idle]
      · rfl
      · intro v todo; simp only [setPub, setChan, upd_same]; exact hwj v todo
    · simp only [setPub, setChan, upd_same, wake_shm]
    · simp only [setPub, setChan, upd_same]
  · intro k' hk _
    constructor
    · intro i
      rw [wake_bp, b3]
      constructor
      · intro hh; exact hh.1
      · intro hh; exact ⟨hh, fun e => hk e.1⟩
    · simp [hk]
  · intro k' _ hpk
    rw [sentOf_idle, sentOf_idle]
    · rfl
    · rw [hpk]; exact hj
    · rw [hpk]; intro v todo; simp only [setPub, setChan, upd_same]; exact hwj v todo
  · refine { hpo with todo := ?_, chansPub := ?_, chansNodup := hp.chansNodup.filter _, holdsMem := ?_ }
    · intro v todo hv; exact absurd hv (hwj v todo)
    · intro k' hk'
      have hk2 : k' ∈ (st.pub (cfg.pubOf k)).chans := (List.mem_filter.1 hk').1
      obtain ⟨a, b⟩ := hpo.chansPub k' hk2
      refine ⟨a, ?_⟩
      simp only [setPub, setChan]
      by_cases hk : k' = k
      · subst hk; rw [upd_same]; exact b
      · rw [upd_ne _ _ hk]; exact b
    · intro k' i hh
      have h1 := (b3 _ _).1 hh
      refine List.mem_filter.2 ⟨hp.holdsMem k' i h1.1, ?_⟩
      simp only [bne_iff_ne, ne_eq]
      intro e
      exact h1.2 ⟨e, Or.inl rfl⟩

end Ez.Sys
