import Verif.Lemmas.System

/-! # Every step preserves the invariant and raises nothing -/

set_option linter.unusedSectionVars false
set_option linter.unusedSimpArgs false

namespace Ez.Sys
variable {P K S V : Type} [DecidableEq P] [DecidableEq K] [DecidableEq S]
variable {cfg : Cfg P K S} {strict : K → Prop} {cur : Cur K S} {st st' : St P K S V}

/-- A step that only changes one publisher, without its leases, channels and segment. -/
theorem Inv.pubOnly (h : Inv cfg strict none st) (p : P) (pb : PubSt K V)
    (hbp : pb.bp = (st.pub p).bp) (hch : pb.chans = (st.pub p).chans) (hshm : pb.shm = (st.pub p).shm)
    (hpo : PubOk cfg pb (bcasts p st.log) (fun k => (st.chan k).opened = true) True p)
    (hsent : ∀ k, cfg.pubOf k = p → (st.chan k).closed = false → k ∈ (st.pub p).chans →
      sentOf cfg (setPub st p pb) k = sentOf cfg st k) :
    Inv cfg strict none (setPub st p pb) := by
  refine ⟨?_, ?_, h.sub, h.cl, h.shut⟩
  · intro k
    have hk := h.chan k
    by_cases hp : cfg.pubOf k = p
    · subst hp
      refine CI.of (hk.sentIrrel (sentOf cfg (setPub st (cfg.pubOf k) pb) k) (fun a b => hsent k rfl a b))
        ?_ ?_ rfl rfl ?_ rfl (fun _ _ => Iff.rfl) rfl
      · intro i; simp only [setPub, upd_same, hbp]
      · simp only [setPub, upd_same, hch]
      · simp only [setPub, upd_same, hshm]
    · refine CI.transfer hk ?_ ?_ ?_ rfl ?_ rfl (fun _ _ => Iff.rfl) rfl
      · intro i; simp only [setPub, upd_ne _ _ hp]
      · simp only [setPub, upd_ne _ _ hp]
      · refine sentOf_congr ?_ rfl
        intro v todo; simp only [setPub, upd_ne _ _ hp]
      · simp only [setPub, upd_ne _ _ hp]
  · intro q
    have hq := h.pub q
    by_cases hp : q = p
    · subst hp
      simp only [setPub, upd_same]
      refine { hpo with todo := ?_ }
      intro v todo hj
      obtain ⟨t1, t2, t3⟩ := hpo.todo v todo hj
      exact ⟨t1, t2, fun k hk => ⟨(t3 k hk).1, (t3 k hk).2.1, fun _ => (t3 k hk).2.2 trivial⟩⟩
    · simp only [setPub, upd_ne _ _ hp]; exact hq

theorem readyNone (p : P) : readyOf cfg (none : Cur K S) p := by
  intro k x r h; cases h

theorem Inv.pubT (h : Inv cfg strict none st) (p : P) :
    PubOk cfg (st.pub p) (bcasts p st.log) (fun k => (st.chan k).opened = true) True p := by
  have := h.pub p
  refine { this with todo := ?_ }
  intro v todo hj
  obtain ⟨t1, t2, t3⟩ := this.todo v todo hj
  exact ⟨t1, t2, fun k hk => ⟨(t3 k hk).1, (t3 k hk).2.1, fun _ => (t3 k hk).2.2 (readyNone p)⟩⟩

/-- `sentOf` when the publisher is not in its sending loop. -/
theorem sentOf_idle {k : K} (h : ∀ v todo, (st.pub (cfg.pubOf k)).job ≠ .sending v todo) :
    sentOf cfg st k = (bcasts (cfg.pubOf k) st.log).length := by
  unfold sentOf
  cases hj : (st.pub (cfg.pubOf k)).job with
  | sending v todo => exact absurd hj (h v todo)
  | _ => rfl

theorem msgId_of_idle {p : P} {pb : PubSt K V} {hist : List V} {o : K → Prop} {r : Prop}
    (h : PubOk cfg pb hist o r p) (hj : ∀ v todo, pb.job ≠ .sending v todo) : hist.length = pb.msgId := by
  have := h.jobLen
  cases hjj : pb.job with
  | sending v todo => exact absurd hjj (hj v todo)
  | _ => rw [hjj] at this; exact this

@[simp] theorem bcasts_bcast (p q : P) (v : V) (l : List (Ev P K S V)) :
    bcasts p (.bcast q v :: l) = if q = p then bcasts p l ++ [v] else bcasts p l := rfl
@[simp] theorem bcasts_arrived (p : P) (k : K) (l : List (Ev P K S V)) :
    bcasts p (.arrived k :: l) = bcasts p l := rfl

/-- State after the bookkeeping at the start of a broadcast: worklist set, message logged. -/
def begun (cfg : Cfg P K S) (st : St P K S V) (p : P) (v : V) : St P K S V :=
  addLog (setPub st p { st.pub p with
    job := .sending v ((st.pub p).chans.filter (fun k => cfg.mode k != .local)) }) (.bcast p v)

theorem mem_filter_nonlocal {l : List K} {k : K} :
    k ∈ l.filter (fun k => cfg.mode k != .local) ↔ k ∈ l ∧ cfg.mode k ≠ .local := by
  rw [List.mem_filter]; simp

theorem sentOf_begun {p : P} {v : V} {k : K} (hk : cfg.pubOf k = p) :
    sentOf cfg (begun cfg st p v) k = if k ∈ (st.pub p).chans ∧ cfg.mode k ≠ .local
      then (bcasts p st.log).length else (bcasts p st.log).length + 1 := by
  subst hk
  unfold sentOf begun
  simp only [addLog, setPub, upd_same, mem_filter_nonlocal, bcasts_bcast, if_true, List.length_append,
    List.length_singleton, Nat.add_sub_cancel]

theorem begun_pubOk (h : Inv cfg strict none st) {p : P} {v : V}
    (hj : ∀ v todo, (st.pub p).job ≠ .sending v todo) (ready : Prop) 
    (hr : ready → ¬ ∃ k ∈ (st.pub p).chans, cfg.mode k = .shm) :
    PubOk cfg ((begun cfg st p v).pub p) (bcasts p (begun cfg st p v).log)
      (fun k => (st.chan k).opened = true) ready p := by
  have hp := h.pubT p
  have hid := msgId_of_idle hp hj
  unfold begun
  simp only [addLog, setPub, upd_same, bcasts_bcast, if_true]
  refine { hp with jobLen := ?_, slotFree := ?_, slotBusy := (by intro w hw; cases hw), todo := ?_ }
  · simp [hid]
  · intro w hw; cases hw
  · intro w todo hw
    cases hw
    refine ⟨hp.chansNodup.filter _, by rw [← hid]; simp, ?_⟩
    intro k hk
    rw [mem_filter_nonlocal] at hk
    exact ⟨hk.1, hk.2, fun hrr hm => absurd ⟨k, hk.1, hm⟩ (hr hrr)⟩

/-- Channels other than the in-process one when a broadcast starts. -/
theorem begun_chan (h : Inv cfg strict none st) {p : P} {v : V}
    (hj : ∀ v todo, (st.pub p).job ≠ .sending v todo)
    (hfree : ∀ k, ¬ (st.pub p).bp.Holds k ((st.pub p).msgId % cfg.n p)) (k : K)
    (hk : ¬ (k ∈ (st.pub p).chans ∧ cfg.mode k = .local)) :
    CI cfg strict (begun cfg st p v) none k := by
  have hci : CI cfg strict st none k := h.chan k
  by_cases hp : cfg.pubOf k = p
  · subst hp
    have hid := msgId_of_idle (h.pub (cfg.pubOf k)) hj
    have h1 := hci.histAppend v (by rw [hid]; exact hfree k)
    rw [sentOf_idle hj] at h1
    refine CI.of (h1.sentIrrel (sentOf cfg (begun cfg st (cfg.pubOf k) v) k) ?_) ?_ ?_ rfl ?_ ?_ rfl
      (fun _ _ => Iff.rfl) rfl
    · intro _ hm
      rw [sentOf_begun rfl, if_pos]
      exact ⟨hm, fun hl => hk ⟨hm, hl⟩⟩
    · intro i; simp only [begun, addLog, setPub, upd_same]
    · simp only [begun, addLog, setPub, upd_same]
    · simp only [begun, addLog, setPub, bcasts_bcast, if_true]
    · simp only [begun, addLog, setPub, upd_same]
  · have hp' : ¬ p = cfg.pubOf k := fun e => hp e.symm
    refine CI.transfer hci ?_ ?_ ?_ ?_ ?_ rfl (fun _ _ => Iff.rfl) rfl
    · intro i; simp only [begun, addLog, setPub, upd_ne _ _ hp]
    · simp only [begun, addLog, setPub, upd_ne _ _ hp]
    · refine sentOf_congr ?_ ?_
      · intro v todo; simp only [begun, addLog, setPub, upd_ne _ _ hp]
      · simp only [begun, addLog, setPub, bcasts_bcast, if_neg hp']
    · simp only [begun, addLog, setPub, bcasts_bcast, if_neg hp']
    · simp only [begun, addLog, setPub, upd_ne _ _ hp]

theorem getElem?_append_some {l l' : List V} {m : Nat} {v : V} (h : l[m]? = some v) :
    (l ++ l')[m]? = some v := by
  have : m < l.length := by
    rcases Nat.lt_or_ge m l.length with h' | h'
    · exact h'
    · rw [List.getElem?_eq_none h'] at h; cases h
  rw [List.getElem?_append, if_pos this]; exact h

theorem bcasts_bcast_get {p q : P} {v w : V} {l : List (Ev P K S V)} {m : Nat}
    (h : (bcasts p l)[m]? = some w) : (bcasts p (.bcast q v :: l))[m]? = some w := by
  rw [bcasts_bcast]
  split
  · exact getElem?_append_some h
  · exact h

theorem begun_sub (h : Inv cfg strict none st) {p : P} {v : V} (s : S) (up : K → Nat)
    (hup : ∀ k, (st.sub s).chans (cfg.pubOf k) = some k → up k = nextId cfg k st.log)
    (log : List (Ev P K S V)) (hlog : log = .bcast p v :: st.log ∨
      ∃ k, log = .arrived k :: .bcast p v :: st.log) :
    SubOk cfg (st.sub s) log up s := by
  refine (h.sub s).congrLog ?_ ?_ ?_ ?_
  · intro k; rcases hlog with rfl | ⟨_, rfl⟩ <;> rfl
  · intro k; rcases hlog with rfl | ⟨_, rfl⟩ <;> rfl
  · intro k hk
    rw [hup k hk]
    simp [uptoOf]
  · intro q m w hm
    rcases hlog with rfl | ⟨_, rfl⟩
    · exact bcasts_bcast_get hm
    · rw [bcasts_arrived]; exact bcasts_bcast_get hm

/-- The invariant except that the current message of `p` may not be in shared memory yet. -/
structure PreInv (cfg : Cfg P K S) (strict : K → Prop) (p : P) (st : St P K S V) : Prop where
  chan : ∀ k, CI cfg strict st none k
  pubs : ∀ q, q ≠ p → PubOk cfg (st.pub q) (bcasts q st.log)
      (fun k => (st.chan k).opened = true) (readyOf cfg (none : Cur K S) q) q
  pub : PubOk cfg (st.pub p) (bcasts p st.log) (fun k => (st.chan k).opened = true) False p
  sub : ∀ s, SubOk cfg (st.sub s) st.log (uptoOf cfg none st.log s) s
  cl : ∀ s k, s ∈ (st.chan k).clients ↔ (st.sub s).chans (cfg.pubOf k) = some k
  shut : ∀ k, (st.chan k).opened = false → (st.chan k).clients = []

theorem PreInv.noShm {p : P} (h : PreInv cfg strict p st)
    (hno : ∀ k ∈ (st.pub p).chans, cfg.mode k ≠ .shm) : Inv cfg strict none st := by
  refine ⟨h.chan, ?_, h.sub, h.cl, h.shut⟩
  intro q
  by_cases hq : q = p
  · subst hq
    refine { h.pub with todo := ?_ }
    intro v todo hj
    obtain ⟨t1, t2, t3⟩ := h.pub.todo v todo hj
    exact ⟨t1, t2, fun k hk => ⟨(t3 k hk).1, (t3 k hk).2.1, fun _ hm => absurd hm (hno k (t3 k hk).1)⟩⟩
  · exact h.pubs q hq

/-- The shared memory write that ends the preparations of a broadcast. -/
theorem PreInv.shmWrite {p : P} {x : Nat} {v : V} {todo : List K} (h : PreInv cfg strict p st)
    (hn : 0 < cfg.n p) (hj : (st.pub p).job = .sending v todo) (hx : (st.pub p).msgId = x) :
    Inv cfg strict none (setPub st p
      { st.pub p with shm := (st.pub p).shm.set (x % cfg.n p) (some (x, v)) }) := by
  have hp := h.pub
  obtain ⟨t1, t2, t3⟩ := hp.todo v todo hj
  have hlen := hp.jobLen
  rw [hj] at hlen
  simp only at hlen
  rw [hx] at hlen t2
  refine ⟨?_, ?_, h.sub, h.cl, h.shut⟩
  · intro k
    by_cases hk : cfg.pubOf k = p
    · subst hk
      refine CI.of ((h.chan k).shmWrite hlen t2 hp.shmLen) ?_ ?_ ?_ rfl ?_ rfl (fun _ _ => Iff.rfl) rfl
      · intro i; simp only [setPub, upd_same]
      · simp only [setPub, upd_same]
      · refine sentOf_congr ?_ rfl
        intro v todo; simp only [setPub, upd_same]
      · simp only [setPub, upd_same]
    · refine CI.transfer (h.chan k) ?_ ?_ ?_ rfl ?_ rfl (fun _ _ => Iff.rfl) rfl
      · intro i; simp only [setPub, upd_ne _ _ hk]
      · simp only [setPub, upd_ne _ _ hk]
      · refine sentOf_congr ?_ rfl
        intro v todo; simp only [setPub, upd_ne _ _ hk]
      · simp only [setPub, upd_ne _ _ hk]
  · intro q
    by_cases hq : q = p
    · subst hq
      simp only [setPub, upd_same]
      refine { hp with shmLen := by simp [hp.shmLen], todo := ?_ }
      intro w todo' hj'
      have hj'' : (st.pub q).job = .sending w todo' := hj'
      obtain ⟨s1, s2, s3⟩ := hp.todo w todo' hj''
      refine ⟨s1, s2, fun k hk => ⟨(s3 k hk).1, (s3 k hk).2.1, fun _ _ => ?_⟩⟩
      rw [hj] at hj''
      cases hj''
      simp only [hx]
      rw [List.getElem?_set_self]
      rw [hp.shmLen]; exact Nat.mod_lt _ hn
    · simp only [setPub, upd_ne _ _ hq]; exact h.pubs q hq

theorem readyFalse {k : K} {x : Nat} {r : List S} (hl : cfg.mode k = .local) :
    ¬ readyOf cfg (some (k, x, r)) (cfg.pubOf k) := fun h => h k x r rfl hl rfl

/-- The in-process announcement starts. -/
theorem begun_local (h : Inv cfg strict none st) {v : V} {k : K} (hl : cfg.mode k = .local)
    (hwf : cfg.WF) (hm : k ∈ (st.pub (cfg.pubOf k)).chans)
    (hj : ∀ v todo, (st.pub (cfg.pubOf k)).job ≠ .sending v todo)
    (hfree : ∀ k', ¬ (st.pub (cfg.pubOf k)).bp.Holds k'
      ((st.pub (cfg.pubOf k)).msgId % cfg.n (cfg.pubOf k))) :
    Inv cfg strict (some (k, (st.pub (cfg.pubOf k)).msgId, (st.chan k).clients))
      (addLog (begun cfg st (cfg.pubOf k) v) (.arrived k)) ∧
    nextId cfg k (addLog (begun cfg st (cfg.pubOf k) v) (.arrived k)).log =
      (st.pub (cfg.pubOf k)).msgId + 1 := by
  have hid := msgId_of_idle (h.pub (cfg.pubOf k)) hj
  have hci : CI cfg strict st none k := h.chan k
  unfold CI at hci
  rw [hl, sentOf_idle hj] at hci
  obtain ⟨hn, hstart⟩ := hci.localStart v hm rfl (by rw [hid]; exact hfree k)
  have hnext : nextId cfg k (addLog (begun cfg st (cfg.pubOf k) v) (.arrived k)).log =
      nextId cfg k st.log + 1 := by
    simp [addLog, begun, setPub, nextId]
  refine ⟨⟨?_, ?_, ?_, h.cl, h.shut⟩, by rw [hnext, hn, hid]⟩
  · intro k'
    by_cases hk : k' = k
    · subst hk
      have hex : exOf (some (k', (st.pub (cfg.pubOf k')).msgId, (st.chan k').clients)) k' =
          some (st.pub (cfg.pubOf k')).msgId := by simp [exOf]
      rw [hex, ← hid]
      rw [← hl] at hstart
      refine CI.of hstart ?_ ?_ ?_ ?_ ?_ rfl (fun _ _ => Iff.rfl) hnext
      · intro i; simp only [begun, addLog, setPub, upd_same]
      · simp only [begun, addLog, setPub, upd_same]
      · have : sentOf cfg (addLog (begun cfg st (cfg.pubOf k') v) (.arrived k')) k' =
            sentOf cfg (begun cfg st (cfg.pubOf k') v) k' :=
          sentOf_congr (fun _ _ => Iff.rfl) rfl
        rw [this, sentOf_begun rfl, if_neg]
        intro hh; exact hh.2 hl
      · simp only [begun, addLog, setPub, bcasts_arrived, bcasts_bcast, if_true]
      · simp only [begun, addLog, setPub, upd_same]
    · have hex : exOf (some (k, (st.pub (cfg.pubOf k)).msgId, (st.chan k).clients)) k' = none := by
        simp [exOf, hk]
      rw [hex]
      have hb := begun_chan (v := v) h hj hfree k' (by
        rintro ⟨h1, h2⟩
        exact hk (hwf.localOne k' k h2 hl ((h.pub (cfg.pubOf k)).chansPub k' h1).1))
      refine CI.transfer hb (fun _ => Iff.rfl) Iff.rfl (sentOf_congr (fun _ _ => Iff.rfl) rfl) rfl rfl rfl
        (fun _ _ => Iff.rfl) ?_
      have hkk : ¬ k = k' := fun e => hk e.symm
      simp [addLog, nextId, hkk]
  · intro q
    by_cases hq : q = cfg.pubOf k
    · subst hq
      exact begun_pubOk h hj _ (fun hr => absurd hr (readyFalse hl))
    · have := h.pub q
      have hq' : ¬ cfg.pubOf k = q := fun e => hq e.symm
      simp only [begun, addLog, setPub, upd_ne _ _ hq, bcasts_arrived, bcasts_bcast, if_neg hq']
      refine { this with todo := ?_ }
      intro w todo hw
      obtain ⟨t1, t2, t3⟩ := this.todo w todo hw
      exact ⟨t1, t2, fun k hk => ⟨(t3 k hk).1, (t3 k hk).2.1, fun _ => (t3 k hk).2.2 (readyNone q)⟩⟩
  · intro s
    refine begun_sub h s _ ?_ _ (Or.inr ⟨k, rfl⟩)
    intro k' hk'
    simp only [uptoOf]
    by_cases hk : k' = k
    · subst hk
      have : s ∈ (st.chan k').clients := (h.cl s k').2 hk'
      simp only [this, and_self, if_true, hnext, Nat.add_sub_cancel]
    · simp only [hk, false_and, if_false]
      have hkk : ¬ k = k' := fun e => hk e.symm
      simp [addLog, begun, setPub, nextId, hkk]

theorem readyOther {k : K} {x : Nat} {r : List S} {q : P} (hq : q ≠ cfg.pubOf k) :
    readyOf cfg (some (k, x, r)) q := by
  intro k' x' r' he _
  cases he
  exact fun e => hq e.symm

theorem readyMode {k : K} {x : Nat} {r : List S} {q : P} (hm : cfg.mode k ≠ .local) :
    readyOf cfg (some (k, x, r)) q := by
  intro k' x' r' he hl
  cases he
  exact absurd hl hm

theorem PubOk.mono {pb : PubSt K V} {hist : List V} {o : K → Prop} {r r' : Prop} {p : P}
    (h : PubOk cfg pb hist o r p) (hr : r' → r) : PubOk cfg pb hist o r' p := by
  refine { h with todo := ?_ }
  intro v todo hj
  obtain ⟨t1, t2, t3⟩ := h.todo v todo hj
  exact ⟨t1, t2, fun k hk => ⟨(t3 k hk).1, (t3 k hk).2.1, fun x => (t3 k hk).2.2 (hr x)⟩⟩

/-- Subscribers when an announcement is over. -/
theorem Inv.endSub {k : K} {x : Nat} (h : Inv cfg strict (some (k, x, [])) st) (s : S) :
    SubOk cfg (st.sub s) st.log (uptoOf cfg none st.log s) s := by
  refine (h.sub s).congrLog (fun _ => rfl) (fun _ => rfl) ?_ (fun _ _ _ hm => hm)
  intro k' _
  simp [uptoOf]

theorem Inv.endOther {k k' : K} {x : Nat} (h : Inv cfg strict (some (k, x, [])) st) (hk : k' ≠ k) :
    CI cfg strict st none k' := by
  have := h.chan k'
  rwa [show exOf (some (k, x, ([] : List S))) k' = none by simp [exOf, hk]] at this

theorem Inv.endSelf {k : K} {x : Nat} (h : Inv cfg strict (some (k, x, [])) st) :
    CI cfg strict st (some x) k := by
  have := h.chan k
  rwa [show exOf (some (k, x, ([] : List S))) k = some x by simp [exOf]] at this

/-- In-process delivery at the start of a broadcast. -/
theorem putLocal_ok (h : Inv cfg strict none st) {v : V} {k : K} (hl : cfg.mode k = .local)
    (hwf : cfg.WF) (hm : k ∈ (st.pub (cfg.pubOf k)).chans)
    (hj : ∀ v todo, (st.pub (cfg.pubOf k)).job ≠ .sending v todo)
    (hfree : ∀ k', ¬ (st.pub (cfg.pubOf k)).bp.Holds k'
      ((st.pub (cfg.pubOf k)).msgId % cfg.n (cfg.pubOf k))) :
    ∃ st', putLocal cfg (begun cfg st (cfg.pubOf k) v) k (st.pub (cfg.pubOf k)).msgId v = .ok st' ∧
      PreInv cfg strict (cfg.pubOf k) st' ∧
      (st'.pub (cfg.pubOf k)).chans = (st.pub (cfg.pubOf k)).chans ∧
      (st'.pub (cfg.pubOf k)).msgId = (st.pub (cfg.pubOf k)).msgId ∧
      ∃ todo, (st'.pub (cfg.pubOf k)).job = .sending v todo := by
  obtain ⟨h0, hn0⟩ := begun_local (v := v) h hl hwf hm hj hfree
  obtain ⟨st1, b, e1, e2, e3, e4, e5⟩ := notify_ok (st := addLog (begun cfg st (cfg.pubOf k) v) (.arrived k)) h0 hn0
  have hci := e2.endSelf
  have hdir := hwf.localDirect k hl
  have hp1 : (st1.pub (cfg.pubOf k)).chans = (st.pub (cfg.pubOf k)).chans := by
    rw [e3.chans]; simp only [begun, addLog, setPub, upd_same]
  have hp2 : (st1.pub (cfg.pubOf k)).msgId = (st.pub (cfg.pubOf k)).msgId := by
    rw [e3.msgId]; simp only [begun, addLog, setPub, upd_same]
  have hp3 : (st1.pub (cfg.pubOf k)).job = .sending v
      ((st.pub (cfg.pubOf k)).chans.filter (fun k => cfg.mode k != .local)) := by
    rw [e3.sending]; simp only [begun, addLog, setPub, upd_same]
  have hx : (bcasts (cfg.pubOf k) st1.log)[(st.pub (cfg.pubOf k)).msgId]? = some v := by
    have := ((e2.pub (cfg.pubOf k)).todo _ _ hp3).2.1
    rwa [hp2] at this
  have hnh : ¬ (st1.pub (cfg.pubOf k)).bp.Holds k
      ((st.pub (cfg.pubOf k)).msgId % cfg.n (cfg.pubOf k)) := by
    intro hh
    have := e3.holdsLe _ _ _ hh
    simp only [begun, addLog, setPub, upd_same] at this
    exact hfree k this
  unfold putLocal
  rw [if_neg (by rw [hdir]; simp), e1]
  cases b with
  | false =>
    refine ⟨st1, rfl, ⟨?_, ?_, ?_, e2.endSub, e2.cl, e2.shut⟩, hp1, hp2, _, hp3⟩
    · intro k'
      by_cases hk : k' = k
      · subst hk; exact hci.endNobody (e5 rfl) hnh
      · exact e2.endOther hk
    · intro q hq; exact (e2.pub q).mono (fun _ => readyOther hq)
    · exact (e2.pub _).mono False.elim
  | true =>
    simp only
    obtain ⟨c, hc⟩ := e4 rfl
    have hpos : 0 < (st1.chan k).cache.slots.length := by rw [hci.cacheLen]; exact hci.pos
    obtain ⟨cache', hput⟩ := (MessageCache.put_ok_iff (st1.chan k).cache
      { object := Obj.val v, msgId := (st.pub (cfg.pubOf k)).msgId, mem := none }).2 hpos
    have hput' : (st1.chan k).cache.putLocal (.val v) (st.pub (cfg.pubOf k)).msgId = .ok cache' := hput
    rw [hput']
    simp only [setChan]
    have hpo := e2.pub (cfg.pubOf k)
    obtain ⟨bp', hl'⟩ := lease_isSome (bp := (st1.pub (cfg.pubOf k)).bp) (c := k)
      (i := (st.pub (cfg.pubOf k)).msgId % cfg.n (cfg.pubOf k))
      (by rw [hpo.bpLen]; exact Nat.mod_lt _ hci.pos)
    obtain ⟨b1, b2, _, b3⟩ := Backpressure.lease_spec hpo.bpInv hl'
    rw [hl']
    refine ⟨_, rfl, ⟨?_, ?_, ?_, e2.endSub, ?_, ?_⟩, ?_, ?_, (st.pub (cfg.pubOf k)).chans.filter (fun k => cfg.mode k != .local), ?_⟩
    · intro k'
      by_cases hk : k' = k
      · subst hk
        refine CI.of (hci.endLocal hc hx hput' (by rw [hp1]; exact hm)) ?_ ?_ ?_ rfl ?_ ?_ (fun _ _ => Iff.rfl) rfl
        · intro i
          simp only [setPub, upd_same]
          rw [b3]; simp
        · simp only [setPub, upd_same]
        · refine sentOf_congr ?_ rfl
          intro w todo; simp only [setPub, upd_same]
        · simp only [setPub, upd_same]
        · simp only [setPub, upd_same]
      · refine CI.transfer (e2.endOther hk) ?_ ?_ ?_ rfl ?_ ?_ (fun _ _ => Iff.rfl) rfl
        · intro i
          simp only [setPub]
          by_cases hp : cfg.pubOf k' = cfg.pubOf k
          · rw [hp, upd_same]
            simp only
            rw [b3]
            constructor
            · rintro (hh | hh)
              · exact hh
              · exact absurd hh.1 hk
            · exact Or.inl
          · rw [upd_ne _ _ hp]
        · simp only [setPub]
          by_cases hp : cfg.pubOf k' = cfg.pubOf k
          · rw [hp, upd_same]
          · rw [upd_ne _ _ hp]
        · refine sentOf_congr ?_ rfl
          intro w todo; simp only [setPub]
          by_cases hp : cfg.pubOf k' = cfg.pubOf k
          · rw [hp, upd_same]
          · rw [upd_ne _ _ hp]
        · simp only [setPub]
          by_cases hp : cfg.pubOf k' = cfg.pubOf k
          · rw [hp, upd_same]
          · rw [upd_ne _ _ hp]
        · simp only [setPub]; exact upd_ne _ _ hk
    · intro q hq
      have := (e2.pub q).mono (r' := readyOf cfg (none : Cur K S) q) (fun _ => readyOther hq)
      simp only [setPub, upd_ne _ _ hq]
      refine { this with chansPub := ?_ }
      intro k' hk'
      refine ⟨(this.chansPub k' hk').1, ?_⟩
      by_cases hk : k' = k
      · subst hk; rw [upd_same]; exact (this.chansPub k' hk').2
      · rw [upd_ne _ _ hk]; exact (this.chansPub k' hk').2
    · have := hpo.mono (r' := False) False.elim
      simp only [setPub, upd_same]
      refine { this with bpInv := b1, bpLen := b2.trans this.bpLen, slotFree := ?_, slotBusy := ?_, chansPub := ?_, holdsMem := ?_ }
      · intro w hw
        have hw' : (st1.pub (cfg.pubOf k)).job = .slot w true := hw
        rw [hp3] at hw'; cases hw'
      · intro w hw
        have hw' : (st1.pub (cfg.pubOf k)).job = .slot w false := hw
        rw [hp3] at hw'; cases hw'
      · intro k' hk'
        refine ⟨(this.chansPub k' hk').1, ?_⟩
        by_cases hk : k' = k
        · subst hk; rw [upd_same]; exact (this.chansPub k' hk').2
        · rw [upd_ne _ _ hk]; exact (this.chansPub k' hk').2
      · intro k' i hh
        rcases (b3 _ _).1 hh with hh | hh
        · exact this.holdsMem k' i hh
        · rw [hh.1]; show k ∈ (st1.pub (cfg.pubOf k)).chans; rw [hp1]; exact hm
    · intro s k'
      simp only [setPub]
      rw [← e2.cl]
      by_cases hk : k' = k
      · subst hk; rw [upd_same]
      · rw [upd_ne _ _ hk]
    · intro k'
      simp only [setPub]
      by_cases hk : k' = k
      · subst hk; rw [upd_same]; exact e2.shut k'
      · rw [upd_ne _ _ hk]; exact e2.shut k'
    · simp only [setPub, upd_same]; exact hp1
    · simp only [setPub, upd_same]; exact hp2
    · simp only [setPub, upd_same]; exact hp3

/-- The start of a broadcast, up to the loop over the channels. -/
theorem begin_ok (h : Inv cfg strict none st) (hwf : cfg.WF) {p : P} {v : V}
    (hj : ∀ v todo, (st.pub p).job ≠ .sending v todo)
    (hfree : ∀ k', ¬ (st.pub p).bp.Holds k' ((st.pub p).msgId % cfg.n p)) :
    ∃ st', begin cfg st p v = .ok st' ∧ Inv cfg strict none st' := by
  have fin : ∀ st2 : St P K S V, PreInv cfg strict p st2 →
      (st2.pub p).chans = (st.pub p).chans → (st2.pub p).msgId = (st.pub p).msgId →
      (∃ todo, (st2.pub p).job = .sending v todo) →
      Inv cfg strict none (if (st.pub p).chans.any (fun k => cfg.mode k == .shm) then
        setPub st2 p
          { st2.pub p with
            shm := (st2.pub p).shm.set ((st.pub p).msgId % cfg.n p) (some ((st.pub p).msgId, v)) }
      else st2) := by
    intro st2 hpre h1 h2 ⟨todo, h3⟩
    split
    · exact hpre.shmWrite (hwf.pos p) h3 h2
    · rename_i hany
      refine hpre.noShm ?_
      intro k hk hm
      rw [h1] at hk
      exact hany (List.any_eq_true.2 ⟨k, hk, by simp [hm]⟩)
  unfold begin
  cases hf : (st.pub p).chans.find? (fun k => cfg.mode k == .local) with
  | some k =>
    have hm := List.mem_of_find?_eq_some hf
    have hl : cfg.mode k = .local := by simpa using List.find?_some hf
    have hpk := ((h.pub p).chansPub k hm).1
    subst hpk
    obtain ⟨st2, e1, e2, e3, e4, e5⟩ := putLocal_ok (v := v) h hl hwf hm hj hfree
    simp only [hf]
    unfold begun at e1
    rw [e1]
    exact ⟨_, rfl, fin st2 e2 e3 e4 e5⟩
  | none =>
    simp only [hf]
    have hnl : ∀ k, ¬ (k ∈ (st.pub p).chans ∧ cfg.mode k = .local) := by
      rintro k ⟨h1, h2⟩
      have := List.find?_eq_none.1 hf k h1
      simp [h2] at this
    refine ⟨_, rfl, fin (begun cfg st p v) ⟨?_, ?_, ?_, ?_, h.cl, h.shut⟩ ?_ ?_ ?_⟩
    · intro k; exact begun_chan h hj hfree k (hnl k)
    · intro q hq
      have hq' : ¬ p = q := fun e => hq e.symm
      simp only [begun, addLog, setPub, upd_ne _ _ hq, bcasts_bcast, if_neg hq']
      exact h.pub q
    · exact begun_pubOk h hj False False.elim
    · intro s
      exact begun_sub h s _ (fun k _ => rfl) _ (Or.inl rfl)
    · simp only [begun, addLog, setPub, upd_same]
    · simp only [begun, addLog, setPub, upd_same]
    · exact ⟨(st.pub p).chans.filter (fun k => cfg.mode k != .local), by simp only [begun, addLog, setPub, upd_same]⟩

end Ez.Sys
