import Verif.Lemmas.SystemSub

/-! # What the steps do to the log, to the subscribers and to the publishers' waiting tasks -/

set_option linter.unusedSectionVars false
set_option linter.unusedSimpArgs false

namespace Ez.Sys
variable {P K S V : Type} [DecidableEq P] [DecidableEq K] [DecidableEq S]
variable {cfg : Cfg P K S} {strict : K → Prop} {cur : Cur K S} {st st' st'' : St P K S V}

/-- Only notifications dropped by leaky queues were logged. -/
def OnlyDrops (ds : List (Ev P K S V)) : Prop := ∀ e ∈ ds, ∃ c k m, e = .dropped c k m

/-- Nobody holds a lease of `p`. -/
def NoLease (pb : PubSt K V) : Prop := ∀ k i, ¬ pb.bp.Holds k i

/-- `sync()` calls wait only while there is a lease. -/
def SyncBusy (pb : PubSt K V) : Prop := 0 < pb.syncWait → ¬ NoLease pb

/-- No `sync()` call is forgotten, and those without a lease to wait for are woken. -/
def SyncKept (pb pb' : PubSt K V) : Prop :=
  pb'.syncWait + pb'.syncWoken = pb.syncWait + pb.syncWoken ∧ (SyncBusy pb → SyncBusy pb')

theorem SyncKept.refl (pb : PubSt K V) : SyncKept pb pb := ⟨rfl, id⟩

theorem SyncKept.trans {a b c : PubSt K V} (h : SyncKept a b) (h' : SyncKept b c) : SyncKept a c :=
  ⟨h'.1.trans h.1, fun x => h'.2 (h.2 x)⟩

/-- Effect of freeing buffers and notifying clients. -/
structure Eff (st st' : St P K S V) : Prop where
  held : ∀ s, (st'.sub s).held = (st.sub s).held
  links : ∀ s, (st'.sub s).chans = (st.sub s).chans
  clients : ∀ k, (st'.chan k).clients = (st.chan k).clients
  opened : ∀ k, (st'.chan k).opened = (st.chan k).opened
  closed : ∀ k, (st'.chan k).closed = (st.chan k).closed
  chans : ∀ p, (st'.pub p).chans = (st.pub p).chans
  running : ∀ p, (st'.pub p).running = (st.pub p).running
  bpInv : ∀ p, (st.pub p).bp.Inv → (st'.pub p).bp.Inv
  holdsLe : ∀ p k i, (st.pub p).bp.Inv → (st'.pub p).bp.Holds k i → (st.pub p).bp.Holds k i
  idle : ∀ p, (st'.pub p).job = .idle ↔ (st.pub p).job = .idle
  gate : ∀ p v b, (st'.pub p).job = .gate v b ↔ (st.pub p).job = .gate v b
  sending : ∀ p v t, (st'.pub p).job = .sending v t ↔ (st.pub p).job = .sending v t
  slot : ∀ p v, (∃ b, (st'.pub p).job = .slot v b) ↔ ∃ b, (st.pub p).job = .slot v b
  woken : ∀ p, (st.pub p).bp.Inv →
    (st'.pub p).syncWoken = (st.pub p).syncWoken ∨ NoLease (st'.pub p)
  sync : ∀ p, (st.pub p).bp.Inv → SyncKept (st.pub p) (st'.pub p)
  log : ∃ ds, st'.log = ds ++ st.log ∧ OnlyDrops ds

theorem Eff.refl (st : St P K S V) : Eff st st where
  held _ := rfl
  links _ := rfl
  clients _ := rfl
  opened _ := rfl
  closed _ := rfl
  chans _ := rfl
  running _ := rfl
  bpInv _ h := h
  holdsLe _ _ _ _ h := h
  idle _ := Iff.rfl
  gate _ _ _ := Iff.rfl
  sending _ _ _ := Iff.rfl
  slot _ _ := Iff.rfl
  woken _ _ := Or.inl rfl
  sync _ _ := SyncKept.refl _
  log := ⟨[], rfl, by intro e he; cases he⟩

theorem Eff.trans (h : Eff st st') (h' : Eff st' st'') : Eff st st'' where
  held s := (h'.held s).trans (h.held s)
  links s := (h'.links s).trans (h.links s)
  clients k := (h'.clients k).trans (h.clients k)
  opened k := (h'.opened k).trans (h.opened k)
  closed k := (h'.closed k).trans (h.closed k)
  chans p := (h'.chans p).trans (h.chans p)
  running p := (h'.running p).trans (h.running p)
  bpInv p i := h'.bpInv p (h.bpInv p i)
  holdsLe p k i hi hh := h.holdsLe p k i hi (h'.holdsLe p k i (h.bpInv p hi) hh)
  idle p := (h'.idle p).trans (h.idle p)
  gate p v b := (h'.gate p v b).trans (h.gate p v b)
  sending p v t := (h'.sending p v t).trans (h.sending p v t)
  slot p v := (h'.slot p v).trans (h.slot p v)
  woken p hi := by
    rcases h'.woken p (h.bpInv p hi) with e | e
    · rcases h.woken p hi with e' | e'
      · exact Or.inl (e.trans e')
      · exact Or.inr (fun k i hh => e' k i (h'.holdsLe p k i (h.bpInv p hi) hh))
    · exact Or.inr e
  sync p hi := (h.sync p hi).trans (h'.sync p (h.bpInv p hi))
  log := by
    obtain ⟨ds, h1, h2⟩ := h.log
    obtain ⟨ds', h3, h4⟩ := h'.log
    refine ⟨ds' ++ ds, by rw [h3, h1, List.append_assoc], ?_⟩
    intro e he
    rcases List.mem_append.1 he with he | he
    · exact h4 e he
    · exact h2 e he

theorem wake_idle (n : Nat) (pb : PubSt K V) : (wake n pb).job = .idle ↔ pb.job = .idle := by
  unfold wake
  cases h : pb.job with
  | idle => simp
  | gate v b => simp
  | slot v b => cases b <;> simp
  | sending v todo => simp

theorem wake_gate (n : Nat) (pb : PubSt K V) (v : V) (b : Bool) :
    (wake n pb).job = .gate v b ↔ pb.job = .gate v b := by
  unfold wake
  cases h : pb.job with
  | idle => simp
  | gate v b => simp
  | slot v b => cases b <;> simp
  | sending v todo => simp

theorem wake_slot (n : Nat) (pb : PubSt K V) (v : V) :
    (∃ b, (wake n pb).job = .slot v b) ↔ ∃ b, pb.job = .slot v b := by
  unfold wake
  cases h : pb.job with
  | idle => simp
  | gate v b => simp
  | slot v b => cases b <;> simp
  | sending v todo => simp

/-- `Backpressure.sync` returns at once exactly if there is no lease. -/
theorem syncReady_iff {bp : Backpressure K} (h : bp.Inv) :
    bp.syncReady = true ↔ ∀ k i, ¬ bp.Holds k i := by
  unfold Backpressure.syncReady
  rw [h.glob, h.press]
  constructor
  · intro h0 k i ⟨b, hb, hk⟩
    have h1 : Backpressure.busy bp.buffers = 0 := by
      have : ((Backpressure.busy bp.buffers : Int) == 0) = true := h0
      simp only [beq_iff_eq] at this
      omega
    unfold Backpressure.busy at h1
    rw [List.countP_eq_zero] at h1
    have := h1 b (List.mem_of_getElem? hb)
    cases hl : b.leases with
    | nil => rw [hl] at hk; cases hk
    | cons x l => rw [hl] at this; simp at this
  · intro h0
    have h1 : Backpressure.busy bp.buffers = 0 := by
      unfold Backpressure.busy
      rw [List.countP_eq_zero]
      intro b hb
      obtain ⟨i, hi⟩ := List.getElem?_of_mem hb
      cases hl : b.leases with
      | nil => simp
      | cons x l => exact absurd ⟨b, hi, by rw [hl]; exact List.mem_cons_self ..⟩ (h0 x i)
    rw [h1]; rfl

theorem wake_woken (n : Nat) {pb : PubSt K V} (h : pb.bp.Inv) :
    (wake n pb).syncWoken = pb.syncWoken ∨ NoLease (wake n pb) := by
  by_cases hs : pb.bp.syncReady = true
  · exact Or.inr ((syncReady_iff h).1 hs)
  · refine Or.inl ?_
    simp [wake, hs]

theorem wake_kept (n : Nat) {pb : PubSt K V} {bp : Backpressure K} (h : bp.Inv) :
    SyncKept pb (wake n { pb with bp := bp }) := by
  by_cases hs : bp.syncReady = true
  · refine ⟨by simp [wake, hs]; omega, ?_⟩
    intro _ h0
    simp [wake, hs] at h0
  · refine ⟨by simp [wake, hs], ?_⟩
    intro _ _ hn
    exact hs ((syncReady_iff h).2 hn)

theorem pubFree_eff {k : K} {i : Option Nat} (h : pubFree cfg st k i = .ok st') :
    Eff st st' ∧ st'.sub = st.sub ∧ st'.chan = st.chan ∧ st'.log = st.log := by
  unfold pubFree at h
  simp only at h
  cases hf : (st.pub (cfg.pubOf k)).bp.free k i with
  | none => rw [hf] at h; cases h
  | some bp =>
    rw [hf] at h
    simp only [Except.ok.injEq] at h
    subst h
    have key : ∀ {Q : PubSt K V → PubSt K V → Prop},
        (Q (wake (cfg.n (cfg.pubOf k)) { st.pub (cfg.pubOf k) with bp := bp }) (st.pub (cfg.pubOf k))) →
        (∀ x, Q x x) → ∀ p, Q ((upd st.pub (cfg.pubOf k)
          (wake (cfg.n (cfg.pubOf k)) { st.pub (cfg.pubOf k) with bp := bp })) p) (st.pub p) := by
      intro Q h1 h2 p
      by_cases hp : p = cfg.pubOf k
      · subst hp; rw [upd_same]; exact h1
      · rw [upd_ne _ _ hp]; exact h2 _
    refine ⟨⟨fun _ => rfl, fun _ => rfl, fun _ => rfl, fun _ => rfl, fun _ => rfl, ?_, ?_, ?_, ?_, ?_, ?_, ?_, ?_, ?_, ?_,
      ⟨[], rfl, by intro e he; cases he⟩⟩, rfl, rfl, rfl⟩
    · exact key (Q := fun a b => a.chans = b.chans) rfl (fun _ => rfl)
    · exact key (Q := fun a b => a.running = b.running) rfl (fun _ => rfl)
    · exact key (Q := fun a b => b.bp.Inv → a.bp.Inv) (fun hi => (Backpressure.free_spec hi hf).1) (fun _ => id)
    · intro p k' i'
      exact key (Q := fun a b => b.bp.Inv → a.bp.Holds k' i' → b.bp.Holds k' i')
        (fun hi hh => (((Backpressure.free_spec hi hf).2.2 _ _).1 hh).1) (fun _ _ => id) p
    · exact key (Q := fun a b => a.job = .idle ↔ b.job = .idle) (wake_idle _ _) (fun _ => Iff.rfl)
    · intro p v b
      exact key (Q := fun a b' => a.job = .gate v b ↔ b'.job = .gate v b) (wake_gate _ _ _ _) (fun _ => Iff.rfl) p
    · intro p v t
      exact key (Q := fun a b' => a.job = .sending v t ↔ b'.job = .sending v t) (wake_sending _ _ _ _)
        (fun _ => Iff.rfl) p
    · intro p v
      exact key (Q := fun a b' => (∃ b, a.job = .slot v b) ↔ ∃ b, b'.job = .slot v b) (wake_slot _ _ _)
        (fun _ => Iff.rfl) p
    · exact key (Q := fun a b => b.bp.Inv → a.syncWoken = b.syncWoken ∨ NoLease a)
        (fun hi => wake_woken _ (pb := { st.pub (cfg.pubOf k) with bp := bp }) (Backpressure.free_spec hi hf).1)
        (fun _ _ => Or.inl rfl)
    · exact key (Q := fun a b => b.bp.Inv → SyncKept b a)
        (fun hi => wake_kept _ (Backpressure.free_spec hi hf).1) (fun _ _ => SyncKept.refl _)

/-- Changing a channel's leases, cache or connection. -/
theorem setChan_eff {k : K} {ch : ChanSt S V} (h1 : ch.clients = (st.chan k).clients)
    (h2 : ch.opened = (st.chan k).opened) (h3 : ch.closed = (st.chan k).closed) :
    Eff st (setChan st k ch) where
  held _ := rfl
  links _ := rfl
  clients k' := by
    by_cases hk : k' = k
    · subst hk; simp only [setChan, upd_same, h1]
    · simp only [setChan, upd_ne _ _ hk]
  opened k' := by
    by_cases hk : k' = k
    · subst hk; simp only [setChan, upd_same, h2]
    · simp only [setChan, upd_ne _ _ hk]
  closed k' := by
    by_cases hk : k' = k
    · subst hk; simp only [setChan, upd_same, h3]
    · simp only [setChan, upd_ne _ _ hk]
  chans _ := rfl
  running _ := rfl
  bpInv _ h := h
  holdsLe _ _ _ _ h := h
  idle _ := Iff.rfl
  gate _ _ _ := Iff.rfl
  sending _ _ _ := Iff.rfl
  slot _ _ := Iff.rfl
  woken _ _ := Or.inl rfl
  sync _ _ := SyncKept.refl _
  log := ⟨[], rfl, by intro e he; cases he⟩

theorem setSub_eff {s : S} {sb : SubSt P K} (h1 : sb.held = (st.sub s).held)
    (h2 : sb.chans = (st.sub s).chans) : Eff st (setSub st s sb) where
  held s' := by
    by_cases hk : s' = s
    · subst hk; simp only [setSub, upd_same, h1]
    · simp only [setSub, upd_ne _ _ hk]
  links s' := by
    by_cases hk : s' = s
    · subst hk; simp only [setSub, upd_same, h2]
    · simp only [setSub, upd_ne _ _ hk]
  clients _ := rfl
  opened _ := rfl
  closed _ := rfl
  chans _ := rfl
  running _ := rfl
  bpInv _ h := h
  holdsLe _ _ _ _ h := h
  idle _ := Iff.rfl
  gate _ _ _ := Iff.rfl
  sending _ _ _ := Iff.rfl
  slot _ _ := Iff.rfl
  woken _ _ := Or.inl rfl
  sync _ _ := SyncKept.refl _
  log := ⟨[], rfl, by intro e he; cases he⟩

theorem addDrop_eff {c : S} {k : K} {m : Nat} : Eff st (addLog st (.dropped c k m)) where
  held _ := rfl
  links _ := rfl
  clients _ := rfl
  opened _ := rfl
  closed _ := rfl
  chans _ := rfl
  running _ := rfl
  bpInv _ h := h
  holdsLe _ _ _ _ h := h
  idle _ := Iff.rfl
  gate _ _ _ := Iff.rfl
  sending _ _ _ := Iff.rfl
  slot _ _ := Iff.rfl
  woken _ _ := Or.inl rfl
  sync _ _ := SyncKept.refl _
  log := ⟨[.dropped c k m], rfl, by intro e he; simp at he; exact ⟨c, k, m, he⟩⟩

theorem releaseBp_eff {k : K} {m : Nat} {c : S} (h : releaseBp cfg st k m c = .ok st') :
    Eff st st' ∧ st'.sub = st.sub ∧ st'.log = st.log ∧
      ∃ ch, st'.chan = upd st.chan k ch ∧ ch.wire = (st.chan k).wire ∧
        ch.acks.length ≤ (st.chan k).acks.length + 1 ∧ ch.closed = (st.chan k).closed := by
  unfold releaseBp at h
  simp only at h
  split at h
  · cases h
  · rename_i bp _
    split at h
    · cases h
    · simp only [Except.ok.injEq] at h
      subst h
      exact ⟨setChan_eff rfl rfl rfl, rfl, rfl, _, rfl, rfl, Nat.le_succ _, rfl⟩
    · split at h
      · cases h
      · rename_i cache _
        split at h
        · obtain ⟨e1, e2, e3, e4⟩ := pubFree_eff h
          refine ⟨(setChan_eff (ch := { st.chan k with bp := bp, cache := cache }) rfl rfl rfl).trans e1,
            e2, e4, _, e3, rfl, Nat.le_succ _, rfl⟩
        · simp only [Except.ok.injEq] at h
          subst h
          exact ⟨setChan_eff rfl rfl rfl, rfl, rfl, _, rfl, rfl, by simp, rfl⟩

/-- The queue of a subscriber never exceeds its bound. -/
def QueueOk (cfg : Cfg P K S) (st : St P K S V) : Prop :=
  ∀ s mx, cfg.maxq s = some mx → 0 < mx → ((st.sub s).queue.length : Int) ≤ mx

theorem putNowait_len {α : Type} {mx : Int} {q q' : List α} {x : α} {d : Option α} (hp : 0 < mx)
    (hq : (q.length : Int) ≤ mx) (h : LeakyQueue.putNowait mx q x = (d, q')) :
    (q'.length : Int) ≤ mx := by
  unfold LeakyQueue.putNowait at h
  split at h
  · unfold LeakyQueue.dropOldest LeakyQueue.getNowait at h
    cases q with
    | nil => simp at h; obtain ⟨_, rfl⟩ := h; simp; omega
    | cons y q => simp at h; obtain ⟨_, rfl⟩ := h; simp at hq ⊢; omega
  · rename_i hf
    simp only [Prod.mk.injEq] at h
    obtain ⟨_, rfl⟩ := h
    unfold LeakyQueue.full at hf
    rw [if_neg (by omega)] at hf
    simp at hf ⊢
    omega

theorem putNotif_eff {c : S} {item : P × Nat} (h : putNotif cfg st c item = .ok st') :
    Eff st st' ∧ (QueueOk cfg st → QueueOk cfg st') := by
  unfold putNotif at h
  cases hm : cfg.maxq c with
  | none =>
    rw [hm] at h
    simp only [Except.ok.injEq] at h
    subst h
    refine ⟨setSub_eff rfl rfl, ?_⟩
    intro hq s mx hs hp
    by_cases hsc : s = c
    · subst hsc; rw [hm] at hs; cases hs
    · simp only [setSub, upd_ne _ _ hsc]; exact hq s mx hs hp
  | some mx =>
    rw [hm] at h
    simp only at h
    cases hpn : LeakyQueue.putNowait mx (st.sub c).queue item with
    | mk d q =>
      rw [hpn] at h
      have hqq : QueueOk cfg st → ∀ st2 : St P K S V,
          st2.sub = upd st.sub c { st.sub c with queue := q } → QueueOk cfg st2 := by
        intro hq st2 h2 s mx' hs hp
        rw [h2]
        by_cases hsc : s = c
        · subst hsc
          rw [hm] at hs
          cases hs
          simp only [upd_same]
          exact putNowait_len hp (hq s mx hm hp) hpn
        · simp only [upd_ne _ _ hsc]; exact hq s mx' hs hp
      cases d with
      | none =>
        simp only [Except.ok.injEq] at h
        subst h
        exact ⟨setSub_eff rfl rfl, fun hq => hqq hq _ rfl⟩
      | some d =>
        simp only at h
        cases hc : (st.sub c).chans d.1 with
        | none =>
          rw [hc] at h
          simp only [Except.ok.injEq] at h
          subst h
          exact ⟨setSub_eff rfl rfl, fun hq => hqq hq _ rfl⟩
        | some k' =>
          rw [hc] at h
          simp only at h
          cases hr : releaseBp cfg (setSub st c { st.sub c with queue := q }) k' d.2 c with
          | error e => rw [hr] at h; cases h
          | ok st1 =>
            rw [hr] at h
            simp only [Except.map, Except.ok.injEq] at h
            subst h
            obtain ⟨e1, e2, _⟩ := releaseBp_eff hr
            refine ⟨((setSub_eff (sb := { st.sub c with queue := q }) rfl rfl).trans e1).trans addDrop_eff, fun hq => hqq hq _ ?_⟩
            simp only [addLog]
            rw [e2]
            rfl

theorem notifyLoop_eff {k : K} {m : Nat} (cs : List S) : ∀ {st st' : St P K S V},
    notifyLoop cfg k m cs st = .ok st' → Eff st st' ∧ (QueueOk cfg st → QueueOk cfg st') := by
  induction cs with
  | nil =>
    intro st st' h
    simp only [notifyLoop, Except.ok.injEq] at h
    subst h
    exact ⟨Eff.refl _, id⟩
  | cons c cs ih =>
    intro st st' h
    simp only [notifyLoop] at h
    split at h
    · cases h
    · rename_i bp _
      split at h
      · cases h
      · rename_i st1 hp
        obtain ⟨e1, q1⟩ := putNotif_eff hp
        obtain ⟨e2, q2⟩ := ih h
        exact ⟨((setChan_eff (ch := { st.chan k with bp := bp }) rfl rfl rfl).trans e1).trans e2, fun hq => q2 (q1 hq)⟩

theorem notify_eff {k : K} {m : Nat} {b : Bool} (h : notify cfg st k m = .ok (st', b)) :
    Eff st st' ∧ (QueueOk cfg st → QueueOk cfg st') := by
  unfold notify at h
  split at h
  · cases h
  · rename_i st1 hl
    split at h
    · cases h
    · simp only [Except.ok.injEq, Prod.mk.injEq] at h
      obtain ⟨rfl, _⟩ := h
      exact notifyLoop_eff _ hl

/-- The log after a delivery: dropped notifications and an arrival. -/
theorem deliver_eff {k : K} {m : Nat} {pl : Payload V} {rest : List (Nat × Payload V)}
    (h : deliver cfg st k m pl rest = .ok st') :
    ∃ st0 : St P K S V, Eff st st0 ∧ Eff (addLog st0 (.arrived k)) st' ∧ st0.log = st.log ∧
      (QueueOk cfg st → QueueOk cfg st') := by
  unfold deliver at h
  split at h
  · cases h
  · split at h
    · cases h
    · rename_i cache _
      refine ⟨setChan st k { st.chan k with cache := cache, wire := rest }, setChan_eff rfl rfl rfl, ?_⟩
      split at h
      · cases h
      · rename_i st1 hn
        simp only [Except.ok.injEq] at h
        subst h
        obtain ⟨e1, e2⟩ := notify_eff hn
        exact ⟨e1, rfl, e2⟩
      · rename_i st1 hn
        obtain ⟨e1, e2⟩ := notify_eff hn
        split at h
        · cases h
        · rename_i cache _
          simp only [Except.ok.injEq] at h
          subst h
          exact ⟨e1.trans (setChan_eff rfl rfl rfl), rfl, e2⟩

/-- The log after in-process delivery. -/
theorem putLocal_eff {k : K} {m : Nat} {v : V} (h : putLocal cfg st k m v = .ok st') :
    ∃ st0 : St P K S V, Eff (addLog st (.arrived k)) st0 ∧ st'.log = st0.log ∧ st'.sub = st0.sub ∧
      (∀ k', (st'.chan k').clients = (st0.chan k').clients ∧ (st'.chan k').opened = (st0.chan k').opened ∧
        (st'.chan k').closed = (st0.chan k').closed) ∧
      (∀ p, p ≠ cfg.pubOf k → st'.pub p = st0.pub p) ∧
      (∀ p, (st'.pub p).chans = (st0.pub p).chans) ∧
      (QueueOk cfg st → QueueOk cfg st') := by
  unfold putLocal at h
  split at h
  · cases h
  · split at h
    · cases h
    · rename_i st1 hn
      simp only [Except.ok.injEq] at h
      subst h
      obtain ⟨e1, e2⟩ := notify_eff hn
      exact ⟨_, e1, rfl, rfl, fun _ => ⟨rfl, rfl, rfl⟩, fun _ _ => rfl, fun _ => rfl, e2⟩
    · rename_i st1 hn
      obtain ⟨e1, e2⟩ := notify_eff hn
      split at h
      · cases h
      · rename_i cache _
        simp only at h
        split at h
        · cases h
        · rename_i bp _
          simp only [Except.ok.injEq] at h
          subst h
          refine ⟨st1, e1, rfl, rfl, ?_, ?_, ?_, e2⟩
          · intro k'
            by_cases hk : k' = k
            · subst hk; simp [setPub, setChan]
            · simp [setPub, setChan, upd_ne _ _ hk]
          · intro p hp; simp only [setPub, upd_ne _ _ hp]; rfl
          · intro p
            by_cases hp : p = cfg.pubOf k
            · subst hp; simp only [setPub, setChan, upd_same]
            · simp only [setPub, setChan, upd_ne _ _ hp]

/-- Events that do not concern what a subscriber received. -/
def Ev.quiet : Ev P K S V → Bool
  | .linked _ _ => false
  | .recv _ _ _ _ => false
  | .done _ _ _ => false
  | _ => true

/-- A step that leaves what the subscribers hold and are linked to alone. -/
structure Calm (cfg : Cfg P K S) (st st' : St P K S V) : Prop where
  held : ∀ s, (st'.sub s).held = (st.sub s).held
  links : ∀ s, (st'.sub s).chans = (st.sub s).chans
  queue : QueueOk cfg st → QueueOk cfg st'
  log : ∃ es : List (Ev P K S V), st'.log = es ++ st.log ∧ ∀ e ∈ es, e.quiet = true

theorem Calm.trans (h : Calm cfg st st') (h' : Calm cfg st' st'') : Calm cfg st st'' where
  held s := (h'.held s).trans (h.held s)
  links s := (h'.links s).trans (h.links s)
  queue hq := h'.queue (h.queue hq)
  log := by
    obtain ⟨ds, h1, h2⟩ := h.log
    obtain ⟨ds', h3, h4⟩ := h'.log
    refine ⟨ds' ++ ds, by rw [h3, h1, List.append_assoc], ?_⟩
    intro e he
    rcases List.mem_append.1 he with he | he
    · exact h4 e he
    · exact h2 e he

theorem Eff.calm (h : Eff st st') (hq : QueueOk cfg st → QueueOk cfg st') : Calm cfg st st' where
  held := h.held
  links := h.links
  queue := hq
  log := by
    obtain ⟨ds, h1, h2⟩ := h.log
    refine ⟨ds, h1, ?_⟩
    intro e he
    obtain ⟨c, k, m, rfl⟩ := h2 e he
    rfl

/-- Same subscribers, log extended by quiet events. -/
theorem Calm.of (hs : st'.sub = st.sub)
    (hl : ∃ es : List (Ev P K S V), st'.log = es ++ st.log ∧ ∀ e ∈ es, e.quiet = true) :
    Calm cfg st st' where
  held s := by rw [hs]
  links s := by rw [hs]
  queue hq := by intro s mx h1 h2; rw [hs]; exact hq s mx h1 h2
  log := hl

theorem Calm.of0 (hs : st'.sub = st.sub) (hl : st'.log = st.log) : Calm cfg st st' :=
  Calm.of hs ⟨[], hl, by intro e he; cases he⟩

theorem Calm.of1 {e : Ev P K S V} (hs : st'.sub = st.sub) (hl : st'.log = e :: st.log)
    (he : e.quiet = true) : Calm cfg st st' :=
  Calm.of hs ⟨[e], hl, by intro e' he'; simp at he'; rw [he']; exact he⟩

theorem putLocal_calm {k : K} {m : Nat} {v : V} (h : putLocal cfg st k m v = .ok st') :
    Calm cfg st st' := by
  obtain ⟨st0, e1, e2, e3, _, _, _, e4⟩ := putLocal_eff h
  have h1 : Calm cfg st (addLog st (.arrived k)) := Calm.of1 rfl rfl rfl
  refine ⟨?_, ?_, e4, ?_⟩
  · intro s; rw [e3]; exact e1.held s
  · intro s; rw [e3]; exact e1.links s
  · obtain ⟨ds, h2, h3⟩ := (e1.calm (cfg := cfg) (fun hq => by
      have := e4 hq
      intro s mx h1 h2
      rw [← e3]
      exact this s mx h1 h2)).log
    refine ⟨ds ++ [.arrived k], by rw [e2, h2]; simp [addLog], ?_⟩
    intro e he
    rcases List.mem_append.1 he with he | he
    · exact h3 e he
    · simp at he; rw [he]; rfl

theorem begin_calm {p : P} {v : V} (h : begin cfg st p v = .ok st') : Calm cfg st st' := by
  unfold begin at h
  simp only at h
  have h1 : Calm cfg st (begun cfg st p v) := Calm.of1 rfl rfl rfl
  split at h
  · cases h
  · rename_i st2 hst
    simp only [Except.ok.injEq] at h
    have h2 : Calm cfg (begun cfg st p v) st2 := by
      split at hst
      · exact putLocal_calm hst
      · simp only [Except.ok.injEq] at hst
        subst hst
        exact Calm.of0 rfl rfl
    have h3 : Calm cfg st2 st' := by
      subst h
      split
      · exact Calm.of0 rfl rfl
      · exact Calm.of0 rfl rfl
    exact (h1.trans h2).trans h3

theorem afterGate_calm {p : P} {v : V} (h : afterGate cfg st p v = .ok st') : Calm cfg st st' := by
  unfold afterGate at h
  split at h
  · cases h
  · exact begin_calm h
  · simp only [Except.ok.injEq] at h
    subst h
    exact Calm.of0 rfl rfl

theorem sendTo_calm {p : P} {v : V} {k : K} {todo : List K} {ok : Bool}
    (h : sendTo cfg st p v k todo ok = .ok st') : Calm cfg st st' := by
  unfold sendTo at h
  simp only at h
  split at h
  · simp only [Except.ok.injEq] at h; subst h; exact Calm.of0 rfl rfl
  · split at h
    · cases h
    · split at h
      · simp only [Except.ok.injEq] at h; subst h; exact Calm.of0 rfl rfl
      · simp only [Except.ok.injEq] at h; subst h; exact Calm.of0 rfl rfl

theorem ofExcept_eq_ok {α : Type} {x : Except Err α} {a : α} (h : Res.ofExcept x = .ok a) : x = .ok a := by
  cases x with
  | error e => cases h
  | ok b => simp only [Res.ofExcept, Res.ok.injEq] at h; rw [h]

/-- Steps other than a subscriber's receiving, finishing, being linked or unlinked. -/
def Act.own : Act P K S V → Bool
  | .recv _ => true
  | .release _ _ => true
  | .link _ _ => true
  | .unlink _ _ => true
  | _ => false

theorem step_calm {a : Act P K S V} (ha : a.own = false) (h : step cfg st a = .ok st') :
    Calm cfg st st' := by
  cases a with
  | recv s => cases ha
  | release s j => cases ha
  | link s k => cases ha
  | unlink s k => cases ha
  | bcast p v =>
    simp only [step] at h
    split at h
    · split at h
      · exact afterGate_calm (ofExcept_eq_ok h)
      · simp only [Res.ok.injEq] at h; subst h; exact Calm.of0 rfl rfl
    · cases h
  | gateResume p =>
    simp only [step] at h
    split at h
    · exact afterGate_calm (ofExcept_eq_ok h)
    · cases h
  | slotResume p =>
    simp only [step] at h
    split at h
    · exact begin_calm (ofExcept_eq_ok h)
    · cases h
  | send p ok =>
    simp only [step] at h
    split at h
    · exact sendTo_calm (ofExcept_eq_ok h)
    · cases h
  | finish p =>
    simp only [step] at h
    split at h
    · simp only [Res.ok.injEq] at h; subst h; exact Calm.of0 rfl rfl
    · cases h
  | pause p => simp only [step, Res.ok.injEq] at h; subst h; exact Calm.of1 rfl rfl rfl
  | resume p => simp only [step, Res.ok.injEq] at h; subst h; exact Calm.of1 rfl rfl rfl
  | sync p =>
    simp only [step] at h
    split at h
    · simp only [Res.ok.injEq] at h; subst h
      exact Calm.of rfl ⟨[.synced p, .syncing p], rfl, by intro e he; simp at he; rcases he with rfl | rfl <;> rfl⟩
    · simp only [Res.ok.injEq] at h; subst h; exact Calm.of1 rfl rfl rfl
  | syncReturn p =>
    simp only [step] at h
    split at h
    · cases h
    · simp only [Res.ok.injEq] at h; subst h; exact Calm.of1 rfl rfl rfl
  | deliver k =>
    simp only [step] at h
    split at h
    · obtain ⟨st0, e1, e2, e3, e4⟩ := deliver_eff (ofExcept_eq_ok h)
      refine ⟨?_, ?_, e4, ?_⟩
      · intro s; rw [e2.held]; exact e1.held s
      · intro s; rw [e2.links]; exact e1.links s
      · obtain ⟨ds, h1, h2⟩ := e2.log
        refine ⟨ds ++ [.arrived k], by rw [h1]; simp [addLog, e3], ?_⟩
        intro e he
        rcases List.mem_append.1 he with he | he
        · obtain ⟨c, k, m, rfl⟩ := h2 e he; rfl
        · simp at he; rw [he]; rfl
    · cases h
  | ack k =>
    simp only [step] at h
    split at h
    · obtain ⟨_, e1, _, e2⟩ := pubFree_eff (ofExcept_eq_ok h)
      exact Calm.of0 e1 e2
    · cases h
  | connect k =>
    simp only [step] at h
    split at h
    · cases h
    · split at h
      · cases h
      · simp only [Res.ok.injEq] at h; subst h; exact Calm.of1 rfl rfl rfl
  | close k =>
    simp only [step] at h
    split at h
    · simp only [Res.ok.injEq] at h; subst h; exact Calm.of0 rfl rfl
    · cases h
  | eof k =>
    simp only [step] at h
    split at h
    · cases h
    · split at h
      · have h1 := ofExcept_eq_ok h
        cases hp : pubFree cfg (setChan st k { st.chan k with acks := [] }) k none with
        | error e => rw [hp] at h1; cases h1
        | ok st1 =>
          rw [hp] at h1
          simp only [Except.map, Except.ok.injEq] at h1
          subst h1
          obtain ⟨_, e1, _, e2⟩ := pubFree_eff hp
          exact Calm.of0 e1 e2
      · cases h

end Ez.Sys
