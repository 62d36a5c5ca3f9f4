import Verif.Lemmas.SystemChan
import Verif.Spec.SystemLog

/-! # The global invariant of the publisher / channel / subscriber system -/

set_option linter.unusedSectionVars false
set_option linter.unusedSimpArgs false

namespace Ez

@[simp] theorem upd_same {α β : Type} [DecidableEq α] (f : α → β) (a : α) (b : β) : upd f a b a = b := by
  simp [upd]

theorem upd_ne {α β : Type} [DecidableEq α] (f : α → β) {a x : α} (b : β) (h : x ≠ a) :
    upd f a b x = f x := by
  simp [upd, h]

namespace Sys
variable {P K S V : Type} [DecidableEq P] [DecidableEq K] [DecidableEq S]

/-- The ids of the notifications from `p` in a queue. -/
def qids (p : P) (q : List (P × Nat)) : List Nat := (q.filter (fun x => decide (x.1 = p))).map (·.2)

theorem mem_qids {p : P} {q : List (P × Nat)} {m : Nat} : m ∈ qids p q ↔ (p, m) ∈ q := by
  unfold qids
  rw [List.mem_map]
  constructor
  · rintro ⟨⟨p', m'⟩, h, rfl⟩
    rw [List.mem_filter] at h
    have : p' = p := by simpa using h.2
    subst this
    exact h.1
  · intro h
    exact ⟨(p, m), List.mem_filter.2 ⟨h, by simp⟩, rfl⟩

@[simp] theorem qids_append (p : P) (q q' : List (P × Nat)) : qids p (q ++ q') = qids p q ++ qids p q' := by
  simp [qids]

theorem qids_single (p p' : P) (m : Nat) : qids p [(p', m)] = if p' = p then [m] else [] := by
  by_cases h : p' = p <;> simp [qids, h]

theorem qids_cons (p p' : P) (m : Nat) (q : List (P × Nat)) :
    qids p ((p', m) :: q) = if p' = p then m :: qids p q else qids p q := by
  by_cases h : p' = p <;> simp [qids, h]

/-- How many messages were handed to channel `k`. -/
def sentOf (cfg : Cfg P K S) (st : St P K S V) (k : K) : Nat :=
  match (st.pub (cfg.pubOf k)).job with
  | .sending _ todo =>
    if k ∈ todo then (bcasts (cfg.pubOf k) st.log).length - 1 else (bcasts (cfg.pubOf k) st.log).length
  | _ => (bcasts (cfg.pubOf k) st.log).length

/-- The channel invariant at channel `k` of a state. -/
abbrev CI (cfg : Cfg P K S) (strict : K → Prop) (st : St P K S V) (ex : Option Nat) (k : K) : Prop :=
  ChanInv (cfg.n (cfg.pubOf k)) (cfg.mode k) (fun i => (st.pub (cfg.pubOf k)).bp.Holds k i)
    (k ∈ (st.pub (cfg.pubOf k)).chans) (sentOf cfg st k) (bcasts (cfg.pubOf k) st.log)
    (st.pub (cfg.pubOf k)).shm (st.chan k) (Unfinished cfg st k) (nextId cfg k st.log) ex (strict k)

/-- Received and queued message ids of one subscriber for one channel: the queue holds the newest ones
without gap, what was received is older and increasing, and gap free if nothing is ever dropped. -/
def SeqOk (exact : Prop) (start upto : Nat) (rec q : List Nat) : Prop :=
  ∃ a, a + q.length = upto ∧ start ≤ a ∧ q = List.range' a q.length ∧ rec.Pairwise (· < ·) ∧
    (∀ m ∈ rec, start ≤ m ∧ m < a) ∧ (exact → rec = List.range' start (a - start))

/-- Subscriber part of the invariant. -/
structure SubOk (cfg : Cfg P K S) (sb : SubSt P K) (log : List (Ev P K S V)) (upto : K → Nat) (s : S) :
    Prop where
  linked : ∀ p m, (p, m) ∈ sb.queue ∨ (p, m) ∈ sb.held → ∃ k, sb.chans p = some k
  chanPub : ∀ p k, sb.chans p = some k → cfg.pubOf k = p
  seq : ∀ k, sb.chans (cfg.pubOf k) = some k →
    SeqOk (cfg.maxq s = none) (startId cfg s k log) (upto k) ((recvd s k log).map (·.1))
      (qids (cfg.pubOf k) sb.queue)
  heldRec : ∀ k m, sb.chans (cfg.pubOf k) = some k → (cfg.pubOf k, m) ∈ sb.held →
    m ∈ (recvd s k log).map (·.1)
  heldNodup : sb.held.Nodup
  vals : ∀ k m v, (m, v) ∈ recvd s k log → (bcasts (cfg.pubOf k) log)[m]? = some v

/-- Publisher part of the invariant. -/
structure PubOk (cfg : Cfg P K S) (pb : PubSt K V) (hist : List V) (opened : K → Prop)
    (ready : Prop) (p : P) : Prop where
  bpInv : pb.bp.Inv
  bpLen : pb.bp.buffers.length = cfg.n p
  shmLen : pb.shm.length = cfg.n p
  jobLen : hist.length = match pb.job with
    | .sending _ _ => pb.msgId + 1
    | _ => pb.msgId
  slotFree : ∀ v, pb.job = .slot v true → ∀ k, ¬ pb.bp.Holds k (pb.msgId % cfg.n p)
  slotBusy : ∀ v, pb.job = .slot v false → ∃ k, pb.bp.Holds k (pb.msgId % cfg.n p)
  todo : ∀ v todo, pb.job = .sending v todo → todo.Nodup ∧ hist[pb.msgId]? = some v ∧
    ∀ k ∈ todo, k ∈ pb.chans ∧ cfg.mode k ≠ .local ∧
      (ready → cfg.mode k = .shm → pb.shm[pb.msgId % cfg.n p]? = some (some (pb.msgId, v)))
  chansPub : ∀ k ∈ pb.chans, cfg.pubOf k = p ∧ opened k
  chansNodup : pb.chans.Nodup
  holdsMem : ∀ k i, pb.bp.Holds k i → k ∈ pb.chans

/-- The announcement in progress: channel, message, clients still to be notified. -/
abbrev Cur (K S : Type) := Option (K × Nat × List S)

def exOf (cur : Cur K S) (k : K) : Option Nat :=
  match cur with
  | some (k', m, _) => if k = k' then some m else none
  | none => none

def uptoOf (cfg : Cfg P K S) (cur : Cur K S) (log : List (Ev P K S V)) (s : S) (k : K) : Nat :=
  match cur with
  | some (k', _, rest) => if k = k' ∧ s ∈ rest then nextId cfg k log - 1 else nextId cfg k log
  | none => nextId cfg k log

/-- The current message of `p` has been written to shared memory (the in-process announcement comes
before that). -/
def readyOf (cfg : Cfg P K S) (cur : Cur K S) (p : P) : Prop :=
  ∀ k x r, cur = some (k, x, r) → cfg.mode k = .local → cfg.pubOf k ≠ p

/-- The invariant. -/
structure Inv (cfg : Cfg P K S) (strict : K → Prop) (cur : Cur K S) (st : St P K S V) : Prop where
  chan : ∀ k, CI cfg strict st (exOf cur k) k
  pub : ∀ p, PubOk cfg (st.pub p) (bcasts p st.log) (fun k => (st.chan k).opened = true)
    (readyOf cfg cur p) p
  sub : ∀ s, SubOk cfg (st.sub s) st.log (uptoOf cfg cur st.log s) s
  cl : ∀ s k, s ∈ (st.chan k).clients ↔ (st.sub s).chans (cfg.pubOf k) = some k
  shut : ∀ k, (st.chan k).opened = false → (st.chan k).clients = []

variable {cfg : Cfg P K S} {strict : K → Prop} {cur : Cur K S} {st st' : St P K S V}

theorem CI.of {ex : Option Nat} {k : K} {hold : Nat → Prop} {mem : Prop} {sent : Nat} {hist : List V}
    {shm : List (Option (Nat × V))} {ch : ChanSt S V} {pend : S → Nat → Prop} {nxt : Nat}
    (h : ChanInv (cfg.n (cfg.pubOf k)) (cfg.mode k) hold mem sent hist shm ch pend nxt ex (strict k))
    (h1 : ∀ i, (st'.pub (cfg.pubOf k)).bp.Holds k i ↔ hold i)
    (h2 : k ∈ (st'.pub (cfg.pubOf k)).chans ↔ mem)
    (h3 : sentOf cfg st' k = sent)
    (h4 : bcasts (cfg.pubOf k) st'.log = hist)
    (h5 : (st'.pub (cfg.pubOf k)).shm = shm)
    (h6 : st'.chan k = ch)
    (h7 : ∀ c m, Unfinished cfg st' k c m ↔ pend c m)
    (h8 : nextId cfg k st'.log = nxt) : CI cfg strict st' ex k := by
  subst h3 h4 h5 h6 h8
  exact ChanInv.congr h h1 h2 h7

theorem CI.transfer {ex : Option Nat} {k : K} (h : CI cfg strict st ex k)
    (h1 : ∀ i, (st'.pub (cfg.pubOf k)).bp.Holds k i ↔ (st.pub (cfg.pubOf k)).bp.Holds k i)
    (h2 : k ∈ (st'.pub (cfg.pubOf k)).chans ↔ k ∈ (st.pub (cfg.pubOf k)).chans)
    (h3 : sentOf cfg st' k = sentOf cfg st k)
    (h4 : bcasts (cfg.pubOf k) st'.log = bcasts (cfg.pubOf k) st.log)
    (h5 : (st'.pub (cfg.pubOf k)).shm = (st.pub (cfg.pubOf k)).shm)
    (h6 : st'.chan k = st.chan k)
    (h7 : ∀ c m, Unfinished cfg st' k c m ↔ Unfinished cfg st k c m)
    (h8 : nextId cfg k st'.log = nextId cfg k st.log) : CI cfg strict st' ex k := by
  unfold CI
  rw [h3, h4, h5, h6, h8]
  exact ChanInv.congr h h1 h2 h7

/-! ## Freeing a publisher's buffer -/

theorem waitReady_eq (bp : Backpressure K) (i : Nat) : bp.waitReady i = bp.available i := rfl

@[simp] theorem wake_bp (n : Nat) (pb : PubSt K V) : (wake n pb).bp = pb.bp := rfl
@[simp] theorem wake_msgId (n : Nat) (pb : PubSt K V) : (wake n pb).msgId = pb.msgId := rfl
@[simp] theorem wake_chans (n : Nat) (pb : PubSt K V) : (wake n pb).chans = pb.chans := rfl
@[simp] theorem wake_shm (n : Nat) (pb : PubSt K V) : (wake n pb).shm = pb.shm := rfl
@[simp] theorem wake_running (n : Nat) (pb : PubSt K V) : (wake n pb).running = pb.running := rfl

theorem wake_sending (n : Nat) (pb : PubSt K V) (v : V) (todo : List K) :
    (wake n pb).job = .sending v todo ↔ pb.job = .sending v todo := by
  unfold wake
  cases h : pb.job with
  | idle => simp
  | gate v b => simp
  | slot v b => cases b <;> simp
  | sending v todo => simp

theorem wake_jobLen (n : Nat) (pb : PubSt K V) {α : Type} (a b : α) :
    (match (wake n pb).job with | .sending _ _ => a | _ => b) =
      (match pb.job with | .sending _ _ => a | _ => b) := by
  unfold wake
  cases h : pb.job with
  | idle => simp
  | gate v b => simp
  | slot v b => cases b <;> simp
  | sending v todo => simp

/-- What freeing (part of) a channel's leases does to the publisher. -/
theorem pubFree_pub {p : P} {pb : PubSt K V} {hist : List V} {opened : K → Prop} {ready : Prop}
    (h : PubOk cfg pb hist opened ready p) (hn : 0 < cfg.n p) {k : K}
    {i : Option Nat} {bp : Backpressure K} (hf : pb.bp.free k i = some bp) :
    PubOk cfg (wake (cfg.n p) { pb with bp := bp }) hist opened ready p := by
  obtain ⟨b1, b2, b3⟩ := Backpressure.free_spec h.bpInv hf
  have hlt : pb.msgId % cfg.n p < bp.buffers.length := by
    rw [b2, h.bpLen]; exact Nat.mod_lt _ hn
  refine { h with bpInv := b1, bpLen := b2.trans h.bpLen, jobLen := ?_, slotFree := ?_, slotBusy := ?_, todo := ?_, holdsMem := ?_ }
  · rw [wake_jobLen]; exact h.jobLen
  · intro v hv k'
    simp only [wake_bp, wake_msgId]
    unfold wake at hv
    simp only at hv
    cases hj : pb.job with
    | idle => rw [hj] at hv; cases hv
    | gate v b => rw [hj] at hv; cases hv
    | sending v todo => rw [hj] at hv; cases hv
    | slot w b =>
      rw [hj] at hv
      cases b with
      | true =>
        intro hh
        exact h.slotFree w hj k' ((b3 _ _).1 hh).1
      | false =>
        simp only [waitReady_eq] at hv
        rcases Backpressure.available_dichotomy (bp := bp) hlt with ha | ha
        · exact (Backpressure.available_iff b1 hlt).1 ha k'
        · rw [ha] at hv; simp at hv
  · intro v hv
    simp only [wake_bp, wake_msgId]
    unfold wake at hv
    simp only at hv
    cases hj : pb.job with
    | idle => rw [hj] at hv; cases hv
    | gate v b => rw [hj] at hv; cases hv
    | sending v todo => rw [hj] at hv; cases hv
    | slot w b =>
      rw [hj] at hv
      cases b with
      | true => cases hv
      | false =>
        simp only [waitReady_eq] at hv
        rcases Backpressure.available_dichotomy (bp := bp) hlt with ha | ha
        · rw [ha] at hv; simp at hv
        · exact Classical.byContradiction fun hno => by
            have := (Backpressure.available_iff b1 hlt).2 (fun u hu => hno ⟨u, hu⟩)
            rw [ha] at this; cases this
  · intro v todo hv
    rw [wake_sending] at hv
    exact h.todo v todo hv
  · intro k' j hh
    exact h.holdsMem k' j ((b3 _ _).1 hh).1

theorem free_isSome_some {bp : Backpressure K} {k : K} {i : Nat} (hi : i < bp.buffers.length) :
    ∃ bp', bp.free k (some i) = some bp' := by
  cases h : bp.free k (some i) with
  | some b => exact ⟨b, rfl⟩
  | none => rw [Backpressure.free_some_eq_none] at h; omega

/-- What handling a notification elsewhere leaves alone. -/
structure Frame (cfg : Cfg P K S) (cur : Cur K S) (st st' : St P K S V) : Prop where
  clients : ∀ k, (st'.chan k).clients = (st.chan k).clients
  closed : ∀ k, (st'.chan k).closed = (st.chan k).closed
  opened : ∀ k, (st'.chan k).opened = (st.chan k).opened
  wire : ∀ k, (st'.chan k).wire = (st.chan k).wire
  chans : ∀ p, (st'.pub p).chans = (st.pub p).chans
  shm : ∀ p, (st'.pub p).shm = (st.pub p).shm
  msgId : ∀ p, (st'.pub p).msgId = (st.pub p).msgId
  sending : ∀ p v todo, (st'.pub p).job = .sending v todo ↔ (st.pub p).job = .sending v todo
  holdsLe : ∀ p k i, (st'.pub p).bp.Holds k i → (st.pub p).bp.Holds k i
  holdsCur : ∀ k x, exOf cur k = some x →
    (st.pub (cfg.pubOf k)).bp.Holds k (x % cfg.n (cfg.pubOf k)) →
    (st'.pub (cfg.pubOf k)).bp.Holds k (x % cfg.n (cfg.pubOf k))
  cacheCur : ∀ k x, exOf cur k = some x →
    (st'.chan k).cache.slots[x % cfg.n (cfg.pubOf k)]? = (st.chan k).cache.slots[x % cfg.n (cfg.pubOf k)]?
  links : ∀ s, (st'.sub s).chans = (st.sub s).chans
  bcasts : ∀ p, bcasts p st'.log = bcasts p st.log
  nextId : ∀ k, nextId cfg k st'.log = nextId cfg k st.log

theorem Frame.refl (cfg : Cfg P K S) (cur : Cur K S) (st : St P K S V) : Frame cfg cur st st where
  clients _ := rfl
  closed _ := rfl
  opened _ := rfl
  wire _ := rfl
  chans _ := rfl
  shm _ := rfl
  msgId _ := rfl
  sending _ _ _ := Iff.rfl
  holdsLe _ _ _ h := h
  holdsCur _ _ _ h := h
  cacheCur _ _ _ := rfl
  links _ := rfl
  bcasts _ := rfl
  nextId _ := rfl

theorem Frame.trans {cur' : Cur K S} {st'' : St P K S V} (h : Frame cfg cur st st')
    (h' : Frame cfg cur' st' st'') (he : ∀ k, exOf cur' k = exOf cur k) : Frame cfg cur st st'' where
  clients k := (h'.clients k).trans (h.clients k)
  closed k := (h'.closed k).trans (h.closed k)
  opened k := (h'.opened k).trans (h.opened k)
  wire k := (h'.wire k).trans (h.wire k)
  chans p := (h'.chans p).trans (h.chans p)
  shm p := (h'.shm p).trans (h.shm p)
  msgId p := (h'.msgId p).trans (h.msgId p)
  sending p v t := (h'.sending p v t).trans (h.sending p v t)
  holdsLe p k i hh := h.holdsLe p k i (h'.holdsLe p k i hh)
  holdsCur k x hx hh := h'.holdsCur k x (by rw [he]; exact hx) (h.holdsCur k x hx hh)
  cacheCur k x hx := (h'.cacheCur k x (by rw [he]; exact hx)).trans (h.cacheCur k x hx)
  links s := (h'.links s).trans (h.links s)
  bcasts p := (h'.bcasts p).trans (h.bcasts p)
  nextId k := (h'.nextId k).trans (h.nextId k)

theorem sentOf_congr {k : K}
    (hs : ∀ v todo, (st'.pub (cfg.pubOf k)).job = .sending v todo ↔
      (st.pub (cfg.pubOf k)).job = .sending v todo)
    (hb : bcasts (cfg.pubOf k) st'.log = bcasts (cfg.pubOf k) st.log) :
    sentOf cfg st' k = sentOf cfg st k := by
  unfold sentOf
  rw [hb]
  cases h : (st.pub (cfg.pubOf k)).job with
  | sending v todo => rw [(hs v todo).2 h]
  | idle =>
    cases h' : (st'.pub (cfg.pubOf k)).job with
    | sending v todo => rw [(hs v todo).1 h'] at h; cases h
    | _ => rfl
  | gate v b =>
    cases h' : (st'.pub (cfg.pubOf k)).job with
    | sending v todo => rw [(hs v todo).1 h'] at h; cases h
    | _ => rfl
  | slot v b =>
    cases h' : (st'.pub (cfg.pubOf k)).job with
    | sending v todo => rw [(hs v todo).1 h'] at h; cases h
    | _ => rfl

/-- `_release_backpressure` for a notification that was just taken from the subscriber. -/
theorem releaseBp_ok (h : Inv cfg strict cur st) {k : K} {c : S} {m : Nat}
    (hp : Unfinished cfg st k c m) (hex : exOf cur k ≠ some m) (sb : SubSt P K)
    (hch : sb.chans = (st.sub c).chans)
    (hmem : ∀ p' m', ((p', m') ∈ sb.queue ∨ (p', m') ∈ sb.held) ↔
      ((p', m') ∈ (st.sub c).queue ∨ (p', m') ∈ (st.sub c).held) ∧ ¬ (p' = cfg.pubOf k ∧ m' = m))
    (hsub : SubOk cfg sb st.log (uptoOf cfg cur st.log c) c) :
    ∃ st', releaseBp cfg (setSub st c sb) k m c = .ok st' ∧ Inv cfg strict cur st' ∧
      Frame cfg cur st st' ∧ st'.log = st.log ∧ st'.sub = upd st.sub c sb := by
  have hci := h.chan k
  obtain ⟨bp', hf⟩ := free_isSome_some (bp := (st.chan k).bp) (k := c) (hci.modlt m)
  have hpend : ∀ d j, (((upd st.sub c sb) d).chans (cfg.pubOf k) = some k ∧
      ((cfg.pubOf k, j) ∈ ((upd st.sub c sb) d).queue ∨ (cfg.pubOf k, j) ∈ ((upd st.sub c sb) d).held)) ↔
      (Unfinished cfg st k d j ∧ ¬ (d = c ∧ j = m)) := by
    intro d j
    by_cases hd : d = c
    · subst hd
      rw [upd_same, hch, hmem]
      unfold Unfinished
      constructor
      · rintro ⟨h1, h2, h3⟩
        exact ⟨⟨h1, h2⟩, fun hh => h3 ⟨rfl, hh.2⟩⟩
      · rintro ⟨⟨h1, h2⟩, h3⟩
        exact ⟨h1, h2, fun hh => h3 ⟨rfl, hh.2⟩⟩
    · rw [upd_ne _ _ hd]
      unfold Unfinished
      constructor
      · intro hh; exact ⟨hh, fun e => hd e.1⟩
      · intro hh; exact hh.1
  have hpend' : ∀ k', k' ≠ k → ∀ d j, (((upd st.sub c sb) d).chans (cfg.pubOf k') = some k' ∧
      ((cfg.pubOf k', j) ∈ ((upd st.sub c sb) d).queue ∨
        (cfg.pubOf k', j) ∈ ((upd st.sub c sb) d).held)) ↔ Unfinished cfg st k' d j := by
    intro k' hk d j
    by_cases hd : d = c
    · subst hd
      rw [upd_same, hch, hmem]
      unfold Unfinished
      constructor
      · rintro ⟨h1, h2, h3⟩
        exact ⟨h1, h2⟩
      · rintro ⟨h1, h2⟩
        refine ⟨h1, h2, ?_⟩
        rintro ⟨he, _⟩
        rw [he, hp.1] at h1
        cases h1
        exact hk rfl
    · rw [upd_ne _ _ hd]; rfl
  have hsubs : ∀ s, SubOk cfg ((upd st.sub c sb) s) st.log (uptoOf cfg cur st.log s) s := by
    intro s
    by_cases hs : s = c
    · subst hs; rw [upd_same]; exact hsub
    · rw [upd_ne _ _ hs]; exact h.sub s
  have hlinks : ∀ s, ((upd st.sub c sb) s).chans = (st.sub s).chans := by
    intro s
    by_cases hs : s = c
    · subst hs; rw [upd_same]; exact hch
    · rw [upd_ne _ _ hs]
  unfold releaseBp
  simp only [setSub, setChan]
  rw [hf]
  rcases hci.release hp hex hf with ⟨ha, hc⟩ | ⟨ha, cache', hcache, hc1, hc2⟩
  · simp only [ha]
    refine ⟨_, rfl, ?_, ?_, rfl, rfl⟩
    · constructor
      · intro k'
        by_cases hk : k' = k
        · subst hk
          show ChanInv _ _ _ _ _ _ _ (upd st.chan k' _ k') _ _ _ _
          rw [upd_same]
          exact hc.congr (fun _ => Iff.rfl) Iff.rfl hpend
        · refine CI.transfer (h.chan k') (fun _ => Iff.rfl) Iff.rfl rfl rfl rfl ?_ (hpend' k' hk) rfl
          exact upd_ne _ _ hk
      · intro p
        have := h.pub p
        refine { this with chansPub := ?_ }
        intro k' hk'
        refine ⟨(this.chansPub k' hk').1, ?_⟩
        by_cases hk : k' = k
        · subst hk; simp only [upd_same]; exact (this.chansPub k' hk').2
        · simp only [upd_ne _ _ hk]; exact (this.chansPub k' hk').2
      · exact hsubs
      · intro s k'
        rw [hlinks, ← h.cl]
        by_cases hk : k' = k
        · subst hk; simp only [upd_same]
        · simp only [upd_ne _ _ hk]
      · intro k'
        by_cases hk : k' = k
        · subst hk; simp only [upd_same]; exact h.shut k'
        · simp only [upd_ne _ _ hk]; exact h.shut k'
    · refine { Frame.refl cfg cur st with clients := ?_, closed := ?_, opened := ?_, wire := ?_, cacheCur := ?_, links := hlinks }
      all_goals
        intro k'
        by_cases hk : k' = k
        · subst hk; simp only [upd_same]; try (intros; trivial)
        · simp only [upd_ne _ _ hk]; try (intros; trivial)
  · simp only [ha, hcache]
    have hne : ∀ k' x, exOf cur k' = some x →
        ((if k' = k then cache' else (st.chan k').cache)).slots[x % cfg.n (cfg.pubOf k')]? =
          (st.chan k').cache.slots[x % cfg.n (cfg.pubOf k')]? := by
      intro k' x hx
      by_cases hk : k' = k
      · subst hk
        rw [if_pos rfl]
        have hpos : 0 < (st.chan k').cache.slots.length := by rw [hci.cacheLen]; exact hci.pos
        have hxm : x % cfg.n (cfg.pubOf k') ≠ m % cfg.n (cfg.pubOf k') := by
          intro he
          have := hci.uniq (Or.inr hx) (Or.inl (Or.inr (Or.inl ⟨c, hp⟩))) he
          rw [this] at hx; exact hex hx
        rcases MessageCache.release_spec (c := (st.chan k').cache) (id := m) hpos with ⟨e', _, _, hr⟩ | ⟨_, hr⟩
        · rw [hcache] at hr; cases hr
          rw [hci.cacheLen, MessageCache.releaseSlot_get]
          simp [hxm]
        · rw [hcache] at hr; cases hr
      · rw [if_neg hk]
    split
    · rename_i hdir
      unfold pubFree
      simp only [setPub]
      have hpo := h.pub (cfg.pubOf k)
      have hlt : m % cfg.n (cfg.pubOf k) < (st.pub (cfg.pubOf k)).bp.buffers.length := by
        rw [hpo.bpLen]; exact Nat.mod_lt _ hci.pos
      obtain ⟨pbp, hpf⟩ := free_isSome_some (bp := (st.pub (cfg.pubOf k)).bp) (k := k) hlt
      obtain ⟨b1, b2, b3⟩ := Backpressure.free_spec hpo.bpInv hpf
      rw [hpf]
      have hpo' := pubFree_pub hpo hci.pos hpf
      have hsend : ∀ (p : P) v todo,
          (upd st.pub (cfg.pubOf k) (wake (cfg.n (cfg.pubOf k)) { st.pub (cfg.pubOf k) with bp := pbp }) p).job
            = .sending v todo ↔ (st.pub p).job = .sending v todo := by
        intro p v todo
        by_cases hpk : p = cfg.pubOf k
        · subst hpk; rw [upd_same, wake_sending]
        · rw [upd_ne _ _ hpk]
      refine ⟨_, rfl, ?_, ?_, rfl, rfl⟩
      · constructor
        · intro k'
          by_cases hk : k' = k
          · subst hk
            refine CI.of hc2 ?_ (by simp only [upd_same, wake_chans])
              (sentOf_congr (fun v todo => hsend _ v todo) rfl) rfl
              (by simp only [upd_same, wake_shm]) (upd_same _ _ _) hpend rfl
            intro i
            simp only [upd_same, wake_bp]
            rw [b3]
            constructor
            · rintro ⟨hh, hn⟩
              exact ⟨hh, fun e => hn ⟨rfl, Or.inr (by rw [e])⟩⟩
            · rintro ⟨hh, hn⟩
              refine ⟨hh, ?_⟩
              rintro ⟨_, h' | h'⟩
              · cases h'
              · exact hn (Option.some.inj h').symm
          · refine CI.transfer (h.chan k') ?_ ?_ (sentOf_congr (fun v todo => hsend _ v todo) rfl) rfl ?_ ?_ (hpend' k' hk) rfl
            · intro i
              by_cases hpk : cfg.pubOf k' = cfg.pubOf k
              · simp only [hpk, upd_same, wake_bp]
                rw [b3]
                constructor
                · intro hh; exact hh.1
                · intro hh; exact ⟨hh, fun e => hk e.1⟩
              · simp only [upd_ne _ _ hpk]
            · by_cases hpk : cfg.pubOf k' = cfg.pubOf k
              · simp only [hpk, upd_same, wake_chans]
              · simp only [upd_ne _ _ hpk]
            · by_cases hpk : cfg.pubOf k' = cfg.pubOf k
              · simp only [hpk, upd_same, wake_shm]
              · simp only [upd_ne _ _ hpk]
            · exact upd_ne _ _ hk
        · intro p
          have hop : (fun k' => ((upd st.chan k { st.chan k with bp := bp', cache := cache' }) k').opened = true)
              = (fun k' => (st.chan k').opened = true) := by
            funext k'
            by_cases hk : k' = k
            · subst hk; simp only [upd_same]
            · simp only [upd_ne _ _ hk]
          simp only [hop]
          by_cases hpk : p = cfg.pubOf k
          · subst hpk; rw [upd_same]; exact hpo'
          · rw [upd_ne _ _ hpk]; exact h.pub p
        · exact hsubs
        · intro s k'
          rw [hlinks, ← h.cl]
          by_cases hk : k' = k
          · subst hk; simp only [upd_same]
          · simp only [upd_ne _ _ hk]
        · intro k'
          by_cases hk : k' = k
          · subst hk; simp only [upd_same]; exact h.shut k'
          · simp only [upd_ne _ _ hk]; exact h.shut k'
      · refine { Frame.refl cfg cur st with clients := ?clients, closed := ?closed, opened := ?opened, wire := ?wire, chans := ?chans, shm := ?shm, msgId := ?msgId, sending := hsend, holdsLe := ?holdsLe, holdsCur := ?holdsCur, cacheCur := ?cacheCur, links := hlinks }
        case clients | closed | opened | wire =>
          intro k'
          by_cases hk : k' = k
          · subst hk; simp only [upd_same]
          · simp only [upd_ne _ _ hk]
        case chans | shm | msgId =>
          intro p
          by_cases hpk : p = cfg.pubOf k
          · subst hpk; simp only [upd_same, wake_chans, wake_shm, wake_msgId]
          · simp only [upd_ne _ _ hpk]
        case holdsLe =>
          intro p k' i hh
          by_cases hpk : p = cfg.pubOf k
          · subst hpk
            simp only [upd_same, wake_bp] at hh
            exact ((b3 _ _).1 hh).1
          · simp only [upd_ne _ _ hpk] at hh; exact hh
        case holdsCur =>
          intro k' x hx hh
          by_cases hpk : cfg.pubOf k' = cfg.pubOf k
          · simp only [hpk, upd_same, wake_bp] at hh ⊢
            rw [b3]
            refine ⟨hh, ?_⟩
            rintro ⟨rfl, h' | h'⟩
            · cases h'
            · have he := (Option.some.inj h').symm
              have := hci.uniq (Or.inr hx) (Or.inl (Or.inr (Or.inl ⟨c, hp⟩))) he
              rw [this] at hx; exact hex hx
          · simp only [upd_ne _ _ hpk]; exact hh
        case cacheCur =>
          intro k' x hx
          rw [← hne k' x hx]
          by_cases hk : k' = k
          · subst hk; simp only [upd_same, if_true]
          · simp only [upd_ne _ _ hk, if_neg hk]
    · refine ⟨_, rfl, ?_, ?_, rfl, rfl⟩
      · constructor
        · intro k'
          by_cases hk : k' = k
          · subst hk
            show ChanInv _ _ _ _ _ _ _ (upd st.chan k' _ k') _ _ _ _
            rw [upd_same]
            exact hc1.congr (fun _ => Iff.rfl) Iff.rfl hpend
          · refine CI.transfer (h.chan k') (fun _ => Iff.rfl) Iff.rfl rfl rfl rfl ?_ (hpend' k' hk) rfl
            exact upd_ne _ _ hk
        · intro p
          have := h.pub p
          refine { this with chansPub := ?_ }
          intro k' hk'
          refine ⟨(this.chansPub k' hk').1, ?_⟩
          by_cases hk : k' = k
          · subst hk; simp only [upd_same]; exact (this.chansPub k' hk').2
          · simp only [upd_ne _ _ hk]; exact (this.chansPub k' hk').2
        · exact hsubs
        · intro s k'
          rw [hlinks, ← h.cl]
          by_cases hk : k' = k
          · subst hk; simp only [upd_same]
          · simp only [upd_ne _ _ hk]
        · intro k'
          by_cases hk : k' = k
          · subst hk; simp only [upd_same]; exact h.shut k'
          · simp only [upd_ne _ _ hk]; exact h.shut k'
      · refine { Frame.refl cfg cur st with clients := ?clients, closed := ?closed, opened := ?opened, wire := ?wire, cacheCur := ?cacheCur, links := hlinks }
        case clients | closed | opened | wire =>
          intro k'
          by_cases hk : k' = k
          · subst hk; simp only [upd_same]
          · simp only [upd_ne _ _ hk]
        case cacheCur =>
          intro k' x hx
          rw [← hne k' x hx]
          by_cases hk : k' = k
          · subst hk; simp only [upd_same, if_true]
          · simp only [upd_ne _ _ hk, if_neg hk]

/-! ## Announcing a message -/

/-- A step that touches one channel and one subscriber. -/
theorem Inv.local1 {cur' : Cur K S} (h : Inv cfg strict cur st) (k0 : K) (ch0 : ChanSt S V) (s0 : S)
    (sb0 : SubSt P K) (hst : st' = setSub (setChan st k0 ch0) s0 sb0)
    (hop : ch0.opened = (st.chan k0).opened)
    (hsh : ch0.opened = false → ch0.clients = [])
    (hrd : ∀ p, readyOf cfg cur' p → readyOf cfg cur p)
    (hpend : ∀ k, k ≠ k0 → ∀ c m, Unfinished cfg st' k c m ↔ Unfinished cfg st k c m)
    (hex : ∀ k, k ≠ k0 → exOf cur' k = exOf cur k)
    (hci : CI cfg strict st' (exOf cur' k0) k0)
    (hs0 : SubOk cfg sb0 st.log (uptoOf cfg cur' st.log s0) s0)
    (hup : ∀ s, s ≠ s0 → ∀ k, uptoOf cfg cur' st.log s k = uptoOf cfg cur st.log s k)
    (hcl : ∀ s k, s ∈ (st'.chan k).clients ↔ (st'.sub s).chans (cfg.pubOf k) = some k) :
    Inv cfg strict cur' st' := by
  subst hst
  refine ⟨?_, ?_, ?_, hcl, ?_⟩
  · intro k
    by_cases hk : k = k0
    · subst hk; exact hci
    · rw [hex k hk]
      refine CI.transfer (h.chan k) (fun _ => Iff.rfl) Iff.rfl rfl rfl rfl ?_ (hpend k hk) rfl
      exact upd_ne _ _ hk
  · intro p
    have hp := h.pub p
    refine { hp with todo := ?_, chansPub := ?_ }
    · intro v todo hj
      obtain ⟨t1, t2, t3⟩ := hp.todo v todo hj
      exact ⟨t1, t2, fun k hk => ⟨(t3 k hk).1, (t3 k hk).2.1, fun hr => (t3 k hk).2.2 (hrd p hr)⟩⟩
    intro k hk
    refine ⟨(hp.chansPub k hk).1, ?_⟩
    simp only [setSub, setChan]
    by_cases hk0 : k = k0
    · subst hk0; rw [upd_same, hop]; exact (hp.chansPub k hk).2
    · rw [upd_ne _ _ hk0]; exact (hp.chansPub k hk).2
  · intro s
    simp only [setSub, setChan]
    by_cases hs : s = s0
    · subst hs; rw [upd_same]; exact hs0
    · rw [upd_ne _ _ hs]
      have : uptoOf cfg cur' st.log s = uptoOf cfg cur st.log s := funext (hup s hs)
      rw [this]
      exact h.sub s
  · intro k
    simp only [setSub, setChan]
    by_cases hk0 : k = k0
    · subst hk0; rw [upd_same]; exact hsh
    · rw [upd_ne _ _ hk0]; exact h.shut k

theorem SeqOk.push {exact : Prop} {start upto : Nat} {rec q : List Nat}
    (h : SeqOk exact start upto rec q) : SeqOk exact start (upto + 1) rec (q ++ [upto]) := by
  obtain ⟨a, h1, h2, h3, h4, h5, h6⟩ := h
  refine ⟨a, by simp; omega, h2, ?_, h4, h5, h6⟩
  rw [List.length_append, List.length_singleton, List.range'_concat, ← h3]
  simp; omega

theorem SeqOk.dropHead {exact : Prop} {start upto m : Nat} {rec q : List Nat} (hne : ¬ exact)
    (h : SeqOk exact start upto rec (m :: q)) : SeqOk exact start upto rec q := by
  obtain ⟨a, h1, h2, h3, h4, h5, h6⟩ := h
  rw [List.length_cons, List.range'_succ, List.cons.injEq] at h3
  refine ⟨a + 1, by simp at h1; omega, by omega, h3.2, h4, ?_, fun e => absurd e hne⟩
  intro j hj
  have := h5 j hj
  omega

theorem SeqOk.recv {exact : Prop} {start upto m : Nat} {rec q : List Nat}
    (h : SeqOk exact start upto rec (m :: q)) : SeqOk exact start upto (rec ++ [m]) q := by
  obtain ⟨a, h1, h2, h3, h4, h5, h6⟩ := h
  rw [List.length_cons, List.range'_succ, List.cons.injEq] at h3
  obtain ⟨rfl, h3⟩ := h3
  refine ⟨m + 1, by simp at h1; omega, by omega, h3, ?_, ?_, ?_⟩
  · rw [List.pairwise_append]
    refine ⟨h4, by simp, ?_⟩
    intro x hx y hy
    simp at hy; subst hy
    exact (h5 x hx).2
  · intro j hj
    rcases List.mem_append.1 hj with hj | hj
    · have := h5 j hj; omega
    · simp at hj; omega
  · intro e
    rw [h6 e]
    have : m + 1 - start = (m - start) + 1 := by omega
    rw [this, List.range'_concat]
    simp; omega

/-- A notification appears once. -/
theorem SeqOk.head_fresh {exact : Prop} {start upto m : Nat} {rec q : List Nat}
    (h : SeqOk exact start upto rec (m :: q)) : m ∉ q ∧ m ∉ rec := by
  obtain ⟨a, h1, h2, h3, h4, h5, h6⟩ := h
  rw [List.length_cons, List.range'_succ, List.cons.injEq] at h3
  obtain ⟨rfl, h3⟩ := h3
  constructor
  · intro hm
    rw [h3, List.mem_range'_1] at hm
    omega
  · intro hm
    have := h5 m hm
    omega

theorem lease_isSome {bp : Backpressure S} {c : S} {i : Nat} (hi : i < bp.buffers.length) :
    ∃ bp', bp.lease c i = some bp' := by
  cases h : bp.lease c i with
  | some b => exact ⟨b, rfl⟩
  | none => rw [Backpressure.lease_eq_none] at h; omega

/-- Lease and notification of one client, before anything is dropped from its queue. -/
theorem push_ok {k : K} {x : Nat} {c : S} {rest : List S} (h : Inv cfg strict (some (k, x, c :: rest)) st)
    (hx : nextId cfg k st.log = x + 1) (hc : c ∈ (st.chan k).clients) (hcr : c ∉ rest)
    {bp' : Backpressure S} (hl : (st.chan k).bp.lease c (x % cfg.n (cfg.pubOf k)) = some bp')
    (sb : SubSt P K) (hsb : sb = { st.sub c with queue := (st.sub c).queue ++ [(cfg.pubOf k, x)] }) :
    Inv cfg strict (some (k, x, rest)) (setSub (setChan st k { st.chan k with bp := bp' }) c sb) ∧
    (∀ d j, Unfinished cfg (setSub (setChan st k { st.chan k with bp := bp' }) c sb) k d j ↔
      Unfinished cfg st k d j ∨ (d = c ∧ j = x)) := by
  have hci := h.chan k
  have hex : exOf (some (k, x, c :: rest)) k = some x := by simp [exOf]
  have hex' : exOf (some (k, x, rest)) k = some x := by simp [exOf]
  rw [hex] at hci
  have hck : (st.sub c).chans (cfg.pubOf k) = some k := (h.cl c k).1 hc
  have hpend : ∀ d j, Unfinished cfg (setSub (setChan st k { st.chan k with bp := bp' }) c sb) k d j ↔
      Unfinished cfg st k d j ∨ (d = c ∧ j = x) := by
    intro d j
    unfold Unfinished
    simp only [setSub, setChan]
    by_cases hd : d = c
    · subst hd
      rw [upd_same, hsb]
      simp only [List.mem_append, List.mem_singleton, Prod.mk.injEq, true_and]
      constructor
      · rintro ⟨h1, (h2 | h2) | h2⟩
        · exact Or.inl ⟨h1, Or.inl h2⟩
        · exact Or.inr h2
        · exact Or.inl ⟨h1, Or.inr h2⟩
      · rintro (⟨h1, h2 | h2⟩ | h2)
        · exact ⟨h1, Or.inl (Or.inl h2)⟩
        · exact ⟨h1, Or.inr h2⟩
        · exact ⟨hck, Or.inl (Or.inr h2)⟩
    · rw [upd_ne _ _ hd]
      simp [hd]
  refine ⟨?_, hpend⟩
  refine h.local1 k { st.chan k with bp := bp' } c sb rfl rfl (h.shut k) ?_ ?_ ?_ ?_ ?_ ?_ ?_
  · intro p hr k' x' r' he
    cases he
    exact hr k x rest rfl
  · intro k' hk d j
    unfold Unfinished
    simp only [setSub, setChan]
    by_cases hd : d = c
    · subst hd
      rw [upd_same, hsb]
      simp only [List.mem_append, List.mem_singleton, Prod.mk.injEq]
      constructor
      · rintro ⟨h1, (h2 | h2) | h2⟩
        · exact ⟨h1, Or.inl h2⟩
        · rw [h2.1, hck] at h1; cases h1; exact absurd rfl hk
        · exact ⟨h1, Or.inr h2⟩
      · rintro ⟨h1, h2 | h2⟩
        · exact ⟨h1, Or.inl (Or.inl h2)⟩
        · exact ⟨h1, Or.inr h2⟩
    · rw [upd_ne _ _ hd]
  · intro k' hk; simp [exOf, hk]
  · rw [hex']
    exact CI.of (hci.notify1 hc hl) (fun _ => Iff.rfl) Iff.rfl rfl rfl rfl (upd_same _ _ _) hpend rfl
  · have hsub := h.sub c
    subst hsb
    refine { hsub with linked := ?_, seq := ?_ }
    · intro p m hm
      simp only [List.mem_append, List.mem_singleton, Prod.mk.injEq] at hm
      rcases hm with (hm | hm) | hm
      · exact hsub.linked p m (Or.inl hm)
      · rw [hm.1]; exact ⟨k, hck⟩
      · exact hsub.linked p m (Or.inr hm)
    · intro k' hk'
      have hs := hsub.seq k' hk'
      simp only [qids_append, qids_single]
      by_cases hkk : k' = k
      · subst hkk
        simp only [uptoOf, List.mem_cons, true_or, and_self, if_true, hx] at hs
        simp only [uptoOf, hcr, and_false, if_false, if_true, hx]
        exact hs.push
      · have hpk : cfg.pubOf k ≠ cfg.pubOf k' := by
          intro he
          rw [← he] at hk'
          have hk'' : (st.sub c).chans (cfg.pubOf k) = some k' := hk'
          rw [hck] at hk''; cases hk''; exact hkk rfl
        simp only [uptoOf, hkk, false_and, if_false] at hs ⊢
        rw [if_neg hpk, List.append_nil]
        exact hs
  · intro s hs k'
    simp only [uptoOf, List.mem_cons, hs, false_or]
  · intro s k'
    have h1 : ((setSub (setChan st k { st.chan k with bp := bp' }) c sb).sub s).chans = (st.sub s).chans := by
      simp only [setSub, setChan]
      by_cases hs : s = c
      · subst hs; rw [upd_same, hsb]
      · rw [upd_ne _ _ hs]
    rw [h1, ← h.cl]
    simp only [setSub, setChan]
    by_cases hk : k' = k
    · subst hk; rw [upd_same]
    · rw [upd_ne _ _ hk]

/-- Events that say nothing about what was broadcast, linked, delivered or received. -/
def Neutral : Ev P K S V → Prop
  | .dropped _ _ _ => True
  | .done _ _ _ => True
  | .synced _ => True
  | .syncing _ => True
  | .paused _ => True
  | .resumed _ => True
  | .unlinked _ _ => True
  | _ => False

theorem bcasts_neutral {e : Ev P K S V} (he : Neutral e) (p : P) (l : List (Ev P K S V)) :
    bcasts p (e :: l) = bcasts p l := by
  cases e <;> first | rfl | exact absurd he (by simp [Neutral])

theorem nextId_neutral {e : Ev P K S V} (he : Neutral e) (k : K) (l : List (Ev P K S V)) :
    nextId cfg k (e :: l) = nextId cfg k l := by
  cases e <;> first | rfl | exact absurd he (by simp [Neutral])

theorem recvd_neutral {e : Ev P K S V} (he : Neutral e) (s : S) (k : K) (l : List (Ev P K S V)) :
    recvd s k (e :: l) = recvd s k l := by
  cases e <;> first | rfl | exact absurd he (by simp [Neutral])

theorem startId_neutral {e : Ev P K S V} (he : Neutral e) (s : S) (k : K) (l : List (Ev P K S V)) :
    startId cfg s k (e :: l) = startId cfg s k l := by
  cases e <;> first | rfl | exact absurd he (by simp [Neutral])

theorem SubOk.congrLog {sb : SubSt P K} {log log' : List (Ev P K S V)} {up up' : K → Nat} {s : S}
    (h : SubOk cfg sb log up s) (h1 : ∀ k, recvd s k log' = recvd s k log)
    (h2 : ∀ k, startId cfg s k log' = startId cfg s k log) (h3 : ∀ k, sb.chans (cfg.pubOf k) = some k → up' k = up k)
    (h4 : ∀ (p : P) (m : Nat) (v : V), (bcasts p log)[m]? = some v → (bcasts p log')[m]? = some v) :
    SubOk cfg sb log' up' s := by
  refine { h with seq := ?_, heldRec := ?_, vals := ?_ }
  · intro k hk; rw [h1, h2, h3 k hk]; exact h.seq k hk
  · intro k m; rw [h1]; exact h.heldRec k m
  · intro k m v hm; rw [h1] at hm; exact h4 _ _ _ (h.vals k m v hm)

theorem Inv.addNeutral (h : Inv cfg strict cur st) {e : Ev P K S V} (he : Neutral e) :
    Inv cfg strict cur (addLog st e) := by
  refine ⟨?_, ?_, ?_, h.cl, h.shut⟩
  · intro k
    refine CI.transfer (h.chan k) (fun _ => Iff.rfl) Iff.rfl ?_ (bcasts_neutral he _ _) rfl rfl
      (fun _ _ => Iff.rfl) (nextId_neutral he _ _)
    exact sentOf_congr (fun _ _ => Iff.rfl) (bcasts_neutral he _ _)
  · intro p
    have := h.pub p
    simp only [addLog, bcasts_neutral he]
    exact this
  · intro s
    refine (h.sub s).congrLog (fun k => recvd_neutral he s k _) (fun k => startId_neutral he s k _) ?_ ?_
    · intro k _
      unfold uptoOf
      simp only [addLog, nextId_neutral he]
    · intro p m v hm
      simp only [addLog, bcasts_neutral he]
      exact hm

theorem Frame.addNeutral {e : Ev P K S V} (he : Neutral e) (h : Frame cfg cur st st') :
    Frame cfg cur st (addLog st' e) :=
  { h with
    bcasts := fun p => (bcasts_neutral he p _).trans (h.bcasts p)
    nextId := fun k => (nextId_neutral he k _).trans (h.nextId k) }

/-- One round of the notification loop. -/
theorem notify1_ok {k : K} {x : Nat} {c : S} {rest : List S} (h : Inv cfg strict (some (k, x, c :: rest)) st)
    (hx : nextId cfg k st.log = x + 1) (hc : c ∈ (st.chan k).clients) (hcr : c ∉ rest)
    {bp' : Backpressure S} (hl : (st.chan k).bp.lease c (x % cfg.n (cfg.pubOf k)) = some bp') :
    ∃ st', putNotif cfg (setChan st k { st.chan k with bp := bp' }) c (cfg.pubOf k, x) = .ok st' ∧
      Inv cfg strict (some (k, x, rest)) st' ∧ Frame cfg (some (k, x, c :: rest)) st st' := by
  obtain ⟨h1, hpend⟩ := push_ok h hx hc hcr hl _ rfl
  have hfr : ∀ sb : SubSt P K, sb.chans = (st.sub c).chans →
      Frame cfg (some (k, x, c :: rest)) st (setSub (setChan st k { st.chan k with bp := bp' }) c sb) := by
    intro sb hsb
    refine { Frame.refl cfg _ st with clients := ?clients, closed := ?closed, opened := ?opened, wire := ?wire, cacheCur := ?cacheCur, links := ?links }
    case clients | closed | opened | wire =>
      intro k'
      simp only [setSub, setChan]
      by_cases hk : k' = k
      · subst hk; rw [upd_same]
      · rw [upd_ne _ _ hk]
    case cacheCur =>
      intro k' x _
      simp only [setSub, setChan]
      by_cases hk : k' = k
      · subst hk; rw [upd_same]
      · rw [upd_ne _ _ hk]
    case links =>
      intro s
      simp only [setSub, setChan]
      by_cases hs : s = c
      · subst hs; rw [upd_same, hsb]
      · rw [upd_ne _ _ hs]
  unfold putNotif
  cases hq : cfg.maxq c with
  | none =>
    exact ⟨_, rfl, h1, hfr _ rfl⟩
  | some mx =>
    cases hfull : LeakyQueue.full mx (st.sub c).queue with
    | true =>
      cases hqq : (st.sub c).queue with
      | nil =>
        simp only [setChan, LeakyQueue.putNowait, hfull, if_true, hqq, LeakyQueue.dropOldest,
          LeakyQueue.getNowait]
        rw [hqq] at h1 hfull
        simp only [hfull, if_true]
        exact ⟨_, rfl, h1, hfr _ rfl⟩
      | cons d q =>
        obtain ⟨p', m'⟩ := d
        simp only [setChan, LeakyQueue.putNowait, hfull, if_true, hqq, LeakyQueue.dropOldest,
          LeakyQueue.getNowait]
        rw [hqq] at hfull
        simp only [hfull, if_true]
        obtain ⟨k', hk'⟩ := (h.sub c).linked p' m' (Or.inl (by rw [hqq]; simp))
        rw [hk']
        simp only
        have hp' : cfg.pubOf k' = p' := (h.sub c).chanPub p' k' hk'
        rw [hqq] at h1 hpend
        have hck : (st.sub c).chans (cfg.pubOf k) = some k := (h.cl c k).1 hc
        -- the state with the notification added and nothing dropped
        have hs1 := h1.sub c
        simp only [setSub, upd_same, setChan] at hs1
        have hseq := hs1.seq k' (by rw [hp']; exact hk')
        rw [List.cons_append, qids_cons, if_pos hp'.symm] at hseq
        obtain ⟨hf1, hf2⟩ := hseq.head_fresh
        have hleaky : ¬ (cfg.maxq c = none) := by rw [hq]; simp
        have hsub2 : SubOk cfg { st.sub c with queue := q ++ [(cfg.pubOf k, x)] } st.log
            (uptoOf cfg (some (k, x, rest)) st.log c) c := by
          refine { hs1 with linked := ?_, seq := ?_ }
          · intro p m hm
            refine hs1.linked p m (hm.imp_left ?_)
            intro hm; rw [List.cons_append]; exact List.mem_cons_of_mem _ hm
          · intro k2 hk2
            have := hs1.seq k2 hk2
            rw [List.cons_append, qids_cons] at this
            split at this
            · exact this.dropHead hleaky
            · exact this
        have hPd : Unfinished cfg (setSub (setChan st k { st.chan k with bp := bp' }) c
            { st.sub c with queue := (p', m') :: q ++ [(cfg.pubOf k, x)] }) k' c m' := by
          unfold Unfinished
          simp only [setSub, setChan, upd_same]
          exact ⟨by rw [hp']; exact hk', Or.inl (by rw [hp']; simp)⟩
        have hexd : exOf (some (k, x, rest)) k' ≠ some m' := by
          unfold exOf
          simp only
          split
          · rename_i hkk
            subst hkk
            intro he
            cases he
            apply hf1
            rw [qids_append, qids_single, if_pos rfl]
            simp
          · simp
        obtain ⟨st2, e1, e2, e3, e4, e5⟩ := releaseBp_ok h1 hPd hexd
          { st.sub c with queue := q ++ [(cfg.pubOf k, x)] } (by simp only [setSub, upd_same])
          (by
            intro p2 m2
            simp only [setSub, upd_same, setChan]
            have hnq : ∀ m, (cfg.pubOf k', m) ∈ q ++ [(cfg.pubOf k, x)] → m ≠ m' := by
              intro m hm he
              subst he
              exact hf1 (mem_qids.2 hm)
            have hnh : (cfg.pubOf k', m') ∉ (st.sub c).held := by
              intro hh
              exact hf2 (hs1.heldRec k' m' (by rw [hp']; exact hk') hh)
            constructor
            · rintro (hm | hm)
              · refine ⟨Or.inl (by rw [List.cons_append]; exact List.mem_cons_of_mem _ hm), ?_⟩
                rintro ⟨rfl, he⟩
                exact hnq m2 hm he
              · refine ⟨Or.inr hm, ?_⟩
                rintro ⟨rfl, rfl⟩
                exact hnh hm
            · rintro ⟨hm | hm, hn⟩
              · rw [List.cons_append] at hm
                rcases List.mem_cons.1 hm with he | hm
                · cases he; exact absurd ⟨hp'.symm, rfl⟩ hn
                · exact Or.inl hm
              · exact Or.inr hm)
          hsub2
        have hss : setSub (setSub (setChan st k { st.chan k with bp := bp' }) c
            { st.sub c with queue := (p', m') :: q ++ [(cfg.pubOf k, x)] }) c
            { st.sub c with queue := q ++ [(cfg.pubOf k, x)] } =
            setSub (setChan st k { st.chan k with bp := bp' }) c
            { st.sub c with queue := q ++ [(cfg.pubOf k, x)] } := by
          unfold setSub
          congr 1
          funext s
          simp only [upd]
          split <;> rfl
        rw [hss] at e1
        simp only [setChan] at e1
        rw [e1]
        refine ⟨_, rfl, e2.addNeutral trivial, Frame.addNeutral trivial ?_⟩
        refine Frame.trans (hfr _ (by rfl)) e3 ?_
        intro k2; simp [exOf]
    | false =>
      simp only [setChan, LeakyQueue.putNowait, hfull]
      exact ⟨_, rfl, h1, hfr _ rfl⟩

/-- The notification loop. -/
theorem notifyLoop_ok {k : K} {x : Nat} (rest : List S) : ∀ {st : St P K S V},
    Inv cfg strict (some (k, x, rest)) st → nextId cfg k st.log = x + 1 →
    (∀ c ∈ rest, c ∈ (st.chan k).clients) → rest.Nodup →
    ∃ st', notifyLoop cfg k x rest st = .ok st' ∧
      Inv cfg strict (some (k, x, [])) st' ∧ Frame cfg (some (k, x, rest)) st st' := by
  induction rest with
  | nil => intro st h _ _ _; exact ⟨st, rfl, h, Frame.refl _ _ _⟩
  | cons c rest ih =>
    intro st h hx hc hn
    rw [List.nodup_cons] at hn
    have hci := h.chan k
    obtain ⟨bp', hl⟩ := lease_isSome (c := c) (hci.modlt x)
    obtain ⟨st1, e1, e2, e3⟩ := notify1_ok h hx (hc c (by simp)) hn.1 hl
    obtain ⟨st2, f1, f2, f3⟩ := ih e2 (by rw [e3.nextId]; exact hx)
      (by intro d hd; rw [e3.clients]; exact hc d (by simp [hd])) hn.2
    refine ⟨st2, ?_, f2, e3.trans f3 (fun k' => by simp [exOf])⟩
    unfold notifyLoop
    rw [hl]
    simp only [e1]
    exact f1

/-- `_notify_clients`. -/
theorem notify_ok {k : K} {x : Nat} (h : Inv cfg strict (some (k, x, (st.chan k).clients)) st)
    (hx : nextId cfg k st.log = x + 1) :
    ∃ st' b, notify cfg st k x = .ok (st', b) ∧ Inv cfg strict (some (k, x, [])) st' ∧
      Frame cfg (some (k, x, [])) st st' ∧
      (b = true → ∃ c, Unfinished cfg st' k c x) ∧ (b = false → ∀ c, ¬ Unfinished cfg st' k c x) := by
  obtain ⟨st', e1, e2, e3⟩ := notifyLoop_ok _ h hx (fun _ h => h) (h.chan k).nodup
  have hci := e2.chan k
  have hex : exOf (some (k, x, ([] : List S))) k = some x := by simp [exOf]
  rw [hex] at hci
  have hfr : Frame cfg (some (k, x, [])) st st' :=
    { e3 with
      holdsCur := fun k' y hy => e3.holdsCur k' y (by simpa [exOf] using hy)
      cacheCur := fun k' y hy => e3.cacheCur k' y (by simpa [exOf] using hy) }
  unfold notify
  rw [e1]
  simp only
  rcases Backpressure.available_dichotomy (bp := (st'.chan k).bp) (hci.modlt x) with ha | ha
  · rw [ha]
    refine ⟨st', false, rfl, e2, hfr, by simp, ?_⟩
    intro _ c hp
    exact (Backpressure.available_iff hci.bpInv (hci.modlt x)).1 ha c ((hci.bpPend c _).2 ⟨x, hp, rfl⟩)
  · rw [ha]
    refine ⟨st', true, rfl, e2, hfr, ?_, by simp⟩
    intro _
    apply Classical.byContradiction
    intro hno
    have : (st'.chan k).bp.available (x % cfg.n (cfg.pubOf k)) = some true := by
      refine (Backpressure.available_iff hci.bpInv (hci.modlt x)).2 ?_
      intro u hu
      obtain ⟨m, hm, hmm⟩ := (hci.bpPend u _).1 hu
      have := hci.uniq (Or.inl (Or.inr (Or.inl ⟨u, hm⟩))) (Or.inr rfl) hmm
      rw [this] at hm
      exact hno ⟨u, hm⟩
    rw [ha] at this; cases this

end Sys
end Ez
