import Verif.Lemmas.SystemQuiet

/-!
# C19 – C21, C23: delivery, integrity, bounded run-ahead, leaky subscribers

The vocabulary (`bcasts`, `recvd`, `startId`, `sentBeforeLink`, `finished`, `Unfinished`, `Reachable`) is
defined on the observable event log in `Verif/Spec/SystemLog.lean`.
-/

set_option linter.unusedSectionVars false
set_option linter.unusedSimpArgs false

namespace Ez.Sys
variable {P K S V : Type} [DecidableEq P] [DecidableEq K] [DecidableEq S]
variable {cfg : Cfg P K S} {st st' : St P K S V}

/-! ## A concrete system for the examples: one publisher with two buffers, three processes reached
in-process (0), through shared memory (1) and through TCP (2), three subscribers, the last one leaky
with `max_queue = 1`. -/

def demo : Cfg Unit (Fin 3) (Fin 3) where
  pubOf _ := ()
  n _ := 2
  mode k := if k = 0 then .local else if k = 1 then .shm else .tcp
  direct k := decide (k = 0)
  maxq s := if s = 2 then some 1 else none
  startPaused _ := false

theorem demo_wf : demo.WF where
  pos _ := Nat.zero_lt_succ 1
  localDirect := by decide
  localOne := by decide

/-- Channels 0 and 1 and 2 are connected; subscriber `i` is linked to channel `i`. -/
def demoSetup : List (Act Unit (Fin 3) (Fin 3) Char) :=
  [.connect 0, .connect 1, .connect 2, .link 0 0, .link 1 1, .link 2 2]

/-- One complete broadcast. -/
def demoSend (v : Char) : List (Act Unit (Fin 3) (Fin 3) Char) :=
  [.bcast () v, .send () true, .send () true, .finish ()]

/-- Two messages are broadcast; subscriber 0 received and finished the first one, subscriber 1 is
inside the receive block of the first one, subscriber 2 dropped the first one. -/
def demoRun : List (Act Unit (Fin 3) (Fin 3) Char) :=
  demoSetup ++ demoSend 'a' ++ demoSend 'b' ++
    [.deliver 1, .deliver 1, .deliver 2, .deliver 2, .recv 0, .release 0 0, .recv 1]

/-- The state after a run; the initial state if the run is not possible. -/
def after {P K S V : Type} [DecidableEq P] [DecidableEq K] [DecidableEq S] (cfg : Cfg P K S)
    (as : List (Act P K S V)) : St P K S V :=
  match run cfg (init cfg) as with
  | .ok st => st
  | _ => init cfg

theorem after_reachable {P K S V : Type} [DecidableEq P] [DecidableEq K] [DecidableEq S] (cfg : Cfg P K S)
    (as : List (Act P K S V)) : Reachable cfg (after cfg as) := by
  unfold after
  split
  · rename_i st h; exact ⟨as, h⟩
  · exact ⟨[], rfl⟩

example : bcasts () (after demo demoRun).log = ['a', 'b'] ∧
    recvd 0 0 (after demo demoRun).log = [(0, 'a')] ∧ recvd 1 1 (after demo demoRun).log = [(0, 'a')] ∧
    recvd 2 2 (after demo demoRun).log = [] ∧ ((after demo demoRun).sub 2).queue = [((), 1)] ∧
    ((after demo demoRun).chan 2).acks = [0] := by decide

/-! ## List facts -/

theorem prefix_of_lookup {α : Type} (l : List α) : ∀ (r : List (Nat × α)) (a : Nat),
    r.map (·.1) = List.range' a r.length → (∀ m v, (m, v) ∈ r → l[m]? = some v) →
    r.map (·.2) <+: l.drop a := by
  intro r
  induction r with
  | nil => intro a _ _; exact List.nil_prefix
  | cons x r ih =>
    intro a h1 h2
    obtain ⟨m, v⟩ := x
    simp only [List.map_cons, List.length_cons, List.range'_succ, List.cons.injEq] at h1
    obtain ⟨rfl, h1⟩ := h1
    have hv := h2 m v (List.mem_cons_self ..)
    have hlt : m < l.length := by
      rcases Nat.lt_or_ge m l.length with e | e
      · exact e
      · rw [List.getElem?_eq_none e] at hv; cases hv
    rw [List.drop_eq_getElem_cons hlt]
    rw [List.getElem?_eq_getElem hlt, Option.some.injEq] at hv
    simp only [List.map_cons, hv]
    exact List.prefix_cons_inj v |>.2 (ih (m + 1) h1 (fun m' v' hm => h2 m' v' (List.mem_cons_of_mem _ hm)))

theorem sublist_of_lookup {α : Type} (l : List α) : ∀ (r : List (Nat × α)) (a : Nat),
    (r.map (·.1)).Pairwise (· < ·) → (∀ m ∈ r.map (·.1), a ≤ m) → (∀ m v, (m, v) ∈ r → l[m]? = some v) →
    (r.map (·.2)).Sublist (l.drop a) := by
  intro r
  induction r with
  | nil => intro a _ _ _; exact List.nil_sublist _
  | cons x r ih =>
    intro a h1 h2 h3
    obtain ⟨m, v⟩ := x
    simp only [List.map_cons, List.pairwise_cons] at h1
    have hv := h3 m v (List.mem_cons_self ..)
    have ha := h2 m (by simp)
    have hlt : m < l.length := by
      rcases Nat.lt_or_ge m l.length with e | e
      · exact e
      · rw [List.getElem?_eq_none e] at hv; cases hv
    have h4 := ih (m + 1) h1.2 (fun m' hm => h1.1 m' hm) (fun m' v' hm => h3 m' v' (List.mem_cons_of_mem _ hm))
    have h5 : l.drop m = v :: l.drop (m + 1) := by
      rw [List.drop_eq_getElem_cons hlt]
      rw [List.getElem?_eq_getElem hlt, Option.some.injEq] at hv
      rw [hv]
    have h6 : (l.drop m).Sublist (l.drop a) := by
      have : l.drop m = (l.drop a).drop (m - a) := by rw [List.drop_drop]; congr 1; omega
      rw [this]
      exact List.drop_sublist _ _
    refine List.Sublist.trans ?_ h6
    rw [h5]
    simp only [List.map_cons]
    exact h4.cons_cons v

/-! ## Facts about linked subscribers -/

theorem linked_open {strict : K → Prop} (h : Inv cfg strict none st) {s : S} {k : K}
    (hk : (st.sub s).chans (cfg.pubOf k) = some k) :
    (st.chan k).closed = false ∧ (st.chan k).opened = true ∧ k ∈ (st.pub (cfg.pubOf k)).chans := by
  have hc := h.chan k
  have hcl := (h.cl s k).2 hk
  have h1 : (st.chan k).closed = false := by
    cases e : (st.chan k).closed with
    | false => rfl
    | true => rw [hc.closedOk e] at hcl; cases hcl
  have h2 : (st.chan k).opened = true := by
    cases e : (st.chan k).opened with
    | true => rfl
    | false => rw [h.shut k e] at hcl; cases hcl
  exact ⟨h1, h2, hc.openMem h2 h1⟩

theorem seq_of {strict : K → Prop} (h : Inv cfg strict none st) {s : S} {k : K}
    (hk : (st.sub s).chans (cfg.pubOf k) = some k) :
    SeqOk (cfg.maxq s = none) (startId cfg s k st.log) (nextId cfg k st.log) ((recvd s k st.log).map (·.1))
      (qids (cfg.pubOf k) (st.sub s).queue) := (h.sub s).seq k hk

/-- No publisher, channel or subscriber code raises, whatever the schedule. -/
theorem C19_never_raises (hwf : cfg.WF) (as : List (Act P K S V)) (e : Err) :
    run cfg (init cfg) as ≠ .raised e := by
  intro h
  rcases run_ok hwf as (inv_init hwf) (extra_init (cfg := cfg)) with h1 | ⟨st', h1, _⟩ <;>
    (rw [h1] at h; cases h)

/-- **C19.** What a linked non-leaky subscriber received so far is a gap-free prefix, in order and with the
broadcast contents, of the publisher's messages from some message `a` on, and `a` is at most the
number of messages broadcast before the link: nothing broadcast since then is missing. -/
theorem C19_received_prefix (hwf : cfg.WF) (h : Reachable cfg st) {s : S} {k : K}
    (hs : cfg.maxq s = none) (hk : (st.sub s).chans (cfg.pubOf k) = some k) :
    ∃ a, a ≤ sentBeforeLink cfg s k st.log ∧
      (recvd s k st.log).map (·.1) = List.range' a (recvd s k st.log).length ∧
      (recvd s k st.log).map (·.2) <+: (bcasts (cfg.pubOf k) st.log).drop a := by
  obtain ⟨hi, hx⟩ := h.inv hwf
  obtain ⟨a, h1, h2, h3, h4, h5, h6⟩ := seq_of hi hk
  have h7 := h6 hs
  have h8 : (recvd s k st.log).map (·.1) =
      List.range' (startId cfg s k st.log) (recvd s k st.log).length := by
    have : ((recvd s k st.log).map (·.1)).length = a - startId cfg s k st.log := by rw [h7]; simp
    rw [List.length_map] at this
    rw [h7, this]
  exact ⟨startId cfg s k st.log, hx.start s k hk, h8, prefix_of_lookup _ _ _ h8 ((hi.sub s).vals k)⟩

/-- The hypotheses are met after `demoRun` by subscriber 1, which reads through shared memory. -/
example : Reachable demo (after demo demoRun) ∧ demo.maxq 1 = none ∧
    ((after demo demoRun).sub 1).chans (demo.pubOf 1) = some 1 ∧
    (recvd 1 1 (after demo demoRun).log).length = 1 :=
  ⟨after_reachable _ _, by decide⟩

/-- **C19**, nothing is lost: once the publisher's broadcast is complete and nothing is under way to the
subscriber or in its queue, it has received every message since the link. -/
theorem C19_all_received (hwf : cfg.WF) (h : Reachable cfg st) {s : S} {k : K}
    (hs : cfg.maxq s = none) (hk : (st.sub s).chans (cfg.pubOf k) = some k)
    (hj : ∀ v todo, (st.pub (cfg.pubOf k)).job ≠ .sending v todo)
    (hw : (st.chan k).wire = []) (hq : ∀ m, (cfg.pubOf k, m) ∉ (st.sub s).queue) :
    ∃ a, a ≤ sentBeforeLink cfg s k st.log ∧
      (recvd s k st.log).map (·.2) = (bcasts (cfg.pubOf k) st.log).drop a := by
  obtain ⟨hi, hx⟩ := h.inv hwf
  obtain ⟨a, h1, h2, h3, h4, h5, h6⟩ := seq_of hi hk
  obtain ⟨o1, o2, o3⟩ := linked_open hi hk
  obtain ⟨a', e1, e2, e3⟩ := C19_received_prefix hwf h hs hk
  have hq0 : qids (cfg.pubOf k) (st.sub s).queue = [] := by
    rw [List.eq_nil_iff_forall_not_mem]
    intro m hm
    exact hq m (mem_qids.1 hm)
  have hsent : sentOf cfg st k = (bcasts (cfg.pubOf k) st.log).length := by
    unfold sentOf
    split
    · rename_i hjj; exact absurd hjj (hj _ _)
    · rfl
  have hend := (hi.chan k).wireEnd o1 o3
  rw [hw, hsent] at hend
  rw [hq0] at h1
  simp only [List.length_nil, Nat.add_zero] at h1 hend
  have h8 : (recvd s k st.log).map (·.1) =
      List.range' (startId cfg s k st.log) (recvd s k st.log).length := by
    have : ((recvd s k st.log).map (·.1)).length = a - startId cfg s k st.log := by rw [h6 hs]; simp
    rw [List.length_map] at this
    rw [h6 hs, this]
  have hlen : (recvd s k st.log).length = a - startId cfg s k st.log := by
    have : ((recvd s k st.log).map (·.1)).length = a - startId cfg s k st.log := by rw [h6 hs]; simp
    rwa [List.length_map] at this
  refine ⟨startId cfg s k st.log, hx.start s k hk, ?_⟩
  refine List.IsPrefix.eq_of_length (prefix_of_lookup _ _ _ h8 ((hi.sub s).vals k)) ?_
  rw [List.length_map, hlen, List.length_drop, ← hend, h1]

/-- The hypotheses are met by subscriber 1 once it also took the second message. -/
example : demo.maxq 1 = none ∧
    ((after demo (demoRun ++ [.recv 1])).sub 1).chans (demo.pubOf 1) = some 1 ∧
    ((after demo (demoRun ++ [.recv 1])).chan 1).wire = [] ∧
    ((after demo (demoRun ++ [.recv 1])).sub 1).queue = [] ∧
    recvd 1 1 (after demo (demoRun ++ [.recv 1])).log = [(0, 'a'), (1, 'b')] := by decide

/-- **C19**, liveness: from any reachable state, if messages and notifications are processed until no
more can be (and the publisher is not in the middle of a broadcast), the subscriber has received every
message since the link. -/
theorem C19_drained_received (hwf : cfg.WF) (h : Reachable cfg st) {s : S} {k : K}
    (hs : cfg.maxq s = none) (hk : (st.sub s).chans (cfg.pubOf k) = some k)
    (hj : ∀ v todo, (st.pub (cfg.pubOf k)).job ≠ .sending v todo)
    (hd1 : step cfg st (.deliver k) = .disabled) (hd2 : step cfg st (.recv s) = .disabled) :
    ∃ a, a ≤ sentBeforeLink cfg s k st.log ∧
      (recvd s k st.log).map (·.2) = (bcasts (cfg.pubOf k) st.log).drop a := by
  obtain ⟨hi, hx⟩ := h.inv hwf
  refine C19_all_received hwf h hs hk hj ?_ ?_
  · simp only [step] at hd1
    cases hw : (st.chan k).wire with
    | nil => rfl
    | cons x rest =>
      obtain ⟨m', pl⟩ := x
      obtain ⟨st1, h2, _⟩ := deliver_ok hi hw
      rw [hw] at hd1
      simp only [h2] at hd1
      cases hd1
  · intro m hm
    simp only [step] at hd2
    cases hq : (st.sub s).queue with
    | nil => rw [hq] at hm; cases hm
    | cons x q =>
      obtain ⟨p', m'⟩ := x
      obtain ⟨k', hk'⟩ := (hi.sub s).linked p' m' (Or.inl (by rw [hq]; exact List.mem_cons_self ..))
      obtain ⟨v, h2, _, _⟩ := recv_ok hi hq hk'
      rw [hq] at hd2
      simp only [hk', h2] at hd2
      cases hd2

/-- **C20.** A message of which a subscriber was notified and which it has not finished with can be looked
up and has the content that was broadcast. -/
theorem C20_unfinished_intact (hwf : cfg.WF) (h : Reachable cfg st) {s : S} {k : K} {m : Nat}
    (hu : Unfinished cfg st k s m) :
    ∃ v, lookup cfg st k m = .ok v ∧ (bcasts (cfg.pubOf k) st.log)[m]? = some v :=
  lookup_ok (h.inv hwf).1 hu

/-- After `demoRun` subscriber 1 holds message 0 and message 1 is in its queue. -/
example : Unfinished demo (after demo demoRun) 1 1 0 ∧ Unfinished demo (after demo demoRun) 1 1 1 :=
  ⟨⟨rfl, Or.inr (by decide)⟩, ⟨rfl, Or.inl (by decide)⟩⟩

/-- **C20**, messages still under way: a message sent over TCP carries the broadcast content, and the
shared memory slot of a message announced through shared memory still holds that message. -/
theorem C20_wire_intact (hwf : cfg.WF) (h : Reachable cfg st) {k : K} {m : Nat} {pl : Payload V}
    (hu : (m, pl) ∈ (st.chan k).wire) :
    ∃ v, (bcasts (cfg.pubOf k) st.log)[m]? = some v ∧ (pl = .tcp v ∨ (pl = .shm ∧
      (st.pub (cfg.pubOf k)).shm[m % cfg.n (cfg.pubOf k)]? = some (some (m, v)))) := by
  have hc := (h.inv hwf).1.chan k
  rcases hc.wireOk m pl hu with ⟨h1, h2⟩ | ⟨v, h1, h2⟩
  · obtain ⟨v, e1, e2⟩ := hc.shmOk h1 m (Or.inl (List.mem_map.2 ⟨_, hu, rfl⟩))
    exact ⟨v, e2, Or.inr ⟨h2, e1⟩⟩
  · exact ⟨v, h2, Or.inl h1⟩

/-- Both kinds of message under way. -/
example : (0, Payload.shm) ∈ ((after demo (demoSetup ++ demoSend 'a')).chan 1).wire ∧
    (0, Payload.tcp 'a') ∈ ((after demo (demoSetup ++ demoSend 'a')).chan 2).wire := by decide

/-- **C20**, no premature reuse: while a message is under way to a process, unfinished by a client, or its
acknowledgement is under way, the publisher's buffer is leased to the channel. -/
theorem C20_buffer_leased (hwf : cfg.WF) (h : Reachable cfg st) {k : K} {m : Nat}
    (hl : m ∈ (st.chan k).wire.map (·.1) ∨ (∃ s, Unfinished cfg st k s m) ∨ m ∈ (st.chan k).acks) :
    (st.pub (cfg.pubOf k)).bp.available (m % cfg.n (cfg.pubOf k)) = some false := by
  have hi := (h.inv hwf).1
  have hh := (hi.chan k).live m hl (by simp [exOf])
  have hp := hi.pub (cfg.pubOf k)
  have hlt : m % cfg.n (cfg.pubOf k) < (st.pub (cfg.pubOf k)).bp.buffers.length := by
    rw [hp.bpLen]; exact Nat.mod_lt _ (hwf.pos _)
  rcases Backpressure.available_dichotomy hlt with ha | ha
  · exact absurd hh ((Backpressure.available_iff hp.bpInv hlt).1 ha k)
  · exact ha

/-- **C21.** If a linked non-leaky subscriber has not finished with message `m`, the publisher has
broadcast at most `num_buffers` messages from `m` on. -/
theorem C21_run_ahead (hwf : cfg.WF) (h : Reachable cfg st) {s : S} {k : K}
    (hs : cfg.maxq s = none) (hk : (st.sub s).chans (cfg.pubOf k) = some k) {m : Nat}
    (hm : sentBeforeLink cfg s k st.log ≤ m) (hf : m ∉ finished s k st.log) :
    (bcasts (cfg.pubOf k) st.log).length ≤ m + cfg.n (cfg.pubOf k) := by
  obtain ⟨hi, hx⟩ := h.inv hwf
  obtain ⟨a, h1, h2, h3, h4, h5, h6⟩ := seq_of hi hk
  obtain ⟨o1, o2, o3⟩ := linked_open hi hk
  have hst := hx.start s k hk
  have hc := hi.chan k
  have hpos := hc.pos
  by_cases hn : m < nextId cfg k st.log
  · have hu : Unfinished cfg st k s m := by
      refine ⟨hk, ?_⟩
      by_cases ha : m < a
      · right
        have : m ∈ (recvd s k st.log).map (·.1) := by
          rw [h6 hs, List.mem_range'_1]; omega
        rcases hx.fin s k m hk this with e | e
        · exact absurd e hf
        · exact e
      · left
        rw [← mem_qids, h3, List.mem_range'_1]; omega
    exact (hc.recent m (Or.inl (Or.inr (Or.inl ⟨s, hu⟩)))).2
  · by_cases hw : m < nextId cfg k st.log + (st.chan k).wire.length
    · refine (hc.recent m (Or.inl (Or.inl ?_))).2
      rw [hc.wireIds, List.mem_range'_1]; omega
    · rw [hc.wireEnd o1 o3] at hw
      have : (bcasts (cfg.pubOf k) st.log).length - 1 ≤ sentOf cfg st k := by
        unfold sentOf
        split
        · split <;> omega
        · omega
      omega

/-- After `demoRun` subscriber 1 finished nothing and the publisher is `num_buffers = 2` messages ahead:
the bound is attained. -/
example : demo.maxq 1 = none ∧ ((after demo demoRun).sub 1).chans (demo.pubOf 1) = some 1 ∧
    sentBeforeLink demo 1 1 (after demo demoRun).log = 0 ∧ finished (1 : Fin 3) (1 : Fin 3) (after demo demoRun).log = [] ∧
    (bcasts () (after demo demoRun).log).length = 0 + demo.n () := by decide

/-- **C21**, as a count: the messages broadcast since the link that the subscriber has not finished with
number at most `num_buffers`. -/
theorem C21_at_most_n (hwf : cfg.WF) (h : Reachable cfg st) {s : S} {k : K}
    (hs : cfg.maxq s = none) (hk : (st.sub s).chans (cfg.pubOf k) = some k) :
    ((List.range (bcasts (cfg.pubOf k) st.log).length).filter
      (fun m => decide (sentBeforeLink cfg s k st.log ≤ m) && !(finished s k st.log).contains m)).length
        ≤ cfg.n (cfg.pubOf k) := by
  have hn := fun m => C21_run_ahead hwf h hs hk (m := m)
  generalize (bcasts (cfg.pubOf k) st.log).length = L at *
  have hnd : ((List.range L).filter
      (fun m => decide (sentBeforeLink cfg s k st.log ≤ m) && !(finished s k st.log).contains m)).Nodup :=
    List.nodup_range.filter _
  have := nodup_length_le (ss := List.range' (L - cfg.n (cfg.pubOf k)) (cfg.n (cfg.pubOf k))) hnd (by
    intro m hm
    rw [List.mem_filter, List.mem_range] at hm
    obtain ⟨h1, h2⟩ := hm
    simp only [Bool.and_eq_true, decide_eq_true_eq, Bool.not_eq_true', List.contains_eq_mem,
      decide_eq_false_iff_not] at h2
    have := hn m h2.1 h2.2
    rw [List.mem_range'_1]
    omega)
  rwa [List.length_range'] at this

/-! ## Leaky queues -/

/-- A call on a leaky queue. -/
inductive LqOp (α : Type) where
  | put (x : α)
  | get

/-- Run the calls; returns the items that left the queue (dropped by `put_nowait` or returned by
`get_nowait`), oldest first, and the queue. -/
def LqOp.exec {α : Type} (mx : Int) : List (LqOp α) → List α × List α
  | [] => ([], [])
  | .put x :: ops =>
    let (out, q) := exec mx ops
    let (d, q') := LeakyQueue.putNowait mx q x
    (out ++ d.toList, q')
  | .get :: ops =>
    let (out, q) := exec mx ops
    match LeakyQueue.getNowait q with
    | none => (out, q)
    | some (x, q') => (out ++ [x], q')

/-- The items put, oldest first (the history is newest first). -/
def LqOp.items {α : Type} : List (LqOp α) → List α
  | [] => []
  | .put x :: ops => items ops ++ [x]
  | .get :: ops => items ops

/-- **C23**, the queue: whatever the history, the queue holds at most `max_queue` items, and what left the
queue followed by what is in it is exactly what was put, in order: the queue is the newest items. -/
theorem C23_queue {α : Type} (mx : Int) (hmx : 0 < mx) (ops : List (LqOp α)) :
    ((LqOp.exec mx ops).2.length : Int) ≤ mx ∧
      (LqOp.exec mx ops).1 ++ (LqOp.exec mx ops).2 = LqOp.items ops := by
  induction ops with
  | nil => simp [LqOp.exec, LqOp.items]; omega
  | cons op ops ih =>
    obtain ⟨ih1, ih2⟩ := ih
    cases op with
    | put x =>
      simp only [LqOp.exec, LqOp.items]
      cases hp : LeakyQueue.putNowait mx (LqOp.exec mx ops).2 x with
      | mk d q' =>
        refine ⟨putNowait_len hmx ih1 hp, ?_⟩
        simp only
        rw [← ih2]
        unfold LeakyQueue.putNowait at hp
        split at hp
        · unfold LeakyQueue.dropOldest LeakyQueue.getNowait at hp
          cases hq : (LqOp.exec mx ops).2 with
          | nil => rw [hq] at hp; simp at hp; obtain ⟨rfl, rfl⟩ := hp; simp
          | cons y q => rw [hq] at hp; simp at hp; obtain ⟨rfl, rfl⟩ := hp; simp
        · simp only [Prod.mk.injEq] at hp
          obtain ⟨rfl, rfl⟩ := hp
          simp
    | get =>
      simp only [LqOp.exec, LqOp.items]
      cases hq : (LqOp.exec mx ops).2 with
      | nil =>
        rw [hq] at ih2
        exact ⟨by simp [LeakyQueue.getNowait]; omega, by simpa [LeakyQueue.getNowait] using ih2⟩
      | cons y q =>
        rw [hq] at ih1 ih2
        refine ⟨?_, ?_⟩
        · simp only [LeakyQueue.getNowait]
          simp only [List.length_cons] at ih1
          omega
        · simp only [LeakyQueue.getNowait]
          rw [← ih2]
          simp

/-- **C23**: an item is dropped only by a put on a queue holding `max_queue` items, and then it is the
oldest one; otherwise nothing is dropped. -/
theorem C23_drop_only_when_full {α : Type} (mx : Int) (hmx : 0 < mx) (q : List α) (x : α) :
    ((q.length : Int) < mx → LeakyQueue.putNowait mx q x = (none, q ++ [x])) ∧
    (mx ≤ (q.length : Int) → LeakyQueue.putNowait mx q x = (q.head?, q.tail ++ [x])) := by
  have hf : LeakyQueue.full mx q = decide (mx ≤ (q.length : Int)) := by
    unfold LeakyQueue.full; rw [if_neg (by omega)]
  unfold LeakyQueue.putNowait
  rw [hf]
  refine ⟨fun h => ?_, fun h => ?_⟩
  · rw [if_neg (by simp; omega)]
  · rw [if_pos (by simpa using h)]
    cases q <;> rfl

example : (LqOp.exec 2 [.put 'd', .get, .put 'c', .put 'b', .put 'a']) = (['a', 'b'], ['c', 'd']) := by
  decide

/-- **C23**, in the system: a leaky subscriber's queue never exceeds `max_queue`; its notifications from one
publisher are the newest ones, without gap; what it received is older than those and is a
subsequence, in order and with the right contents, of what was broadcast. -/
theorem C23_leaky_subscriber (hwf : cfg.WF) (h : Reachable cfg st) {s : S} {k : K} {mx : Int}
    (hs : cfg.maxq s = some mx) (hmx : 0 < mx) (hk : (st.sub s).chans (cfg.pubOf k) = some k) :
    ((st.sub s).queue.length : Int) ≤ mx ∧
    (∃ a b, qids (cfg.pubOf k) (st.sub s).queue = List.range' a b ∧ a + b = nextId cfg k st.log ∧
      ∀ m ∈ (recvd s k st.log).map (·.1), m < a) ∧
    ((recvd s k st.log).map (·.2)).Sublist (bcasts (cfg.pubOf k) st.log) := by
  obtain ⟨hi, hx⟩ := h.inv hwf
  obtain ⟨a, h1, h2, h3, h4, h5, h6⟩ := seq_of hi hk
  refine ⟨hx.queue s mx hs hmx, ⟨a, _, h3, h1, fun m hm => (h5 m hm).2⟩, ?_⟩
  have := sublist_of_lookup (bcasts (cfg.pubOf k) st.log) (recvd s k st.log) 0 h4 (fun _ _ => Nat.zero_le _)
    ((hi.sub s).vals k)
  rwa [List.drop_zero] at this

/-- After `demoRun` subscriber 2 is leaky and dropped message 0. -/
example : demo.maxq 2 = some 1 ∧ ((after demo demoRun).sub 2).chans (demo.pubOf 2) = some 2 ∧
    Ev.dropped 2 2 0 ∈ (after demo demoRun).log ∧
    qids () ((after demo demoRun).sub 2).queue = [1] := by decide

/-- **C23**, leases: a client of a channel has leased exactly the buffers of the notified messages that it
has neither finished nor dropped. -/
theorem C23_leases (hwf : cfg.WF) (h : Reachable cfg st) {s : S} {k : K} {i : Nat} :
    (st.chan k).bp.Holds s i ↔ ∃ m, Unfinished cfg st k s m ∧ m % cfg.n (cfg.pubOf k) = i :=
  ((h.inv hwf).1.chan k).bpPend s i

end Ez.Sys
