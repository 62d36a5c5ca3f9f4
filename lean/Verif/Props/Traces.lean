import Verif.Lemmas.Traces
import Verif.Props.Profiling

/-!
# C67: trace samples are collected once, in order, and only while tracing is on
-/

set_option linter.unusedSectionVars false
set_option linter.unusedSimpArgs false

namespace Ez
namespace Prof

variable {I T L : Type} [DecidableEq I] [DecidableEq T]

open PyDict

/-! ## Specification -/

/-- Everything the batches of a history returned, in order. -/
def collected (cap : Nat) : Reg I T L → List (Act I T L) → List (Sample I T L)
  | _, [] => []
  | r, a :: h => (match (step cap r a).2 with | .samples l => l | _ => []) ++ collected cap (step cap r a).1 h

def pubMetric : Metric → Bool
  | .publishDelta => true
  | .backpressureWait => true
  | _ => false

/-- The sample was recorded by publisher `id` / by subscriber `id`. -/
def fromPub (id : I) (s : Sample I T L) : Bool := decide (s.ep.2 = id) && pubMetric s.metric
def fromSub (id : I) (s : Sample I T L) : Bool := decide (s.ep.2 = id) && !pubMetric s.metric

/-- The filters of a control let publisher `id` of topic `t` be traced. -/
def wantsPub (c : Control I T) (t : T) (id : I) (x : Metric) : Prop :=
  c.enabled = true ∧ (c.pubTopics = [] ∨ t ∈ c.pubTopics) ∧ (c.pubEps = [] ∨ (t, id) ∈ c.pubEps) ∧
    ∀ ms, c.metrics = some ms → x ∈ ms

def wantsSub (c : Control I T) (t : T) (id : I) (x : Metric) : Prop :=
  c.enabled = true ∧ (c.subTopics = [] ∨ t ∈ c.subTopics) ∧ (c.subEps = [] ∨ (t, id) ∈ c.subEps) ∧
    ∀ ms, c.metrics = some ms → x ∈ ms

instance (c : Control I T) (t : T) (id : I) (x : Metric) : Decidable (wantsPub c t id x) := by
  unfold wantsPub
  cases h : c.metrics with
  | none => exact @instDecidableAnd _ _ _ (@instDecidableAnd _ _ _ (@instDecidableAnd _ _ _ (.isTrue (by simp))))
  | some ms =>
    exact @instDecidableAnd _ _ _ (@instDecidableAnd _ _ _ (@instDecidableAnd _ _ _
      (if hx : x ∈ ms then .isTrue (by intro _ h; cases h; exact hx) else .isFalse (fun f => hx (f ms rfl)))))

instance (c : Control I T) (t : T) (id : I) (x : Metric) : Decidable (wantsSub c t id x) := by
  unfold wantsSub
  cases h : c.metrics with
  | none => exact @instDecidableAnd _ _ _ (@instDecidableAnd _ _ _ (@instDecidableAnd _ _ _ (.isTrue (by simp))))
  | some ms =>
    exact @instDecidableAnd _ _ _ (@instDecidableAnd _ _ _ (@instDecidableAnd _ _ _
      (if hx : x ∈ ms then .isTrue (by intro _ h; cases h; exact hx) else .isFalse (fun f => hx (f ms rfl)))))

/-- What publisher `id` of topic `t` should record: every `mod`-th publish with the time since the publish recorded
before it, every wait. `n`: publishes so far, `lp`: when the last one recorded was. -/
def recorded (c : Control I T) (t : T) (id : I) : Nat → Option Nat → List (Act I T L) → List (Sample I T L)
  | _, _, [] => []
  | n, lp, .publish x now _ seq :: h =>
    if x = id ∧ wantsPub c t id .publishDelta then
      if ((n + 1 : Nat) : Int) % max 1 c.mod = 0 then
        { ts := now, ep := (t, id), label := none, metric := .publishDelta,
          value := (lp.map (fun p => (now : Int) - p)).getD 0, seq := seq } ::
          recorded c t id (n + 1) (some now) h
      else recorded c t id (n + 1) lp h
    else recorded c t id n lp h
  | n, lp, .wait x now ns seq :: h =>
    if x = id ∧ wantsPub c t id .backpressureWait then
      { ts := now, ep := (t, id), label := none, metric := .backpressureWait, value := ns, seq := seq } ::
        recorded c t id n lp h
    else recorded c t id n lp h
  | n, lp, _ :: h => recorded c t id n lp h

/-- Tracing is neither changed nor found expired by this call; `e`: when it expires. -/
def Steady (e : Option Int) : Act I T L → Prop
  | .control _ _ => False
  | .setProcess reset => reset = false
  | .batch now _ => ∀ x, e = some x → (now : Int) < x
  | .enabled now => ∀ x, e = some x → (now : Int) < x
  | _ => True

def isBatch : Act I T L → Bool
  | .batch _ _ => true
  | _ => false

/-- When tracing under `c`, set at `now`, expires. -/
def expiry (now : Nat) (c : Control I T) : Option Int :=
  if c.enabled then c.ttl.map (fun t => (now : Int) + max 0 t) else none

/-! ## Invariant: whose samples are in which queue -/

structure RInv (r : Reg I T L) : Prop where
  pk : (keys r.pubs).Nodup
  sk : (keys r.subs).Nodup
  ps : ∀ id m, r.pubs.get? id = some m → ∀ s ∈ m.samples, fromPub id s = true
  ss : ∀ id m, r.subs.get? id = some m → ∀ s ∈ m.samples, fromSub id s = true

theorem push_eq {α : Type} (cap : Nat) (q : List α) (x : α) (l : List α) :
    ∃ d, q ++ x :: l = d ++ (push cap q x ++ l) ∧ (q.length + 1 ≤ cap → d = []) ∧ (push cap q x).length ≤ cap ∧
      (d = [] ∨ (push cap q x).length = cap) := by
  refine ⟨(q ++ [x]).take (q.length + 1 - cap), ?_, ?_, ?_, ?_⟩
  · rw [push, ← List.append_assoc, List.take_append_drop]; simp
  · intro hl
    have : q.length + 1 - cap = 0 := by omega
    rw [this]; rfl
  · simp [push]; omega
  · by_cases hl : q.length + 1 ≤ cap
    · left
      have : q.length + 1 - cap = 0 := by omega
      rw [this]; rfl
    · right; simp [push]; omega

theorem mem_push {α : Type} {cap : Nat} {q : List α} {x y : α} (h : y ∈ push cap q x) : y ∈ q ∨ y = x := by
  have := List.mem_of_mem_drop h
  simpa using this

theorem publish_samples (cap : Nat) (id : I) (m : PubM I T L) (now : Nat) (n : Int) (seq : Option Int)
    (h : ∀ s ∈ m.samples, fromPub id s = true) : ∀ s ∈ (m.publish cap id now n seq).samples, fromPub id s = true := by
  simp only [PubM.publish]
  split
  · split
    · intro s hs
      rcases mem_push hs with hs | rfl
      · exact h s hs
      · simp [fromPub, pubMetric]
    · exact h
  · exact h

theorem wait_samples (cap : Nat) (id : I) (m : PubM I T L) (now : Nat) (n : Int) (seq : Option Int)
    (h : ∀ s ∈ m.samples, fromPub id s = true) : ∀ s ∈ (m.wait cap id now n seq).samples, fromPub id s = true := by
  simp only [PubM.wait]
  split
  · intro s hs
    rcases mem_push hs with hs | rfl
    · exact h s hs
    · simp [fromPub, pubMetric]
  · exact h

theorem begin_samples (m : SubM I T L) : m.begin.1.samples = m.samples := by
  simp only [SubM.begin]; split <;> rfl

theorem lease_samples (cap : Nat) (id : I) (m : SubM I T L) (now : Nat) (ns seq : Option Int) (b : Bool)
    (h : ∀ s ∈ m.samples, fromSub id s = true) : ∀ s ∈ (m.lease cap id now ns seq b).samples, fromSub id s = true := by
  simp only [SubM.lease]
  split
  · exact h
  · split
    · intro s hs
      rcases mem_push hs with hs | rfl
      · exact h s hs
      · simp [fromSub, pubMetric]
    · exact h

theorem span_samples (cap : Nat) (id : I) (m : SubM I T L) (now : Nat) (ns : Int) (l : Option L) (seq : Option Int)
    (b : Bool) (h : ∀ s ∈ m.samples, fromSub id s = true) :
    ∀ s ∈ (m.span cap id now ns l seq b).samples, fromSub id s = true := by
  simp only [SubM.span]
  split
  · intro s hs
    rcases mem_push hs with hs | rfl
    · exact h s hs
    · simp [fromSub, pubMetric]
  · exact h

theorem RInv.modPub {r : Reg I T L} (hi : RInv r) (x : I) (f : PubM I T L → PubM I T L)
    (hf : ∀ m, (∀ s ∈ m.samples, fromPub x s = true) → ∀ s ∈ (f m).samples, fromPub x s = true) :
    RInv { r with pubs := r.pubs.modify x f } := by
  refine ⟨by rw [keys_modify]; exact hi.pk, hi.sk, ?_, hi.ss⟩
  intro id m hm
  simp only [get?_modify] at hm
  by_cases h : id = x
  · subst h
    cases hg : r.pubs.get? id with
    | none => simp [hg] at hm
    | some m0 => simp [hg] at hm; subst hm; exact hf m0 (hi.ps id m0 hg)
  · simp [h] at hm; exact hi.ps id m hm

theorem RInv.modSub {r : Reg I T L} (hi : RInv r) (x : I) (f : SubM I T L → SubM I T L)
    (hf : ∀ m, (∀ s ∈ m.samples, fromSub x s = true) → ∀ s ∈ (f m).samples, fromSub x s = true) :
    RInv { r with subs := r.subs.modify x f } := by
  refine ⟨hi.pk, by rw [keys_modify]; exact hi.sk, hi.ps, ?_⟩
  intro id m hm
  simp only [get?_modify] at hm
  by_cases h : id = x
  · subst h
    cases hg : r.subs.get? id with
    | none => simp [hg] at hm
    | some m0 => simp [hg] at hm; subst hm; exact hf m0 (hi.ss id m0 hg)
  · simp [h] at hm; exact hi.ss id m hm

theorem RInv.setControl {r : Reg I T L} (hi : RInv r) (now : Nat) (c : Control I T) : RInv (setControl r now c) := by
  refine ⟨?_, ?_, ?_, ?_⟩
  · show ((r.pubs.map _).map _).Nodup
    rw [List.map_map]; exact hi.pk
  · show ((r.subs.map _).map _).Nodup
    rw [List.map_map]; exact hi.sk
  · intro id m hm
    rw [setControl_pub] at hm
    cases hg : r.pubs.get? id with
    | none => simp [hg] at hm
    | some m0 => simp [hg] at hm; subst hm; simp [applyPub]
  · intro id m hm
    rw [setControl_sub] at hm
    cases hg : r.subs.get? id with
    | none => simp [hg] at hm
    | some m0 => simp [hg] at hm; subst hm; simp [applySub]

theorem RInv.expire {r : Reg I T L} (hi : RInv r) (now : Nat) : RInv (expire r now) := by
  unfold Prof.expire; split
  · exact hi
  · split
    · exact hi
    · exact hi.setControl now _

theorem get?_of_getElem? {V : Type} {d : PyDict I V} (hn : (keys d).Nodup) {i : Nat} {k : I} {v : V}
    (h : d[i]? = some (k, v)) : d.get? k = some v := get?_of_mem hn (List.mem_of_getElem? h)

theorem key_inj {V : Type} {d : PyDict I V} (hn : (keys d).Nodup) {i j : Nat} {k : I} {v w : V}
    (hi : d[i]? = some (k, v)) (hj : d[j]? = some (k, w)) : i = j := by
  have h1 : (keys d)[i]? = some k := by simp [keys, hi]
  have h2 : (keys d)[j]? = some k := by simp [keys, hj]
  have hl : i < (keys d).length := by
    rcases Nat.lt_or_ge i (keys d).length with h' | h'
    · exact h'
    · rw [List.getElem?_eq_none h'] at h1; simp at h1
  exact (List.getElem?_inj hl hn).1 (h1.trans h2.symm)

theorem queues_pub {r : Reg I T L} {i : Nat} {id : I} {m : PubM I T L} (h : r.pubs[i]? = some (id, m)) :
    (queues r)[i]? = some m.samples := by
  have hl : i < r.pubs.length := by
    rcases Nat.lt_or_ge i r.pubs.length with h' | h'
    · exact h'
    · rw [List.getElem?_eq_none h'] at h; simp at h
  rw [queues, List.getElem?_append_left (by simpa using hl)]
  simp [h]

theorem queues_sub {r : Reg I T L} {i : Nat} {id : I} {m : SubM I T L} (h : r.subs[i]? = some (id, m)) :
    (queues r)[r.pubs.length + i]? = some m.samples := by
  rw [queues, List.getElem?_append_right (by simp)]
  simp [h]

theorem queues_cases {r : Reg I T L} {j : Nat} {q} (h : (queues r)[j]? = some q) :
    (∃ id m, r.pubs[j]? = some (id, m) ∧ q = m.samples) ∨
    ∃ i id m, j = r.pubs.length + i ∧ r.subs[i]? = some (id, m) ∧ q = m.samples := by
  rw [queues, List.getElem?_append] at h
  split at h
  · left
    simp only [List.getElem?_map, Option.map_eq_some_iff] at h
    obtain ⟨⟨id, m⟩, h1, h2⟩ := h
    exact ⟨id, m, h1, h2.symm⟩
  · right
    rename_i hl
    simp only [List.getElem?_map, Option.map_eq_some_iff] at h
    obtain ⟨⟨id, m⟩, h1, h2⟩ := h
    simp at h1 hl
    exact ⟨j - r.pubs.length, id, m, by omega, h1, h2.symm⟩

theorem not_fromPub_of_fromSub {id id' : I} {s : Sample I T L} (h : fromSub id' s = true) : fromPub id s = false := by
  simp [fromSub] at h; simp [fromPub, h.2]

theorem not_fromSub_of_fromPub {id id' : I} {s : Sample I T L} (h : fromPub id' s = true) : fromSub id s = false := by
  simp [fromPub] at h; simp [fromSub, h.2]

theorem fromPub_ne {id id' : I} {s : Sample I T L} (h : fromPub id' s = true) (hn : id' ≠ id) : fromPub id s = false := by
  simp [fromPub] at h
  simp [fromPub]; intro e; exact absurd (h.1.symm.trans e) hn

theorem fromSub_ne {id id' : I} {s : Sample I T L} (h : fromSub id' s = true) (hn : id' ≠ id) : fromSub id s = false := by
  simp [fromSub] at h
  simp [fromSub]; intro e; exact absurd (h.1.symm.trans e) hn

/-- A batch takes the oldest samples of a publisher, in order; the metric keeps the rest. -/
theorem batch_pub {r : Reg I T L} (hi : RInv r) (now : Nat) (k : Int) {id : I} {m : PubM I T L}
    (hm : (expire r now).pubs.get? id = some m) :
    ∃ q, (batch r now k).1.pubs.get? id = some { m with samples := q } ∧
      (batch r now k).2.filter (fromPub id) ++ q = m.samples := by
  have hi' := hi.expire now
  obtain ⟨i, u, h1, h2, h3⟩ := get?_zip (fun (m : PubM I T L) q => { m with samples := q }) id _
    ((rest (expire r now) k).take (expire r now).pubs.length) (by simp [length_rest]) m hm
  refine ⟨u, by rw [batch_pubs]; exact h3, ?_⟩
  obtain ⟨q', h4, h5⟩ := (batch_spec r now k).1.filter (k := i) (p := fromPub id) (queues_pub h1)
    (hi'.ps id m hm)
    (by
      intro j x hj hx s hs
      rcases queues_cases hx with ⟨id', m', h6, rfl⟩ | ⟨i', id', m', _, h6, rfl⟩
      · have h7 := hi'.ps id' m' (get?_of_getElem? hi'.pk h6) s hs
        refine fromPub_ne h7 ?_
        rintro rfl
        exact hj (key_inj hi'.pk h6 h1)
      · exact not_fromPub_of_fromSub (hi'.ss id' m' (get?_of_getElem? hi'.sk h6) s hs))
  have : q' = u := by
    rw [List.getElem?_take] at h2
    split at h2
    · rw [h4] at h2; exact Option.some.inj h2
    · simp at h2
  rw [← this]; exact h5

theorem batch_sub {r : Reg I T L} (hi : RInv r) (now : Nat) (k : Int) {id : I} {m : SubM I T L}
    (hm : (expire r now).subs.get? id = some m) :
    ∃ q, (batch r now k).1.subs.get? id = some { m with samples := q } ∧
      (batch r now k).2.filter (fromSub id) ++ q = m.samples := by
  have hi' := hi.expire now
  obtain ⟨i, u, h1, h2, h3⟩ := get?_zip (fun (m : SubM I T L) q => { m with samples := q }) id _
    ((rest (expire r now) k).drop (expire r now).pubs.length) (by simp [length_rest]) m hm
  refine ⟨u, by rw [batch_subs]; exact h3, ?_⟩
  obtain ⟨q', h4, h5⟩ := (batch_spec r now k).1.filter (k := (expire r now).pubs.length + i) (p := fromSub id)
    (queues_sub h1) (hi'.ss id m hm)
    (by
      intro j x hj hx s hs
      rcases queues_cases hx with ⟨id', m', h6, rfl⟩ | ⟨i', id', m', hji, h6, rfl⟩
      · exact not_fromSub_of_fromPub (hi'.ps id' m' (get?_of_getElem? hi'.pk h6) s hs)
      · have h7 := hi'.ss id' m' (get?_of_getElem? hi'.sk h6) s hs
        refine fromSub_ne h7 ?_
        rintro rfl
        have := key_inj hi'.sk h6 h1
        omega)
  have : q' = u := by
    rw [List.getElem?_drop] at h2
    rw [h4] at h2; exact Option.some.inj h2
  rw [← this]; exact h5

theorem RInv.batch {r : Reg I T L} (hi : RInv r) (now : Nat) (k : Int) : RInv (batch r now k).1 := by
  have hi' := hi.expire now
  have kp : keys (Prof.batch r now k).1.pubs = keys (Prof.expire r now).pubs := by
    rw [batch_pubs]
    exact keys_zip (fun (m : PubM I T L) q => { m with samples := q }) _ _ (by simp [length_rest])
  have ks : keys (Prof.batch r now k).1.subs = keys (Prof.expire r now).subs := by
    rw [batch_subs]
    exact keys_zip (fun (m : SubM I T L) q => { m with samples := q }) _ _ (by simp [length_rest])
  refine ⟨by rw [kp]; exact hi'.pk, by rw [ks]; exact hi'.sk, ?_, ?_⟩
  · intro id m hm s hs
    have : id ∈ keys (Prof.expire r now).pubs := by rw [← kp, mem_keys, hm]; rfl
    rw [mem_keys] at this
    cases hg : (Prof.expire r now).pubs.get? id with
    | none => rw [hg] at this; simp at this
    | some m0 =>
      obtain ⟨q, h1, h2⟩ := batch_pub hi now k hg
      rw [h1] at hm
      cases hm
      exact hi'.ps id m0 hg s (by rw [← h2]; exact List.mem_append_right _ hs)
  · intro id m hm s hs
    have : id ∈ keys (Prof.expire r now).subs := by rw [← ks, mem_keys, hm]; rfl
    rw [mem_keys] at this
    cases hg : (Prof.expire r now).subs.get? id with
    | none => rw [hg] at this; simp at this
    | some m0 =>
      obtain ⟨q, h1, h2⟩ := batch_sub hi now k hg
      rw [h1] at hm
      cases hm
      exact hi'.ss id m0 hg s (by rw [← h2]; exact List.mem_append_right _ hs)

theorem RInv.init : RInv ({} : Reg I T L) := by
  refine ⟨by simp [keys], by simp [keys], ?_, ?_⟩ <;> intro id m hm <;> simp [get?] at hm

theorem RInv.step {r : Reg I T L} (hi : RInv r) (cap : Nat) (a : Act I T L) : RInv (step cap r a).1 := by
  cases a with
  | regPub x t nb =>
    refine ⟨nodup_set hi.pk, hi.sk, ?_, hi.ss⟩
    intro id m hm
    simp only [Prof.step, get?_set] at hm
    split at hm
    · cases hm; simp [applyPub]
    · exact hi.ps id m hm
  | unregPub x =>
    refine ⟨nodup_pop hi.pk, hi.sk, ?_, hi.ss⟩
    intro id m hm
    simp only [Prof.step, get?_pop] at hm
    split at hm
    · cases hm
    · exact hi.ps id m hm
  | regSub x t =>
    refine ⟨hi.pk, nodup_set hi.sk, hi.ps, ?_⟩
    intro id m hm
    simp only [Prof.step, get?_set] at hm
    split at hm
    · cases hm; simp [applySub]
    · exact hi.ss id m hm
  | unregSub x =>
    refine ⟨hi.pk, nodup_pop hi.sk, hi.ps, ?_⟩
    intro id m hm
    simp only [Prof.step, get?_pop] at hm
    split at hm
    · cases hm
    · exact hi.ss id m hm
  | publish x now n seq => exact hi.modPub x _ (fun m h => publish_samples cap x m now n seq h)
  | wait x now ns seq => exact hi.modPub x _ (fun m h => wait_samples cap x m now ns seq h)
  | inflight x n => exact hi.modPub x _ (fun m h => h)
  | receive x => exact hi.modSub x _ (fun m h => by rw [begin_samples]; exact h)
  | lease x now ns seq b => exact hi.modSub x _ (fun m h => lease_samples cap x m now ns seq b h)
  | span x now ns l seq b => exact hi.modSub x _ (fun m h => span_samples cap x m now ns l seq b h)
  | setProcess reset =>
    cases reset with
    | true => exact RInv.init
    | false => exact ⟨hi.pk, hi.sk, hi.ps, hi.ss⟩
  | snapshot now =>
    refine ⟨?_, ?_, ?_, ?_⟩
    · show ((r.pubs.map _).map _).Nodup
      rw [List.map_map]; exact hi.pk
    · show ((r.subs.map _).map _).Nodup
      rw [List.map_map]; exact hi.sk
    · intro id m hm
      rw [snapshot_pub] at hm
      cases hg : r.pubs.get? id with
      | none => simp [hg] at hm
      | some m0 => simp [hg] at hm; subst hm; exact hi.ps id m0 hg
    · intro id m hm
      rw [snapshot_sub] at hm
      cases hg : r.subs.get? id with
      | none => simp [hg] at hm
      | some m0 => simp [hg] at hm; subst hm; exact hi.ss id m0 hg
  | control now c => exact hi.setControl now c
  | batch now k => exact hi.batch now k
  | enabled now => exact hi.expire now

theorem RInv.run (cap : Nat) (h : List (Act I T L)) : ∀ {r : Reg I T L}, RInv r → RInv (run cap r h) := by
  induction h with
  | nil => intro r hi; exact hi
  | cons a h ih => intro r hi; exact ih (hi.step cap a)

/-! ## One publisher while tracing is steady -/

theorem applyPub_delta (c : Control I T) (id : I) (m : PubM I T L) :
    (applyPub c id m).deltaOn = decide (wantsPub c m.topic id .publishDelta) := by
  rw [Bool.eq_iff_iff, decide_eq_true_iff]
  simp only [applyPub, wantsPub, Bool.and_eq_true, Bool.or_eq_true, List.isEmpty_iff, decide_eq_true_eq]
  cases c.metrics <;> simp [and_assoc]

theorem applyPub_wait (c : Control I T) (id : I) (m : PubM I T L) :
    (applyPub c id m).waitOn = decide (wantsPub c m.topic id .backpressureWait) := by
  rw [Bool.eq_iff_iff, decide_eq_true_iff]
  simp only [applyPub, wantsPub, Bool.and_eq_true, Bool.or_eq_true, List.isEmpty_iff, decide_eq_true_eq]
  cases c.metrics <;> simp [and_assoc]

structure Track (c : Control I T) (t : T) (id : I) (e : Option Int) (r : Reg I T L) (m : PubM I T L) : Prop where
  inv : RInv r
  get : r.pubs.get? id = some m
  topic : m.topic = t
  mod : m.mod = max 1 c.mod
  delta : m.deltaOn = decide (wantsPub c t id .publishDelta)
  wait : m.waitOn = decide (wantsPub c t id .backpressureWait)
  exp : r.expires = e

theorem expire_steady {r : Reg I T L} {now : Nat} (h : ∀ x, r.expires = some x → (now : Int) < x) : expire r now = r := by
  unfold expire
  split
  · rfl
  · rename_i e he
    rw [if_pos (h e he)]

/-- The part of a call's result that publisher `id` recorded. -/
def got (id : I) : Out I T L → List (Sample I T L)
  | .samples l => l.filter (fromPub id)
  | _ => []

theorem track_step (cap : Nat) {c : Control I T} {t : T} {id : I} {e : Option Int} {r : Reg I T L} {m : PubM I T L}
    (tr : Track c t id e r m) {a : Act I T L} (hk : KeepsPub id a) (hs : Steady e a) (h : List (Act I T L)) :
    ∃ m' dropped, Track c t id e (step cap r a).1 m' ∧
      m.samples ++ recorded c t id m.counter m.lastPub (a :: h) =
        (dropped ++ got id (step cap r a).2) ++ (m'.samples ++ recorded c t id m'.counter m'.lastPub h) ∧
      (m.samples.length + (recorded c t id m.counter m.lastPub (a :: h)).length ≤ cap → dropped = []) ∧
      (isBatch a = false → got id (step cap r a).2 = [] ∧ (m.samples.length ≤ cap → m'.samples.length ≤ cap) ∧
        (dropped = [] ∨ m'.samples.length = cap)) := by
  have inv' := tr.inv.step cap a
  have idle : ∀ (hr : ∀ n lp, recorded c t id n lp (a :: h) = recorded c t id n lp h) (m' : PubM I T L),
      (step cap r a).1.pubs.get? id = some m' → (step cap r a).1.expires = e → m'.topic = m.topic → m'.mod = m.mod →
      m'.deltaOn = m.deltaOn → m'.waitOn = m.waitOn → m'.samples = m.samples → m'.counter = m.counter →
      m'.lastPub = m.lastPub → got id (step cap r a).2 = [] →
      ∃ m' dropped, Track c t id e (step cap r a).1 m' ∧
        m.samples ++ recorded c t id m.counter m.lastPub (a :: h) =
          (dropped ++ got id (step cap r a).2) ++ (m'.samples ++ recorded c t id m'.counter m'.lastPub h) ∧
        (m.samples.length + (recorded c t id m.counter m.lastPub (a :: h)).length ≤ cap → dropped = []) ∧
      (isBatch a = false → got id (step cap r a).2 = [] ∧ (m.samples.length ≤ cap → m'.samples.length ≤ cap) ∧
        (dropped = [] ∨ m'.samples.length = cap)) := by
    intro hr m' g1 g2 g3 g4 g5 g6 g7 g8 g9 g10
    refine ⟨m', [], ⟨inv', g1, g3.trans tr.topic, g4.trans tr.mod, g5.trans tr.delta, g6.trans tr.wait, g2⟩, ?_,
      fun _ => rfl, fun _ => ⟨g10, by rw [g7]; exact fun h => h, .inl rfl⟩⟩
    rw [g10, g7, g8, g9, hr]; simp
  cases a with
  | regPub x tt nb =>
    refine idle (fun _ _ => rfl) m ?_ tr.exp rfl rfl rfl rfl rfl rfl rfl rfl
    simp only [step, get?_set]
    rw [if_neg (fun h => hk h.symm)]; exact tr.get
  | unregPub x =>
    refine idle (fun _ _ => rfl) m ?_ tr.exp rfl rfl rfl rfl rfl rfl rfl rfl
    simp only [step, get?_pop]
    rw [if_neg (fun h => hk h.symm)]; exact tr.get
  | regSub x tt => exact idle (fun _ _ => rfl) m tr.get tr.exp rfl rfl rfl rfl rfl rfl rfl rfl
  | unregSub x => exact idle (fun _ _ => rfl) m tr.get tr.exp rfl rfl rfl rfl rfl rfl rfl rfl
  | receive x => exact idle (fun _ _ => rfl) m tr.get tr.exp rfl rfl rfl rfl rfl rfl rfl rfl
  | lease x now ns seq b => exact idle (fun _ _ => rfl) m tr.get tr.exp rfl rfl rfl rfl rfl rfl rfl rfl
  | span x now ns l seq b => exact idle (fun _ _ => rfl) m tr.get tr.exp rfl rfl rfl rfl rfl rfl rfl rfl
  | setProcess reset =>
    have : reset = false := hs
    subst this
    exact idle (fun _ _ => rfl) m tr.get tr.exp rfl rfl rfl rfl rfl rfl rfl rfl
  | snapshot now =>
    exact idle (fun _ _ => rfl) m.mark (by rw [snapshot_pub, tr.get]; rfl) tr.exp rfl rfl rfl rfl rfl rfl rfl rfl
  | control now c' => exact hs.elim
  | enabled now =>
    have he : expire r now = r := expire_steady (by rw [tr.exp]; exact hs)
    exact idle (fun _ _ => rfl) m (by simp only [step, he]; exact tr.get) (by simp only [step, he]; exact tr.exp)
      rfl rfl rfl rfl rfl rfl rfl rfl
  | inflight x n =>
    by_cases hx : id = x
    · subst hx
      exact idle (fun _ _ => rfl) { m with inflight := n } (by simp [step, get?_modify, tr.get]) tr.exp
        rfl rfl rfl rfl rfl rfl rfl rfl
    · exact idle (fun _ _ => rfl) m (by simp [step, get?_modify, tr.get, hx]) tr.exp rfl rfl rfl rfl rfl rfl rfl rfl
  | publish x now k seq =>
    by_cases hx : x = id ∧ wantsPub c t id .publishDelta
    · obtain ⟨rfl, hw⟩ := hx
      have hd : m.deltaOn = true := by rw [tr.delta]; simpa using hw
      have hg : (step cap r (.publish x now k seq)).1.pubs.get? x = some (m.publish cap x now k seq) := by
        simp [step, get?_modify, tr.get]
      have hdue : due (m.counter + 1) m.mod = decide (((m.counter + 1 : Nat) : Int) % max 1 c.mod = 0) := by
        have h1 : max 1 m.mod = max 1 c.mod := by rw [tr.mod]; omega
        simp only [due, h1]
        rfl
      by_cases hdu : ((m.counter + 1 : Nat) : Int) % max 1 c.mod = 0
      · obtain ⟨d, hd1, hd2, hd3, hd4⟩ := push_eq cap m.samples
          { ts := now, ep := (m.topic, x), label := none, metric := .publishDelta,
            value := (m.lastPub.map (fun p => (now : Int) - p)).getD 0, seq := seq }
          (recorded c t x (m.counter + 1) (some now) h)
        refine ⟨m.publish cap x now k seq, d, ⟨inv', hg, ?_, ?_, ?_, ?_, tr.exp⟩, ?_, ?_,
          fun _ => ⟨rfl, fun _ => ?_, ?_⟩⟩
        · simp only [PubM.publish, hd, hdue, hdu, if_true, decide_true]; exact tr.topic
        · simp only [PubM.publish, hd, hdue, hdu, if_true, decide_true]; exact tr.mod
        · simp only [PubM.publish, hd, hdue, hdu, if_true, decide_true]; exact hd.symm.trans tr.delta
        · simp only [PubM.publish, hd, hdue, hdu, if_true, decide_true]; exact tr.wait
        · simp only [PubM.publish, hd, hdue, hdu, if_true, decide_true, recorded, hw, and_self, step, got,
            List.append_nil]
          rw [← hd1, tr.topic]
        · intro hl
          apply hd2
          simp only [recorded, hw, and_self, if_true, hdu, List.length_cons] at hl
          omega
        · simp only [PubM.publish, hd, hdue, hdu, if_true, decide_true]; exact hd3
        · simp only [PubM.publish, hd, hdue, hdu, if_true, decide_true]; exact hd4
      · refine ⟨m.publish cap x now k seq, [], ⟨inv', hg, ?_, ?_, ?_, ?_, tr.exp⟩, ?_, fun _ => rfl,
          fun _ => ⟨rfl, ?_, .inl rfl⟩⟩
        · simp only [PubM.publish, hd, hdue, hdu, if_true, decide_false, Bool.false_eq_true, if_false]; exact tr.topic
        · simp only [PubM.publish, hd, hdue, hdu, if_true, decide_false, Bool.false_eq_true, if_false]; exact tr.mod
        · simp only [PubM.publish, hd, hdue, hdu, if_true, decide_false, Bool.false_eq_true, if_false]
          exact hd.symm.trans tr.delta
        · simp only [PubM.publish, hd, hdue, hdu, if_true, decide_false, Bool.false_eq_true, if_false]; exact tr.wait
        · simp only [PubM.publish, hd, hdue, hdu, if_true, decide_false, Bool.false_eq_true, if_false, recorded, hw,
            and_self, step, got, List.append_nil, List.nil_append]
        · simp only [PubM.publish, hd, hdue, hdu, if_true, decide_false, Bool.false_eq_true, if_false]; exact fun h => h
    · have hr : ∀ n lp, recorded c t id n lp (.publish x now k seq :: h) = recorded c t id n lp h := by
        intro n lp; simp only [recorded, if_neg hx]
      by_cases hxi : x = id
      · subst hxi
        have hd : m.deltaOn = false := by rw [tr.delta]; simpa using hx
        refine idle hr { m with total := m.total + 1, inflight := k } ?_ tr.exp rfl rfl rfl rfl rfl rfl rfl rfl
        simp [step, get?_modify, tr.get, PubM.publish, hd]
      · have hxi' : ¬ id = x := fun h => hxi h.symm
        exact idle hr m (by simp [step, get?_modify, tr.get, hxi']) tr.exp
          rfl rfl rfl rfl rfl rfl rfl rfl
  | wait x now ns seq =>
    by_cases hx : x = id ∧ wantsPub c t id .backpressureWait
    · obtain ⟨rfl, hw⟩ := hx
      have hd : m.waitOn = true := by rw [tr.wait]; simpa using hw
      have hg : (step cap r (.wait x now ns seq)).1.pubs.get? x = some (m.wait cap x now ns seq) := by
        simp [step, get?_modify, tr.get]
      obtain ⟨d, hd1, hd2, hd3, hd4⟩ := push_eq cap m.samples
        { ts := now, ep := (m.topic, x), label := none, metric := .backpressureWait, value := ns, seq := seq }
        (recorded c t x m.counter m.lastPub h)
      refine ⟨m.wait cap x now ns seq, d, ⟨inv', hg, ?_, ?_, ?_, ?_, tr.exp⟩, ?_, ?_,
          fun _ => ⟨rfl, fun _ => ?_, ?_⟩⟩
      · simp only [PubM.wait, hd, if_true]; exact tr.topic
      · simp only [PubM.wait, hd, if_true]; exact tr.mod
      · simp only [PubM.wait, hd, if_true]; exact tr.delta
      · simp only [PubM.wait, hd, if_true]; exact hd.symm.trans tr.wait
      · simp only [PubM.wait, hd, if_true, recorded, hw, and_self, step, got, List.append_nil]
        rw [← hd1, tr.topic]
      · intro hl
        apply hd2
        simp only [recorded, hw, and_self, if_true, List.length_cons] at hl
        omega
      · simp only [PubM.wait, hd, if_true]; exact hd3
      · simp only [PubM.wait, hd, if_true]; exact hd4
    · have hr : ∀ n lp, recorded c t id n lp (.wait x now ns seq :: h) = recorded c t id n lp h := by
        intro n lp; simp only [recorded, if_neg hx]
      by_cases hxi : x = id
      · subst hxi
        have hd : m.waitOn = false := by rw [tr.wait]; simpa using hx
        refine idle hr m ?_ tr.exp rfl rfl rfl rfl rfl rfl rfl rfl
        simp [step, get?_modify, tr.get, PubM.wait, hd]
      · have hxi' : ¬ id = x := fun h => hxi h.symm
        exact idle hr m (by simp [step, get?_modify, tr.get, hxi']) tr.exp
          rfl rfl rfl rfl rfl rfl rfl rfl
  | batch now k =>
    have he : expire r now = r := expire_steady (by rw [tr.exp]; exact hs)
    obtain ⟨q, h1, h2⟩ := batch_pub tr.inv now k (id := id) (m := m) (by rw [he]; exact tr.get)
    refine ⟨{ m with samples := q }, [], ⟨inv', h1, tr.topic, tr.mod, tr.delta, tr.wait, ?_⟩, ?_, fun _ => rfl, by simp [isBatch]⟩
    · show (expire r now).expires = e
      rw [he]; exact tr.exp
    · show m.samples ++ recorded c t id m.counter m.lastPub h = _
      rw [← h2]; simp [step, got]

theorem collected_filter (cap : Nat) (r : Reg I T L) (a : Act I T L) (h : List (Act I T L)) (id : I) :
    (collected cap r (a :: h)).filter (fromPub id) =
      got id (step cap r a).2 ++ (collected cap (step cap r a).1 h).filter (fromPub id) := by
  rw [collected, List.filter_append]
  congr 1
  cases (step cap r a).2 <;> rfl

theorem track_run (cap : Nat) {c : Control I T} {t : T} {id : I} {e : Option Int} (h : List (Act I T L)) :
    ∀ {r : Reg I T L} {m : PubM I T L}, Track c t id e r m → (∀ a ∈ h, KeepsPub id a) → (∀ a ∈ h, Steady e a) →
    ∃ m' older, Track c t id e (run cap r h) m' ∧
      m.samples ++ recorded c t id m.counter m.lastPub h = older ++ m'.samples ∧
      ((collected cap r h).filter (fromPub id)).Sublist older ∧
      (m.samples.length + (recorded c t id m.counter m.lastPub h).length ≤ cap → (collected cap r h).filter (fromPub id) = older) ∧
      ((∀ a ∈ h, isBatch a = false) → m.samples.length ≤ cap → (collected cap r h).filter (fromPub id) = [] ∧
        m'.samples.length ≤ cap ∧ (older = [] ∨ m'.samples.length = cap)) := by
  induction h with
  | nil =>
    intro r m tr _ _
    exact ⟨m, [], tr, by simp [recorded], by simp [collected], fun _ => by simp [collected],
      fun _ h => ⟨by simp [collected], h, .inl rfl⟩⟩
  | cons a h ih =>
    intro r m tr hk hs
    obtain ⟨m1, d, tr1, e1, d1, b1⟩ := track_step cap tr (hk a (List.mem_cons_self ..)) (hs a (List.mem_cons_self ..)) h
    obtain ⟨m2, older, tr2, e2, s2, l2, b2⟩ := ih tr1 (fun x hx => hk x (List.mem_cons_of_mem _ hx))
      (fun x hx => hs x (List.mem_cons_of_mem _ hx))
    refine ⟨m2, (d ++ got id (step cap r a).2) ++ older, tr2, ?_, ?_, ?_, ?_⟩
    · rw [e1, e2]; simp
    · rw [collected_filter]
      exact ((List.sublist_append_right d _).append s2)
    · intro hl
      rw [collected_filter, d1 hl, List.nil_append, l2]
      have := congrArg List.length e1
      simp only [List.length_append] at this
      omega
    · intro hb hl
      obtain ⟨g, l1, c1⟩ := b1 (hb a (List.mem_cons_self ..))
      obtain ⟨g2, l3, c2⟩ := b2 (fun x hx => hb x (List.mem_cons_of_mem _ hx)) (l1 hl)
      refine ⟨by rw [collected_filter, g, g2]; rfl, l3, ?_⟩
      rcases c2 with c2 | c2
      · rcases c1 with c1 | c1
        · left; rw [c1, g, c2]; rfl
        · right
          have := congrArg List.length e2
          simp only [List.length_append, c2, List.length_nil] at this
          omega
      · exact .inr c2

theorem track_control (cap : Nat) (a b : List (Act I T L)) (id : I) (t : T) (nb : Int) (now : Nat) (c : Control I T)
    (hk : ∀ x ∈ b, KeepsPub id x) :
    ∃ m, Track c t id (expiry now c) (run cap {} (a ++ .regPub id t nb :: b ++ [.control now c])) m ∧ m.samples = [] ∧
      m.counter = 0 ∧ m.lastPub = none := by
  obtain ⟨m0, hm0, ht0⟩ : ∃ m, (run cap {} (a ++ [.regPub id t nb])).pubs.get? id = some m ∧ m.topic = t := by
    rw [run_append]
    exact ⟨_, by simp [run, step, get?_set]; rfl, rfl⟩
  have topic : ∀ (h : List (Act I T L)) (r : Reg I T L) (m : PubM I T L), r.pubs.get? id = some m → m.topic = t →
      (∀ x ∈ h, KeepsPub id x) → ∃ m', (run cap r h).pubs.get? id = some m' ∧ m'.topic = t := by
    intro h
    induction h with
    | nil => intro r m hm ht _; exact ⟨m, hm, ht⟩
    | cons x h ih =>
      intro r m hm ht hk
      obtain ⟨m1, h1, s⟩ := step_pub cap hm (hk x (List.mem_cons_self ..))
      exact ih _ m1 h1 (s.topic.trans ht) (fun y hy => hk y (List.mem_cons_of_mem _ hy))
  obtain ⟨m1, hm1, ht1⟩ := topic b _ m0 hm0 ht0 hk
  have e : run cap {} (a ++ .regPub id t nb :: b ++ [.control now c]) =
      setControl (run cap (run cap {} (a ++ [.regPub id t nb])) b) now c := by simp [run, step]
  rw [e]
  refine ⟨applyPub c id { m1 with samples := [] }, ⟨?_, ?_, ht1, rfl, ?_, ?_, ?_⟩, rfl, rfl, rfl⟩
  · exact (RInv.run cap _ (RInv.run cap _ RInv.init)).setControl now c
  · rw [setControl_pub, hm1]; rfl
  · rw [applyPub_delta, ← ht1]
  · rw [applyPub_wait, ← ht1]
  · simp only [setControl, expiry]
    cases c.enabled <;> cases c.ttl <;> rfl

theorem setControl_expires (r : Reg I T L) (now : Nat) (c : Control I T) :
    (setControl r now c).expires = expiry now c := by
  simp only [setControl, expiry]
  cases c.enabled <;> cases c.ttl <;> rfl

theorem control_run (cap : Nat) {c : Control I T} {e : Option Int} (h : List (Act I T L)) : ∀ {r : Reg I T L},
    r.control = c → r.expires = e → (∀ x ∈ h, Steady e x) → (run cap r h).control = c ∧ (run cap r h).expires = e := by
  induction h with
  | nil => intro r h1 h2 _; exact ⟨h1, h2⟩
  | cons a h ih =>
    intro r h1 h2 hs
    have hsa := hs a (List.mem_cons_self ..)
    have key : (step cap r a).1.control = c ∧ (step cap r a).1.expires = e := by
      cases a with
      | control now c' => exact hsa.elim
      | setProcess reset =>
        have : reset = false := hsa
        subst this
        exact ⟨h1, h2⟩
      | batch now k =>
        have he : expire r now = r := expire_steady (by rw [h2]; exact hsa)
        have e1 : (step cap r (.batch now k)).1.control = (expire r now).control := rfl
        have e2 : (step cap r (.batch now k)).1.expires = (expire r now).expires := rfl
        rw [e1, e2, he]; exact ⟨h1, h2⟩
      | enabled now =>
        have he : expire r now = r := expire_steady (by rw [h2]; exact hsa)
        simp only [step, he]; exact ⟨h1, h2⟩
      | _ => exact ⟨h1, h2⟩
    rw [run_cons]
    exact ih key.1 key.2 (fun x hx => hs x (List.mem_cons_of_mem _ hx))

theorem track_registered (cap : Nat) (a b : List (Act I T L)) (id : I) (t : T) (nb : Int) (now : Nat) (c : Control I T)
    (hb : ∀ x ∈ b, Steady (expiry now c) x) :
    ∃ m, Track c t id (expiry now c) (run cap {} (a ++ .control now c :: b ++ [.regPub id t nb])) m ∧ m.samples = [] ∧ m.counter = 0 ∧ m.lastPub = none := by
  have e : run cap {} (a ++ .control now c :: b ++ [.regPub id t nb]) =
      (step cap (run cap (setControl (run cap {} a) now c) b) (.regPub id t nb)).1 := by simp [run, step]
  have hc := control_run cap b (c := c) (e := expiry now c) (r := setControl (run cap {} a) now c) rfl
    (setControl_expires _ now c) hb
  have hi := RInv.run cap b ((RInv.run cap a RInv.init).setControl now c)
  rw [e]
  generalize run cap (setControl (run cap {} a) now c) b = r at *
  refine ⟨applyPub c id { topic := t, nb := (max 1 nb).toNat }, ⟨hi.step cap _, ?_, rfl, rfl, ?_, ?_, ?_⟩, rfl, rfl, rfl⟩
  · simp only [step, get?_set, if_true, hc.1]
  · exact applyPub_delta c id _
  · exact applyPub_wait c id _
  · exact hc.2

/-! ## The claims -/

/-- Histories after which publisher `id` of topic `t` is traced under `c`, set at `now`: it was registered when tracing was
set, or registered while that tracing was in force. -/
inductive TracedPub (c : Control I T) (t : T) (id : I) (now : Nat) : List (Act I T L) → Prop where
  | before (a b : List (Act I T L)) (nb : Int) (hb : ∀ x ∈ b, KeepsPub id x) :
    TracedPub c t id now (a ++ .regPub id t nb :: b ++ [.control now c])
  | after (a b : List (Act I T L)) (nb : Int) (hb : ∀ x ∈ b, Steady (expiry now c) x) :
    TracedPub c t id now (a ++ .control now c :: b ++ [.regPub id t nb])

theorem TracedPub.track {c : Control I T} {t : T} {id : I} {now : Nat} {h : List (Act I T L)} (cap : Nat)
    (hd : TracedPub c t id now h) : ∃ m, Track c t id (expiry now c) (run cap {} h) m ∧ m.samples = [] ∧ m.counter = 0 ∧ m.lastPub = none := by
  cases hd with
  | before a b nb hb => exact track_control cap a b id t nb now c hb
  | after a b nb hb => exact track_registered cap a b id t nb now c hb

/-- **C67**: what the batches return of a publisher is, in order and without repetition, part of what it recorded since
tracing was set; unless it recorded more than its buffer holds, the batches return a beginning of that. -/
theorem C67_in_order_once (cap : Nat) (start mid : List (Act I T L)) (id : I) (t : T) (now : Nat)
    (c : Control I T) (hd : TracedPub c t id now start) (hk : ∀ x ∈ mid, KeepsPub id x)
    (hs : ∀ x ∈ mid, Steady (expiry now c) x) :
    ((collected cap (run cap {} start) mid).filter (fromPub id)).Sublist (recorded c t id 0 none mid) ∧
    ((recorded (L := L) c t id 0 none mid).length ≤ cap →
      (collected cap (run cap {} start) mid).filter (fromPub id) <+: recorded c t id 0 none mid) := by
  obtain ⟨m, tr, h1, h2, h3⟩ := hd.track cap
  obtain ⟨m', older, _, e, s, l, _⟩ := track_run cap mid tr hk hs
  rw [h1, h2, h3] at e l
  simp only [List.nil_append, List.length_nil, Nat.zero_add] at e l
  refine ⟨?_, fun hl => ?_⟩
  · rw [e]; exact s.trans (List.sublist_append_left ..)
  · rw [l hl, e]; exact List.prefix_append ..

theorem collected_snoc (cap : Nat) (id : I) (now : Nat) (k : Int) : ∀ (h : List (Act I T L)) (r : Reg I T L),
    (collected cap r (h ++ [.batch now k])).filter (fromPub id) =
      (collected cap r h).filter (fromPub id) ++ got id (step cap (run cap r h) (.batch now k)).2 := by
  intro h
  induction h with
  | nil => intro r; rw [List.nil_append, collected_filter]; simp [collected, run]
  | cons x h ih => intro r; rw [List.cons_append, collected_filter, collected_filter, ih, run_cons]; simp

/-- A batch with fewer samples than asked for empties the queue. -/
theorem short_batch (cap : Nat) {c : Control I T} {t : T} {id : I} {e : Option Int} {r : Reg I T L} {m : PubM I T L}
    (tr : Track c t id e r m) {now : Nat} {k : Int} (hst : Steady (I := I) (T := T) (L := L) e (.batch now k))
    {l : List (Sample I T L)} (hl : (step cap r (.batch now k)).2 = .samples l) (hshort : (l.length : Int) < max 1 k) :
    got id (step cap r (.batch now k)).2 = m.samples := by
  have he : expire r now = r := expire_steady (by rw [tr.exp]; exact hst)
  obtain ⟨q, g1, g2⟩ := batch_pub tr.inv now k (id := id) (m := m) (by rw [he]; exact tr.get)
  have hlen : (batch r now k).2 = l := by
    simp only [step, Out.samples.injEq] at hl; exact hl
  have hz : total (rest (expire r now) k) = 0 := by
    rcases (batch_spec r now k).2.2 with h | h
    · rw [hlen] at h; omega
    · exact h
  have hq : q = [] := by
    obtain ⟨i, u, j1, j2, j3⟩ := get?_zip (fun (m : PubM I T L) q => { m with samples := q }) id
      (expire r now).pubs ((rest (expire r now) k).take (expire r now).pubs.length)
      (by simp [length_rest]) m (by rw [he]; exact tr.get)
    have hu : u = [] := total_zero hz (List.mem_of_mem_take (List.mem_of_getElem? j2))
    rw [batch_pubs, j3] at g1
    have := congrArg (fun o => o.map PubM.samples) g1
    simp at this
    rw [← this]; exact hu
  rw [hq, List.append_nil] at g2
  exact g2

/-- A batch with fewer samples than asked for leaves nothing: everything recorded has then been returned. -/
theorem C67_all_collected (cap : Nat) (start mid : List (Act I T L)) (id : I) (t : T) (now now' : Nat) (k : Int)
    (c : Control I T) (hd : TracedPub c t id now start) (hk : ∀ x ∈ mid, KeepsPub id x)
    (hs : ∀ x ∈ mid ++ [.batch now' k], Steady (expiry now c) x)
    (hcap : (recorded (L := L) c t id 0 none mid).length ≤ cap) (l : List (Sample I T L))
    (hl : (step cap (run cap {} (start ++ mid)) (.batch now' k)).2 = .samples l)
    (hshort : (l.length : Int) < max 1 k) :
    (collected cap (run cap {} start) (mid ++ [.batch now' k])).filter (fromPub id) = recorded c t id 0 none mid := by
  obtain ⟨m, tr, h1, h2, h3⟩ := hd.track cap
  obtain ⟨m', older, tr', e, s, le, _⟩ := track_run cap mid tr hk (fun x hx => hs x (List.mem_append_left _ hx))
  rw [h1, h2, h3] at e le
  simp only [List.nil_append, List.length_nil, Nat.zero_add] at e le
  rw [run_append] at hl
  rw [collected_snoc, le hcap, e, short_batch cap tr' (hs _ (by simp)) hl hshort]

/-- If more is recorded between two batches than the buffer holds, the oldest samples are lost, and only as many as
necessary. -/
theorem C67_newest_kept (cap : Nat) (start mid : List (Act I T L)) (id : I) (t : T) (now now' : Nat) (k : Int)
    (c : Control I T) (hd : TracedPub c t id now start) (hk : ∀ x ∈ mid, KeepsPub id x)
    (hs : ∀ x ∈ mid ++ [.batch now' k], Steady (expiry now c) x) (hb : ∀ x ∈ mid, isBatch x = false)
    (l : List (Sample I T L)) (hl : (step cap (run cap {} (start ++ mid)) (.batch now' k)).2 = .samples l)
    (hshort : (l.length : Int) < max 1 k) :
    l.filter (fromPub id) = (recorded c t id 0 none mid).drop ((recorded (L := L) c t id 0 none mid).length - cap) := by
  obtain ⟨m, tr, h1, h2, h3⟩ := hd.track cap
  obtain ⟨m', older, tr', e, s, _, b⟩ := track_run cap mid tr hk (fun x hx => hs x (List.mem_append_left _ hx))
  rw [h1, h2, h3] at e
  rw [List.nil_append] at e
  obtain ⟨_, b2, b3⟩ := b hb (by rw [h1]; exact Nat.zero_le _)
  rw [run_append] at hl
  have hg := short_batch cap tr' (hs _ (by simp)) hl hshort
  rw [hl] at hg
  have hg : l.filter (fromPub id) = m'.samples := hg
  rw [hg, e, List.length_append]
  have : older.length + m'.samples.length - cap = older.length := by
    rcases b3 with h | h
    · rw [h, List.length_nil]; omega
    · omega
  rw [this, List.drop_left]

/-- A batch has at most as many samples as asked for (at least one). -/
theorem C67_batch_size (cap : Nat) (r : Reg I T L) (now : Nat) (k : Int) (l : List (Sample I T L))
    (hl : (step cap r (.batch now k)).2 = .samples l) : (l.length : Int) ≤ max 1 k := by
  simp only [step, Out.samples.injEq] at hl
  rw [← hl]; exact (batch_spec r now k).2.1

/-- Of `n` publishes, every `mod`-th is recorded. -/
theorem C67_sampling (c : Control I T) (t : T) (id : I) (h : List (Act I T L)) (hw : wantsPub c t id .publishDelta) :
    ((recorded c t id 0 none h).countP (fun s => s.metric = .publishDelta) : Int) = published id h / max 1 c.mod := by
  have aux : ∀ (h : List (Act I T L)) (n : Nat) (lp : Option Nat),
      ((recorded c t id n lp h).countP (fun s => s.metric = .publishDelta) : Int) =
        (n + published id h : Int) / max 1 c.mod - (n : Int) / max 1 c.mod := by
    intro h
    induction h with
    | nil => intro n lp; simp [recorded, published]
    | cons a h ih =>
      intro n lp
      have skip : recorded c t id n lp (a :: h) = recorded c t id n lp h → isPublish id a = false →
          ((recorded c t id n lp (a :: h)).countP (fun s => s.metric = .publishDelta) : Int) =
            (n + published id (a :: h) : Int) / max 1 c.mod - (n : Int) / max 1 c.mod := by
        intro e1 e2
        rw [e1, ih]
        have : published id (a :: h) = published id h := by simp [published, List.countP_cons, e2]
        rw [this]
      cases a with
      | publish x now k seq =>
        by_cases hx : x = id
        · subst hx
          have hp : (published x (Act.publish (L := L) (T := T) x now k seq :: h) : Int) = published x h + 1 := by
            simp [published, List.countP_cons, isPublish]
          have hm : (1 : Int) ≤ max 1 c.mod := by omega
          rw [hp]
          by_cases hd : ((n + 1 : Nat) : Int) % max 1 c.mod = 0
          · simp only [recorded, hw, and_self, if_true, hd, List.countP_cons, decide_true]
            have := ih (n + 1) (some now)
            have h2 : ((n + 1 : Nat) : Int) / max 1 c.mod = (n : Int) / max 1 c.mod + 1 := by
              generalize max 1 c.mod = M at hd hm
              obtain ⟨q, hq⟩ := Int.dvd_of_emod_eq_zero hd
              rw [hq, Int.mul_ediv_cancel_left _ (by omega)]
              have : (n : Int) = (M - 1) + M * (q - 1) := by rw [Int.mul_sub]; omega
              rw [this, Int.add_mul_ediv_left _ _ (by omega), Int.ediv_eq_zero_of_lt (by omega) (by omega)]
              omega
            rw [h2] at this
            have e3 : ((n : Int) + (published x h + 1)) = ((n + 1 : Nat) : Int) + published x h := by omega
            rw [e3]; omega
          · simp only [recorded, hw, and_self, if_true, hd, if_false]
            have := ih (n + 1) lp
            have h2 : ((n + 1 : Nat) : Int) / max 1 c.mod = (n : Int) / max 1 c.mod := by
              generalize max 1 c.mod = M at hd hm
              have h3 := Int.mul_ediv_add_emod (n : Int) M
              have h4 := Int.emod_nonneg (n : Int) (show M ≠ 0 by omega)
              have h5 := Int.emod_lt_of_pos (n : Int) (show 0 < M by omega)
              have h6 : ((n + 1 : Nat) : Int) = ((n : Int) % M + 1) + M * ((n : Int) / M) := by omega
              have h7 : (n : Int) % M + 1 < M := by
                rcases Int.lt_or_le ((n : Int) % M + 1) M with h | h
                · exact h
                · exfalso
                  apply hd
                  have h8 : (n : Int) % M + 1 = M := by omega
                  rw [h6, h8, Int.add_mul_emod_self_left, Int.emod_self]
              rw [h6, Int.add_mul_ediv_left _ _ (by omega), Int.ediv_eq_zero_of_lt (by omega) h7]
              omega
            rw [h2] at this
            have e3 : ((n : Int) + (published x h + 1)) = ((n + 1 : Nat) : Int) + published x h := by omega
            rw [e3]; exact this
        · exact skip (by simp [recorded, hx]) (by simp [isPublish, hx])
      | wait x now ns seq =>
        by_cases hx : x = id ∧ wantsPub c t id .backpressureWait
        · have e : published id (Act.wait (L := L) (T := T) x now ns seq :: h) = published id h := by
            simp [published, List.countP_cons, isPublish]
          rw [e]
          simp only [recorded, if_pos hx, List.countP_cons]
          rw [← ih n lp]; simp
        · exact skip (by simp only [recorded, if_neg hx]) rfl
      | _ => exact skip rfl rfl
  have := aux h 0 none
  simpa using this

/-! ## Subscribers -/

/-- What subscriber `id` of topic `t` should record: the lease times and user spans of the messages its caller marks as
sampled. -/
def recordedSub (c : Control I T) (t : T) (id : I) : List (Act I T L) → List (Sample I T L)
  | [] => []
  | .lease x now (some ns) seq b :: h =>
    if x = id ∧ b = true ∧ wantsSub c t id .leaseTime then
      { ts := now, ep := (t, id), label := none, metric := .leaseTime, value := ns, seq := seq } :: recordedSub c t id h
    else recordedSub c t id h
  | .span x now ns l seq b :: h =>
    if x = id ∧ b = true ∧ wantsSub c t id .userSpan then
      { ts := now, ep := (t, id), label := l, metric := .userSpan, value := ns, seq := seq } :: recordedSub c t id h
    else recordedSub c t id h
  | _ :: h => recordedSub c t id h

theorem applySub_lease (c : Control I T) (id : I) (m : SubM I T L) :
    (applySub c id m).leaseOn = decide (wantsSub c m.topic id .leaseTime) := by
  rw [Bool.eq_iff_iff, decide_eq_true_iff]
  simp only [applySub, wantsSub, Bool.and_eq_true, Bool.or_eq_true, List.isEmpty_iff, decide_eq_true_eq]
  cases c.metrics <;> simp [and_assoc]

theorem applySub_span (c : Control I T) (id : I) (m : SubM I T L) :
    (applySub c id m).spanOn = decide (wantsSub c m.topic id .userSpan) := by
  rw [Bool.eq_iff_iff, decide_eq_true_iff]
  simp only [applySub, wantsSub, Bool.and_eq_true, Bool.or_eq_true, List.isEmpty_iff, decide_eq_true_eq]
  cases c.metrics <;> simp [and_assoc]

structure TrackS (c : Control I T) (t : T) (id : I) (e : Option Int) (r : Reg I T L) (m : SubM I T L) : Prop where
  inv : RInv r
  get : r.subs.get? id = some m
  topic : m.topic = t
  mod : m.mod = max 1 c.mod
  lease : m.leaseOn = decide (wantsSub c t id .leaseTime)
  span : m.spanOn = decide (wantsSub c t id .userSpan)
  exp : r.expires = e

def gotS (id : I) : Out I T L → List (Sample I T L)
  | .samples l => l.filter (fromSub id)
  | _ => []

theorem begin_fields (m : SubM I T L) : m.begin.1.topic = m.topic ∧ m.begin.1.mod = m.mod ∧
    m.begin.1.leaseOn = m.leaseOn ∧ m.begin.1.spanOn = m.spanOn ∧ m.begin.1.samples = m.samples := by
  simp only [SubM.begin]; split <;> exact ⟨rfl, rfl, rfl, rfl, rfl⟩

theorem trackS_step (cap : Nat) {c : Control I T} {t : T} {id : I} {e : Option Int} {r : Reg I T L} {m : SubM I T L}
    (tr : TrackS c t id e r m) {a : Act I T L} (hk : KeepsSub id a) (hs : Steady e a) (h : List (Act I T L)) :
    ∃ m' dropped, TrackS c t id e (step cap r a).1 m' ∧
      m.samples ++ recordedSub c t id (a :: h) =
        (dropped ++ gotS id (step cap r a).2) ++ (m'.samples ++ recordedSub c t id h) ∧
      (m.samples.length + (recordedSub c t id (a :: h)).length ≤ cap → dropped = []) ∧
      (isBatch a = false → gotS id (step cap r a).2 = [] ∧ (m.samples.length ≤ cap → m'.samples.length ≤ cap) ∧
        (dropped = [] ∨ m'.samples.length = cap)) := by
  have inv' := tr.inv.step cap a
  have idle : ∀ (hr : recordedSub c t id (a :: h) = recordedSub c t id h) (m' : SubM I T L),
      (step cap r a).1.subs.get? id = some m' → (step cap r a).1.expires = e → m'.topic = m.topic → m'.mod = m.mod →
      m'.leaseOn = m.leaseOn → m'.spanOn = m.spanOn → m'.samples = m.samples → gotS id (step cap r a).2 = [] →
      ∃ m' dropped, TrackS c t id e (step cap r a).1 m' ∧
        m.samples ++ recordedSub c t id (a :: h) =
          (dropped ++ gotS id (step cap r a).2) ++ (m'.samples ++ recordedSub c t id h) ∧
        (m.samples.length + (recordedSub c t id (a :: h)).length ≤ cap → dropped = []) ∧
      (isBatch a = false → gotS id (step cap r a).2 = [] ∧ (m.samples.length ≤ cap → m'.samples.length ≤ cap) ∧
        (dropped = [] ∨ m'.samples.length = cap)) := by
    intro hr m' g1 g2 g3 g4 g5 g6 g7 g8
    refine ⟨m', [], ⟨inv', g1, g3.trans tr.topic, g4.trans tr.mod, g5.trans tr.lease, g6.trans tr.span, g2⟩, ?_,
      fun _ => rfl, fun _ => ⟨g8, by rw [g7]; exact fun h => h, .inl rfl⟩⟩
    rw [g7, g8, hr]; simp
  cases a with
  | regSub x tt =>
    refine idle rfl m ?_ tr.exp rfl rfl rfl rfl rfl rfl
    simp only [step, get?_set]
    rw [if_neg (fun h => hk h.symm)]; exact tr.get
  | unregSub x =>
    refine idle rfl m ?_ tr.exp rfl rfl rfl rfl rfl rfl
    simp only [step, get?_pop]
    rw [if_neg (fun h => hk h.symm)]; exact tr.get
  | regPub x tt nb => exact idle rfl m tr.get tr.exp rfl rfl rfl rfl rfl rfl
  | unregPub x => exact idle rfl m tr.get tr.exp rfl rfl rfl rfl rfl rfl
  | publish x now k seq => exact idle rfl m tr.get tr.exp rfl rfl rfl rfl rfl rfl
  | wait x now k seq => exact idle rfl m tr.get tr.exp rfl rfl rfl rfl rfl rfl
  | inflight x n => exact idle rfl m tr.get tr.exp rfl rfl rfl rfl rfl rfl
  | setProcess reset =>
    have : reset = false := hs
    subst this
    exact idle rfl m tr.get tr.exp rfl rfl rfl rfl rfl rfl
  | snapshot now =>
    exact idle rfl m.mark (by rw [snapshot_sub, tr.get]; rfl) tr.exp rfl rfl rfl rfl rfl rfl
  | control now c' => exact hs.elim
  | enabled now =>
    have he : expire r now = r := expire_steady (by rw [tr.exp]; exact hs)
    exact idle rfl m (by simp only [step, he]; exact tr.get) (by simp only [step, he]; exact tr.exp)
      rfl rfl rfl rfl rfl rfl
  | receive x =>
    by_cases hx : id = x
    · subst hx
      have b := begin_fields m
      exact idle rfl m.begin.1 (by simp [step, get?_modify, tr.get]) tr.exp b.1 b.2.1 b.2.2.1 b.2.2.2.1 b.2.2.2.2 rfl
    · exact idle rfl m (by simp [step, get?_modify, tr.get, hx]) tr.exp rfl rfl rfl rfl rfl rfl
  | lease x now ns seq b =>
    cases ns with
    | none =>
      refine idle rfl m ?_ tr.exp rfl rfl rfl rfl rfl rfl
      simp only [step, get?_modify, tr.get, SubM.lease]; split <;> rfl
    | some ns =>
    by_cases hx : x = id ∧ b = true ∧ wantsSub c t id .leaseTime
    · obtain ⟨rfl, hbt, hw⟩ := hx
      subst hbt
      have hd : m.leaseOn = true := by rw [tr.lease]; simpa using hw
      have hg : (step cap r (.lease x now (some ns) seq true)).1.subs.get? x =
          some (m.lease cap x now (some ns) seq true) := by
        simp [step, get?_modify, tr.get]
      obtain ⟨d, hd1, hd2, hd3, hd4⟩ := push_eq cap m.samples
        { ts := now, ep := (m.topic, x), label := none, metric := .leaseTime, value := ns, seq := seq }
        (recordedSub c t x h)
      refine ⟨m.lease cap x now (some ns) seq true, d, ⟨inv', hg, ?_, ?_, ?_, ?_, tr.exp⟩, ?_, ?_,
          fun _ => ⟨rfl, fun _ => ?_, ?_⟩⟩
      · simp only [SubM.lease, hd, Bool.and_self, if_true]; exact tr.topic
      · simp only [SubM.lease, hd, Bool.and_self, if_true]; exact tr.mod
      · simp only [SubM.lease, hd, Bool.and_self, if_true]; exact hd.symm.trans tr.lease
      · simp only [SubM.lease, hd, Bool.and_self, if_true]; exact tr.span
      · simp only [SubM.lease, hd, Bool.and_self, if_true, recordedSub, hw, and_self, step, gotS, List.append_nil]
        rw [← hd1, tr.topic]
      · intro hl
        apply hd2
        simp only [recordedSub, hw, and_self, if_true, List.length_cons] at hl
        omega
      · simp only [SubM.lease, hd, Bool.and_self, if_true]; exact hd3
      · simp only [SubM.lease, hd, Bool.and_self, if_true]; exact hd4
    · have hr : recordedSub c t id (.lease x now (some ns) seq b :: h) = recordedSub c t id h := by
        simp only [recordedSub, if_neg hx]
      by_cases hxi : x = id
      · subst hxi
        have hd : (m.leaseOn && b) = false := by
          rw [tr.lease, Bool.eq_false_iff]
          intro hh
          rw [Bool.and_eq_true, decide_eq_true_iff] at hh
          exact hx ⟨rfl, hh.2, hh.1⟩
        refine idle hr m ?_ tr.exp rfl rfl rfl rfl rfl rfl
        simp only [step, get?_modify, tr.get, if_true, Option.map_some, SubM.lease, hd, Bool.false_eq_true, if_false]
      · have hxi' : ¬ id = x := fun h => hxi h.symm
        exact idle hr m (by simp [step, get?_modify, tr.get, hxi']) tr.exp rfl rfl rfl rfl rfl rfl
  | span x now ns l seq b =>
    by_cases hx : x = id ∧ b = true ∧ wantsSub c t id .userSpan
    · obtain ⟨rfl, hbt, hw⟩ := hx
      subst hbt
      have hd : m.spanOn = true := by rw [tr.span]; simpa using hw
      have hg : (step cap r (.span x now ns l seq true)).1.subs.get? x = some (m.span cap x now ns l seq true) := by
        simp [step, get?_modify, tr.get]
      obtain ⟨d, hd1, hd2, hd3, hd4⟩ := push_eq cap m.samples
        { ts := now, ep := (m.topic, x), label := l, metric := .userSpan, value := ns, seq := seq }
        (recordedSub c t x h)
      refine ⟨m.span cap x now ns l seq true, d, ⟨inv', hg, ?_, ?_, ?_, ?_, tr.exp⟩, ?_, ?_,
          fun _ => ⟨rfl, fun _ => ?_, ?_⟩⟩
      · simp only [SubM.span, hd, Bool.and_self, if_true]; exact tr.topic
      · simp only [SubM.span, hd, Bool.and_self, if_true]; exact tr.mod
      · simp only [SubM.span, hd, Bool.and_self, if_true]; exact tr.lease
      · simp only [SubM.span, hd, Bool.and_self, if_true]; exact hd.symm.trans tr.span
      · simp only [SubM.span, hd, Bool.and_self, if_true, recordedSub, hw, and_self, step, gotS, List.append_nil]
        rw [← hd1, tr.topic]
      · intro hl
        apply hd2
        simp only [recordedSub, hw, and_self, if_true, List.length_cons] at hl
        omega
      · simp only [SubM.span, hd, Bool.and_self, if_true]; exact hd3
      · simp only [SubM.span, hd, Bool.and_self, if_true]; exact hd4
    · have hr : recordedSub c t id (.span x now ns l seq b :: h) = recordedSub c t id h := by
        simp only [recordedSub, if_neg hx]
      by_cases hxi : x = id
      · subst hxi
        have hd : (m.spanOn && b) = false := by
          rw [tr.span, Bool.eq_false_iff]
          intro hh
          rw [Bool.and_eq_true, decide_eq_true_iff] at hh
          exact hx ⟨rfl, hh.2, hh.1⟩
        refine idle hr m ?_ tr.exp rfl rfl rfl rfl rfl rfl
        simp only [step, get?_modify, tr.get, if_true, Option.map_some, SubM.span, hd, Bool.false_eq_true, if_false]
      · have hxi' : ¬ id = x := fun h => hxi h.symm
        exact idle hr m (by simp [step, get?_modify, tr.get, hxi']) tr.exp rfl rfl rfl rfl rfl rfl
  | batch now k =>
    have he : expire r now = r := expire_steady (by rw [tr.exp]; exact hs)
    obtain ⟨q, h1, h2⟩ := batch_sub tr.inv now k (id := id) (m := m) (by rw [he]; exact tr.get)
    refine ⟨{ m with samples := q }, [], ⟨inv', h1, tr.topic, tr.mod, tr.lease, tr.span, ?_⟩, ?_, fun _ => rfl, by simp [isBatch]⟩
    · show (expire r now).expires = e
      rw [he]; exact tr.exp
    · show m.samples ++ recordedSub c t id h = _
      rw [← h2]; simp [step, gotS]

theorem collected_filterS (cap : Nat) (r : Reg I T L) (a : Act I T L) (h : List (Act I T L)) (id : I) :
    (collected cap r (a :: h)).filter (fromSub id) =
      gotS id (step cap r a).2 ++ (collected cap (step cap r a).1 h).filter (fromSub id) := by
  rw [collected, List.filter_append]
  congr 1
  cases (step cap r a).2 <;> rfl

theorem trackS_run (cap : Nat) {c : Control I T} {t : T} {id : I} {e : Option Int} (h : List (Act I T L)) :
    ∀ {r : Reg I T L} {m : SubM I T L}, TrackS c t id e r m → (∀ a ∈ h, KeepsSub id a) → (∀ a ∈ h, Steady e a) →
    ∃ m' older, TrackS c t id e (run cap r h) m' ∧
      m.samples ++ recordedSub c t id h = older ++ m'.samples ∧
      ((collected cap r h).filter (fromSub id)).Sublist older ∧
      (m.samples.length + (recordedSub c t id h).length ≤ cap → (collected cap r h).filter (fromSub id) = older) ∧
      ((∀ a ∈ h, isBatch a = false) → m.samples.length ≤ cap → (collected cap r h).filter (fromSub id) = [] ∧
        m'.samples.length ≤ cap ∧ (older = [] ∨ m'.samples.length = cap)) := by
  induction h with
  | nil =>
    intro r m tr _ _
    exact ⟨m, [], tr, by simp [recordedSub], by simp [collected], fun _ => by simp [collected],
      fun _ h => ⟨by simp [collected], h, .inl rfl⟩⟩
  | cons a h ih =>
    intro r m tr hk hs
    obtain ⟨m1, d, tr1, e1, d1, b1⟩ := trackS_step cap tr (hk a (List.mem_cons_self ..)) (hs a (List.mem_cons_self ..)) h
    obtain ⟨m2, older, tr2, e2, s2, l2, b2⟩ := ih tr1 (fun x hx => hk x (List.mem_cons_of_mem _ hx))
      (fun x hx => hs x (List.mem_cons_of_mem _ hx))
    refine ⟨m2, (d ++ gotS id (step cap r a).2) ++ older, tr2, ?_, ?_, ?_, ?_⟩
    · rw [e1, e2]; simp
    · rw [collected_filterS]
      exact ((List.sublist_append_right d _).append s2)
    · intro hl
      rw [collected_filterS, d1 hl, List.nil_append, l2]
      have := congrArg List.length e1
      simp only [List.length_append] at this
      omega
    · intro hb hl
      obtain ⟨g, l1, c1⟩ := b1 (hb a (List.mem_cons_self ..))
      obtain ⟨g2, l3, c2⟩ := b2 (fun x hx => hb x (List.mem_cons_of_mem _ hx)) (l1 hl)
      refine ⟨by rw [collected_filterS, g, g2]; rfl, l3, ?_⟩
      rcases c2 with c2 | c2
      · rcases c1 with c1 | c1
        · left; rw [c1, g, c2]; rfl
        · right
          have := congrArg List.length e2
          simp only [List.length_append, c2, List.length_nil] at this
          omega
      · exact .inr c2

theorem trackS_control (cap : Nat) (a b : List (Act I T L)) (id : I) (t : T) (now : Nat) (c : Control I T)
    (hk : ∀ x ∈ b, KeepsSub id x) :
    ∃ m, TrackS c t id (expiry now c) (run cap {} (a ++ .regSub id t :: b ++ [.control now c])) m ∧ m.samples = [] ∧
      m.counter = 0 := by
  obtain ⟨m0, hm0, ht0⟩ : ∃ m, (run cap {} (a ++ [.regSub id t])).subs.get? id = some m ∧ m.topic = t := by
    rw [run_append]
    exact ⟨_, by simp [run, step, get?_set]; rfl, rfl⟩
  have topic : ∀ (h : List (Act I T L)) (r : Reg I T L) (m : SubM I T L), r.subs.get? id = some m → m.topic = t →
      (∀ x ∈ h, KeepsSub id x) → ∃ m', (run cap r h).subs.get? id = some m' ∧ m'.topic = t := by
    intro h
    induction h with
    | nil => intro r m hm ht _; exact ⟨m, hm, ht⟩
    | cons x h ih =>
      intro r m hm ht hk
      obtain ⟨m1, h1, s⟩ := step_sub cap hm (hk x (List.mem_cons_self ..))
      exact ih _ m1 h1 (s.topic.trans ht) (fun y hy => hk y (List.mem_cons_of_mem _ hy))
  obtain ⟨m1, hm1, ht1⟩ := topic b _ m0 hm0 ht0 hk
  have e : run cap {} (a ++ .regSub id t :: b ++ [.control now c]) =
      setControl (run cap (run cap {} (a ++ [.regSub id t])) b) now c := by simp [run, step]
  rw [e]
  refine ⟨applySub c id { m1 with samples := [] }, ⟨?_, ?_, ht1, rfl, ?_, ?_, ?_⟩, rfl, rfl⟩
  · exact (RInv.run cap _ (RInv.run cap _ RInv.init)).setControl now c
  · rw [setControl_sub, hm1]; rfl
  · rw [applySub_lease, ← ht1]
  · rw [applySub_span, ← ht1]
  · simp only [setControl, expiry]
    cases c.enabled <;> cases c.ttl <;> rfl

theorem trackS_registered (cap : Nat) (a b : List (Act I T L)) (id : I) (t : T) (now : Nat) (c : Control I T)
    (hb : ∀ x ∈ b, Steady (expiry now c) x) :
    ∃ m, TrackS c t id (expiry now c) (run cap {} (a ++ .control now c :: b ++ [.regSub id t])) m ∧ m.samples = [] ∧ m.counter = 0 := by
  have e : run cap {} (a ++ .control now c :: b ++ [.regSub id t]) =
      (step cap (run cap (setControl (run cap {} a) now c) b) (.regSub id t)).1 := by simp [run, step]
  have hc := control_run cap b (c := c) (e := expiry now c) (r := setControl (run cap {} a) now c) rfl
    (setControl_expires _ now c) hb
  have hi := RInv.run cap b ((RInv.run cap a RInv.init).setControl now c)
  rw [e]
  generalize run cap (setControl (run cap {} a) now c) b = r at *
  refine ⟨applySub c id { topic := t }, ⟨hi.step cap _, ?_, rfl, rfl, ?_, ?_, ?_⟩, rfl, rfl⟩
  · simp only [step, get?_set, if_true, hc.1]
  · exact applySub_lease c id _
  · exact applySub_span c id _
  · exact hc.2

/-- Histories after which subscriber `id` of topic `t` is traced under `c`, set at `now`: it was registered when tracing was
set, or registered while that tracing was in force. -/
inductive TracedSub (c : Control I T) (t : T) (id : I) (now : Nat) : List (Act I T L) → Prop where
  | before (a b : List (Act I T L)) (hb : ∀ x ∈ b, KeepsSub id x) :
    TracedSub c t id now (a ++ .regSub id t :: b ++ [.control now c])
  | after (a b : List (Act I T L)) (hb : ∀ x ∈ b, Steady (expiry now c) x) :
    TracedSub c t id now (a ++ .control now c :: b ++ [.regSub id t])

theorem TracedSub.track {c : Control I T} {t : T} {id : I} {now : Nat} {h : List (Act I T L)} (cap : Nat)
    (hd : TracedSub c t id now h) : ∃ m, TrackS c t id (expiry now c) (run cap {} h) m ∧ m.samples = [] ∧ m.counter = 0 := by
  cases hd with
  | before a b hb => exact trackS_control cap a b id t now c hb
  | after a b hb => exact trackS_registered cap a b id t now c hb

/-- **C67**: what the batches return of a subscriber is, in order and without repetition, part of what it recorded since
tracing was set; unless it recorded more than its buffer holds, the batches return a beginning of that. -/
theorem C67_in_order_once_sub (cap : Nat) (start mid : List (Act I T L)) (id : I) (t : T) (now : Nat)
    (c : Control I T) (hd : TracedSub c t id now start) (hk : ∀ x ∈ mid, KeepsSub id x)
    (hs : ∀ x ∈ mid, Steady (expiry now c) x) :
    ((collected cap (run cap {} start) mid).filter (fromSub id)).Sublist (recordedSub c t id mid) ∧
    ((recordedSub (L := L) c t id mid).length ≤ cap →
      (collected cap (run cap {} start) mid).filter (fromSub id) <+: recordedSub c t id mid) := by
  obtain ⟨m, tr, h1, h2⟩ := hd.track cap
  obtain ⟨m', older, _, e, s, l, _⟩ := trackS_run cap mid tr hk hs
  rw [h1] at e l
  simp only [List.nil_append, List.length_nil, Nat.zero_add] at e l
  refine ⟨?_, fun hl => ?_⟩
  · rw [e]; exact s.trans (List.sublist_append_left ..)
  · rw [l hl, e]; exact List.prefix_append ..

theorem collected_snoc_sub (cap : Nat) (id : I) (now : Nat) (k : Int) : ∀ (h : List (Act I T L)) (r : Reg I T L),
    (collected cap r (h ++ [.batch now k])).filter (fromSub id) =
      (collected cap r h).filter (fromSub id) ++ gotS id (step cap (run cap r h) (.batch now k)).2 := by
  intro h
  induction h with
  | nil => intro r; rw [List.nil_append, collected_filterS]; simp [collected, run]
  | cons x h ih => intro r; rw [List.cons_append, collected_filterS, collected_filterS, ih, run_cons]; simp

/-- A batch with fewer samples than asked for empties the queue. -/
theorem short_batch_sub (cap : Nat) {c : Control I T} {t : T} {id : I} {e : Option Int} {r : Reg I T L} {m : SubM I T L}
    (tr : TrackS c t id e r m) {now : Nat} {k : Int} (hst : Steady (I := I) (T := T) (L := L) e (.batch now k))
    {l : List (Sample I T L)} (hl : (step cap r (.batch now k)).2 = .samples l) (hshort : (l.length : Int) < max 1 k) :
    gotS id (step cap r (.batch now k)).2 = m.samples := by
  have he : expire r now = r := expire_steady (by rw [tr.exp]; exact hst)
  obtain ⟨q, g1, g2⟩ := batch_sub tr.inv now k (id := id) (m := m) (by rw [he]; exact tr.get)
  have hlen : (batch r now k).2 = l := by
    simp only [step, Out.samples.injEq] at hl; exact hl
  have hz : total (rest (expire r now) k) = 0 := by
    rcases (batch_spec r now k).2.2 with h | h
    · rw [hlen] at h; omega
    · exact h
  have hq : q = [] := by
    obtain ⟨i, u, j1, j2, j3⟩ := get?_zip (fun (m : SubM I T L) q => { m with samples := q }) id
      (expire r now).subs ((rest (expire r now) k).drop (expire r now).pubs.length)
      (by simp [length_rest]) m (by rw [he]; exact tr.get)
    have hu : u = [] := total_zero hz (List.mem_of_mem_drop (List.mem_of_getElem? j2))
    rw [batch_subs, j3] at g1
    have := congrArg (fun o => o.map SubM.samples) g1
    simp at this
    rw [← this]; exact hu
  rw [hq, List.append_nil] at g2
  exact g2

/-- A batch with fewer samples than asked for leaves nothing: everything recorded has then been returned. -/
theorem C67_all_collected_sub (cap : Nat) (start mid : List (Act I T L)) (id : I) (t : T) (now now' : Nat) (k : Int)
    (c : Control I T) (hd : TracedSub c t id now start) (hk : ∀ x ∈ mid, KeepsSub id x)
    (hs : ∀ x ∈ mid ++ [.batch now' k], Steady (expiry now c) x)
    (hcap : (recordedSub (L := L) c t id mid).length ≤ cap) (l : List (Sample I T L))
    (hl : (step cap (run cap {} (start ++ mid)) (.batch now' k)).2 = .samples l)
    (hshort : (l.length : Int) < max 1 k) :
    (collected cap (run cap {} start) (mid ++ [.batch now' k])).filter (fromSub id) = recordedSub c t id mid := by
  obtain ⟨m, tr, h1, h2⟩ := hd.track cap
  obtain ⟨m', older, tr', e, s, le, _⟩ := trackS_run cap mid tr hk (fun x hx => hs x (List.mem_append_left _ hx))
  rw [h1] at e le
  simp only [List.nil_append, List.length_nil, Nat.zero_add] at e le
  rw [run_append] at hl
  rw [collected_snoc_sub, le hcap, e, short_batch_sub cap tr' (hs _ (by simp)) hl hshort]

/-- If more is recorded between two batches than the buffer holds, the oldest samples are lost, and only as many as
necessary. -/
theorem C67_newest_kept_sub (cap : Nat) (start mid : List (Act I T L)) (id : I) (t : T) (now now' : Nat) (k : Int)
    (c : Control I T) (hd : TracedSub c t id now start) (hk : ∀ x ∈ mid, KeepsSub id x)
    (hs : ∀ x ∈ mid ++ [.batch now' k], Steady (expiry now c) x) (hb : ∀ x ∈ mid, isBatch x = false)
    (l : List (Sample I T L)) (hl : (step cap (run cap {} (start ++ mid)) (.batch now' k)).2 = .samples l)
    (hshort : (l.length : Int) < max 1 k) :
    l.filter (fromSub id) = (recordedSub c t id mid).drop ((recordedSub (L := L) c t id mid).length - cap) := by
  obtain ⟨m, tr, h1, h2⟩ := hd.track cap
  obtain ⟨m', older, tr', e, s, _, b⟩ := trackS_run cap mid tr hk (fun x hx => hs x (List.mem_append_left _ hx))
  rw [h1] at e
  rw [List.nil_append] at e
  obtain ⟨_, b2, b3⟩ := b hb (by rw [h1]; exact Nat.zero_le _)
  rw [run_append] at hl
  have hg := short_batch_sub cap tr' (hs _ (by simp)) hl hshort
  rw [hl] at hg
  have hg : l.filter (fromSub id) = m'.samples := hg
  rw [hg, e, List.length_append]
  have : older.length + m'.samples.length - cap = older.length := by
    rcases b3 with h | h
    · rw [h, List.length_nil]; omega
    · omega
  rw [this, List.drop_left]

theorem begin_counter (m : SubM I T L) (h : (m.leaseOn || m.spanOn) = true) :
    m.begin.1.counter = m.counter + 1 ∧ m.begin.2 = due (m.counter + 1) m.mod := by
  simp only [SubM.begin, h, if_true, and_self]

/-- The caller is told to sample every `mod`-th message taken since tracing was set. -/
theorem C67_sub_sampling (cap : Nat) (start mid : List (Act I T L)) (id : I) (t : T) (now : Nat)
    (c : Control I T) (hd : TracedSub c t id now start) (hk : ∀ x ∈ mid, KeepsSub id x)
    (hs : ∀ x ∈ mid, Steady (expiry now c) x)
    (hw : wantsSub c t id .leaseTime ∨ wantsSub c t id .userSpan) :
    (step cap (run cap {} (start ++ mid)) (.receive id)).2 =
      .sampled (decide (((received id mid + 1 : Nat) : Int) % max 1 c.mod = 0)) := by
  obtain ⟨m, tr, _, h2⟩ := hd.track cap
  rw [run_append]
  generalize run cap {} start = r0 at *
  have cnt : ∀ (h : List (Act I T L)) (r : Reg I T L) (m : SubM I T L), TrackS c t id (expiry now c) r m →
      (∀ x ∈ h, KeepsSub id x) → (∀ x ∈ h, Steady (expiry now c) x) →
      ∃ m', TrackS c t id (expiry now c) (run cap r h) m' ∧ m'.counter = m.counter + received id h := by
    intro h
    induction h with
    | nil => intro r m tr _ _; exact ⟨m, tr, by simp [received]⟩
    | cons x h ih =>
      intro r m tr hk hs
      obtain ⟨m1, d, tr1, _⟩ := trackS_step cap tr (hk x (List.mem_cons_self ..)) (hs x (List.mem_cons_self ..)) []
      obtain ⟨m2, tr2, e2⟩ := ih _ m1 tr1 (fun y hy => hk y (List.mem_cons_of_mem _ hy))
        (fun y hy => hs y (List.mem_cons_of_mem _ hy))
      refine ⟨m2, tr2, ?_⟩
      have hc : m1.counter = m.counter + (if isReceive id x then 1 else 0) := by
        have hg := tr1.get
        have hon : (m.leaseOn || m.spanOn) = true := by
          rw [tr.lease, tr.span]; simpa using hw
        have hkx := hk x (List.mem_cons_self ..)
        have hsx := hs x (List.mem_cons_self ..)
        clear ih
        cases x with
        | receive y =>
          simp only [step, get?_modify, tr.get] at hg
          by_cases hy : id = y
          · subst hy
            simp at hg; subst hg
            simp [isReceive, (begin_counter m hon).1]
          · have hy' : ¬ y = id := fun e => hy e.symm
            simp [hy] at hg; subst hg
            simp [isReceive, hy']
        | lease y ts ns seq s =>
          simp only [step, get?_modify, tr.get] at hg
          by_cases hy : id = y
          · subst hy
            simp at hg; subst hg
            simp only [SubM.lease, isReceive]
            split
            · rfl
            · split <;> rfl
          · simp [hy] at hg; subst hg; rfl
        | span y ts ns l seq s =>
          simp only [step, get?_modify, tr.get] at hg
          by_cases hy : id = y
          · subst hy
            simp at hg; subst hg
            simp only [SubM.span, isReceive]
            split <;> rfl
          · simp [hy] at hg; subst hg; rfl
        | regSub y tt =>
          simp only [step, get?_set] at hg
          rw [if_neg (fun h => hkx h.symm), tr.get] at hg
          cases hg; rfl
        | unregSub y =>
          simp only [step, get?_pop] at hg
          rw [if_neg (fun h => hkx h.symm), tr.get] at hg
          cases hg; rfl
        | snapshot ts =>
          rw [snapshot_sub, tr.get] at hg
          cases hg; rfl
        | setProcess reset =>
          have : reset = false := hsx
          subst this
          have hg : r.subs.get? id = some m1 := hg
          rw [tr.get] at hg; cases hg; rfl
        | control ts c' => exact hsx.elim
        | enabled ts =>
          have he : expire r ts = r := expire_steady (by rw [tr.exp]; exact hsx)
          simp only [step, he, tr.get] at hg
          cases hg; rfl
        | batch ts k =>
          have he : expire r ts = r := expire_steady (by rw [tr.exp]; exact hsx)
          obtain ⟨q, h1, h2⟩ := batch_sub tr.inv ts k (id := id) (m := m) (by rw [he]; exact tr.get)
          simp only [step] at hg
          rw [h1] at hg
          cases hg; rfl
        | _ =>
          have hg : r.subs.get? id = some m1 := hg
          rw [tr.get] at hg; cases hg; rfl
      rw [e2, hc]
      simp only [received, List.countP_cons]; omega
  obtain ⟨m', tr', e'⟩ := cnt mid r0 m tr hk hs
  have hon : (m'.leaseOn || m'.spanOn) = true := by
    rw [tr'.lease, tr'.span]; simpa using hw
  simp only [step, tr'.get, (begin_counter m' hon).2, e', h2, Nat.zero_add]
  have h1 : max 1 m'.mod = max 1 c.mod := by rw [tr'.mod]; omega
  simp only [due, h1]
  rfl

end Prof
end Ez
