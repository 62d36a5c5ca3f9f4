import Verif.Props.Traces

/-!
# C67, continued: trace samples come in the order of their times, and none come while tracing is off
-/

set_option linter.unusedSectionVars false
set_option linter.unusedSimpArgs false

namespace Ez
namespace Prof

variable {I T L : Type} [DecidableEq I] [DecidableEq T]

open PyDict

theorem mem_queues {r : Reg I T L} {q : List (Sample I T L)} :
    q ∈ queues r ↔ (∃ p ∈ r.pubs, q = p.2.samples) ∨ ∃ p ∈ r.subs, q = p.2.samples := by
  simp only [queues, List.mem_append, List.mem_map]
  constructor
  · rintro (⟨p, h, e⟩ | ⟨p, h, e⟩)
    · exact .inl ⟨p, h, e.symm⟩
    · exact .inr ⟨p, h, e.symm⟩
  · rintro (⟨p, h, e⟩ | ⟨p, h, e⟩)
    · exact .inl ⟨p, h, e.symm⟩
    · exact .inr ⟨p, h, e.symm⟩

theorem batch_queues (r : Reg I T L) (now : Nat) (k : Int) : queues (batch r now k).1 = rest (expire r now) k := by
  have aux : ∀ {V : Type} (f : V → List (Sample I T L) → V) (g : V → List (Sample I T L)) (hg : ∀ v q, g (f v q) = q)
      (d : PyDict I V) (l : List (List (Sample I T L))), l.length = d.length →
      ((d.zip l).map (fun x => (x.1.1, f x.1.2 x.2))).map (fun p => g p.2) = l := by
    intro V f g hg d
    induction d with
    | nil =>
      intro l h
      have : l = [] := List.eq_nil_of_length_eq_zero h
      subst this; rfl
    | cons p d ih => intro l h; cases l with
      | nil => simp at h
      | cons q l => simp [hg]; simpa using ih l (by simpa using h)
  have h1 := aux (fun (m : PubM I T L) q => { m with samples := q }) (·.samples) (fun _ _ => rfl) (expire r now).pubs
    ((rest (expire r now) k).take (expire r now).pubs.length) (by simp [length_rest])
  have h2 := aux (fun (m : SubM I T L) q => { m with samples := q }) (·.samples) (fun _ _ => rfl) (expire r now).subs
    ((rest (expire r now) k).drop (expire r now).pubs.length) (by simp [length_rest])
  rw [queues, batch_pubs, batch_subs, h1, h2, List.take_append_drop]

theorem setControl_queues (r : Reg I T L) (now : Nat) (c : Control I T) : ∀ q ∈ queues (setControl r now c), q = [] := by
  intro q hq
  rcases mem_queues.1 hq with ⟨p, hp, rfl⟩ | ⟨p, hp, rfl⟩
  · obtain ⟨x, _, rfl⟩ := List.mem_map.1 hp
    rfl
  · obtain ⟨x, _, rfl⟩ := List.mem_map.1 hp
    rfl

theorem expire_queues (r : Reg I T L) (now : Nat) : ∀ q ∈ queues (expire r now), q = [] ∨ q ∈ queues r := by
  unfold expire
  split
  · exact fun q hq => .inr hq
  · split
    · exact fun q hq => .inr hq
    · exact fun q hq => .inl (setControl_queues r now _ q hq)

theorem mem_set_dict {V : Type} {d : PyDict I V} {k : I} {v : V} {p : I × V} (h : p ∈ d.set k v) :
    p.2 = v ∨ p ∈ d := by
  unfold PyDict.set at h
  split at h
  · obtain ⟨x, hx, e⟩ := List.mem_map.1 h
    split at e
    · left; rw [← e]
    · right; rw [← e]; exact hx
  · rcases List.mem_append.1 h with h | h
    · exact .inr h
    · left; rw [List.mem_singleton.1 h]

theorem mem_modify {V : Type} {d : PyDict I V} {k : I} {f : V → V} {p : I × V} (h : p ∈ d.modify k f) :
    p ∈ d ∨ ∃ x ∈ d, p.2 = f x.2 := by
  obtain ⟨x, hx, e⟩ := List.mem_map.1 h
  split at e
  · right; exact ⟨x, hx, by rw [← e]⟩
  · left; rw [← e]; exact hx

/-- The time of the sample the call may record. -/
def stamp : Act I T L → Option Nat
  | .publish _ now _ _ => some now
  | .wait _ now _ _ => some now
  | .lease _ now _ _ _ => some now
  | .span _ now _ _ _ _ => some now
  | _ => none

theorem step_queues (cap : Nat) (r : Reg I T L) (a : Act I T L) (hb : isBatch a = false) :
    ∀ q' ∈ queues (step cap r a).1, q' = [] ∨ q' ∈ queues r ∨
      ∃ q ∈ queues r, ∃ x, q' = push cap q x ∧ stamp a = some x.ts := by
  have ofPub : ∀ (d : PyDict I (PubM I T L)) (s : Option Nat), (∀ p ∈ d, p.2.samples = [] ∨ (∃ x ∈ r.pubs, p.2.samples = x.2.samples) ∨
      ∃ x ∈ r.pubs, ∃ y, p.2.samples = push cap x.2.samples y ∧ s = some y.ts) →
      ∀ q' ∈ queues { r with pubs := d }, q' = [] ∨ q' ∈ queues r ∨
        ∃ q ∈ queues r, ∃ x, q' = push cap q x ∧ s = some x.ts := by
    intro d s h q' hq
    rcases mem_queues.1 hq with ⟨p, hp, rfl⟩ | ⟨p, hp, rfl⟩
    · rcases h p hp with h | ⟨x, hx, h⟩ | ⟨x, hx, y, h, hy⟩
      · exact .inl h
      · exact .inr (.inl (mem_queues.2 (.inl ⟨x, hx, h⟩)))
      · exact .inr (.inr ⟨_, mem_queues.2 (.inl ⟨x, hx, rfl⟩), y, h, hy⟩)
    · exact .inr (.inl (mem_queues.2 (.inr ⟨p, hp, rfl⟩)))
  have ofSub : ∀ (d : PyDict I (SubM I T L)) (s : Option Nat), (∀ p ∈ d, p.2.samples = [] ∨ (∃ x ∈ r.subs, p.2.samples = x.2.samples) ∨
      ∃ x ∈ r.subs, ∃ y, p.2.samples = push cap x.2.samples y ∧ s = some y.ts) →
      ∀ q' ∈ queues { r with subs := d }, q' = [] ∨ q' ∈ queues r ∨
        ∃ q ∈ queues r, ∃ x, q' = push cap q x ∧ s = some x.ts := by
    intro d s h q' hq
    rcases mem_queues.1 hq with ⟨p, hp, rfl⟩ | ⟨p, hp, rfl⟩
    · exact .inr (.inl (mem_queues.2 (.inl ⟨p, hp, rfl⟩)))
    · rcases h p hp with h | ⟨x, hx, h⟩ | ⟨x, hx, y, h, hy⟩
      · exact .inl h
      · exact .inr (.inl (mem_queues.2 (.inr ⟨x, hx, h⟩)))
      · exact .inr (.inr ⟨_, mem_queues.2 (.inr ⟨x, hx, rfl⟩), y, h, hy⟩)
  cases a with
  | regPub id t nb =>
    refine ofPub _ _ ?_
    intro p hp
    rcases mem_set_dict hp with h | h
    · left; rw [h]; rfl
    · exact .inr (.inl ⟨p, h, rfl⟩)
  | unregPub id => exact ofPub _ _ (fun p hp => .inr (.inl ⟨p, (List.mem_filter.1 hp).1, rfl⟩))
  | regSub id t =>
    refine ofSub _ _ ?_
    intro p hp
    rcases mem_set_dict hp with h | h
    · left; rw [h]; rfl
    · exact .inr (.inl ⟨p, h, rfl⟩)
  | unregSub id => exact ofSub _ _ (fun p hp => .inr (.inl ⟨p, (List.mem_filter.1 hp).1, rfl⟩))
  | publish id now n seq =>
    refine ofPub _ _ ?_
    intro p hp
    rcases mem_modify hp with h | ⟨x, hx, h⟩
    · exact .inr (.inl ⟨p, h, rfl⟩)
    · rw [h]
      simp only [PubM.publish]
      split
      · split
        · exact .inr (.inr ⟨x, hx, _, rfl, rfl⟩)
        · exact .inr (.inl ⟨x, hx, rfl⟩)
      · exact .inr (.inl ⟨x, hx, rfl⟩)
  | wait id now ns seq =>
    refine ofPub _ _ ?_
    intro p hp
    rcases mem_modify hp with h | ⟨x, hx, h⟩
    · exact .inr (.inl ⟨p, h, rfl⟩)
    · rw [h]
      simp only [PubM.wait]
      split
      · exact .inr (.inr ⟨x, hx, _, rfl, rfl⟩)
      · exact .inr (.inl ⟨x, hx, rfl⟩)
  | inflight id n =>
    refine ofPub _ _ ?_
    intro p hp
    rcases mem_modify hp with h | ⟨x, hx, h⟩
    · exact .inr (.inl ⟨p, h, rfl⟩)
    · rw [h]; exact .inr (.inl ⟨x, hx, rfl⟩)
  | receive id =>
    refine ofSub _ _ ?_
    intro p hp
    rcases mem_modify hp with h | ⟨x, hx, h⟩
    · exact .inr (.inl ⟨p, h, rfl⟩)
    · rw [h, begin_samples]; exact .inr (.inl ⟨x, hx, rfl⟩)
  | lease id now ns seq b =>
    refine ofSub _ _ ?_
    intro p hp
    rcases mem_modify hp with h | ⟨x, hx, h⟩
    · exact .inr (.inl ⟨p, h, rfl⟩)
    · rw [h]
      simp only [SubM.lease]
      split
      · exact .inr (.inl ⟨x, hx, rfl⟩)
      · split
        · exact .inr (.inr ⟨x, hx, _, rfl, rfl⟩)
        · exact .inr (.inl ⟨x, hx, rfl⟩)
  | span id now ns l seq b =>
    refine ofSub _ _ ?_
    intro p hp
    rcases mem_modify hp with h | ⟨x, hx, h⟩
    · exact .inr (.inl ⟨p, h, rfl⟩)
    · rw [h]
      simp only [SubM.span]
      split
      · exact .inr (.inr ⟨x, hx, _, rfl, rfl⟩)
      · exact .inr (.inl ⟨x, hx, rfl⟩)
  | setProcess reset =>
    cases reset with
    | true => intro q hq; simp [step, queues] at hq
    | false => exact fun q hq => .inr (.inl hq)
  | snapshot now =>
    intro q hq
    refine .inr (.inl ?_)
    rcases mem_queues.1 hq with ⟨p, hp, rfl⟩ | ⟨p, hp, rfl⟩
    · obtain ⟨x, hx, rfl⟩ := List.mem_map.1 hp
      exact mem_queues.2 (.inl ⟨x, hx, rfl⟩)
    · obtain ⟨x, hx, rfl⟩ := List.mem_map.1 hp
      exact mem_queues.2 (.inr ⟨x, hx, rfl⟩)
  | control now c => exact fun q hq => .inl (setControl_queues r now c q hq)
  | batch now k => simp [isBatch] at hb
  | enabled now =>
    intro q hq
    rcases expire_queues r now q hq with h | h
    · exact .inl h
    · exact .inr (.inl h)

theorem push_sorted {cap : Nat} {q : List (Sample I T L)} {x : Sample I T L} (h : Sorted q) (hx : ∀ s ∈ q, s.ts ≤ x.ts) :
    Sorted (push cap q x) := by
  unfold push Sorted
  refine List.Pairwise.drop ?_
  rw [List.pairwise_append]
  refine ⟨h, by simp, ?_⟩
  intro a ha b hb
  rw [List.mem_singleton.1 hb]; exact hx a ha

theorem sorted_aux (cap : Nat) (h : List (Act I T L)) : ∀ (r : Reg I T L), (h.filterMap stamp).Pairwise (· ≤ ·) →
    (∀ q ∈ queues r, Sorted q) → (∀ q ∈ queues r, ∀ s ∈ q, ∀ t ∈ h.filterMap stamp, s.ts ≤ t) →
    Sorted (collected cap r h) ∧
    ∀ lo : Nat, (∀ q ∈ queues r, ∀ s ∈ q, lo ≤ s.ts) → (∀ t ∈ h.filterMap stamp, lo ≤ t) →
      ∀ s ∈ collected cap r h, lo ≤ s.ts := by
  induction h with
  | nil => intro r _ _ _; exact ⟨List.Pairwise.nil, by simp [collected]⟩
  | cons a h ih =>
    intro r hp hs hf
    by_cases hb : isBatch a = true
    · cases a with
      | batch now k =>
        have hse : ∀ q ∈ queues (expire r now), Sorted q := by
          intro q hq
          rcases expire_queues r now q hq with rfl | h
          · exact List.Pairwise.nil
          · exact hs q h
        have old : ∀ q ∈ queues (expire r now), ∀ s ∈ q, ∃ q ∈ queues r, s ∈ q := by
          intro q hq s hsq
          rcases expire_queues r now q hq with rfl | h
          · simp at hsq
          · exact ⟨q, h, hsq⟩
        have m := (batch_spec r now k).1
        obtain ⟨s1, s2, s3⟩ := m.sorted hse
        rw [← batch_queues] at s2 s3
        have mm := m.mem
        rw [← batch_queues] at mm
        have hp' : (h.filterMap stamp).Pairwise (· ≤ ·) := hp
        have hf' : ∀ q ∈ queues r, ∀ s ∈ q, ∀ t ∈ h.filterMap stamp, s.ts ≤ t := hf
        obtain ⟨i1, i2⟩ := ih (batch r now k).1 hp' s2 (by
          intro q hq s hsq t ht
          obtain ⟨q1, h1, h2⟩ := mm.2 q hq s hsq
          obtain ⟨q2, h3, h4⟩ := old q1 h1 s h2
          exact hf' q2 h3 s h4 t ht)
        have e : collected cap r (.batch now k :: h) = (batch r now k).2 ++ collected cap (batch r now k).1 h := rfl
        rw [e]
        refine ⟨?_, ?_⟩
        · unfold Sorted
          rw [List.pairwise_append]
          refine ⟨s1, i1, ?_⟩
          intro x hx y hy
          refine i2 x.ts ?_ ?_ y hy
          · intro q hq s hsq; exact s3 x hx q hq s hsq
          · intro t ht
            obtain ⟨q1, h1, h2⟩ := mm.1 x hx
            obtain ⟨q2, h3, h4⟩ := old q1 h1 x h2
            exact hf' q2 h3 x h4 t ht
        · intro lo hlo hlt s hsm
          rcases List.mem_append.1 hsm with hsm | hsm
          · obtain ⟨q1, h1, h2⟩ := mm.1 s hsm
            obtain ⟨q2, h3, h4⟩ := old q1 h1 s h2
            exact hlo q2 h3 s h4
          · refine i2 lo ?_ hlt s hsm
            intro q hq s hsq
            obtain ⟨q1, h1, h2⟩ := mm.2 q hq s hsq
            obtain ⟨q2, h3, h4⟩ := old q1 h1 s h2
            exact hlo q2 h3 s h4
      | _ => simp [isBatch] at hb
    · have hb : isBatch a = false := by simpa using hb
      have sq := step_queues cap r a hb
      have e : collected cap r (a :: h) = collected cap (step cap r a).1 h := by
        rw [collected]
        cases a <;> first | rfl | simp [isBatch] at hb
      rw [e]
      have hfm : ∀ t ∈ h.filterMap stamp, t ∈ (a :: h).filterMap stamp := by
        intro t ht
        rw [List.filterMap_cons]; split
        · exact ht
        · exact List.mem_cons_of_mem _ ht
      have hst : ∀ x, stamp a = some x → x ∈ (a :: h).filterMap stamp ∧ ∀ t ∈ h.filterMap stamp, x ≤ t := by
        intro x hx
        rw [List.filterMap_cons, hx] at hp ⊢
        exact ⟨List.mem_cons_self .., (List.pairwise_cons.1 hp).1⟩
      have hp' : (h.filterMap stamp).Pairwise (· ≤ ·) := by
        rw [List.filterMap_cons] at hp
        split at hp
        · exact hp
        · exact (List.pairwise_cons.1 hp).2
      obtain ⟨i1, i2⟩ := ih (step cap r a).1 hp' (by
          intro q' hq'
          rcases sq q' hq' with rfl | hq | ⟨q, hq, x, rfl, hx⟩
          · exact List.Pairwise.nil
          · exact hs q' hq
          · exact push_sorted (hs q hq) (fun s hsq => hf q hq s hsq x.ts (hst x.ts hx).1)) (by
          intro q' hq' s hsq t ht
          rcases sq q' hq' with rfl | hq | ⟨q, hq, x, rfl, hx⟩
          · simp at hsq
          · exact hf q' hq s hsq t (hfm t ht)
          · rcases mem_push hsq with hsq | rfl
            · exact hf q hq s hsq t (hfm t ht)
            · exact (hst _ hx).2 t ht)
      refine ⟨i1, ?_⟩
      intro lo hlo hlt
      refine i2 lo ?_ (fun t ht => hlt t (hfm t ht))
      intro q' hq' s hsq
      rcases sq q' hq' with rfl | hq | ⟨q, hq, x, rfl, hx⟩
      · simp at hsq
      · exact hlo q' hq s hsq
      · rcases mem_push hsq with hsq | rfl
        · exact hlo q hq s hsq
        · exact hlt _ (hst _ hx).1

/-- **C67**: with a clock that does not go back, everything the batches of a process return, over all its publishers and
subscribers and over its whole life, is ordered by time. -/
theorem C67_ordered_by_time (cap : Nat) (h : List (Act I T L)) (hc : (h.filterMap stamp).Pairwise (· ≤ ·)) :
    (collected cap {} h).Pairwise (fun a b => a.ts ≤ b.ts) :=
  (sorted_aux cap h {} hc (by simp [queues]) (by simp [queues])).1

/-! ## Tracing off -/

/-- Nothing is recorded and nothing is stored. -/
structure Off (r : Reg I T L) : Prop where
  control : r.control.enabled = false
  expires : r.expires = none
  pubs : ∀ p ∈ r.pubs, p.2.deltaOn = false ∧ p.2.waitOn = false ∧ p.2.samples = []
  subs : ∀ p ∈ r.subs, p.2.leaseOn = false ∧ p.2.spanOn = false ∧ p.2.samples = []

theorem Off.init : Off ({} : Reg I T L) := ⟨rfl, rfl, by simp, by simp⟩

theorem off_setControl (r : Reg I T L) (now : Nat) (c : Control I T) (hc : c.enabled = false) :
    Off (setControl r now c) := by
  refine ⟨hc, by simp [setControl, hc], ?_, ?_⟩
  · intro p hp
    obtain ⟨x, _, rfl⟩ := List.mem_map.1 hp
    simp [applyPub, hc]
  · intro p hp
    obtain ⟨x, _, rfl⟩ := List.mem_map.1 hp
    simp [applySub, hc]

theorem Off.expire {r : Reg I T L} (ho : Off r) (now : Nat) : Prof.expire r now = r :=
  expire_steady (by simp [ho.expires])

theorem Off.queues {r : Reg I T L} (ho : Off r) : total (queues r) = 0 := by
  have : ∀ q ∈ Prof.queues r, q = [] := by
    intro q hq
    rcases mem_queues.1 hq with ⟨p, hp, rfl⟩ | ⟨p, hp, rfl⟩
    · exact (ho.pubs p hp).2.2
    · exact (ho.subs p hp).2.2
  generalize Prof.queues r = qs at this
  induction qs with
  | nil => rfl
  | cons q qs ih =>
    have h1 := ih (fun q hq => this q (List.mem_cons_of_mem _ hq))
    have h2 := this q (List.mem_cons_self ..)
    subst h2
    simpa [total] using h1

theorem Off.batch {r : Reg I T L} (ho : Off r) (now : Nat) (k : Int) : (Prof.batch r now k).2 = [] := by
  have h := (batch_spec r now k).1.total
  rw [ho.expire now, ho.queues] at h
  exact List.eq_nil_of_length_eq_zero (by omega)

/-- The call does not turn tracing on. -/
def Silent : Act I T L → Prop
  | .control _ c => c.enabled = false
  | _ => True

theorem Off.step {r : Reg I T L} (ho : Off r) (cap : Nat) {a : Act I T L} (hs : Silent a) : Off (step cap r a).1 := by
  cases a with
  | regPub id t nb =>
    refine ⟨ho.control, ho.expires, ?_, ho.subs⟩
    intro p hp
    rcases mem_set_dict hp with h | h
    · rw [h]; simp [applyPub, ho.control]
    · exact ho.pubs p h
  | unregPub id => exact ⟨ho.control, ho.expires, fun p hp => ho.pubs p ((List.mem_filter.1 hp).1), ho.subs⟩
  | regSub id t =>
    refine ⟨ho.control, ho.expires, ho.pubs, ?_⟩
    intro p hp
    rcases mem_set_dict hp with h | h
    · rw [h]; simp [applySub, ho.control]
    · exact ho.subs p h
  | unregSub id => exact ⟨ho.control, ho.expires, ho.pubs, fun p hp => ho.subs p ((List.mem_filter.1 hp).1)⟩
  | publish id now n seq =>
    refine ⟨ho.control, ho.expires, ?_, ho.subs⟩
    intro p hp
    simp only [Prof.step] at hp
    rcases mem_modify hp with h | ⟨x, hx, h⟩
    · exact ho.pubs p h
    · have := ho.pubs x hx
      rw [h]; simp [PubM.publish, this]
  | wait id now n seq =>
    refine ⟨ho.control, ho.expires, ?_, ho.subs⟩
    intro p hp
    simp only [Prof.step] at hp
    rcases mem_modify hp with h | ⟨x, hx, h⟩
    · exact ho.pubs p h
    · have := ho.pubs x hx
      rw [h]; simp [PubM.wait, this]
  | inflight id n =>
    refine ⟨ho.control, ho.expires, ?_, ho.subs⟩
    intro p hp
    simp only [Prof.step] at hp
    rcases mem_modify hp with h | ⟨x, hx, h⟩
    · exact ho.pubs p h
    · rw [h]; exact ho.pubs x hx
  | receive id =>
    refine ⟨ho.control, ho.expires, ho.pubs, ?_⟩
    intro p hp
    simp only [Prof.step] at hp
    rcases mem_modify hp with h | ⟨x, hx, h⟩
    · exact ho.subs p h
    · have := ho.subs x hx
      rw [h]; simp [SubM.begin, this]
  | lease id now ns seq b =>
    refine ⟨ho.control, ho.expires, ho.pubs, ?_⟩
    intro p hp
    simp only [Prof.step] at hp
    rcases mem_modify hp with h | ⟨x, hx, h⟩
    · exact ho.subs p h
    · have := ho.subs x hx
      rw [h]
      cases ns <;> simp [SubM.lease, this]
  | span id now ns l seq b =>
    refine ⟨ho.control, ho.expires, ho.pubs, ?_⟩
    intro p hp
    simp only [Prof.step] at hp
    rcases mem_modify hp with h | ⟨x, hx, h⟩
    · exact ho.subs p h
    · have := ho.subs x hx
      rw [h]; simp [SubM.span, this]
  | setProcess reset =>
    cases reset with
    | true => exact Off.init
    | false => exact ⟨ho.control, ho.expires, ho.pubs, ho.subs⟩
  | snapshot now =>
    refine ⟨ho.control, ho.expires, ?_, ?_⟩
    · intro p hp
      obtain ⟨x, hx, rfl⟩ := List.mem_map.1 hp
      exact ho.pubs x hx
    · intro p hp
      obtain ⟨x, hx, rfl⟩ := List.mem_map.1 hp
      exact ho.subs x hx
  | control now c => exact off_setControl r now c hs
  | enabled now => simp only [Prof.step, ho.expire now]; exact ho
  | batch now k =>
    have hz : total (rest (Prof.expire r now) k) = 0 := by
      have h := (batch_spec r now k).1.total
      rw [ho.expire now] at h ⊢
      rw [ho.queues] at h
      omega
    refine ⟨?_, ?_, ?_, ?_⟩
    · show (Prof.expire r now).control.enabled = false
      rw [ho.expire now]; exact ho.control
    · show (Prof.expire r now).expires = none
      rw [ho.expire now]; exact ho.expires
    · intro p hp
      have hp : p ∈ (Prof.batch r now k).1.pubs := hp
      rw [batch_pubs] at hp
      obtain ⟨x, hx, rfl⟩ := List.mem_map.1 hp
      have h1 := ho.pubs x.1 (by have := (List.of_mem_zip hx).1; rwa [ho.expire now] at this)
      exact ⟨h1.1, h1.2.1, total_zero hz (List.mem_of_mem_take (List.of_mem_zip hx).2)⟩
    · intro p hp
      have hp : p ∈ (Prof.batch r now k).1.subs := hp
      rw [batch_subs] at hp
      obtain ⟨x, hx, rfl⟩ := List.mem_map.1 hp
      have h1 := ho.subs x.1 (by have := (List.of_mem_zip hx).1; rwa [ho.expire now] at this)
      exact ⟨h1.1, h1.2.1, total_zero hz (List.mem_of_mem_drop (List.of_mem_zip hx).2)⟩

theorem Off.run {r : Reg I T L} (cap : Nat) (h : List (Act I T L)) (ho : Off r) (hs : ∀ a ∈ h, Silent a) :
    Off (run cap r h) ∧ collected cap r h = [] := by
  induction h generalizing r with
  | nil => exact ⟨ho, rfl⟩
  | cons a h ih =>
    obtain ⟨h1, h2⟩ := ih (ho.step cap (hs a (List.mem_cons_self ..))) (fun x hx => hs x (List.mem_cons_of_mem _ hx))
    refine ⟨h1, ?_⟩
    rw [collected, h2]
    cases a <;> first | rfl | simp [Prof.step, ho.batch]

/-- **C67**: before tracing was ever turned on, and after it was turned off (`pre` ending in such a control), nothing is
returned until it is turned on again. -/
theorem C67_silent_when_off (cap : Nat) (pre mid : List (Act I T L)) (now : Nat) (c : Control I T)
    (hc : c.enabled = false) (hs : ∀ a ∈ mid, Silent a) :
    collected cap {} mid = [] ∧ collected cap (run cap {} (pre ++ [.control now c])) mid = [] := by
  refine ⟨(Off.run cap mid Off.init hs).2, (Off.run cap mid ?_ hs).2⟩
  rw [run_append]; exact off_setControl _ now c hc

/-- **C67**: from the time at which tracing expires on, batches are empty and tracing is reported off, whatever was
recorded before and not yet collected. -/
theorem C67_expired (cap : Nat) (pre mid : List (Act I T L)) (now now' : Nat) (c : Control I T) (e : Int) (k : Int)
    (he : expiry now c = some e) (hm : ∀ a ∈ mid, ∀ n x, a ≠ .control n x) (hn : e ≤ now') :
    (step cap (run cap {} (pre ++ .control now c :: mid)) (.batch now' k)).2 = .samples [] ∧
    (step cap (run cap {} (pre ++ .control now c :: mid)) (.enabled now')).2 = .enabled false := by
  have key : ∀ (h : List (Act I T L)) (r : Reg I T L), (∀ a ∈ h, ∀ n x, a ≠ .control n x) →
      (r.expires = some e ∨ Off r) → ((run cap r h).expires = some e ∨ Off (run cap r h)) := by
    intro h
    induction h with
    | nil => intro r _ h; exact h
    | cons a h ih =>
      intro r hm hr
      rw [run_cons]
      refine ih _ (fun x hx => hm x (List.mem_cons_of_mem _ hx)) ?_
      have ha := hm a (List.mem_cons_self ..)
      rcases hr with hr | hr
      · have ex : ∀ n, (expire r n).expires = some e ∨ Off (expire r n) := by
          intro n
          unfold expire
          rw [hr]
          simp only []
          split
          · exact .inl hr
          · exact .inr (off_setControl r n _ rfl)
        cases a with
        | control n x => exact absurd rfl (ha n x)
        | setProcess reset =>
          cases reset with
          | true => exact .inr Off.init
          | false => exact .inl hr
        | enabled n => exact ex n
        | batch n k =>
          rcases ex n with h | h
          · exact .inl h
          · right
            have hb := h.step cap (a := .batch n k) trivial
            have e1 : (step cap (expire r n) (.batch n k)).1 = (step cap r (.batch n k)).1 := by
              show (batch (expire r n) n k).1 = (batch r n k).1
              simp only [batch, h.expire n]
            rwa [e1] at hb
        | _ => exact .inl hr
      · right
        refine hr.step cap ?_
        cases a with
        | control n x => exact absurd rfl (ha n x)
        | _ => trivial
  have h0 : (run cap {} (pre ++ [.control now c])).expires = some e := by
    rw [run_append]
    show (setControl (run cap {} pre) now c).expires = some e
    rw [← he]
    simp only [setControl, expiry]
    cases c.enabled <;> cases c.ttl <;> rfl
  have e2 : run cap {} (pre ++ .control now c :: mid) = run cap (run cap {} (pre ++ [.control now c])) mid := by
    simp [run]
  rw [e2]
  have hx : Off (expire (run cap (run cap {} (pre ++ [.control now c])) mid) now') := by
    rcases key mid _ hm (.inl h0) with h | h
    · unfold expire
      rw [h]
      simp only []
      rw [if_neg (by omega)]
      exact off_setControl _ now' _ rfl
    · rw [h.expire now']; exact h
  refine ⟨?_, ?_⟩
  · have hb := hx.batch now' k
    have e1 : ∀ r : Reg I T L, Off (expire r now') → (batch (expire r now') now' k).2 = (batch r now' k).2 := by
      intro r h
      simp only [batch, h.expire now']
    rw [e1 _ hx] at hb
    simp only [step, hb]
  · simp only [step, hx.control]

/-! ## Examples -/

namespace Example

/-- Publisher 1 of topic 10 and subscriber 7. -/
def reg : List (Act Nat Nat Nat) := [.regPub 1 10 3, .regSub 7 10]

/-- Trace every second message. -/
def ctl : Control Nat Nat := { enabled := true, mod := 2, ttl := some 100 }

def work : List (Act Nat Nat Nat) :=
  [.publish 1 5 1 (some 0), .wait 1 6 4 (some 1), .publish 1 7 1 (some 1), .receive 7, .receive 7,
   .lease 7 8 (some 3) (some 1) true, .publish 1 9 1 (some 2), .batch 10 2, .publish 1 12 1 (some 3),
   .span 7 13 2 (some 5) (some 1) true, .batch 20 10]

def show' (s : Sample Nat Nat Nat) : Nat × Nat × Nat × Int := (s.ts, s.ep.2, (s.label.getD 0), s.value)

/-- The two batches: the wait and the second publish; then the rest, oldest first. The fourth publish is recorded with
the time since the second one. -/
example : (collected 100 (run 100 {} (reg ++ [.control 1 ctl])) work).map show' =
    [(6, 1, 0, 4), (7, 1, 0, 0), (8, 7, 0, 3), (12, 1, 0, 5), (13, 7, 5, 2)] := by decide +kernel

example : (recorded (L := Nat) ctl 10 1 0 none work).map show' = [(6, 1, 0, 4), (7, 1, 0, 0), (12, 1, 0, 5)] ∧
    (recordedSub (L := Nat) ctl 10 7 work).map show' = [(8, 7, 0, 3), (13, 7, 5, 2)] := by decide +kernel

example : (∀ a ∈ work, KeepsPub 1 a) ∧ (∀ a ∈ work, Steady (expiry 1 ctl) a) ∧
    (work.filterMap stamp).Pairwise (· ≤ ·) ∧ wantsPub ctl 10 1 .publishDelta := by
  refine ⟨by simp [work, KeepsPub], ?_, by decide, by decide⟩
  have : expiry 1 ctl = some 101 := by decide
  rw [this]
  simp [work, Steady]

/-- Publisher 1 is there when tracing is set, subscriber 9 registers later; both are traced. -/
example : TracedPub ctl 10 1 1 (reg ++ [.control 1 ctl]) ∧ TracedSub ctl 10 7 1 (reg ++ [.control 1 ctl]) ∧
    TracedSub ctl 10 9 1 ([] ++ .control 1 ctl :: reg ++ [.regSub 9 10]) :=
  ⟨.before [] [.regSub 7 10] 3 (by simp [KeepsPub]), .before [.regPub 1 10 3] [] (by simp),
    .after [] reg (by simp [reg, Steady])⟩

example : (collected 100 (run 100 {} ([] ++ .control 1 ctl :: reg ++ [.regSub 9 10]))
    [.span 9 13 2 (some 5) (some 1) true, .batch 20 10]).map show' = [(13, 9, 5, 2)] := by decide +kernel

/-- With room for one sample the wait is lost. -/
example : (collected 1 (run 1 {} (reg ++ [.control 1 ctl])) work).map show' =
    [(7, 1, 0, 0), (8, 7, 0, 3), (12, 1, 0, 5), (13, 7, 5, 2)] := by decide +kernel

/-- What is not collected before tracing expires is never returned, nor what an endpoint recorded before it left. -/
example : (collected 9 (run 9 {} (reg ++ [.control 1 ctl])) [.wait 1 100 4 none, .batch 101 10]).map show' = [] ∧
    (collected 9 (run 9 {} (reg ++ [.control 1 ctl])) [.wait 1 50 4 none, .unregPub 1, .batch 60 10]).map show' = [] := by
  decide +kernel

end Example

end Prof
end Ez
