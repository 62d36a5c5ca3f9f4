import Verif.Lemmas.Profiling
import Verif.Props.Backpressure

/-!
# C65: what a profiling snapshot counts

`h` is the history of calls to the registry of a process since it started. The statements split the history where the
publisher (subscriber) registered and where snapshots were taken; they use nothing of the model but `run` and `step`.
-/

set_option linter.unusedSectionVars false
set_option linter.unusedSimpArgs false

namespace Ez
namespace Prof

variable {I T L : Type} [DecidableEq I] [DecidableEq T]

open PyDict

/-- The call does not end or restart the registration of publisher `id`. -/
def KeepsPub (id : I) : Act I T L → Prop
  | .regPub x _ _ => x ≠ id
  | .unregPub x => x ≠ id
  | .setProcess reset => reset = false
  | _ => True

def KeepsSub (id : I) : Act I T L → Prop
  | .regSub x _ => x ≠ id
  | .unregSub x => x ≠ id
  | .setProcess reset => reset = false
  | _ => True

/-- The call neither takes a snapshot nor starts a new process id. -/
def Quiet : Act I T L → Prop
  | .snapshot _ => False
  | .setProcess _ => False
  | _ => True

def isPublish (id : I) : Act I T L → Bool
  | .publish x _ _ _ => decide (x = id)
  | _ => false

def isReceive (id : I) : Act I T L → Bool
  | .receive x => decide (x = id)
  | _ => false

/-- Messages publisher `id` published, messages subscriber `id` took. -/
def published (id : I) (h : List (Act I T L)) : Nat := h.countP (isPublish id)
def received (id : I) (h : List (Act I T L)) : Nat := h.countP (isReceive id)

/-- The number of messages in flight a call reports for publisher `id`. -/
def reports (id : I) : Act I T L → Option Int
  | .publish x _ n _ => if x = id then some n else none
  | .inflight x n => if x = id then some n else none
  | _ => none

/-- The counters of a publisher (a subscriber) in the snapshot taken after `h`. -/
def pubCounts (cap : Nat) (h : List (Act I T L)) (now : Nat) (id : I) : Option Counts :=
  match (step cap (run cap {} h) (.snapshot now)).2 with
  | .counts ps _ => ps.get? id
  | _ => none

def subCounts (cap : Nat) (h : List (Act I T L)) (now : Nat) (id : I) : Option Counts :=
  match (step cap (run cap {} h) (.snapshot now)).2 with
  | .counts _ ss => ss.get? id
  | _ => none

/-! ## One call -/

def isSnap : Act I T L → Bool
  | .snapshot _ => true
  | _ => false

theorem publish_same (cap : Nat) (id : I) (m : PubM I T L) (now : Nat) (n : Int) (seq : Option Int) :
    (m.publish cap id now n seq).topic = m.topic ∧ (m.publish cap id now n seq).nb = m.nb ∧
    (m.publish cap id now n seq).total = m.total + 1 ∧ (m.publish cap id now n seq).last = m.last ∧
    (m.publish cap id now n seq).inflight = n := by
  simp only [PubM.publish]
  split
  · split <;> exact ⟨rfl, rfl, rfl, rfl, rfl⟩
  · exact ⟨rfl, rfl, rfl, rfl, rfl⟩

theorem wait_same (cap : Nat) (id : I) (m : PubM I T L) (now : Nat) (n : Int) (seq : Option Int) :
    m.Same (m.wait cap id now n seq) := by
  simp only [PubM.wait]; split <;> exact ⟨rfl, rfl, rfl, rfl, rfl⟩

theorem begin_same (m : SubM I T L) :
    m.begin.1.topic = m.topic ∧ m.begin.1.total = m.total + 1 ∧ m.begin.1.last = m.last := by
  simp only [SubM.begin]; split <;> exact ⟨rfl, rfl, rfl⟩

theorem lease_same (cap : Nat) (id : I) (m : SubM I T L) (now : Nat) (ns seq : Option Int) (b : Bool) :
    m.Same (m.lease cap id now ns seq b) := by
  simp only [SubM.lease]; split
  · exact .rfl m
  · split <;> exact ⟨rfl, rfl, rfl⟩

theorem span_same (cap : Nat) (id : I) (m : SubM I T L) (now : Nat) (ns : Int) (label : Option L) (seq : Option Int)
    (b : Bool) : m.Same (m.span cap id now ns label seq b) := by
  simp only [SubM.span]; split <;> exact ⟨rfl, rfl, rfl⟩

/-- The metric after a snapshot. -/
def PubM.mark (m : PubM I T L) : PubM I T L := { m with last := m.total }

theorem snapshot_pub (cap : Nat) (r : Reg I T L) (now : Nat) (id : I) :
    (step cap r (.snapshot now)).1.pubs.get? id = (r.pubs.get? id).map PubM.mark :=
  get?_map r.pubs (fun _ m => m.mark) id

def SubM.mark (m : SubM I T L) : SubM I T L := { m with last := m.total }

theorem snapshot_sub (cap : Nat) (r : Reg I T L) (now : Nat) (id : I) :
    (step cap r (.snapshot now)).1.subs.get? id = (r.subs.get? id).map SubM.mark :=
  get?_map r.subs (fun _ m => m.mark) id

/-- What a call may do to the metric of a publisher. -/
structure PubStep (id : I) (a : Act I T L) (m m' : PubM I T L) : Prop where
  topic : m'.topic = m.topic
  nb : m'.nb = m.nb
  total : m'.total = m.total + (if isPublish id a then 1 else 0)
  last : m'.last = if isSnap a then m.total else m.last
  inflight : m'.inflight = (reports id a).getD m.inflight

theorem PubStep.of_same {id : I} {a : Act I T L} {m m' : PubM I T L} (h : m.Same m') (h1 : isPublish id a = false)
    (h2 : isSnap a = false) (h3 : reports id a = none) : PubStep id a m m' :=
  ⟨h.1, h.2.1, by simp [h1, h.2.2.1], by simp [h2, h.2.2.2.1], by simp [h3, h.2.2.2.2]⟩

theorem step_pub (cap : Nat) {r : Reg I T L} {id : I} {m : PubM I T L} {a : Act I T L} (hm : r.pubs.get? id = some m)
    (hk : KeepsPub id a) : ∃ m', (step cap r a).1.pubs.get? id = some m' ∧ PubStep id a m m' := by
  cases a with
  | regPub x t nb =>
    refine ⟨m, ?_, .of_same (.rfl m) rfl rfl rfl⟩
    simp only [step, get?_set]
    rw [if_neg (fun h => hk h.symm)]; exact hm
  | unregPub x =>
    refine ⟨m, ?_, .of_same (.rfl m) rfl rfl rfl⟩
    simp only [step, get?_pop]
    rw [if_neg (fun h => hk h.symm)]; exact hm
  | regSub x t => exact ⟨m, hm, .of_same (.rfl m) rfl rfl rfl⟩
  | unregSub x => exact ⟨m, hm, .of_same (.rfl m) rfl rfl rfl⟩
  | publish x now n seq =>
    simp only [step, get?_modify]
    by_cases h : id = x
    · subst h
      have e := publish_same cap id m now n seq
      exact ⟨m.publish cap id now n seq, by simp [hm],
        e.1, e.2.1, by simp [e, isPublish], by simp [e, isSnap], by simp [e, reports]⟩
    · have h' : ¬ x = id := fun e => h e.symm
      exact ⟨m, by simp [h, hm], .of_same (.rfl m) (by simp [isPublish, h']) rfl (by simp [reports, h'])⟩
  | wait x now n seq =>
    simp only [step, get?_modify]
    by_cases h : id = x
    · subst h
      exact ⟨m.wait cap id now n seq, by simp [hm], .of_same (wait_same cap id m now n seq) rfl rfl rfl⟩
    · exact ⟨m, by simp [h, hm], .of_same (.rfl m) rfl rfl rfl⟩
  | inflight x n =>
    simp only [step, get?_modify]
    by_cases h : id = x
    · subst h
      exact ⟨{ m with inflight := n }, by simp [hm], rfl, rfl, by simp [isPublish], by simp [isSnap], by simp [reports]⟩
    · have h' : ¬ x = id := fun e => h e.symm
      exact ⟨m, by simp [h, hm], .of_same (.rfl m) rfl rfl (by simp [reports, h'])⟩
  | receive x => exact ⟨m, hm, .of_same (.rfl m) rfl rfl rfl⟩
  | lease x now ns seq b => exact ⟨m, hm, .of_same (.rfl m) rfl rfl rfl⟩
  | span x now ns l seq b => exact ⟨m, hm, .of_same (.rfl m) rfl rfl rfl⟩
  | setProcess reset =>
    have : reset = false := hk
    subst this
    exact ⟨m, hm, .of_same (.rfl m) rfl rfl rfl⟩
  | snapshot now =>
    refine ⟨{ m with last := m.total }, ?_, rfl, rfl, by simp [isPublish], by simp [isSnap], by simp [reports]⟩
    exact (get?_map r.pubs (fun _ (m : PubM I T L) => { m with last := m.total }) id).trans (by rw [hm])
  | control now c =>
    obtain ⟨m', h1, h2⟩ := setControl_same r now c hm
    exact ⟨m', h1, .of_same h2 rfl rfl rfl⟩
  | batch now k =>
    obtain ⟨m', h1, h2⟩ := batch_same r now k hm
    exact ⟨m', h1, .of_same h2 rfl rfl rfl⟩
  | enabled now =>
    obtain ⟨m', h1, h2⟩ := expire_same r now hm
    exact ⟨m', h1, .of_same h2 rfl rfl rfl⟩

structure SubStep (id : I) (a : Act I T L) (m m' : SubM I T L) : Prop where
  topic : m'.topic = m.topic
  total : m'.total = m.total + (if isReceive id a then 1 else 0)
  last : m'.last = if isSnap a then m.total else m.last

theorem SubStep.of_same {id : I} {a : Act I T L} {m m' : SubM I T L} (h : m.Same m') (h1 : isReceive id a = false)
    (h2 : isSnap a = false) : SubStep id a m m' :=
  ⟨h.1, by simp [h1, h.2.1], by simp [h2, h.2.2]⟩

theorem step_sub (cap : Nat) {r : Reg I T L} {id : I} {m : SubM I T L} {a : Act I T L} (hm : r.subs.get? id = some m)
    (hk : KeepsSub id a) : ∃ m', (step cap r a).1.subs.get? id = some m' ∧ SubStep id a m m' := by
  cases a with
  | regSub x t =>
    refine ⟨m, ?_, .of_same (.rfl m) rfl rfl⟩
    simp only [step, get?_set]
    rw [if_neg (fun h => hk h.symm)]; exact hm
  | unregSub x =>
    refine ⟨m, ?_, .of_same (.rfl m) rfl rfl⟩
    simp only [step, get?_pop]
    rw [if_neg (fun h => hk h.symm)]; exact hm
  | regPub x t nb => exact ⟨m, hm, .of_same (.rfl m) rfl rfl⟩
  | unregPub x => exact ⟨m, hm, .of_same (.rfl m) rfl rfl⟩
  | receive x =>
    simp only [step, get?_modify]
    by_cases h : id = x
    · subst h
      have e := begin_same m
      exact ⟨m.begin.1, by simp [hm], e.1, by simp [e, isReceive], by simp [e, isSnap]⟩
    · have h' : ¬ x = id := fun e => h e.symm
      exact ⟨m, by simp [h, hm], .of_same (.rfl m) (by simp [isReceive, h']) rfl⟩
  | publish x now n seq => exact ⟨m, hm, .of_same (.rfl m) rfl rfl⟩
  | wait x now n seq => exact ⟨m, hm, .of_same (.rfl m) rfl rfl⟩
  | inflight x n => exact ⟨m, hm, .of_same (.rfl m) rfl rfl⟩
  | lease x now ns seq b =>
    simp only [step, get?_modify]
    by_cases h : id = x
    · subst h
      exact ⟨m.lease cap id now ns seq b, by simp [hm], .of_same (lease_same cap id m now ns seq b) rfl rfl⟩
    · exact ⟨m, by simp [h, hm], .of_same (.rfl m) rfl rfl⟩
  | span x now ns l seq b =>
    simp only [step, get?_modify]
    by_cases h : id = x
    · subst h
      exact ⟨m.span cap id now ns l seq b, by simp [hm], .of_same (span_same cap id m now ns l seq b) rfl rfl⟩
    · exact ⟨m, by simp [h, hm], .of_same (.rfl m) rfl rfl⟩
  | setProcess reset =>
    have : reset = false := hk
    subst this
    exact ⟨m, hm, .of_same (.rfl m) rfl rfl⟩
  | snapshot now =>
    refine ⟨{ m with last := m.total }, ?_, rfl, by simp [isReceive], by simp [isSnap]⟩
    exact (get?_map r.subs (fun _ (m : SubM I T L) => { m with last := m.total }) id).trans (by rw [hm])
  | control now c =>
    obtain ⟨m', h1, h2⟩ := setControl_sameS r now c hm
    exact ⟨m', h1, .of_same h2 rfl rfl⟩
  | batch now k =>
    obtain ⟨m', h1, h2⟩ := batch_sameS r now k hm
    exact ⟨m', h1, .of_same h2 rfl rfl⟩
  | enabled now =>
    obtain ⟨m', h1, h2⟩ := expire_sameS r now hm
    exact ⟨m', h1, .of_same h2 rfl rfl⟩

theorem step_lastTs (cap : Nat) {r : Reg I T L} {a : Act I T L} (hq : Quiet a) : (step cap r a).1.lastTs = r.lastTs := by
  cases a <;> first | rfl | exact hq.elim | simp [step]

/-! ## Many calls -/

theorem run_lastTs (cap : Nat) (h : List (Act I T L)) : ∀ (r : Reg I T L), (∀ a ∈ h, Quiet a) →
    (run cap r h).lastTs = r.lastTs := by
  induction h with
  | nil => intro r _; rfl
  | cons a h ih =>
    intro r hq
    rw [run_cons, ih _ (fun x hx => hq x (List.mem_cons_of_mem _ hx)), step_lastTs cap (hq a (List.mem_cons_self ..))]

theorem run_pub (cap : Nat) (id : I) (h : List (Act I T L)) : ∀ (r : Reg I T L) (m : PubM I T L),
    r.pubs.get? id = some m → (∀ a ∈ h, KeepsPub id a) →
    ∃ m', (run cap r h).pubs.get? id = some m' ∧ m'.nb = m.nb ∧ m'.total = m.total + published id h ∧
      ((∀ a ∈ h, Quiet a) → m'.last = m.last) ∧ ((∀ a ∈ h, reports id a = none) → m'.inflight = m.inflight) := by
  induction h with
  | nil => intro r m hm _; exact ⟨m, hm, rfl, by simp [published], fun _ => rfl, fun _ => rfl⟩
  | cons a h ih =>
    intro r m hm hk
    obtain ⟨m1, h1, s⟩ := step_pub cap hm (hk a (List.mem_cons_self ..))
    obtain ⟨m2, h2, hn, ht, hl, hi⟩ := ih _ m1 h1 (fun x hx => hk x (List.mem_cons_of_mem _ hx))
    refine ⟨m2, h2, hn.trans s.nb, ?_, ?_, ?_⟩
    · rw [ht, s.total]; simp only [published, List.countP_cons]; omega
    · intro hq
      rw [hl (fun x hx => hq x (List.mem_cons_of_mem _ hx)), s.last]
      have := hq a (List.mem_cons_self ..)
      cases a <;> first | rfl | exact this.elim
    · intro hr
      rw [hi (fun x hx => hr x (List.mem_cons_of_mem _ hx)), s.inflight, hr a (List.mem_cons_self ..)]; rfl

theorem run_sub (cap : Nat) (id : I) (h : List (Act I T L)) : ∀ (r : Reg I T L) (m : SubM I T L),
    r.subs.get? id = some m → (∀ a ∈ h, KeepsSub id a) →
    ∃ m', (run cap r h).subs.get? id = some m' ∧ m'.total = m.total + received id h ∧
      ((∀ a ∈ h, Quiet a) → m'.last = m.last) := by
  induction h with
  | nil => intro r m hm _; exact ⟨m, hm, by simp [received], fun _ => rfl⟩
  | cons a h ih =>
    intro r m hm hk
    obtain ⟨m1, h1, s⟩ := step_sub cap hm (hk a (List.mem_cons_self ..))
    obtain ⟨m2, h2, ht, hl⟩ := ih _ m1 h1 (fun x hx => hk x (List.mem_cons_of_mem _ hx))
    refine ⟨m2, h2, ?_, ?_⟩
    · rw [ht, s.total]; simp only [received, List.countP_cons]; omega
    · intro hq
      rw [hl (fun x hx => hq x (List.mem_cons_of_mem _ hx)), s.last]
      have := hq a (List.mem_cons_self ..)
      cases a <;> first | rfl | exact this.elim

/-- The counters shown for a metric. -/
theorem pubCounts_eq (cap : Nat) (h : List (Act I T L)) (now : Nat) (id : I) :
    pubCounts cap h now id = ((run cap {} h).pubs.get? id).map (fun m => m.counts (run cap {} h).lastTs now) :=
  get?_map _ (fun _ (m : PubM I T L) => m.counts (run cap {} h).lastTs now) id

theorem subCounts_eq (cap : Nat) (h : List (Act I T L)) (now : Nat) (id : I) :
    subCounts cap h now id = ((run cap {} h).subs.get? id).map (fun m => m.counts (run cap {} h).lastTs) :=
  get?_map _ (fun _ (m : SubM I T L) => m.counts (run cap {} h).lastTs) id

theorem reg_pub (cap : Nat) (pre : List (Act I T L)) (id : I) (t : T) (nb : Int) :
    ∃ m, (run cap {} (pre ++ [.regPub id t nb])).pubs.get? id = some m ∧ m.nb = (max 1 nb).toNat ∧ m.total = 0 ∧
      m.last = 0 := by
  rw [run_append]
  exact ⟨_, by simp [run, step, get?_set]; rfl, rfl, rfl, rfl⟩

theorem reg_sub (cap : Nat) (pre : List (Act I T L)) (id : I) (t : T) :
    ∃ m, (run cap {} (pre ++ [.regSub id t])).subs.get? id = some m ∧ m.total = 0 ∧ m.last = 0 := by
  rw [run_append]
  exact ⟨_, by simp [run, step, get?_set]; rfl, rfl, rfl⟩

/-! ## The claims -/

/-- **C65**: a snapshot lists every registered publisher, with the number of messages it published since it registered
and the number of buffers it asked for (at least one). -/
theorem C65_published_total (cap : Nat) (pre mid : List (Act I T L)) (id : I) (t : T) (nb : Int) (now : Nat)
    (hk : ∀ a ∈ mid, KeepsPub id a) :
    ∃ c, pubCounts cap (pre ++ .regPub id t nb :: mid) now id = some c ∧ c.total = published id mid ∧
      (c.nb : Int) = max 1 nb := by
  obtain ⟨m, hm, hn, ht, _⟩ := reg_pub cap pre id t nb
  obtain ⟨m', hm', hn', ht', _⟩ := run_pub cap id mid _ m hm hk
  rw [← run_append, List.append_assoc, List.singleton_append] at hm'
  refine ⟨_, by rw [pubCounts_eq, hm']; rfl, ?_, ?_⟩
  · show m'.total = _; omega
  · show (m'.nb : Int) = _; omega

/-- Snapshots list only registered publishers. -/
theorem C65_only_registered (cap : Nat) (h : List (Act I T L)) (id : I) (now : Nat) (c : Counts)
    (hc : pubCounts cap h now id = some c) :
    ∃ pre t nb mid, h = pre ++ .regPub id t nb :: mid ∧ ∀ a ∈ mid, KeepsPub id a := by
  rw [pubCounts_eq] at hc
  cases hm : (run cap {} h).pubs.get? id with
  | none => rw [hm] at hc; simp at hc
  | some m =>
  clear hc
  induction h using list_snoc_induction generalizing m with
  | h0 => simp [run, get?] at hm
  | hs h a ih =>
    rw [run_append] at hm
    by_cases hr : ∃ t nb, a = .regPub id t nb
    · obtain ⟨t, nb, rfl⟩ := hr
      exact ⟨h, t, nb, [], by simp, by simp⟩
    · have key : KeepsPub id a ∧ ∃ m', (run cap {} h).pubs.get? id = some m' := by
        generalize run cap {} h = r at hm ⊢
        have hm : (step cap r a).1.pubs.get? id = some m := hm
        have expd : ∀ now, (expire r now).pubs.get? id = none ∨ ∃ m', r.pubs.get? id = some m' := by
          intro now
          cases hg : r.pubs.get? id with
          | some m' => exact .inr ⟨m', rfl⟩
          | none =>
            left; unfold expire; split
            · exact hg
            · split
              · exact hg
              · rw [setControl_pub, hg]; rfl
        cases a with
        | regPub x t nb =>
          have hx : x ≠ id := fun e => hr ⟨t, nb, by rw [e]⟩
          refine ⟨hx, m, ?_⟩
          simp only [step, get?_set] at hm
          rwa [if_neg (fun h => hx h.symm)] at hm
        | unregPub x =>
          simp only [step, get?_pop] at hm
          by_cases hx : id = x
          · simp [hx] at hm
          · exact ⟨fun e => hx e.symm, m, by simpa [hx] using hm⟩
        | setProcess reset =>
          cases reset with
          | true => simp [step, get?] at hm
          | false => exact ⟨rfl, m, hm⟩
        | publish x now n seq =>
          refine ⟨trivial, ?_⟩
          simp only [step, get?_modify] at hm
          cases hg : r.pubs.get? id with
          | none => simp [hg] at hm
          | some m' => exact ⟨m', rfl⟩
        | wait x now n seq =>
          refine ⟨trivial, ?_⟩
          simp only [step, get?_modify] at hm
          cases hg : r.pubs.get? id with
          | none => simp [hg] at hm
          | some m' => exact ⟨m', rfl⟩
        | inflight x n =>
          refine ⟨trivial, ?_⟩
          simp only [step, get?_modify] at hm
          cases hg : r.pubs.get? id with
          | none => simp [hg] at hm
          | some m' => exact ⟨m', rfl⟩
        | snapshot now =>
          refine ⟨trivial, ?_⟩
          rw [snapshot_pub] at hm
          cases hg : r.pubs.get? id with
          | none => simp [hg] at hm
          | some m' => exact ⟨m', rfl⟩
        | control now c =>
          refine ⟨trivial, ?_⟩
          have hm := (setControl_pub r now c id).symm.trans hm
          cases hg : r.pubs.get? id with
          | none => simp [hg] at hm
          | some m' => exact ⟨m', rfl⟩
        | enabled now =>
          refine ⟨trivial, ?_⟩
          rcases expd now with h | h
          · simp only [step] at hm; rw [h] at hm; simp at hm
          · exact h
        | batch now k =>
          refine ⟨trivial, ?_⟩
          rcases expd now with h | h
          · exfalso
            have hk : id ∈ keys (batch r now k).1.pubs := by rw [mem_keys]; simp only [step] at hm; rw [hm]; rfl
            rw [batch_pubs, keys_zip (fun (m : PubM I T L) q => { m with samples := q }) _ _ (by simp [length_rest]),
              mem_keys, h] at hk
            simp at hk
          · exact h
        | regSub x t => exact ⟨trivial, m, hm⟩
        | unregSub x => exact ⟨trivial, m, hm⟩
        | receive x => exact ⟨trivial, m, hm⟩
        | lease x now ns seq b => exact ⟨trivial, m, hm⟩
        | span x now ns l seq b => exact ⟨trivial, m, hm⟩
      obtain ⟨hka, m', hm'⟩ := key
      obtain ⟨pre, t, nb, mid, rfl, hk⟩ := ih m' hm'
      refine ⟨pre, t, nb, mid ++ [a], by simp, ?_⟩
      intro x hx
      rcases List.mem_append.1 hx with hx | hx
      · exact hk x hx
      · rw [List.mem_singleton.1 hx]; exact hka

/-- The window of a publisher that was there at the previous snapshot counts what it published since that snapshot; the
rate is that number over the time between the two. -/
theorem C65_window_since_snapshot (cap : Nat) (pre a b : List (Act I T L)) (id : I) (t : T) (nb : Int) (ts now : Nat)
    (ha : ∀ x ∈ a, KeepsPub id x) (hb : ∀ x ∈ b, KeepsPub id x) (hq : ∀ x ∈ b, Quiet x) :
    ∃ c, pubCounts cap (pre ++ .regPub id t nb :: a ++ .snapshot ts :: b) now id = some c ∧
      c.window = published id b ∧ c.total = published id a + published id b ∧
      c.rate = if ts < now then some (published id b, (now : Int) - ts) else none := by
  obtain ⟨m, hm, hn, ht, _⟩ := reg_pub cap pre id t nb
  obtain ⟨m1, hm1, _, ht1, _⟩ := run_pub cap id a _ m hm ha
  obtain ⟨m2, hm2, s⟩ := step_pub cap (a := .snapshot ts) hm1 trivial
  obtain ⟨m3, hm3, _, ht3, hl3, _⟩ := run_pub cap id b _ m2 hm2 hb
  have e : run cap {} (pre ++ .regPub id t nb :: a ++ .snapshot ts :: b) =
      run cap (step cap (run cap (run cap {} (pre ++ [.regPub id t nb])) a) (.snapshot ts)).1 b := by
    simp [run]
  have hl := hl3 hq
  have hts : (run cap {} (pre ++ .regPub id t nb :: a ++ .snapshot ts :: b)).lastTs = some ts := by
    rw [e, run_lastTs cap b _ hq]; rfl
  have st := s.total; have sl := s.last
  simp [isPublish, isSnap] at st sl
  have hw : window (some ts) m3.total m3.last = published id b := by
    simp only [window, Option.isSome_some, if_true]; omega
  refine ⟨m3.counts (some ts) now, by rw [pubCounts_eq, hts, e, hm3]; rfl, hw, ?_, ?_⟩
  · show m3.total = _; omega
  · show (if ts < now then some (window (some ts) m3.total m3.last, _) else none) = _
    rw [hw]

/-- The window of a publisher that registered after the previous snapshot counts all it published. -/
theorem C65_window_since_registration (cap : Nat) (a b mid : List (Act I T L)) (id : I) (t : T) (nb : Int) (ts now : Nat)
    (hk : ∀ x ∈ mid, KeepsPub id x) (hqb : ∀ x ∈ b, Quiet x) (hqm : ∀ x ∈ mid, Quiet x) :
    ∃ c, pubCounts cap (a ++ .snapshot ts :: b ++ .regPub id t nb :: mid) now id = some c ∧
      c.window = published id mid ∧ c.total = published id mid := by
  obtain ⟨m, hm, hn, ht, hl⟩ := reg_pub cap (a ++ .snapshot ts :: b) id t nb
  obtain ⟨m1, hm1, _, ht1, hl1, _⟩ := run_pub cap id mid _ m hm hk
  have e : run cap {} (a ++ .snapshot ts :: b ++ .regPub id t nb :: mid) =
      run cap (step cap (run cap {} a) (.snapshot ts)).1 (b ++ .regPub id t nb :: mid) := by simp [run]
  have hts : (run cap {} (a ++ .snapshot ts :: b ++ .regPub id t nb :: mid)).lastTs = some ts := by
    rw [e, run_lastTs]
    · rfl
    · intro x hx
      rcases List.mem_append.1 hx with hx | hx
      · exact hqb x hx
      · rcases List.mem_cons.1 hx with rfl | hx
        · trivial
        · exact hqm x hx
  rw [← run_append, List.append_assoc, List.singleton_append] at hm1
  have hl1 := hl1 hqm
  refine ⟨m1.counts (some ts) now, by rw [pubCounts_eq, hts, hm1]; rfl, ?_, ?_⟩
  · show window (some ts) m1.total m1.last = _
    simp only [window, Option.isSome_some, if_true]; omega
  · show m1.total = _; omega

/-- The first snapshot of a process id (`pre` may be empty) has empty windows. -/
theorem C65_window_first (cap : Nat) (pre b : List (Act I T L)) (reset : Bool) (id : I) (now : Nat) (c : Counts)
    (hq : ∀ x ∈ b, Quiet x) (hp : pubCounts cap (pre ++ .setProcess reset :: b) now id = some c ∨
      pubCounts cap b now id = some c) : c.window = 0 ∧ c.rate = none := by
  have aux : ∀ h : List (Act I T L), (run cap {} h).lastTs = none → pubCounts cap h now id = some c →
      c.window = 0 ∧ c.rate = none := by
    intro h hl hc
    rw [pubCounts_eq, hl] at hc
    cases hm : (run cap {} h).pubs.get? id with
    | none => rw [hm] at hc; simp at hc
    | some m =>
      rw [hm] at hc
      simp only [Option.map_some, Option.some.injEq] at hc
      subst hc
      exact ⟨rfl, rfl⟩
  rcases hp with hp | hp
  · refine aux _ ?_ hp
    rw [run_append, run_cons, run_lastTs cap b _ hq]
    cases reset <;> rfl
  · exact aux _ (run_lastTs cap b _ hq) hp

/-- The snapshot shows the number of messages in flight that was reported last. -/
theorem C65_inflight_reported_last (cap : Nat) (pre a b : List (Act I T L)) (x : Act I T L) (id : I) (t : T)
    (nb n : Int) (now : Nat) (ha : ∀ y ∈ a, KeepsPub id y) (hb : ∀ y ∈ b, KeepsPub id y) (hx : reports id x = some n)
    (hr : ∀ y ∈ b, reports id y = none) :
    ∃ c, pubCounts cap (pre ++ .regPub id t nb :: a ++ x :: b) now id = some c ∧ c.inflight = n := by
  obtain ⟨m, hm, _⟩ := reg_pub cap pre id t nb
  obtain ⟨m1, hm1, _⟩ := run_pub cap id a _ m hm ha
  obtain ⟨m2, hm2, s⟩ := step_pub cap (a := x) hm1 (by cases x <;> first | trivial | simp [reports] at hx)
  obtain ⟨m3, hm3, _, _, _, hi⟩ := run_pub cap id b _ m2 hm2 hb
  have e : run cap {} (pre ++ .regPub id t nb :: a ++ x :: b) =
      run cap (step cap (run cap (run cap {} (pre ++ [.regPub id t nb])) a) x).1 b := by simp [run]
  refine ⟨_, by rw [pubCounts_eq, e, hm3]; rfl, ?_⟩
  show m3.inflight = n
  rw [hi hr, s.inflight, hx]; rfl

/-- Subscribers: total, window since the previous snapshot. -/
theorem C65_received_total (cap : Nat) (pre mid : List (Act I T L)) (id : I) (t : T) (now : Nat)
    (hk : ∀ a ∈ mid, KeepsSub id a) :
    ∃ c, subCounts cap (pre ++ .regSub id t :: mid) now id = some c ∧ c.total = received id mid := by
  obtain ⟨m, hm, ht, _⟩ := reg_sub cap pre id t
  obtain ⟨m', hm', ht', _⟩ := run_sub cap id mid _ m hm hk
  rw [← run_append, List.append_assoc, List.singleton_append] at hm'
  refine ⟨_, by rw [subCounts_eq, hm']; rfl, ?_⟩
  show m'.total = _; omega

theorem C65_received_window (cap : Nat) (pre a b : List (Act I T L)) (id : I) (t : T) (ts now : Nat)
    (ha : ∀ x ∈ a, KeepsSub id x) (hb : ∀ x ∈ b, KeepsSub id x) (hq : ∀ x ∈ b, Quiet x) :
    ∃ c, subCounts cap (pre ++ .regSub id t :: a ++ .snapshot ts :: b) now id = some c ∧
      c.window = received id b ∧ c.total = received id a + received id b := by
  obtain ⟨m, hm, ht, _⟩ := reg_sub cap pre id t
  obtain ⟨m1, hm1, ht1, _⟩ := run_sub cap id a _ m hm ha
  obtain ⟨m2, hm2, s⟩ := step_sub cap (a := .snapshot ts) hm1 trivial
  obtain ⟨m3, hm3, ht3, hl3⟩ := run_sub cap id b _ m2 hm2 hb
  have e : run cap {} (pre ++ .regSub id t :: a ++ .snapshot ts :: b) =
      run cap (step cap (run cap (run cap {} (pre ++ [.regSub id t])) a) (.snapshot ts)).1 b := by
    simp [run]
  have hl := hl3 hq
  have hts : (run cap {} (pre ++ .regSub id t :: a ++ .snapshot ts :: b)).lastTs = some ts := by
    rw [e, run_lastTs cap b _ hq]; rfl
  have st := s.total; have sl := s.last
  simp [isReceive, isSnap] at st sl
  refine ⟨m3.counts (some ts), by rw [subCounts_eq, hts, e, hm3]; rfl, ?_, ?_⟩
  · show window (some ts) m3.total m3.last = _
    simp only [window, Option.isSome_some, if_true]; omega
  · show m3.total = _; omega

/-! ## Examples -/

namespace Example

/-- Publisher 1 (3 buffers) publishes twice before the first snapshot and three times before the second, publisher 2
registers in between; subscriber 7 takes two messages. Two messages of publisher 1 are in flight at the end. -/
def hist : List (Act Nat Nat Nat) :=
  [.regPub 1 10 3, .regSub 7 10, .publish 1 5 1 none, .receive 7, .publish 1 6 2 none, .inflight 1 1]

def later : List (Act Nat Nat Nat) :=
  [.publish 1 20 2 none, .regPub 2 11 0, .publish 2 21 1 none, .receive 7, .publish 1 22 3 none, .publish 1 23 3 none,
   .control 24 { enabled := true }, .batch 25 10, .inflight 1 2]

/-- First snapshot: totals, empty window. -/
example : pubCounts 4 hist 8 1 = some { total := 2, window := 0, inflight := 1, nb := 3, rate := none } := by decide

/-- Second: the window has the three messages since, over 22 ns; the new publisher all of its own. -/
example : pubCounts 4 (hist ++ .snapshot 8 :: later) 30 1 =
      some { total := 5, window := 3, inflight := 2, nb := 3, rate := some (3, 22) } ∧
    pubCounts 4 (hist ++ .snapshot 8 :: later) 30 2 =
      some { total := 1, window := 1, inflight := 1, nb := 1, rate := some (1, 22) } ∧
    subCounts 4 (hist ++ .snapshot 8 :: later) 30 7 =
      some { total := 2, window := 1, inflight := 0, nb := 0, rate := none } := by decide

/-- The hypotheses of the theorems hold of these histories. -/
example : (∀ a ∈ hist.tail ++ .snapshot 8 :: later, KeepsPub 1 a) ∧ (∀ a ∈ later, Quiet a) ∧
    published 1 later = 3 ∧ received 7 later = 1 := by
  refine ⟨?_, ?_, by decide, by decide⟩
  · simp [hist, later, KeepsPub]
  · simp [later, Quiet]

/-- A window counts from the previous snapshot, whoever asked for it: with a second observer asking at time 29, the
first one, who last asked at time 8, is told of no message. -/
example : pubCounts 4 (hist ++ .snapshot 8 :: later ++ [.snapshot 29]) 30 1 =
    some { total := 5, window := 0, inflight := 2, nb := 3, rate := some (0, 1) } := by decide

/-- An unregistered publisher is gone; registered again it starts from zero. -/
example : pubCounts 4 (hist ++ [.unregPub 1]) 8 1 = none ∧
    pubCounts 4 (hist ++ [.unregPub 1, .regPub 1 10 3]) 8 1 =
      some { total := 0, window := 0, inflight := 0, nb := 3, rate := none } := by decide

end Example

end Prof
end Ez
