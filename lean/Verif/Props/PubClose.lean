import Verif.Model.PubClose

/-!
# C102: closing a publisher

`Publisher.close` should end all tasks of the publisher and let go of its shared memory, and `wait_closed` return then.
-/

set_option linter.unusedSectionVars false
set_option linter.unusedSimpArgs false

namespace Ez
namespace PubClose
variable {K : Type} [DecidableEq K]

/-! ## Specification -/

def Task.over : Task → Prop
  | .ended _ => True
  | _ => False

/-- Nothing of the publisher is left: its tasks have ended, and with them its connections and its segment; it is no client of
its own channel, and if nobody else is, that has ended too; nobody is waiting for it. -/
structure Over (s : St K) : Prop where
  graph : s.graph.over
  shm : s.shm.over
  conn : s.conn = .ended
  links : ∀ k, s.link k = .absent ∨ ∃ t, s.link k = .task t ∧ t.over
  mine : s.mine = false
  chan : s.others = false → s.chan.over
  growth : s.growth = .idle
  wait : s.wait = .idle ∨ s.wait = .done ∨ s.wait = .raised

/-- Steps of the publisher's tasks, of those of its own channel, and of `wait_closed`. -/
def Own (a : Act K) : Prop :=
  a = .graphStep ∨ a = .shmStep ∨ a = .chanStep ∨ a = .connStep ∨ a = .waitStep ∨ ∃ k, a = .linkStep k

def Task.left : Task → Nat
  | .ended _ => 0
  | _ => 1

def Link.left : Link → Nat
  | .task t => t.left
  | _ => 0

def Conn.left : Conn → Nat
  | .serving => 3
  | .shutting => 2
  | .leaving => 1
  | .ended => 0

def Wait.left (n : Nat) : Wait → Nat
  | .idle => n + 5
  | .shm => n + 4
  | .graph => n + 3
  | .conn => n + 2
  | .chans i _ => n + 1 - i
  | _ => 0

/-- How many own steps a closed publisher takes at most. -/
def work (s : St K) : Nat :=
  s.graph.left + s.shm.left + s.chan.left + s.conn.left + (s.order.map (fun k => (s.link k).left)).sum + s.wait.left s.order.length

/-! ## Invariants -/

def Task.clean (t : Task) : Prop := t ≠ .closing true ∧ t ≠ .ended true

theorem clean_cancel {t : Task} (h : t.clean) : t.cancel.clean := by
  cases t <;> simp_all [Task.cancel, Task.clean]

theorem clean_finish {t u : Task} (h : t.clean) (hf : t.finish = some u) : u.clean := by
  cases t <;> simp_all [Task.finish, Task.clean]
  subst hf; simp [h]

/-- The channel tasks are those of the connections that have one. -/
structure Base (s : St K) : Prop where
  nodup : s.order.Nodup
  order : ∀ k, k ∈ s.order ↔ ∃ t, s.link k = .task t
  graph : s.graph.clean
  shm : s.shm.clean
  chan : s.chan.clean

/-- Before the publisher is closed. -/
structure Pre (s : St K) : Prop where
  base : Base s
  fresh : s.fresh.clean
  conn : s.conn = .serving
  mine : s.mine = true
  wait : s.wait = .idle

theorem base_set {s : St K} (h : Base s) {k : K} {t : Task} (hk : k ∈ s.order) : Base (s.setLink k (.task t)) := by
  refine ⟨h.nodup, ?_, h.graph, h.shm, h.chan⟩
  intro q
  by_cases e : q = k
  · subst e; simp [St.setLink, hk]
  · simp only [St.setLink, e, if_false]
    exact h.order q

theorem base_set' {s : St K} (h : Base s) {k : K} {l : Link} (hk : ∀ t, s.link k ≠ .task t) (hl : ∀ t, l ≠ .task t) :
    Base (s.setLink k l) := by
  refine ⟨h.nodup, ?_, h.graph, h.shm, h.chan⟩
  intro q
  by_cases e : q = k
  · subst e
    simp only [St.setLink, if_true]
    rw [h.order q]
    simp [hk, hl]
  · simp only [St.setLink, e, if_false]
    exact h.order q

theorem base_step {waits : Bool} {a : Act K} {s s' : St K} (h : Base s) (hfr : s.fresh.clean) (ha : a ≠ .close)
    (hs : step waits a s s') : Base s' ∧ s'.fresh.clean := by
  have c1 : ∀ {k t}, s.link k = .task t → k ∈ s.order := fun {k t} e => (h.order k).2 ⟨t, e⟩
  cases a with
  | close => exact absurd rfl ha
  | connect k =>
    obtain ⟨-, h1, rfl⟩ := hs
    exact ⟨base_set' h (by simp [h1]) (by simp), hfr⟩
  | greet k =>
    obtain ⟨h1, rfl⟩ := hs
    have hk : k ∉ s.order := by rw [h.order k]; simp [h1]
    refine ⟨⟨?_, ?_, h.graph, h.shm, h.chan⟩, hfr⟩
    · simp only
      rw [List.nodup_append]
      refine ⟨h.nodup, by simp, ?_⟩
      intro x hx y hy e
      cases List.mem_singleton.1 hy
      exact hk (e ▸ hx)
    · intro q
      by_cases e : q = k
      · subst e; simp [St.setLink]
      · simp only [St.setLink, e, if_false, List.mem_append, List.mem_singleton, or_false]
        exact h.order q
  | drop k => obtain ⟨h1, rfl⟩ := hs; exact ⟨base_set' h (by simp [h1]) (by simp), hfr⟩
  | linkEof k => obtain ⟨h1, rfl⟩ := hs; exact ⟨base_set h (c1 h1), hfr⟩
  | linkBreak k => obtain ⟨h1, rfl⟩ := hs; exact ⟨base_set h (c1 h1), hfr⟩
  | linkStep k => obtain ⟨b, h1, rfl⟩ := hs; exact ⟨base_set h (c1 h1), hfr⟩
  | graphEof => obtain ⟨-, rfl⟩ := hs; exact ⟨⟨h.nodup, h.order, by simp [Task.clean], h.shm, h.chan⟩, hfr⟩
  | graphStep => obtain ⟨t, h1, rfl⟩ := hs; exact ⟨⟨h.nodup, h.order, clean_finish h.graph h1, h.shm, h.chan⟩, hfr⟩
  | chanEof => obtain ⟨-, rfl⟩ := hs; exact ⟨⟨h.nodup, h.order, h.graph, h.shm, by simp [Task.clean]⟩, hfr⟩
  | chanStep => obtain ⟨t, h1, rfl⟩ := hs; exact ⟨⟨h.nodup, h.order, h.graph, h.shm, clean_finish h.chan h1⟩, hfr⟩
  | shmEof => obtain ⟨-, rfl⟩ := hs; exact ⟨⟨h.nodup, h.order, h.graph, by simp [Task.clean], h.chan⟩, hfr⟩
  | shmStep => obtain ⟨t, h1, rfl⟩ := hs; exact ⟨⟨h.nodup, h.order, h.graph, clean_finish h.shm h1, h.chan⟩, hfr⟩
  | connStep =>
    rcases hs with ⟨-, -, rfl⟩ | ⟨-, -, rfl⟩
    · simp only [St.unregister]
      split
      · exact ⟨⟨h.nodup, h.order, h.graph, h.shm, h.chan⟩, hfr⟩
      · exact ⟨⟨h.nodup, h.order, h.graph, h.shm, clean_cancel h.chan⟩, hfr⟩
    · exact ⟨⟨h.nodup, h.order, h.graph, h.shm, h.chan⟩, hfr⟩
  | join => obtain ⟨-, rfl⟩ := hs; exact ⟨⟨h.nodup, h.order, h.graph, h.shm, h.chan⟩, hfr⟩
  | leave =>
    obtain ⟨-, rfl⟩ := hs
    refine ⟨⟨h.nodup, h.order, h.graph, h.shm, ?_⟩, hfr⟩
    simp only
    split
    · exact h.chan
    · exact clean_cancel h.chan
  | grow => obtain ⟨-, rfl⟩ := hs; exact ⟨⟨h.nodup, h.order, h.graph, h.shm, h.chan⟩, hfr⟩
  | made =>
    obtain ⟨-, rfl⟩ := hs
    split
    · exact ⟨⟨h.nodup, h.order, h.graph, by simp [Task.clean], h.chan⟩, by simp [Task.clean]⟩
    · exact ⟨⟨h.nodup, h.order, h.graph, h.shm, h.chan⟩, hfr⟩
  | moved => obtain ⟨-, -, rfl⟩ := hs; exact ⟨⟨h.nodup, h.order, h.graph, hfr, h.chan⟩, hfr⟩
  | wait => obtain ⟨-, rfl⟩ := hs; exact ⟨⟨h.nodup, h.order, h.graph, h.shm, h.chan⟩, hfr⟩
  | waitStep => obtain ⟨w, -, rfl⟩ := hs; exact ⟨⟨h.nodup, h.order, h.graph, h.shm, h.chan⟩, hfr⟩

theorem pre_step {waits : Bool} {a : Act K} {s s' : St K} (h : Pre s) (ha : a ≠ .close) (hb : a ≠ .wait)
    (hs : step waits a s s') : Pre s' := by
  obtain ⟨h1, h2⟩ := base_step h.base h.fresh ha hs
  have h3 := h.conn
  have h4 := h.mine
  have h5 := h.wait
  refine ⟨h1, h2, ?_, ?_, ?_⟩ <;> clear h1 h2 <;> cases a <;>
    simp only [step, St.setLink, PubClose.waitStep, h3, h4, h5] at hs <;> (try contradiction) <;>
    (try (obtain ⟨-, -, rfl⟩ := hs; first | assumption | rfl)) <;> (try (obtain ⟨_, -, rfl⟩ := hs; first | assumption | rfl)) <;>
    (try (obtain ⟨-, rfl⟩ := hs; first | assumption | rfl)) <;>
    simp_all
  all_goals (obtain ⟨-, rfl⟩ := hs; split <;> first | rfl | assumption)

theorem pre_run {waits : Bool} (as : List (Act K)) : ∀ (s t : St K), Pre s → (∀ a ∈ as, a ≠ .close ∧ a ≠ .wait) →
    run waits as s t → Pre t := by
  induction as with
  | nil => intro s t h _ hr; cases hr; exact h
  | cons a as ih =>
    intro s t h ha hr
    obtain ⟨s', hs, hr⟩ := hr
    exact ih s' t (pre_step h (ha a (by simp)).1 (ha a (by simp)).2 hs) (fun b hb => ha b (by simp [hb])) hr

theorem pre_init (others : Bool) : Pre (init others : St K) := by
  refine ⟨⟨by simp [init], by simp [init], ?_, ?_, ?_⟩, ?_, rfl, rfl, rfl⟩ <;> simp [init, Task.clean]

/-- What `wait_closed` has seen. -/
def Seen (s : St K) : Prop :=
  match s.wait with
  | .idle | .shm => True
  | .graph => s.shm.over
  | .conn => s.shm.over ∧ s.graph.over
  | .chans i size => s.shm.over ∧ s.graph.over ∧ s.conn = .ended ∧ size = s.order.length ∧ i ≤ size ∧
      ∀ j k, j < i → s.order[j]? = some k → s.link k = .task (.ended false)
  | .done => s.shm.over ∧ s.graph.over ∧ s.conn = .ended ∧ ∀ k ∈ s.order, s.link k = .task (.ended false)
  | .raised => ∃ k ∈ s.order, s.link k = .task (.ended true)

/-- After the publisher was closed. -/
structure Post (s : St K) : Prop where
  base : Base s
  conn : s.conn ≠ .serving
  links : ∀ k, s.link k ≠ .connecting ∧ s.link k ≠ .task .reading
  graph : s.graph ≠ .reading
  shm : s.shm ≠ .reading
  growth : s.growth = .idle
  mine : s.conn = .shutting ↔ s.mine = true
  leaving : s.conn = .leaving → s.others = false
  chan : s.mine = false → s.others = false → s.chan ≠ .reading
  seen : Seen s

theorem cancel_ne (t : Task) : t.cancel ≠ .reading := by cases t <;> simp [Task.cancel]

theorem post_close {s : St K} (h : Pre s) (hg : s.growth = .idle) (hl : ∀ k, s.link k ≠ .connecting) : Post (close s) := by
  refine ⟨⟨h.base.nodup, ?_, clean_cancel h.base.graph, clean_cancel h.base.shm, ?_⟩, ?_, ?_, cancel_ne _, cancel_ne _, hg, ?_, ?_, ?_, ?_⟩
  · intro k
    simp only [close]
    constructor
    · intro this
      obtain ⟨t, ht⟩ := (h.base.order k).1 this
      exact ⟨t.cancel, by simp [this, ht, Link.cancel]⟩
    · rintro ⟨t, ht⟩
      split at ht
      · assumption
      · exact (h.base.order k).2 ⟨t, ht⟩
  · simp only [close, h.conn]
    exact h.base.chan
  · simp [close, h.conn]
  · intro k
    simp only [close]
    split
    · rename_i hk
      obtain ⟨t, ht⟩ := (h.base.order k).1 hk
      simp only [ht, Link.cancel]
      exact ⟨by simp, fun e => cancel_ne t (by simpa using e)⟩
    · rename_i hk
      exact ⟨hl k, fun e => hk ((h.base.order k).2 ⟨_, e⟩)⟩
  · simp [close, h.conn, h.mine]
  · simp [close, h.conn]
  · simp [close, h.mine]
  · simp [Seen, close, h.wait]

theorem sum_le {l : List K} {f g : K → Nat} (h : ∀ k ∈ l, f k ≤ g k) : (l.map f).sum ≤ (l.map g).sum := by
  induction l with
  | nil => simp
  | cons a l ih =>
    simp only [List.map_cons, List.sum_cons]
    exact Nat.add_le_add (h a (by simp)) (ih (fun k hk => h k (by simp [hk])))

theorem sum_lt {l : List K} {f g : K → Nat} (h : ∀ k ∈ l, f k ≤ g k) {k : K} (hk : k ∈ l) (hlt : f k < g k) :
    (l.map f).sum < (l.map g).sum := by
  induction l with
  | nil => cases hk
  | cons a l ih =>
    simp only [List.map_cons, List.sum_cons]
    have h1 := h a (by simp)
    have h2 := sum_le (l := l) (f := f) (g := g) (fun k hk => h k (by simp [hk]))
    rcases List.mem_cons.1 hk with e | e
    · subst e; omega
    · have := ih (fun k hk => h k (by simp [hk])) e
      omega

theorem finish_left {t u : Task} (h : t.finish = some u) : u.left < t.left ∧ t ≠ .reading ∧ u.over ∧ ¬ t.over := by
  cases t <;> simp [Task.finish] at h
  subst h; simp [Task.left, Task.over]

theorem cancel_left (t : Task) : t.cancel.left ≤ t.left := by cases t <;> simp [Task.cancel, Task.left]

theorem over_ended {t : Task} (hc : t.clean) (h : t.over) : t = .ended false := by
  cases t with
  | ended b => cases b <;> simp_all [Task.clean]
  | _ => simp [Task.over] at h

theorem seen_mono {s s' : St K} (h : Seen s) (hw : s'.wait = s.wait) (ho : s'.order = s.order)
    (h1 : s.shm.over → s'.shm.over) (h2 : s.graph.over → s'.graph.over) (h3 : s.conn = .ended → s'.conn = .ended)
    (h4 : ∀ k b, s.link k = .task (.ended b) → s'.link k = .task (.ended b)) : Seen s' := by
  simp only [Seen] at h ⊢
  rw [hw, ho]
  cases hss : s.wait with
  | idle => trivial
  | shm => trivial
  | graph => rw [hss] at h; exact h1 h
  | conn => rw [hss] at h; exact ⟨h1 h.1, h2 h.2⟩
  | chans i n =>
    rw [hss] at h
    exact ⟨h1 h.1, h2 h.2.1, h3 h.2.2.1, h.2.2.2.1, h.2.2.2.2.1, fun j k hj hk => h4 k _ (h.2.2.2.2.2 j k hj hk)⟩
  | done => rw [hss] at h; exact ⟨h1 h.1, h2 h.2.1, h3 h.2.2.1, fun k hk => h4 k _ (h.2.2.2 k hk)⟩
  | raised =>
    rw [hss] at h
    obtain ⟨k, hk, hb⟩ := h
    exact ⟨k, hk, h4 k _ hb⟩

/-- Steps other than those that start something new. -/
def Late (a : Act K) : Prop := a ≠ .close ∧ a ≠ .grow

theorem post_step {waits : Bool} {a : Act K} {s s' : St K} (h : Post s) (hfr : s.fresh.clean) (ha : Late a)
    (hs : step waits a s s') : Post s' ∧ work s' ≤ work s ∧ (Own a → work s' < work s) := by
  have hb := (base_step h.base hfr ha.1 hs).1
  cases a with
  | close => exact absurd rfl ha.1
  | grow => exact absurd rfl ha.2
  | connect k => exact absurd hs.1 h.conn
  | greet k => exact absurd hs.1 (h.links k).1
  | drop k => exact absurd hs.1 (h.links k).1
  | linkEof k => exact absurd hs.1 (h.links k).2
  | linkBreak k => exact absurd hs.1 (h.links k).2
  | graphEof => exact absurd hs.1 h.graph
  | shmEof => exact absurd hs.1 h.shm
  | made => have := hs.1; rw [h.growth] at this; cases this
  | moved => have := hs.1; rw [h.growth] at this; cases this
  | linkStep k =>
    obtain ⟨b, h1, rfl⟩ := hs
    have hk : k ∈ s.order := (h.base.order k).2 ⟨_, h1⟩
    have hlt : work (s.setLink k (.task (.ended b))) < work s := by
      simp only [work, St.setLink]
      have := sum_lt (l := s.order) (f := fun q => (if q = k then Link.task (.ended b) else s.link q).left)
        (g := fun q => (s.link q).left) (by
          intro q _
          by_cases e : q = k
          · subst e; simp [h1, Link.left, Task.left]
          · simp [e]) hk (by simp [h1, Link.left, Task.left])
      omega
    refine ⟨⟨hb, h.conn, ?_, h.graph, h.shm, h.growth, h.mine, h.leaving, h.chan, ?_⟩, Nat.le_of_lt hlt, fun _ => hlt⟩
    · intro q
      by_cases e : q = k
      · subst e; simp [St.setLink]
      · simp only [St.setLink, e, if_false]; exact h.links q
    · refine seen_mono h.seen rfl rfl id id id ?_
      intro q c hq
      by_cases e : q = k
      · subst e; rw [h1] at hq; simp at hq
      · simp only [St.setLink, e, if_false]; exact hq
  | graphStep =>
    obtain ⟨t, h1, rfl⟩ := hs
    have f := finish_left h1
    have hlt : work { s with graph := t } < work s := by simp only [work]; omega
    refine ⟨⟨hb, h.conn, h.links, ?_, h.shm, h.growth, h.mine, h.leaving, h.chan, ?_⟩, Nat.le_of_lt hlt, fun _ => hlt⟩
    · intro e; simp only at e; subst e; exact f.2.2.1
    · exact seen_mono h.seen rfl rfl id (fun h' => absurd h' f.2.2.2) id (fun _ _ e => e)
  | shmStep =>
    obtain ⟨t, h1, rfl⟩ := hs
    have f := finish_left h1
    have hlt : work { s with shm := t } < work s := by simp only [work]; omega
    refine ⟨⟨hb, h.conn, h.links, h.graph, ?_, h.growth, h.mine, h.leaving, h.chan, ?_⟩, Nat.le_of_lt hlt, fun _ => hlt⟩
    · intro e; simp only at e; subst e; exact f.2.2.1
    · exact seen_mono h.seen rfl rfl (fun h' => absurd h' f.2.2.2) id id (fun _ _ e => e)
  | chanEof =>
    obtain ⟨h1, rfl⟩ := hs
    refine ⟨⟨hb, h.conn, h.links, h.graph, h.shm, h.growth, h.mine, h.leaving, by simp, ?_⟩, ?_, ?_⟩
    · exact seen_mono h.seen rfl rfl id id id (fun _ _ e => e)
    · simp [work, h1, Task.left]
    · simp [Own]
  | chanStep =>
    obtain ⟨t, h1, rfl⟩ := hs
    have f := finish_left h1
    have hlt : work { s with chan := t } < work s := by simp only [work]; omega
    refine ⟨⟨hb, h.conn, h.links, h.graph, h.shm, h.growth, h.mine, h.leaving, ?_, ?_⟩, Nat.le_of_lt hlt, fun _ => hlt⟩
    · intro _ _ e; simp only at e; subst e; exact f.2.2.1
    · exact seen_mono h.seen rfl rfl id id id (fun _ _ e => e)
  | connStep =>
    rcases hs with ⟨h1, -, rfl⟩ | ⟨h1, h2, rfl⟩
    · simp only [St.unregister] at hb ⊢
      split
      · rename_i ho
        rw [if_pos ho] at hb
        have hlt : work { s with mine := false, conn := .ended } < work s := by simp [work, h1, Conn.left]
        refine ⟨⟨hb, by simp, h.links, h.graph, h.shm, h.growth, by simp, by simp, ?_, ?_⟩, Nat.le_of_lt hlt, fun _ => hlt⟩
        · intro _ e; simp [ho] at e
        · exact seen_mono h.seen rfl rfl id id (fun _ => rfl) (fun _ _ e => e)
      · rename_i ho
        rw [if_neg ho] at hb
        have := cancel_left s.chan
        have hlt : work { s with mine := false, chan := s.chan.cancel, conn := .leaving } < work s := by
          simp only [work, h1, Conn.left]; omega
        refine ⟨⟨hb, by simp, h.links, h.graph, h.shm, h.growth, by simp, ?_, ?_, ?_⟩, Nat.le_of_lt hlt, fun _ => hlt⟩
        · intro _; simpa using ho
        · intro _ _; exact cancel_ne _
        · exact seen_mono h.seen rfl rfl id id (fun e => by rw [h1] at e; cases e) (fun _ _ e => e)
    · have hlt : work { s with conn := .ended } < work s := by simp [work, h1, Conn.left]
      refine ⟨⟨hb, by simp, h.links, h.graph, h.shm, h.growth, ?_, by simp, h.chan, ?_⟩, Nat.le_of_lt hlt, fun _ => hlt⟩
      · have := h.mine
        simp only [h1] at this
        simpa using this
      · exact seen_mono h.seen rfl rfl id id (fun _ => rfl) (fun _ _ e => e)
  | join =>
    obtain ⟨h1, rfl⟩ := hs
    refine ⟨⟨hb, h.conn, h.links, h.graph, h.shm, h.growth, h.mine, ?_, by simp, ?_⟩, ?_, ?_⟩
    · intro e
      have hm : s.mine = false := by
        have := h.mine
        rw [show s.conn = .leaving from e] at this
        simpa using this
      have := h.leaving e
      simp [hm, this] at h1
    · exact seen_mono h.seen rfl rfl id id id (fun _ _ e => e)
    · exact Nat.le_refl _
    · simp [Own]
  | leave =>
    obtain ⟨h1, rfl⟩ := hs
    refine ⟨⟨hb, h.conn, h.links, h.graph, h.shm, h.growth, h.mine, fun _ => rfl, ?_, ?_⟩, ?_, ?_⟩
    · intro hm _
      have hm' : s.mine = false := hm
      simp only [hm', Bool.false_eq_true, if_false]
      exact cancel_ne _
    · exact seen_mono h.seen rfl rfl id id id (fun _ _ e => e)
    · simp only [work]
      split
      · exact Nat.le_refl _
      · have := cancel_left s.chan
        omega
    · simp [Own]
  | wait =>
    obtain ⟨h1, rfl⟩ := hs
    refine ⟨⟨hb, h.conn, h.links, h.graph, h.shm, h.growth, h.mine, h.leaving, h.chan, by simp [Seen]⟩, ?_, ?_⟩
    · simp [work, h1, Wait.left]
    · simp [Own]
  | waitStep =>
    obtain ⟨w, h1, rfl⟩ := hs
    have hseen := h.seen
    have key : Seen { s with wait := w } ∧ w.left s.order.length < s.wait.left s.order.length := by
      simp only [PubClose.waitStep] at h1
      simp only [Seen] at hseen
      cases hw : s.wait with
      | idle => simp [hw] at h1
      | done => simp [hw] at h1
      | raised => simp [hw] at h1
      | shm =>
        simp only [hw] at h1
        cases hsh : s.shm with
        | ended b =>
          cases b with
          | true => exact absurd hsh h.base.shm.2
          | false => rw [hsh] at h1; cases h1; simp [Seen, hsh, Task.over, Wait.left]
        | _ => rw [hsh] at h1; simp [after] at h1
      | graph =>
        simp only [hw] at h1 hseen
        cases hsh : s.graph with
        | ended b =>
          cases b with
          | true => exact absurd hsh h.base.graph.2
          | false => rw [hsh] at h1; cases h1; exact ⟨⟨hseen, by simp [hsh, Task.over]⟩, by simp [Wait.left]⟩
        | _ => rw [hsh] at h1; simp [after] at h1
      | conn =>
        simp only [hw] at h1 hseen
        split at h1 <;> cases h1
        rename_i hc
        simp [Seen, hseen, hc, Wait.left]
      | chans i n =>
        simp only [hw] at h1 hseen
        obtain ⟨g1, g2, g3, g4, g5, g6⟩ := hseen
        subst g4
        simp only [ne_eq, not_true_eq_false, if_false] at h1
        cases hi : s.order[i]? with
        | none =>
          simp only [hi] at h1
          cases h1
          have hle := List.getElem?_eq_none_iff.1 hi
          refine ⟨?_, by simp [Wait.left]; omega⟩
          simp only [Seen]
          refine ⟨g1, g2, g3, ?_⟩
          intro k hk
          obtain ⟨j, hj, rfl⟩ := List.getElem_of_mem hk
          exact g6 j _ (by omega) (by simp [hj])
        | some k =>
          simp only [hi] at h1
          have hlt : i < s.order.length := by
            rcases List.getElem?_eq_some_iff.1 hi with ⟨hh, -⟩; exact hh
          have hk : k ∈ s.order := List.mem_of_getElem? hi
          split at h1
          · rename_i t ht
            cases t with
            | ended b =>
              cases b with
              | true => cases h1; exact ⟨⟨k, hk, ht⟩, by simp [Wait.left]; omega⟩
              | false =>
                cases h1
                refine ⟨?_, by simp [Wait.left]; omega⟩
                simp only [Seen]
                refine ⟨g1, g2, g3, trivial, hlt, ?_⟩
                intro j q hj hq
                by_cases e : j = i
                · subst e; rw [hi] at hq; cases hq; exact ht
                · exact g6 j q (by omega) hq
            | _ => simp [after] at h1
          · cases h1
    have hlt : work { s with wait := w } < work s := by
      have := key.2
      simp only [work]
      omega
    exact ⟨⟨hb, h.conn, h.links, h.graph, h.shm, h.growth, h.mine, h.leaving, h.chan, key.1⟩, Nat.le_of_lt hlt, fun _ => hlt⟩

theorem post_run {waits : Bool} (as : List (Act K)) : ∀ (s t : St K), Post s → s.fresh.clean → (∀ a ∈ as, Late a) →
    run waits as s t → Post t ∧ t.fresh.clean ∧ work t ≤ work s := by
  induction as with
  | nil => intro s t h hf _ hr; cases hr; exact ⟨h, hf, Nat.le_refl _⟩
  | cons a as ih =>
    intro s t h hf ha hr
    obtain ⟨s', hs, hr⟩ := hr
    have hl := ha a (by simp)
    have h1 := post_step h hf hl hs
    have h2 := ih s' t h1.1 (base_step h.base hf hl.1 hs).2 (fun b hb => ha b (by simp [hb])) hr
    exact ⟨h2.1, h2.2.1, Nat.le_trans h2.2.2 h1.2.1⟩

theorem stops {t : Task} (h : t ≠ .reading) (h' : ¬ t.over) : ∃ u, t.finish = some u := by
  cases t <;> simp_all [Task.finish, Task.over]

theorem post_progress {waits : Bool} {s : St K} (h : Post s) (hne : ¬ Over s) : ∃ a s', Own a ∧ step waits a s s' := by
  by_cases hg : s.graph.over
  · by_cases hsh : s.shm.over
    · by_cases hl : ∀ k, s.link k = .absent ∨ ∃ t, s.link k = .task t ∧ t.over
      · cases hc : s.conn with
        | serving => exact absurd hc h.conn
        | shutting => exact ⟨.connStep, _, by simp [Own], Or.inl ⟨hc, fun _ => h.links, rfl⟩⟩
        | leaving =>
          have hm : s.mine = false := by
            have := h.mine; simp only [hc] at this; simpa using this
          have hcr := h.chan hm (h.leaving hc)
          by_cases hco : s.chan.over
          · refine ⟨.connStep, _, by simp [Own], Or.inr ⟨hc, ?_, rfl⟩⟩
            cases hx : s.chan with
            | ended b => exact ⟨b, rfl⟩
            | _ => simp [hx, Task.over] at hco
          · obtain ⟨u, hu⟩ := stops hcr hco
            exact ⟨.chanStep, _, by simp [Own], u, hu, rfl⟩
        | ended =>
          have hm : s.mine = false := by
            have := h.mine; simp only [hc] at this; simpa using this
          by_cases hco : s.others = false → s.chan.over
          · have hw : ¬ (s.wait = .idle ∨ s.wait = .done ∨ s.wait = .raised) :=
              fun hw => hne ⟨hg, hsh, hc, hl, hm, hco, h.growth, hw⟩
            refine ⟨.waitStep, ?_⟩
            have : ∃ w, PubClose.waitStep s = some w := by
              simp only [PubClose.waitStep]
              cases hww : s.wait with
              | idle => simp [hww] at hw
              | done => simp [hww] at hw
              | raised => simp [hww] at hw
              | shm => rw [over_ended h.base.shm hsh]; exact ⟨_, rfl⟩
              | graph => rw [over_ended h.base.graph hg]; exact ⟨_, rfl⟩
              | conn => simp [hc]
              | chans i n =>
                simp only
                split
                · exact ⟨_, rfl⟩
                · split
                  · exact ⟨_, rfl⟩
                  · rename_i k hk
                    obtain ⟨t, ht⟩ := (h.base.order k).1 (List.mem_of_getElem? hk)
                    have := hl k
                    simp only [ht] at this ⊢
                    cases t with
                    | ended b => cases b <;> exact ⟨_, rfl⟩
                    | _ => simp [Task.over] at this
            obtain ⟨w, hw⟩ := this
            exact ⟨_, by simp [Own], w, hw, rfl⟩
          · have ho : s.others = false := by
              cases hx : s.others with
              | false => rfl
              | true => exact absurd (fun e => by rw [hx] at e; cases e) hco
            have hco' : ¬ s.chan.over := fun e => hco (fun _ => e)
            obtain ⟨u, hu⟩ := stops (h.chan hm ho) hco'
            exact ⟨.chanStep, _, by simp [Own], u, hu, rfl⟩
      · obtain ⟨k, hk⟩ := Classical.not_forall.1 hl
        have h1 := h.links k
        cases hx : s.link k with
        | absent => exact absurd (Or.inl hx) hk
        | connecting => exact absurd hx h1.1
        | task t =>
          cases t with
          | reading => exact absurd hx h1.2
          | closing b => exact ⟨.linkStep k, _, by simp [Own], b, hx, rfl⟩
          | ended b => exact absurd (Or.inr ⟨_, hx, trivial⟩) hk
    · obtain ⟨u, hu⟩ := stops h.shm hsh
      exact ⟨.shmStep, _, by simp [Own], u, hu, rfl⟩
  · obtain ⟨u, hu⟩ := stops h.graph hg
    exact ⟨.graphStep, _, by simp [Own], u, hu, rfl⟩

theorem own_late {a : Act K} (h : Own a) : Late a := by
  rcases h with rfl | rfl | rfl | rfl | rfl | ⟨k, rfl⟩ <;> simp [Late]

theorem post_ends {waits : Bool} (n : Nat) : ∀ (s : St K), Post s → s.fresh.clean → work s ≤ n →
    ∃ as t, run waits as s t ∧ (∀ a ∈ as, Own a) ∧ as.length ≤ n ∧ Over t := by
  induction n with
  | zero =>
    intro s h hf hw
    by_cases ho : Over s
    · exact ⟨[], s, rfl, by simp, by simp, ho⟩
    · obtain ⟨a, s', h1, h2⟩ := post_progress (waits := waits) h ho
      have := (post_step h hf (own_late h1) h2).2.2 h1
      omega
  | succ n ih =>
    intro s h hf hw
    by_cases ho : Over s
    · exact ⟨[], s, rfl, by simp, by simp, ho⟩
    · obtain ⟨a, s', h1, h2⟩ := post_progress (waits := waits) h ho
      have h3 := post_step h hf (own_late h1) h2
      have hlt := h3.2.2 h1
      obtain ⟨as, t, g1, g2, g3, g4⟩ := ih s' h3.1 (base_step h.base hf (own_late h1).1 h2).2 (by omega)
      refine ⟨a :: as, t, ⟨s', h2, g1⟩, ?_, by simp; omega, g4⟩
      intro b hb
      rcases List.mem_cons.1 hb with e | e
      · exact e ▸ h1
      · exact g2 b e

theorem post_stray {waits : Bool} (as : List (Act K)) : ∀ (s t : St K), Post s → s.fresh.clean → (∀ a ∈ as, Late a) →
    run waits as s t → t.stray = s.stray := by
  induction as with
  | nil => intro s t _ _ _ hr; cases hr; rfl
  | cons a as ih =>
    intro s t h hf ha hr
    obtain ⟨s', hs, hr⟩ := hr
    have hl := ha a (by simp)
    rw [ih s' t (post_step h hf hl hs).1 (base_step h.base hf hl.1 hs).2 (fun b hb => ha b (by simp [hb])) hr]
    have hg := h.growth
    have hc := h.conn
    cases a <;> simp only [step, St.setLink, St.unregister] at hs <;> (try contradiction) <;>
      (try (obtain ⟨_, _, rfl⟩ := hs; rfl)) <;> (try (obtain ⟨-, rfl⟩ := hs; rfl))
    · rcases hs with ⟨-, -, rfl⟩ | ⟨-, -, rfl⟩
      · split <;> rfl
      · rfl
    · rw [hg] at hs; cases hs.1

/-! ## C102 -/

/-- A publisher that is closed once, while no channel is connecting and no broadcast is growing its segment then or later: each
step of its tasks, of those of its own channel and of `wait_closed` brings it nearer to the end and no other step takes it
farther away; until the end such a step is possible; at the end nothing of the publisher is left. `wait_closed` returns only
when all its tasks have ended, and raises only if the connection of a channel broke off in an acknowledgement. -/
theorem C102_ends_partial (waits others : Bool) (pre : List (Act K)) (hp : ∀ a ∈ pre, a ≠ .close ∧ a ≠ .wait) (s : St K)
    (hr : run waits pre (init others) s) (hg : s.growth = .idle) (hl : ∀ k, s.link k ≠ .connecting)
    (as : List (Act K)) (ha : ∀ a ∈ as, a ≠ .close ∧ a ≠ .grow) (t : St K) (ht : run waits as (close s) t) :
    (∀ b t', b ≠ .close → b ≠ .grow → step waits b t t' → work t' ≤ work t ∧ (Own b → work t' < work t)) ∧
    (¬ Over t → ∃ b t', Own b ∧ step waits b t t') ∧
    (∃ bs u, run waits bs t u ∧ (∀ b ∈ bs, Own b) ∧ bs.length ≤ work t ∧ Over u) ∧
    t.stray = s.stray ∧
    (t.wait = .done → t.shm.over ∧ t.graph.over ∧ t.conn = .ended ∧ t.mine = false ∧
      ∀ k, t.link k = .absent ∨ t.link k = .task (.ended false)) ∧
    (t.wait = .raised → ∃ k, t.link k = .task (.ended true)) := by
  have h0 := pre_run pre _ _ (pre_init others) hp hr
  have h1 := post_close h0 hg hl
  obtain ⟨h2, h3, -⟩ := post_run as _ t h1 h0.fresh ha ht
  refine ⟨fun b t' hb hb' hs => (post_step h2 h3 ⟨hb, hb'⟩ hs).2, post_progress h2, post_ends _ t h2 h3 (Nat.le_refl _),
    post_stray as (close s) t h1 h0.fresh ha ht, ?_, ?_⟩
  · intro hw
    have hs := h2.seen
    simp only [Seen, hw] at hs
    refine ⟨hs.1, hs.2.1, hs.2.2.1, ?_, ?_⟩
    · have := h2.mine
      rw [hs.2.2.1] at this
      simpa using this
    · intro k
      cases hk : t.link k with
      | absent => exact Or.inl rfl
      | connecting => exact absurd hk (h2.links k).1
      | task x =>
        have := hs.2.2.2 k ((h2.base.order k).2 ⟨x, hk⟩)
        rw [hk] at this
        exact Or.inr this
  · intro hw
    have hs := h2.seen
    simp only [Seen, hw] at hs
    obtain ⟨k, -, hk⟩ := hs
    exact ⟨k, hk⟩

/-- One channel is connected. -/
def connected : St Nat :=
  { graph := .reading, conn := .serving, mine := true, others := false, chan := .reading,
    link := fun k => if k = 0 then .task .reading else if k = 0 then .connecting else .absent,
    order := [0], shm := .reading, fresh := .reading, stray := [], growth := .idle, wait := .idle }

example : run true [.connect 0, .greet 0] (init false) connected ∧ connected.growth = .idle ∧
    (∀ k, connected.link k ≠ .connecting) ∧ (close connected).link 0 = .task (.closing false) ∧
    (close connected).conn = .shutting ∧ work (close connected) = 12 := by
  refine ⟨⟨_, ⟨rfl, rfl, rfl⟩, _, ⟨rfl, rfl⟩, rfl⟩, rfl, ?_, rfl, rfl, rfl⟩
  intro k
  simp only [connected]
  split
  · simp
  · simp [*]

/-- If the connection of a channel once broke off in the middle of an acknowledgement, `wait_closed` never returns, it raises. -/
theorem C102_raises (waits others : Bool) (pre : List (Act K)) (hp : ∀ a ∈ pre, a ≠ .close ∧ a ≠ .wait) (s : St K)
    (hr : run waits pre (init others) s) (hg : s.growth = .idle) (hl : ∀ k, s.link k ≠ .connecting)
    (k : K) (hk : s.link k = .task (.ended true))
    (as : List (Act K)) (ha : ∀ a ∈ as, a ≠ .close ∧ a ≠ .grow) (t : St K) (ht : run waits as (close s) t) :
    t.wait ≠ .done ∧ (Over t → t.wait ≠ .idle → t.wait = .raised) := by
  have h0 := pre_run pre _ _ (pre_init others) hp hr
  have hke : ∀ (as : List (Act K)) (x y : St K), Post x → x.fresh.clean → (∀ a ∈ as, Late a) → x.link k = .task (.ended true) →
      run waits as x y → y.link k = .task (.ended true) := by
    intro as
    induction as with
    | nil => intro x y _ _ _ h hr; cases hr; exact h
    | cons a as ih =>
      intro x y hx hf ha h hr
      obtain ⟨x', hs, hr⟩ := hr
      have hl := ha a (by simp)
      refine ih x' y (post_step hx hf hl hs).1 (base_step hx.base hf hl.1 hs).2 (fun b hb => ha b (by simp [hb])) ?_ hr
      have set : ∀ q l, x.link q ≠ .task (.ended true) → (x.setLink q l).link k = .task (.ended true) := by
        intro q l hq
        simp only [St.setLink]
        split
        · rename_i e; subst e; exact absurd h hq
        · exact h
      cases a with
      | connect q => obtain ⟨-, h1, rfl⟩ := hs; exact set _ _ (by simp [h1])
      | greet q => obtain ⟨h1, rfl⟩ := hs; exact set _ _ (by simp [h1])
      | drop q => obtain ⟨h1, rfl⟩ := hs; exact set _ _ (by simp [h1])
      | linkEof q => obtain ⟨h1, rfl⟩ := hs; exact set _ _ (by simp [h1])
      | linkBreak q => obtain ⟨h1, rfl⟩ := hs; exact set _ _ (by simp [h1])
      | linkStep q => obtain ⟨b, h1, rfl⟩ := hs; exact set _ _ (by simp [h1])
      | graphEof => obtain ⟨-, rfl⟩ := hs; exact h
      | graphStep => obtain ⟨_, -, rfl⟩ := hs; exact h
      | chanEof => obtain ⟨-, rfl⟩ := hs; exact h
      | chanStep => obtain ⟨_, -, rfl⟩ := hs; exact h
      | shmEof => obtain ⟨-, rfl⟩ := hs; exact h
      | shmStep => obtain ⟨_, -, rfl⟩ := hs; exact h
      | connStep =>
        rcases hs with ⟨-, -, rfl⟩ | ⟨-, -, rfl⟩
        · simp only [St.unregister]; split <;> exact h
        · exact h
      | join => obtain ⟨-, rfl⟩ := hs; exact h
      | leave => obtain ⟨-, rfl⟩ := hs; exact h
      | grow => exact absurd rfl hl.2
      | made => obtain ⟨-, rfl⟩ := hs; split <;> exact h
      | moved => obtain ⟨-, -, rfl⟩ := hs; exact h
      | close => exact absurd rfl hl.1
      | wait => obtain ⟨-, rfl⟩ := hs; exact h
      | waitStep => obtain ⟨_, -, rfl⟩ := hs; exact h
  have h1 := post_close h0 hg hl
  have hko : k ∈ s.order := (h0.base.order k).2 ⟨_, hk⟩
  have h2 := hke as _ t h1 h0.fresh ha (by simp [close, hko, hk, Link.cancel, Task.cancel]) ht
  have h3 := (C102_ends_partial waits others pre hp s hr hg hl as ha t ht).2.2.2.2.1
  have hnd : t.wait ≠ .done := by
    intro hd
    have := (h3 hd).2.2.2.2 k
    simp [h2] at this
  refine ⟨hnd, fun ho hi => ?_⟩
  rcases ho.wait with h | h | h
  · exact absurd h hi
  · exact absurd h hnd
  · exact h

/-- A publisher that broadcast a message too long for its segment has the new segment and waits for the end of the old one. -/
def growing : St Nat := { (init false : St Nat) with growth := .switching, fresh := .reading, shm := .closing false }

/-- The segment stays attached unless the graph server goes or the publisher is closed again or moves to another. -/
theorem attached {waits : Bool} (as : List (Act K)) : ∀ (s t : St K), s.shm = .reading → s.growth = .idle →
    .close ∉ as → .grow ∉ as → .shmEof ∉ as → run waits as s t → t.shm = .reading := by
  induction as with
  | nil => intro s t h _ _ _ _ hr; cases hr; exact h
  | cons a as ih =>
    intro s t h hg h1 h2 h3 hr
    obtain ⟨s', hs, hr⟩ := hr
    simp only [List.mem_cons, not_or] at h1 h2 h3
    have key : s'.shm = .reading ∧ s'.growth = .idle := by
      cases a with
      | connect q => obtain ⟨-, _, rfl⟩ := hs; exact ⟨h, hg⟩
      | greet q => obtain ⟨-, rfl⟩ := hs; exact ⟨h, hg⟩
      | drop q => obtain ⟨-, rfl⟩ := hs; exact ⟨h, hg⟩
      | linkEof q => obtain ⟨-, rfl⟩ := hs; exact ⟨h, hg⟩
      | linkBreak q => obtain ⟨-, rfl⟩ := hs; exact ⟨h, hg⟩
      | linkStep q => obtain ⟨_, -, rfl⟩ := hs; exact ⟨h, hg⟩
      | graphEof => obtain ⟨-, rfl⟩ := hs; exact ⟨h, hg⟩
      | graphStep => obtain ⟨_, -, rfl⟩ := hs; exact ⟨h, hg⟩
      | chanEof => obtain ⟨-, rfl⟩ := hs; exact ⟨h, hg⟩
      | chanStep => obtain ⟨_, -, rfl⟩ := hs; exact ⟨h, hg⟩
      | shmEof => exact absurd rfl h3.1
      | shmStep => obtain ⟨_, h4, rfl⟩ := hs; rw [h] at h4; cases h4
      | connStep =>
        rcases hs with ⟨-, -, rfl⟩ | ⟨-, -, rfl⟩
        · simp only [St.unregister]; split <;> exact ⟨h, hg⟩
        · exact ⟨h, hg⟩
      | join => obtain ⟨-, rfl⟩ := hs; exact ⟨h, hg⟩
      | leave => obtain ⟨-, rfl⟩ := hs; exact ⟨h, hg⟩
      | grow => exact absurd rfl h2.1
      | made => rw [hs.1] at hg; cases hg
      | moved => rw [hs.1] at hg; cases hg
      | close => exact absurd rfl h1.1
      | wait => obtain ⟨-, rfl⟩ := hs; exact ⟨h, hg⟩
      | waitStep => obtain ⟨_, -, rfl⟩ := hs; exact ⟨h, hg⟩
    exact ih s' t key.1 key.2 h1.2 h2.2 h3.2 hr

/-- The code violates the claim: closed while a broadcast moves to a larger segment, the publisher closes the old one once more
and keeps the new one. `wait_closed` returns, and the new segment stays attached for as long as the graph server lives. -/
theorem C102_segment (waits : Bool) : ∃ t : St Nat, run waits [.grow, .made] (init false) growing ∧
    run waits [.wait, .moved, .graphStep, .waitStep, .connStep, .chanStep, .connStep, .waitStep, .waitStep] (close growing) t ∧
    t.wait = .done ∧ t.conn = .ended ∧ t.shm = .reading ∧
    ∀ as u, .close ∉ as → .grow ∉ as → .shmEof ∉ as → run waits as t u → u.shm = .reading := by
  refine ⟨_, ⟨_, ⟨rfl, rfl⟩, _, ⟨rfl, rfl⟩, rfl⟩,
    ⟨_, ⟨rfl, rfl⟩, _, ⟨rfl, ⟨false, rfl⟩, rfl⟩, _, ⟨.ended false, rfl, rfl⟩, _, ⟨.conn, rfl, rfl⟩,
      _, Or.inl ⟨rfl, ?_, rfl⟩, _, ⟨.ended false, rfl, rfl⟩, _, Or.inr ⟨rfl, ⟨false, rfl⟩, rfl⟩, _, ⟨.chans 0 0, rfl, rfl⟩,
      _, ⟨.done, rfl, rfl⟩, rfl⟩, rfl, rfl, rfl, ?_⟩
  · intro _ k; simp [close, growing, init]
  · intro as u h1 h2 h3 hr
    exact attached as _ u rfl rfl h1 h2 h3 hr

/-- The code violates the claim: closed while a broadcast waits for a larger segment, the broadcast gets it, fails to copy the
buffers, and forgets it: it stays attached and nothing can close it. -/
theorem C102_stray (waits : Bool) : ∃ s t : St Nat, run waits [.grow] (init false) s ∧ run waits [.made] (close s) t ∧
    t.stray = [.reading] :=
  ⟨_, _, ⟨_, ⟨rfl, rfl⟩, rfl⟩, ⟨_, ⟨rfl, rfl⟩, rfl⟩, rfl⟩

/-- The publisher waits for a channel it does not know it should drop. -/
structure Stuck (s : St Nat) : Prop where
  conn : s.conn ≠ .serving
  order : s.order = [0]
  link : s.link 0 = .task .reading
  others : ∀ k, k ≠ 0 → s.link k = .absent
  wait : s.wait = .idle ∨ s.wait = .shm ∨ s.wait = .graph ∨ s.wait = .conn ∨ s.wait = .chans 0 1
  graph : s.graph.clean
  shm : s.shm.clean
  growth : s.growth = .idle

theorem stuck_step {waits : Bool} {a : Act Nat} {s s' : St Nat} (h : Stuck s) (h1 : a ≠ .close) (h2 : a ≠ .linkEof 0)
    (h3 : a ≠ .linkBreak 0) (h4 : a ≠ .grow) (hs : step waits a s s') : Stuck s' := by
  have no : ∀ {k l}, s.link k = l → l ≠ .absent → l ≠ .task .reading → False := by
    intro k l hk e1 e2
    by_cases e : k = 0
    · subst e; rw [h.link] at hk; exact e2 hk.symm
    · rw [h.others k e] at hk; exact e1 hk.symm
  cases a with
  | connect q => exact absurd hs.1 h.conn
  | greet q => exact (no hs.1 (by simp) (by simp)).elim
  | drop q => exact (no hs.1 (by simp) (by simp)).elim
  | linkEof q =>
    by_cases e : q = 0
    · subst e; exact absurd rfl h2
    · have := hs.1; rw [h.others q e] at this; cases this
  | linkBreak q =>
    by_cases e : q = 0
    · subst e; exact absurd rfl h3
    · have := hs.1; rw [h.others q e] at this; cases this
  | linkStep q => obtain ⟨b, h5, -⟩ := hs; exact (no h5 (by simp) (by simp)).elim
  | graphEof => obtain ⟨-, rfl⟩ := hs; exact ⟨h.conn, h.order, h.link, h.others, h.wait, by simp [Task.clean], h.shm, h.growth⟩
  | graphStep =>
    obtain ⟨_, h5, rfl⟩ := hs
    exact ⟨h.conn, h.order, h.link, h.others, h.wait, clean_finish h.graph h5, h.shm, h.growth⟩
  | chanEof => obtain ⟨-, rfl⟩ := hs; exact ⟨h.conn, h.order, h.link, h.others, h.wait, h.graph, h.shm, h.growth⟩
  | chanStep => obtain ⟨_, -, rfl⟩ := hs; exact ⟨h.conn, h.order, h.link, h.others, h.wait, h.graph, h.shm, h.growth⟩
  | shmEof => obtain ⟨-, rfl⟩ := hs; exact ⟨h.conn, h.order, h.link, h.others, h.wait, h.graph, by simp [Task.clean], h.growth⟩
  | shmStep =>
    obtain ⟨_, h5, rfl⟩ := hs
    exact ⟨h.conn, h.order, h.link, h.others, h.wait, h.graph, clean_finish h.shm h5, h.growth⟩
  | connStep =>
    rcases hs with ⟨-, -, rfl⟩ | ⟨-, -, rfl⟩
    · simp only [St.unregister]
      split <;> exact ⟨by simp, h.order, h.link, h.others, h.wait, h.graph, h.shm, h.growth⟩
    · exact ⟨by simp, h.order, h.link, h.others, h.wait, h.graph, h.shm, h.growth⟩
  | join => obtain ⟨-, rfl⟩ := hs; exact ⟨h.conn, h.order, h.link, h.others, h.wait, h.graph, h.shm, h.growth⟩
  | leave => obtain ⟨-, rfl⟩ := hs; exact ⟨h.conn, h.order, h.link, h.others, h.wait, h.graph, h.shm, h.growth⟩
  | grow => exact absurd rfl h4
  | made => have := hs.1; rw [h.growth] at this; cases this
  | moved => have := hs.1; rw [h.growth] at this; cases this
  | close => exact absurd rfl h1
  | wait => obtain ⟨-, rfl⟩ := hs; exact ⟨h.conn, h.order, h.link, h.others, Or.inr (Or.inl rfl), h.graph, h.shm, h.growth⟩
  | waitStep =>
    obtain ⟨w, h5, rfl⟩ := hs
    refine ⟨h.conn, h.order, h.link, h.others, ?_, h.graph, h.shm, h.growth⟩
    simp only [PubClose.waitStep] at h5
    have aft : ∀ {t : Task} {x : Wait}, t.clean → after t x = some w → w = x := by
      intro t x hc ht
      cases t with
      | ended b =>
        cases b with
        | true => exact absurd rfl hc.2
        | false => cases ht; rfl
      | _ => simp [after] at ht
    rcases h.wait with e | e | e | e | e <;> simp only [e] at h5
    · cases h5
    · simp [aft h.shm h5]
    · simp [aft h.graph h5]
    · split at h5 <;> cases h5
      simp [h.order]
    · simp [h.order, h.link, after] at h5

theorem stuck_run {waits : Bool} (as : List (Act Nat)) : ∀ (s t : St Nat), Stuck s → .close ∉ as → .linkEof 0 ∉ as →
    .linkBreak 0 ∉ as → .grow ∉ as → run waits as s t → Stuck t := by
  induction as with
  | nil => intro s t h _ _ _ _ hr; cases hr; exact h
  | cons a as ih =>
    intro s t h h1 h2 h3 h4 hr
    obtain ⟨s', hs, hr⟩ := hr
    simp only [List.mem_cons, not_or] at h1 h2 h3 h4
    exact ih s' t (stuck_step h (Ne.symm h1.1) (Ne.symm h2.1) (Ne.symm h3.1) (Ne.symm h4.1) hs) h1.2 h2.2 h3.2 h4.2 hr

/-- The code violates the claim: a channel that is connecting while the publisher is closed is not dropped: its task starts
afterwards and is not cancelled. Until the channel goes, `wait_closed` neither returns nor raises. -/
theorem C102_late (waits : Bool) : ∃ s t : St Nat, run waits [.connect 0] (init false) s ∧ run waits [.greet 0] (close s) t ∧
    t.link 0 = .task .reading ∧
    ∀ as u, .close ∉ as → .linkEof 0 ∉ as → .linkBreak 0 ∉ as → .grow ∉ as → run waits as t u →
      u.link 0 = .task .reading ∧ u.wait ≠ .done ∧ u.wait ≠ .raised := by
  refine ⟨_, _, ⟨_, ⟨rfl, rfl, rfl⟩, rfl⟩, ⟨_, ⟨rfl, rfl⟩, rfl⟩, rfl, ?_⟩
  intro as u h1 h2 h3 h4 hr
  have := stuck_run as _ u ⟨by simp [close, St.setLink, init], rfl, rfl, ?_, Or.inl rfl, by simp [close, St.setLink, init, Task.cancel, Task.clean],
    by simp [close, St.setLink, init, Task.cancel, Task.clean], rfl⟩ h1 h2 h3 h4 hr
  · refine ⟨this.link, ?_, ?_⟩ <;> (rcases this.wait with e | e | e | e | e <;> simp [e])
  · intro k hk
    simp [St.setLink, close, init, hk]

/-- The code violates the claim: closed a second time while it closes its server, the publisher stays a client of its own
channel, which therefore is never closed. -/
theorem C102_twice (waits : Bool) : ∃ t : St Nat, run waits [.close, .close] (init false) t ∧ t.conn = .ended ∧
    ∀ as u, run waits as t u → u.mine = true := by
  refine ⟨_, ⟨_, rfl, _, rfl, rfl⟩, rfl, ?_⟩
  have key : ∀ (as : List (Act Nat)) (s u : St Nat), s.conn = .ended → s.mine = true → run waits as s u → u.mine = true := by
    intro as
    induction as with
    | nil => intro s u _ h hr; cases hr; exact h
    | cons a as ih =>
      intro s u hc h hr
      obtain ⟨s', hs, hr⟩ := hr
      have : s'.conn = .ended ∧ s'.mine = true := by
        cases a with
        | connect q => obtain ⟨-, _, rfl⟩ := hs; exact ⟨hc, h⟩
        | greet q => obtain ⟨-, rfl⟩ := hs; exact ⟨hc, h⟩
        | drop q => obtain ⟨-, rfl⟩ := hs; exact ⟨hc, h⟩
        | linkEof q => obtain ⟨-, rfl⟩ := hs; exact ⟨hc, h⟩
        | linkBreak q => obtain ⟨-, rfl⟩ := hs; exact ⟨hc, h⟩
        | linkStep q => obtain ⟨_, -, rfl⟩ := hs; exact ⟨hc, h⟩
        | graphEof => obtain ⟨-, rfl⟩ := hs; exact ⟨hc, h⟩
        | graphStep => obtain ⟨_, -, rfl⟩ := hs; exact ⟨hc, h⟩
        | chanEof => obtain ⟨-, rfl⟩ := hs; exact ⟨hc, h⟩
        | chanStep => obtain ⟨_, -, rfl⟩ := hs; exact ⟨hc, h⟩
        | shmEof => obtain ⟨-, rfl⟩ := hs; exact ⟨hc, h⟩
        | shmStep => obtain ⟨_, -, rfl⟩ := hs; exact ⟨hc, h⟩
        | connStep => rcases hs with ⟨h1, -, -⟩ | ⟨h1, -, -⟩ <;> (rw [hc] at h1; cases h1)
        | join => obtain ⟨-, rfl⟩ := hs; exact ⟨hc, h⟩
        | leave => obtain ⟨-, rfl⟩ := hs; exact ⟨hc, h⟩
        | grow => obtain ⟨-, rfl⟩ := hs; exact ⟨hc, h⟩
        | made => obtain ⟨-, rfl⟩ := hs; split <;> exact ⟨hc, h⟩
        | moved => obtain ⟨-, -, rfl⟩ := hs; exact ⟨hc, h⟩
        | close => cases hs; exact ⟨by simp [close, hc], h⟩
        | wait => obtain ⟨-, rfl⟩ := hs; exact ⟨hc, h⟩
        | waitStep => obtain ⟨_, -, rfl⟩ := hs; exact ⟨hc, h⟩
      exact ih s' u this.1 this.2 hr
  intro as u hr
  exact key as _ u rfl rfl hr

end PubClose
end Ez
