import Verif.Model.ServerStop

/-!
# C97: stopping the graph server ends, and closes everything; C98: one client does not hold up the others

The specification of C97: after a call of `stop` the server comes to its end by its own steps, and then every connection is closed, with the leases of segments among them.
The specification of C98: a command is carried out after those that were given before it, whatever other clients do.
-/

set_option linter.unusedSectionVars false
set_option linter.unusedSimpArgs false

namespace Ez
namespace Halt

/-! ## Specification -/

/-- States that runs reach. -/
def Reachable (st : St) : Prop := ∃ w as, run (init w) as = some st

/-- Nobody is in the middle of a request: every connection is served, leases a segment or is closed. -/
def Settled (st : St) : Prop := st.stage = .running ∧ st.lock = none ∧ ∀ p ∈ st.conns, (∃ k, p = .serving k) ∨ p = .asking ∨ p = .leased ∨ p = .closed

/-- The number of the server's own steps. -/
def ownSteps (as : List Act) : Nat := (as.filter Act.own).length

/-- It waits for the lock. -/
def Ph.waiting : Ph → Bool
  | .queued _ | .asking | .leaving => true
  | _ => false

def Ph.holds : Ph → Bool
  | .holding _ => true
  | _ => false

/-! ## Lemmas: the lock -/

/-- The lock's holder and the queue agree with what the tasks do. -/
structure WF (st : St) : Prop where
  lock : ∀ i, st.lock = some i ↔ ∃ p, st.conns[i]? = some p ∧ p.holds = true
  queue : ∀ i, i ∈ st.queue ↔ ∃ p, st.conns[i]? = some p ∧ p.waiting = true
  nodup : st.queue.Nodup

theorem WF.keep {st st' : St} (h : WF st) {i : Nat} {p q : Ph} (hp : st.conns[i]? = some p) (hc : st'.conns = st.conns.set i q) (hl : st'.lock = st.lock)
    (hq : st'.queue = st.queue) (h1 : p.holds = false) (h2 : p.waiting = false) (h3 : q.holds = false) (h4 : q.waiting = false) : WF st' := by
  obtain ⟨a, b, c⟩ := h
  constructor
  · intro j; rw [hl, a, hc]; grind
  · intro j; rw [hq, b, hc]; grind
  · rw [hq]; exact c

theorem WF.enqueue {st st' : St} (h : WF st) {i : Nat} {p q : Ph} (hp : st.conns[i]? = some p) (hc : st'.conns = st.conns.set i q) (hl : st'.lock = st.lock)
    (hq : st'.queue = st.queue ++ [i]) (h1 : p.holds = false) (h2 : p.waiting = false) (h3 : q.holds = false) (h4 : q.waiting = true) : WF st' := by
  obtain ⟨a, b, c⟩ := h
  constructor
  · intro j; rw [hl, a, hc]; grind
  · intro j; rw [hq, List.mem_append, b, hc]; grind
  · rw [hq, List.nodup_append]
    refine ⟨c, by simp, ?_⟩
    intro x hx y hy
    have := (b x).1 hx
    grind

theorem WF.release {st st' : St} (h : WF st) {i : Nat} {p q : Ph} (hp : st.conns[i]? = some p) (hc : st'.conns = st.conns.set i q) (hl : st'.lock = none)
    (hq : st'.queue = st.queue) (h1 : p.holds = true) (h2 : p.waiting = false) (h3 : q.holds = false) (h4 : q.waiting = false) : WF st' := by
  obtain ⟨a, b, c⟩ := h
  have hi := (a i).2 ⟨p, hp, h1⟩
  constructor
  · intro j
    have := a j
    rw [hl, hc]; grind
  · intro j; rw [hq, b, hc]; grind
  · rw [hq]; exact c

theorem WF.dequeue {st st' : St} (h : WF st) {i : Nat} {p q : Ph} {qs : List Nat} (hp : st.conns[i]? = some p) (hc : st'.conns = st.conns.set i q) (hl : st'.lock = st.lock)
    (hs : st.queue = i :: qs) (hq : st'.queue = qs) (h1 : p.holds = false) (h3 : q.holds = false) (h4 : q.waiting = false) : WF st' := by
  obtain ⟨a, b, c⟩ := h
  rw [hs, List.nodup_cons] at c
  constructor
  · intro j; rw [hl, a, hc]; grind
  · intro j
    have := b j
    rw [hs, List.mem_cons] at this
    rw [hq, hc]; grind
  · rw [hq]; exact c.2

theorem WF.take {st st' : St} (h : WF st) {i : Nat} {p q : Ph} {qs : List Nat} (hp : st.conns[i]? = some p) (hc : st'.conns = st.conns.set i q) (hn : st.lock = none)
    (hl : st'.lock = some i) (hs : st.queue = i :: qs) (hq : st'.queue = qs) (h3 : q.holds = true) (h4 : q.waiting = false) : WF st' := by
  obtain ⟨a, b, c⟩ := h
  rw [hs, List.nodup_cons] at c
  constructor
  · intro j
    have := a j
    rw [hl, hc]; grind
  · intro j
    have := b j
    rw [hs, List.mem_cons] at this
    rw [hq, hc]; grind
  · rw [hq]; exact c.2

theorem mem_which (st : St) (f : Ph → Bool) (i : Nat) : i ∈ st.which f ↔ ∃ p, st.conns[i]? = some p ∧ f p = true := by
  simp only [St.which, List.mem_filter, List.mem_range, Option.any_eq_true]
  constructor
  · rintro ⟨_, p, h1, h2⟩; exact ⟨p, h1, h2⟩
  · rintro ⟨p, h1, h2⟩
    refine ⟨?_, p, h1, h2⟩
    rcases Nat.lt_or_ge i st.conns.length with h | h
    · exact h
    · rw [List.getElem?_eq_none h] at h1; cases h1

theorem lease_conns (st : St) : st.lease.conns = st.conns ∧ st.lease.lock = st.lock ∧ st.lease.queue = st.queue ∧ st.lease.listening = st.listening ∧
    st.lease.waits = st.waits := by
  unfold St.lease; split <;> exact ⟨rfl, rfl, rfl, rfl, rfl⟩

theorem WF.same {st st' : St} (h : WF st) (hc : st'.conns = st.conns) (hl : st'.lock = st.lock) (hq : st'.queue = st.queue) : WF st' :=
  ⟨by rw [hl, hc]; exact h.lock, by rw [hq, hc]; exact h.queue, by rw [hq]; exact h.nodup⟩

theorem step_wf {st st' : St} {a : Act} (h : WF st) (hs : step st a = some st') : WF st' := by
  cases a with
  | accept =>
    simp only [step] at hs
    split at hs
    · cases hs
      obtain ⟨a, b, c⟩ := h
      refine ⟨?_, ?_, c⟩
      · intro i; rw [show _ ↔ _ from a i]; simp only [List.getElem?_append]; grind [Ph.holds]
      · intro i; rw [show _ ↔ _ from b i]; simp only [List.getElem?_append]; grind [Ph.waiting]
    · cases hs
  | sends i r =>
    simp only [step] at hs
    split at hs
    · rename_i hp
      split at hs <;> cases hs
      · exact h.keep hp rfl rfl rfl rfl rfl rfl rfl
      · exact h.keep hp rfl rfl rfl rfl rfl rfl rfl
      · exact h.enqueue hp rfl rfl rfl rfl rfl rfl rfl
    · cases hs
  | arrives i =>
    simp only [step] at hs
    split at hs
    · rename_i hp; cases hs; exact h.keep hp rfl rfl rfl rfl rfl rfl rfl
    · rename_i hp; cases hs; exact h.keep hp rfl rfl rfl rfl rfl rfl rfl
    · rename_i hp; cases hs; exact h.keep hp rfl rfl rfl rfl rfl rfl rfl
    · rename_i hp; cases hs; exact h.release hp rfl rfl rfl rfl rfl rfl rfl
    · rename_i hp; cases hs; exact h.release hp rfl rfl rfl rfl rfl rfl rfl
    · cases hs
  | asks i =>
    simp only [step] at hs
    split at hs
    · rename_i hp; cases hs; exact h.enqueue hp rfl rfl rfl rfl rfl rfl rfl
    · cases hs
  | leaves i =>
    simp only [step] at hs
    split at hs
    · rename_i hp; cases hs; exact h.keep hp rfl rfl rfl rfl rfl rfl rfl
    · rename_i hp; cases hs; exact h.keep hp rfl rfl rfl rfl rfl rfl rfl
    · rename_i hp; cases hs; exact h.keep hp rfl rfl rfl rfl rfl rfl rfl
    · rename_i hp; cases hs; exact h.keep hp rfl rfl rfl rfl rfl rfl rfl
    · rename_i hp; cases hs; exact h.enqueue hp rfl rfl rfl rfl rfl rfl rfl
    · rename_i hp; cases hs; exact h.release hp rfl rfl rfl rfl rfl rfl rfl
    · rename_i hp; cases hs; exact h.release hp rfl rfl rfl rfl rfl rfl rfl
    · cases hs
  | stop =>
    simp only [step] at hs
    split at hs
    · cases hs
      obtain ⟨a, b, c⟩ := h
      refine ⟨?_, ?_, ?_⟩
      · intro i
        refine (a i).trans ?_
        simp only [List.getElem?_map, Option.map_eq_some_iff]
        constructor
        · rintro ⟨p, h1, h2⟩
          refine ⟨p, ⟨p, h1, ?_⟩, h2⟩
          cases p <;> simp [Ph.holds, cancel] at h2 ⊢
        · rintro ⟨q, ⟨p, h1, rfl⟩, h2⟩
          refine ⟨p, h1, ?_⟩
          cases p with
          | serving k => cases k <;> simp [Ph.holds, cancel] at h2
          | _ => simp [Ph.holds, cancel] at h2 ⊢
      · intro i
        simp only [List.mem_append, List.mem_filter, mem_which, List.getElem?_map, Option.map_eq_some_iff, b]
        constructor
        · rintro (⟨⟨p, h1, h2⟩, h3⟩ | ⟨p, h1, h2⟩)
          · refine ⟨p, ⟨p, h1, ?_⟩, h2⟩
            rw [h1] at h3
            cases p <;> simp [Ph.task, cancel] at h3 ⊢
          · refine ⟨.leaving, ⟨p, h1, by simpa using h2⟩, rfl⟩
        · rintro ⟨q, ⟨p, h1, rfl⟩, h2⟩
          cases p with
          | queued c => exact .inl ⟨⟨_, h1, rfl⟩, by rw [h1]; rfl⟩
          | serving k => cases k <;> first | exact .inr ⟨_, h1, rfl⟩ | simp [cancel, Ph.waiting] at h2
          | asking => exact .inr ⟨_, h1, rfl⟩
          | _ => simp [cancel, Ph.waiting] at h2
      · rw [List.nodup_append]
        refine ⟨c.filter _, (List.nodup_range).filter _, ?_⟩
        intro x hx y hy
        rw [List.mem_filter] at hx
        rw [mem_which] at hy
        obtain ⟨p, h1, h2⟩ := hy
        rintro rfl
        rw [h1] at hx
        have := hx.2
        cases p with
        | serving k => simp [Ph.task] at this
        | _ => simp [Ph.task, cancel] at this h2
    · cases hs
  | begins i =>
    simp only [step] at hs
    split at hs
    · rename_i hp; cases hs; exact h.keep hp rfl rfl rfl rfl rfl rfl rfl
    · cases hs
  | grant =>
    simp only [step] at hs
    split at hs
    · rename_i hl hq
      split at hs
      · rename_i hp; cases hs; exact h.dequeue hp rfl rfl hq rfl rfl rfl rfl
      · rename_i hp; cases hs; exact h.take hp rfl hl rfl hq rfl rfl rfl
      · rename_i hp; cases hs; exact h.dequeue hp rfl rfl hq rfl rfl rfl rfl
      · rename_i hp; cases hs; exact h.dequeue hp rfl rfl hq rfl rfl rfl rfl
      · cases hs
    · cases hs
  | gathered =>
    simp only [step] at hs
    split at hs
    · split at hs <;> cases hs
      have := lease_conns st
      exact h.same this.1 this.2.1 this.2.2.1
    · cases hs
  | released =>
    simp only [step] at hs
    split at hs
    · rename_i i ch hst
      have h' : WF (if st.conns[i]? = some .leased then st.to i .closed else st) := by
        split
        · rename_i hp; exact h.keep hp rfl rfl rfl rfl rfl rfl rfl
        · exact h
      cases hs
      split
      · exact h'.same rfl rfl rfl
      · have := lease_conns (if st.conns[i]? = some .leased then st.to i .closed else st)
        exact h'.same this.1 this.2.1 this.2.2.1
    · cases hs
  | finish =>
    simp only [step] at hs
    split at hs
    · split at hs <;> cases hs
      exact h.same rfl rfl rfl
    · cases hs

theorem run_wf {st st' : St} {as : List Act} (h : WF st) (hs : run st as = some st') : WF st' := by
  induction as generalizing st with
  | nil => cases hs; exact h
  | cons a as ih =>
    simp only [run] at hs
    split at hs
    · rename_i s1 e; exact ih (step_wf h e) hs
    · cases hs

theorem init_wf (w : Bool) : WF (init w) := ⟨by simp [init], by simp [init], by simp [init]⟩

theorem reachable_wf {st : St} (h : Reachable st) : WF st := by
  obtain ⟨w, as, h⟩ := h
  exact run_wf (init_wf w) h

theorem run_append {as bs : List Act} {s1 s2 s3 : St} (h1 : run s1 as = some s2) (h2 : run s2 bs = some s3) : run s1 (as ++ bs) = some s3 := by
  induction as generalizing s1 with
  | nil => cases h1; exact h2
  | cons a as ih =>
    simp only [run, List.cons_append] at h1 ⊢
    split at h1
    · exact ih h1
    · cases h1

/-! ## C98 -/

/-- The lock is given back when what its holder waits for has come. -/
theorem holder_ends {st : St} (h : WF st) {i : Nat} (hl : st.lock = some i) :
    ∃ st', step st (.arrives i) = some st' ∧ st'.lock = none ∧ st'.queue = st.queue := by
  obtain ⟨p, hp, hh⟩ := (h.lock i).1 hl
  cases p with
  | holding c => cases c <;> (simp only [step, hp]; exact ⟨_, rfl, rfl, rfl⟩)
  | _ => simp [Ph.holds] at hh

/-- The first of the queue gets its turn. -/
theorem first_turn {st : St} (h : WF st) {i : Nat} {q : List Nat} (hl : st.lock = none) (hq : st.queue = i :: q) :
    ∃ st', step st .grant = some st' ∧ st'.queue = q ∧ (st'.lock = none ∨ st'.lock = some i) := by
  obtain ⟨p, hp, hw⟩ := (h.queue i).1 (by simp [hq])
  cases p with
  | queued c => cases c <;> simp only [step, hl, hq, hp] <;> first | exact ⟨_, rfl, rfl, .inl hl⟩ | exact ⟨_, rfl, rfl, .inr rfl⟩
  | asking => simp only [step, hl, hq, hp]; exact ⟨_, rfl, rfl, .inl hl⟩
  | leaving => simp only [step, hl, hq, hp]; exact ⟨_, rfl, rfl, .inl hl⟩
  | _ => simp [Ph.waiting] at hw

/-- C98, partial: whoever waits for its turn gets it when those before it are done, and nobody who came later gets it before. Missing: that those before it get done (`C98_blocked`). -/
theorem C98_turn_partial {st : St} (h : Reachable st) {pre post : List Nat} {j : Nat} (hq : st.queue = pre ++ j :: post) :
    ∃ as st', run st as = some st' ∧ (∀ a ∈ as, a = .grant ∨ ∃ i, a = .arrives i ∧ (st.lock = some i ∨ i ∈ pre)) ∧ st'.queue = post := by
  have hw := reachable_wf h
  clear h
  induction pre generalizing st with
  | nil =>
    cases hl : st.lock with
    | none =>
      obtain ⟨s1, e1, q1, _⟩ := first_turn hw hl hq
      exact ⟨[.grant], s1, by simp only [run, e1], by simp, q1⟩
    | some i =>
      obtain ⟨s0, e0, l0, q0⟩ := holder_ends hw hl
      obtain ⟨s1, e1, q1, _⟩ := first_turn (step_wf hw e0) l0 (q0.trans hq)
      refine ⟨[.arrives i, .grant], s1, by simp only [run, e0, e1], ?_, q1⟩
      intro a ha
      simp at ha
      rcases ha with rfl | rfl
      · exact .inr ⟨i, rfl, .inl rfl⟩
      · exact .inl rfl
  | cons i pre ih =>
    have go : ∀ s0 : St, WF s0 → s0.lock = none → s0.queue = i :: (pre ++ j :: post) → ∃ as st', run s0 as = some st' ∧
        (∀ a ∈ as, a = .grant ∨ ∃ k, a = .arrives k ∧ k ∈ i :: pre) ∧ st'.queue = post := by
      intro s0 w0 l0 q0
      obtain ⟨s1, e1, q1, l1⟩ := first_turn w0 l0 q0
      obtain ⟨as, st', r, ha, hq'⟩ := ih q1 (step_wf w0 e1)
      refine ⟨.grant :: as, st', by simp only [run, e1, r], ?_, hq'⟩
      intro a h
      rcases List.mem_cons.1 h with rfl | h
      · exact .inl rfl
      · rcases ha a h with h | ⟨k, h, h'⟩
        · exact .inl h
        · refine .inr ⟨k, h, ?_⟩
          rcases h' with h' | h'
          · rcases l1 with l1 | l1 <;> rw [l1] at h' <;> cases h'
            exact List.mem_cons_self
          · exact List.mem_cons_of_mem _ h'
    cases hl : st.lock with
    | none =>
      obtain ⟨as, st', r, ha, hq'⟩ := go st hw hl hq
      refine ⟨as, st', r, ?_, hq'⟩
      intro a h
      rcases ha a h with h | ⟨k, h, h'⟩
      · exact .inl h
      · exact .inr ⟨k, h, .inr h'⟩
    | some k =>
      obtain ⟨s0, e0, l0, q0⟩ := holder_ends hw hl
      obtain ⟨as, st', r, ha, hq'⟩ := go s0 (step_wf hw e0) l0 (q0.trans hq)
      refine ⟨.arrives k :: as, st', by simp only [run, e0, r], ?_, hq'⟩
      intro a h
      rcases List.mem_cons.1 h with rfl | h
      · exact .inr ⟨k, rfl, .inl rfl⟩
      · rcases ha a h with h | ⟨k', h, h'⟩
        · exact .inl h
        · exact .inr ⟨k', h, .inr h'⟩

/-- C98: requests that do not need the lock are carried out whoever has it. -/
theorem C98_unlocked (st : St) {i : Nat} (w : What) (hi : st.conns[i]? = some .idle) :
    ∃ st', run st [.sends i (.later w), .arrives i] = some st' ∧
      st'.conns[i]? = some (match w with | .create => .leased | .attach => .leased | .client k => .newborn k) ∧
      (∀ j, j ≠ i → st'.conns[j]? = st.conns[j]?) ∧ st'.lock = st.lock ∧ st'.queue = st.queue := by
  have hlt : i < st.conns.length := by
    rcases Nat.lt_or_ge i st.conns.length with h | h
    · exact h
    · rw [List.getElem?_eq_none h] at hi; cases hi
  have e1 : step st (.sends i (.later w)) = some (st.to i (.payload w)) := by simp only [step, hi]
  have g1 : (st.to i (.payload w)).conns[i]? = some (.payload w) := by simp [St.to, hlt]
  cases w with
  | create =>
    simp only [run, e1]
    simp only [step, g1]
    refine ⟨_, rfl, ?_, ?_, rfl, rfl⟩
    · simp [St.to, hlt]
    · intro j hj; simp [St.to, List.getElem?_set, Ne.symm hj]
  | attach =>
    simp only [run, e1]
    simp only [step, g1]
    refine ⟨_, rfl, ?_, ?_, rfl, rfl⟩
    · simp [St.to, hlt]
    · intro j hj; simp [St.to, List.getElem?_set, Ne.symm hj]
  | client k =>
    simp only [run, e1]
    simp only [step, g1]
    refine ⟨_, rfl, ?_, ?_, rfl, rfl⟩
    · simp [St.to, hlt]
    · intro j hj; simp [St.to, List.getElem?_set, Ne.symm hj]

/-- What a step does to a connection that it is not about. -/
theorem step_other {st st' : St} {a : Act} (hs : step st a = some st') {i : Nat} {p : Ph} (hp : st.conns[i]? = some p)
    (ha : a ≠ .arrives i ∧ a ≠ .leaves i ∧ (∀ r, a ≠ .sends i r) ∧ a ≠ .asks i ∧ a ≠ .begins i) (hg : a = .grant → st.queue.head? ≠ some i)
    (hst : a = .stop → cancel p = p) (hr : a = .released → p ≠ .leased) : st'.conns[i]? = some p := by
  obtain ⟨h1, h2, h3, h4, h5⟩ := ha
  have hto : ∀ j q, j ≠ i → (st.to j q).conns[i]? = some p := by
    intro j q hj; simp only [St.to, List.getElem?_set_ne hj]; exact hp
  cases a with
  | accept =>
    simp only [step] at hs
    split at hs <;> cases hs
    simp only [List.getElem?_append]
    split
    · exact hp
    · rename_i h; rw [List.getElem?_eq_none (by omega)] at hp; cases hp
  | sends j r =>
    have hj : j ≠ i := by rintro rfl; exact h3 r rfl
    simp only [step] at hs
    split at hs
    · split at hs <;> cases hs <;> exact hto j _ hj
    · cases hs
  | arrives j =>
    have hj : j ≠ i := by rintro rfl; exact h1 rfl
    simp only [step] at hs
    split at hs <;> cases hs <;> exact hto j _ hj
  | asks j =>
    have hj : j ≠ i := by rintro rfl; exact h4 rfl
    simp only [step] at hs
    split at hs <;> cases hs <;> exact hto j _ hj
  | leaves j =>
    have hj : j ≠ i := by rintro rfl; exact h2 rfl
    simp only [step] at hs
    split at hs <;> cases hs <;> exact hto j _ hj
  | stop =>
    simp only [step] at hs
    split at hs <;> cases hs
    simp only [List.getElem?_map, hp, Option.map_some, hst rfl]
  | begins j =>
    have hj : j ≠ i := by rintro rfl; exact h5 rfl
    simp only [step] at hs
    split at hs <;> cases hs <;> exact hto j _ hj
  | grant =>
    simp only [step] at hs
    split at hs
    · rename_i j q hl hq
      have hj : j ≠ i := by rintro rfl; exact hg rfl (by simp [hq])
      split at hs <;> cases hs <;> exact hto j _ hj
    · cases hs
  | gathered =>
    simp only [step] at hs
    split at hs
    · split at hs <;> cases hs
      rw [(lease_conns st).1]; exact hp
    · cases hs
  | released =>
    simp only [step] at hs
    split at hs
    · rename_i j ch _
      have : (if st.conns[j]? = some .leased then st.to j .closed else st).conns[i]? = some p := by
        split
        · rename_i hj
          have : j ≠ i := by rintro rfl; rw [hp] at hj; cases hj; exact hr rfl rfl
          exact hto j _ this
        · exact hp
      cases hs
      split
      · exact this
      · rw [(lease_conns _).1]; exact this
    · cases hs
  | finish =>
    simp only [step] at hs
    split at hs
    · split at hs <;> cases hs
      exact hp
    · cases hs

theorem step_lock {st st' : St} {a : Act} (h : WF st) (hs : step st a = some st') {i : Nat} (hl : st.lock = some i) (h1 : a ≠ .arrives i) (h2 : a ≠ .leaves i) :
    st'.lock = some i := by
  obtain ⟨p, hp, hh⟩ := (h.lock i).1 hl
  refine ((step_wf h hs).lock i).2 ⟨p, ?_, hh⟩
  refine step_other hs hp ⟨h1, h2, ?_, ?_, ?_⟩ ?_ ?_ ?_
  · rintro r rfl; cases p <;> simp [Ph.holds] at hh; simp [step, hp] at hs
  · rintro rfl; cases p <;> simp [Ph.holds] at hh; simp [step, hp] at hs
  · rintro rfl; cases p <;> simp [Ph.holds] at hh; simp [step, hp] at hs
  · rintro rfl; simp [step, hl] at hs
  · intro _; cases p <;> simp [Ph.holds] at hh; rfl
  · intro _; cases p <;> simp [Ph.holds] at hh; simp

/-- C98: turns are given in the order in which they were asked for, as long as the server is not stopped: whoever has `pre` before it has those of `pre` before it that have not had their turn, and
gets its own with the turn after theirs. -/
theorem C98_fair {st st' : St} {as : List Act} {pre post : List Nat} {j : Nat} (hq : st.queue = pre ++ j :: post) (hs : run st as = some st')
    (ha : .stop ∉ as) (hn : as.count .grant ≤ pre.length) : ∃ post', st'.queue = pre.drop (as.count .grant) ++ j :: post' := by
  induction as generalizing st pre post with
  | nil => cases hs; exact ⟨post, by simpa using hq⟩
  | cons a as ih =>
    simp only [run] at hs
    split at hs
    · rename_i s1 e
      have hgo : ∀ (post1 : List Nat), a ≠ .grant → s1.queue = pre ++ j :: post1 → ∃ post', st'.queue = pre.drop ((a :: as).count .grant) ++ j :: post' := by
        intro post1 hne hq1
        rw [List.count_cons_of_ne hne] at hn ⊢
        exact ih hq1 hs (fun h => ha (List.mem_cons_of_mem _ h)) hn
      have happ : ∀ i, pre ++ j :: post ++ [i] = pre ++ j :: (post ++ [i]) := by intro i; simp
      cases a with
      | grant =>
        have hlen : pre ≠ [] := by rintro rfl; simp at hn
        obtain ⟨i, pre', rfl⟩ := List.exists_cons_of_ne_nil hlen
        have hq1 : s1.queue = pre' ++ j :: post := by
          simp only [step] at e
          split at e
          · rename_i k q hl hk
            rw [hq] at hk
            simp only [List.cons_append, List.cons.injEq] at hk
            split at e <;> cases e <;> exact hk.2.symm
          · cases e
        have hcnt : (Act.grant :: as).count .grant = as.count .grant + 1 := List.count_cons_self
        rw [hcnt] at hn ⊢
        exact ih hq1 hs (fun h => ha (List.mem_cons_of_mem _ h)) (by simpa using hn)
      | stop => exact absurd List.mem_cons_self ha
      | accept => simp only [step] at e; split at e <;> cases e; exact hgo post (by simp) hq
      | sends i r =>
        simp only [step] at e
        split at e
        · split at e <;> cases e
          · exact hgo post (by simp) hq
          · exact hgo post (by simp) hq
          · exact hgo (post ++ [i]) (by simp) (by show st.queue ++ [i] = _; rw [hq, happ])
        · cases e
      | arrives i => simp only [step] at e; split at e <;> cases e <;> exact hgo post (by simp) hq
      | asks i =>
        simp only [step] at e
        split at e <;> cases e
        exact hgo (post ++ [i]) (by simp) (by show st.queue ++ [i] = _; rw [hq, happ])
      | leaves i =>
        simp only [step] at e
        split at e <;> cases e
        all_goals first
          | exact hgo post (by simp) hq
          | exact hgo (post ++ [i]) (by simp) (by show st.queue ++ [i] = _; rw [hq, happ])
      | begins i => simp only [step] at e; split at e <;> cases e; exact hgo post (by simp) hq
      | gathered =>
        simp only [step] at e
        split at e
        · split at e <;> cases e
          exact hgo post (by simp) ((lease_conns st).2.2.1.trans hq)
        · cases e
      | released =>
        simp only [step] at e
        split at e
        · cases e
          refine hgo post (by simp) ?_
          split
          · show (if _ then _ else _ : St).queue = _
            split <;> exact hq
          · rw [(lease_conns _).2.2.1]
            split <;> exact hq
        · cases e
      | finish =>
        simp only [step] at e
        split at e
        · split at e <;> cases e
          exact hgo post (by simp) hq
        · cases e
    · cases hs

/-- C98 is violated: a client that has sent a command which needs the lock, and not what belongs to it, keeps the lock, and no command of another one that needs it is begun: until it sends the rest
or leaves. -/
theorem C98_blocked {st st' : St} {as : List Act} (h : Reachable st) {i : Nat} (hl : st.lock = some i) (hs : run st as = some st')
    (ha : ∀ a ∈ as, a ≠ .arrives i ∧ a ≠ .leaves i) :
    st'.lock = some i ∧ ∀ (j : Nat) (c : Cmd), st.conns[j]? = some (.queued c) → st'.conns[j]? = some (.queued c) := by
  have hw := reachable_wf h
  clear h
  induction as generalizing st with
  | nil => cases hs; exact ⟨hl, fun _ _ h => h⟩
  | cons a as ih =>
    simp only [run] at hs
    split at hs
    · rename_i s1 e
      obtain ⟨a1, a2⟩ := ha a List.mem_cons_self
      have l1 := step_lock hw e hl a1 a2
      obtain ⟨h1, h2⟩ := ih l1 hs (fun b hb => ha b (List.mem_cons_of_mem _ hb)) (step_wf hw e)
      refine ⟨h1, fun j c hj => h2 j c ?_⟩
      refine step_other e hj ⟨?_, ?_, ?_, ?_, ?_⟩ ?_ ?_ ?_
      · rintro rfl; simp [step, hj] at e
      · rintro rfl; simp [step, hj] at e
      · rintro r rfl; simp [step, hj] at e
      · rintro rfl; simp [step, hj] at e
      · rintro rfl; simp [step, hj] at e
      · rintro rfl; simp [step, hl] at e
      · intro _; rfl
      · intro _; simp
    · cases hs

/-- C98: such states are reached: one client sends `SUBSCRIBE` without a topic, and another one `CONNECT`, with everything that belongs to it. -/
theorem C98_blocked_reached : ∃ st, Reachable st ∧ st.lock = some 0 ∧ st.conns = [.holding .join, .queued .edge] :=
  ⟨_, ⟨true, [.accept, .accept, .sends 0 (.cmd .join), .grant, .sends 1 (.cmd .edge)], rfl⟩, rfl, rfl⟩

/-- C98 is violated: while `SYNC` waits for a publisher, the client that has sent it cannot even give the lock back by leaving. -/
theorem C98_sync_kept (st : St) {i : Nat} (hi : st.conns[i]? = some (.holding .sync)) : step st (.leaves i) = none := by simp [step, hi]

/-! ## C97: a server that stops -/

/-- The server stops, and nobody is in the middle of a request. -/
structure Calm (st : St) : Prop where
  wf : WF st
  closed : st.listening = false
  free : st.lock = none
  conns : ∀ (i : Nat) (p : Ph), st.conns[i]? = some p → p = .leaving ∨ p = .leased ∨ p = .closed
  stage : match st.stage with
    | .running => False
    | .crashed => False
    | .gathering ts => (∀ i ∈ ts, st.conns[i]? = some .leaving ∨ st.conns[i]? = some .closed) ∧ ∀ (i : Nat), st.conns[i]? = some .leaving → i ∈ ts
    | .leasing i c => c = false ∧ i < st.conns.length ∧ ∀ (i : Nat), st.conns[i]? ≠ some .leaving
    | .waiting => ∀ (i : Nat) (p : Ph), st.conns[i]? = some p → p = .closed
    | .done => ∀ (i : Nat) (p : Ph), st.conns[i]? = some p → p = .closed

/-- What is left to do. -/
def weight (st : St) : Nat := st.queue.length + 2 * st.conns.count .leased + match st.stage with
  | .gathering _ => 5
  | .leasing i _ => if st.conns[i]? = some .leased then 2 else 3
  | .waiting => 1
  | _ => 0

theorem lt_of_get {l : List Ph} {i : Nat} {p : Ph} (h : l[i]? = some p) : i < l.length := by
  rcases Nat.lt_or_ge i l.length with h' | h'
  · exact h'
  · rw [List.getElem?_eq_none h'] at h; cases h

theorem lease_stage (st : St) : (∃ i : Nat, st.lease.stage = .leasing i false ∧ st.conns[i]? = some .leased) ∨
    (st.lease.stage = .waiting ∧ ∀ (i : Nat), st.conns[i]? ≠ some .leased) := by
  unfold St.lease
  split
  · rename_i i l h
    obtain ⟨p, h1, h2⟩ := (mem_which st _ i).1 (by rw [h]; exact List.mem_cons_self)
    exact .inl ⟨i, rfl, by rw [h1]; simpa using h2⟩
  · rename_i h
    refine .inr ⟨rfl, fun i hi => ?_⟩
    have := (mem_which st (· == .leased) i).2 ⟨_, hi, by simp⟩
    rw [h] at this
    cases this

theorem lease_not_done (st : St) : st.lease.stage ≠ .done := by
  rcases lease_stage st with ⟨i, h, _⟩ | ⟨h, _⟩ <;> rw [h] <;> simp

/-- After the tasks, the leases. -/
theorem calm_lease {st : St} (hw : WF st) (hc : st.listening = false) (hf : st.lock = none) (hp : ∀ (i : Nat) (p : Ph), st.conns[i]? = some p → p = .leased ∨ p = .closed) :
    Calm st.lease ∧ weight st.lease ≤ st.queue.length + 2 * st.conns.count .leased + 2 := by
  obtain ⟨e1, e2, e3, e4, e5⟩ := lease_conns st
  refine ⟨⟨hw.same e1 e2 e3, by rw [e4]; exact hc, by rw [e2]; exact hf, ?_, ?_⟩, ?_⟩
  · intro i p h; rw [e1] at h; exact .inr (hp i p h)
  · rcases lease_stage st with ⟨i, h1, h2⟩ | ⟨h1, h2⟩
    · rw [h1]
      refine ⟨rfl, by rw [e1]; exact lt_of_get h2, fun j hj => ?_⟩
      rw [e1] at hj
      rcases hp j _ hj with h | h <;> cases h
    · rw [h1]
      intro i p h
      rw [e1] at h
      rcases hp i p h with rfl | h'
      · exact absurd h (h2 i)
      · exact h'
  · unfold weight
    rw [e1, e3]
    rcases lease_stage st with ⟨i, h1, h2⟩ | ⟨h1, h2⟩
    · rw [h1]; simp [h2]
    · rw [h1]; simp

theorem count_close {l : List Ph} {i : Nat} {p : Ph} (h : l[i]? = some p) : (l.set i .closed).count .leased + (if p = .leased then 1 else 0) = l.count .leased := by
  have hlt := lt_of_get h
  have hp : l[i] = p := by rw [List.getElem?_eq_getElem hlt] at h; exact Option.some.inj h
  rw [List.count_set hlt, hp]
  split
  · rename_i e
    have e : p = .leased := by simpa using e
    subst e
    have : 0 < l.count .leased := List.count_pos_iff.2 (hp ▸ List.getElem_mem hlt)
    simp
    omega
  · rename_i e
    have e : p ≠ .leased := by simpa using e
    simp [e]

theorem calm_step {st st' : St} {a : Act} (h : Calm st) (hs : step st a = some st') :
    Calm st' ∧ weight st' + (if a.own then 1 else 0) ≤ weight st := by
  have hw := step_wf h.wf hs
  have no : ∀ {i : Nat} {p : Ph}, st.conns[i]? = some p → p ≠ .leaving → p ≠ .leased → p ≠ .closed → False := by
    intro i p hp h1 h2 h3
    rcases h.conns i p hp with h | h | h
    · exact h1 h
    · exact h2 h
    · exact h3 h
  cases a with
  | accept => simp [step, h.closed] at hs
  | sends i r =>
    simp only [step] at hs
    split at hs
    · rename_i hp; exact (no hp (by simp) (by simp) (by simp)).elim
    · cases hs
  | arrives i =>
    simp only [step] at hs
    split at hs
    all_goals first | cases hs; done | (rename_i hp; exact (no hp (by simp) (by simp) (by simp)).elim)
  | asks i =>
    simp only [step] at hs
    split at hs
    · rename_i hp; exact (no hp (by simp) (by simp) (by simp)).elim
    · cases hs
  | begins i =>
    simp only [step] at hs
    split at hs
    · rename_i hp; exact (no hp (by simp) (by simp) (by simp)).elim
    · cases hs
  | stop =>
    simp only [step] at hs
    split at hs
    · rename_i hst; have := h.stage; rw [hst] at this; exact this.elim
    · cases hs
  | leaves i =>
    simp only [step] at hs
    split at hs
    all_goals first
      | cases hs; done
      | (rename_i hp; refine (no hp ?_ ?_ ?_).elim <;> simp <;> done)
      | skip
    rename_i hp
    cases hs
    have get : ∀ {j : Nat} {q : Ph}, (st.to i .closed).conns[j]? = some q → (j = i ∧ q = .closed) ∨ (j ≠ i ∧ st.conns[j]? = some q) := by
      intro j q hj
      simp only [St.to] at hj
      by_cases e : i = j
      · subst e; rw [List.getElem?_set_self (lt_of_get hp)] at hj; cases hj; exact .inl ⟨rfl, rfl⟩
      · rw [List.getElem?_set_ne e] at hj; exact .inr ⟨Ne.symm e, hj⟩
    have get' : ∀ {j : Nat} {q : Ph}, j ≠ i → st.conns[j]? = some q → (st.to i .closed).conns[j]? = some q := by
      intro j q e hj
      simp only [St.to]; rw [List.getElem?_set_ne (Ne.symm e)]; exact hj
    refine ⟨⟨hw, h.closed, h.free, ?_, ?_⟩, ?_⟩
    · intro j q hj
      rcases get hj with ⟨_, rfl⟩ | ⟨_, hj⟩
      · exact .inr (.inr rfl)
      · exact h.conns j q hj
    · have hst := h.stage
      show match st.stage with
        | .running => False
        | .crashed => False
        | .gathering ts => (∀ k ∈ ts, (st.to i .closed).conns[k]? = some .leaving ∨ (st.to i .closed).conns[k]? = some .closed) ∧
          ∀ (k : Nat), (st.to i .closed).conns[k]? = some .leaving → k ∈ ts
        | .leasing j c => c = false ∧ j < (st.to i .closed).conns.length ∧ ∀ (k : Nat), (st.to i .closed).conns[k]? ≠ some .leaving
        | .waiting => ∀ (k : Nat) (p : Ph), (st.to i .closed).conns[k]? = some p → p = .closed
        | .done => ∀ (k : Nat) (p : Ph), (st.to i .closed).conns[k]? = some p → p = .closed
      split at hst
      · exact hst
      · exact hst
      · refine ⟨fun k hk => ?_, fun k hk => ?_⟩
        · have hne : k ≠ i := by rintro rfl; have := hst.1 k hk; rw [hp] at this; rcases this with h | h <;> cases h
          rcases hst.1 k hk with h | h
          · exact .inl (get' hne h)
          · exact .inr (get' hne h)
        · rcases get hk with ⟨_, h⟩ | ⟨_, h⟩
          · cases h
          · exact hst.2 k h
      · refine ⟨hst.1, by simpa [St.to] using hst.2.1, fun k hk => ?_⟩
        rcases get hk with ⟨_, h⟩ | ⟨_, h⟩
        · cases h
        · exact hst.2.2 k h
      · have := hst i _ hp; cases this
      · have := hst i _ hp; cases this
    · have hc := count_close hp
      simp only [if_true] at hc
      unfold weight
      simp only [Act.own, Bool.false_eq_true, if_false, Nat.add_zero]
      show st.queue.length + 2 * (st.conns.set i .closed).count .leased + (match st.stage with
        | .gathering _ => 5
        | .leasing j _ => if (st.conns.set i .closed)[j]? = some .leased then 2 else 3
        | .waiting => 1
        | _ => 0) ≤ _
      cases st.stage with
      | leasing j c =>
        simp only
        split <;> split <;> omega
      | _ => simp only; omega
  | grant =>
    simp only [step] at hs
    split at hs
    · rename_i i q hl hq
      split at hs
      all_goals first
        | cases hs; done
        | (rename_i hp; refine (no hp ?_ ?_ ?_).elim <;> simp <;> done)
        | skip
      rename_i hp
      cases hs
      have get : ∀ {j : Nat} {p : Ph}, (st.conns.set i .closed)[j]? = some p → (j = i ∧ p = .closed) ∨ (j ≠ i ∧ st.conns[j]? = some p) := by
        intro j p hj
        by_cases e : i = j
        · subst e; rw [List.getElem?_set_self (lt_of_get hp)] at hj; cases hj; exact .inl ⟨rfl, rfl⟩
        · rw [List.getElem?_set_ne e] at hj; exact .inr ⟨Ne.symm e, hj⟩
      have hst := h.stage
      obtain ⟨ts, hts⟩ : ∃ ts, st.stage = .gathering ts := by
        split at hst
        · exact hst.elim
        · exact hst.elim
        · rename_i ts e; exact ⟨ts, e⟩
        · exact absurd hp (hst.2.2 i)
        · cases hst i _ hp
        · cases hst i _ hp
      rw [hts] at hst
      refine ⟨⟨hw, h.closed, hl, ?_, ?_⟩, ?_⟩
      · intro j p hj
        rcases get hj with ⟨_, rfl⟩ | ⟨_, hj⟩
        · exact .inr (.inr rfl)
        · exact h.conns j p hj
      · show match st.stage with
          | .running => False
          | .crashed => False
          | .gathering ts => (∀ k ∈ ts, (st.conns.set i .closed)[k]? = some .leaving ∨ (st.conns.set i .closed)[k]? = some .closed) ∧
            ∀ (k : Nat), (st.conns.set i .closed)[k]? = some .leaving → k ∈ ts
          | .leasing j c => c = false ∧ j < (st.conns.set i .closed).length ∧ ∀ (k : Nat), (st.conns.set i .closed)[k]? ≠ some .leaving
          | .waiting => ∀ (k : Nat) (p : Ph), (st.conns.set i .closed)[k]? = some p → p = .closed
          | .done => ∀ (k : Nat) (p : Ph), (st.conns.set i .closed)[k]? = some p → p = .closed
        rw [hts]
        refine ⟨fun k hk => ?_, fun k hk => ?_⟩
        · by_cases e : i = k
          · subst e; exact .inr (List.getElem?_set_self (lt_of_get hp))
          · rw [List.getElem?_set_ne e]; exact hst.1 k hk
        · rcases get hk with ⟨_, h⟩ | ⟨_, h⟩
          · cases h
          · exact hst.2 k h
      · have hc := count_close hp
        unfold weight
        simp only [Act.own, if_true, hts, hq, St.to]
        simp at hc
        simp only [List.length_cons]
        omega
    · cases hs
  | gathered =>
    simp only [step] at hs
    split at hs
    · rename_i ts hts
      split at hs
      · rename_i hall
        cases hs
        have hst := h.stage
        rw [hts] at hst
        have hno : ∀ (i : Nat), st.conns[i]? ≠ some .leaving := by
          intro i hi
          have := List.all_eq_true.1 hall i (hst.2 i hi)
          rw [hi] at this
          cases this
        obtain ⟨c1, c2⟩ := calm_lease h.wf h.closed h.free (fun i p hp => by
          rcases h.conns i p hp with rfl | h | h
          · exact absurd hp (hno i)
          · exact .inl h
          · exact .inr h)
        refine ⟨c1, ?_⟩
        unfold weight at c2 ⊢
        simp only [Act.own, if_true, hts]
        omega
      · cases hs
    · cases hs
  | released =>
    simp only [step] at hs
    split at hs
    · rename_i i c hts
      have hst := h.stage
      rw [hts] at hst
      obtain ⟨rfl, hlt, hno⟩ := hst
      simp only [Bool.false_eq_true, if_false, Option.some.injEq] at hs
      have hp' : ∀ (j : Nat) (p : Ph), st.conns[j]? = some p → p = .leased ∨ p = .closed := by
        intro j p hp
        rcases h.conns j p hp with rfl | h | h
        · exact absurd hp (hno j)
        · exact .inl h
        · exact .inr h
      by_cases hi : st.conns[i]? = some .leased
      · rw [if_pos hi] at hs
        subst hs
        have hw' : WF (st.to i .closed) := h.wf.keep hi rfl rfl rfl rfl rfl rfl rfl
        obtain ⟨c1, c2⟩ := calm_lease hw' h.closed h.free (fun j p hp => by
          simp only [St.to] at hp
          by_cases e : i = j
          · subst e; rw [List.getElem?_set_self hlt] at hp; cases hp; exact .inr rfl
          · rw [List.getElem?_set_ne e] at hp; exact hp' j p hp)
        refine ⟨c1, ?_⟩
        have hc := count_close hi
        simp only [if_true] at hc
        have hwst : weight st = st.queue.length + 2 * st.conns.count .leased + 2 := by unfold weight; simp [hts, hi]
        have c2' : weight (st.to i .closed).lease ≤ st.queue.length + 2 * (st.conns.set i .closed).count .leased + 2 := c2
        rw [hwst]
        simp only [Act.own, if_true]
        omega
      · rw [if_neg hi] at hs
        subst hs
        obtain ⟨c1, c2⟩ := calm_lease h.wf h.closed h.free hp'
        refine ⟨c1, ?_⟩
        unfold weight at c2 ⊢
        simp only [Act.own, if_true, hts, if_neg hi]
        omega
    · cases hs
  | finish =>
    simp only [step] at hs
    split at hs
    · rename_i hts
      split at hs
      · cases hs
        have hst := h.stage
        rw [hts] at hst
        refine ⟨⟨hw, h.closed, h.free, h.conns, hst⟩, ?_⟩
        unfold weight
        simp only [Act.own, if_true, hts]
        omega
      · cases hs
    · cases hs

theorem calm_run {st st' : St} {as : List Act} (h : Calm st) (hs : run st as = some st') : Calm st' ∧ weight st' + ownSteps as ≤ weight st := by
  induction as generalizing st with
  | nil => cases hs; exact ⟨h, by simp [ownSteps]⟩
  | cons a as ih =>
    simp only [run] at hs
    split at hs
    · rename_i s1 e
      obtain ⟨h1, h2⟩ := calm_step h e
      obtain ⟨h3, h4⟩ := ih h1 hs
      refine ⟨h3, ?_⟩
      unfold ownSteps at h4 ⊢
      rw [List.filter_cons]
      split at h2
      · rename_i ho; rw [if_pos ho]; simp only [List.length_cons]; omega
      · rename_i ho; rw [if_neg ho]; omega
    · cases hs

theorem calm_enabled {st : St} (h : Calm st) (hn : ∀ a, a.own = true → step st a = none) : st.stage = .done ∧ ∀ p ∈ st.conns, p = .closed := by
  have hst := h.stage
  have mem : (∀ (i : Nat) (p : Ph), st.conns[i]? = some p → p = .closed) → ∀ p ∈ st.conns, p = .closed := by
    intro h p hp
    obtain ⟨i, hi⟩ := List.mem_iff_getElem?.1 hp
    exact h i p hi
  split at hst
  · exact hst.elim
  · exact hst.elim
  · rename_i ts hts
    exfalso
    cases hq : st.queue with
    | cons i q =>
      obtain ⟨p, hp, hw⟩ := (h.wf.queue i).1 (by simp [hq])
      have hpl : p = .leaving := by
        rcases h.conns i p hp with rfl | rfl | rfl
        · rfl
        · cases hw
        · cases hw
      subst hpl
      have := hn .grant rfl
      simp [step, h.free, hq, hp] at this
    | nil =>
      have := hn .gathered rfl
      simp only [step, hts] at this
      rw [if_pos] at this
      · cases this
      · rw [List.all_eq_true]
        intro i hi
        rcases hst.1 i hi with h' | h'
        · have := (h.wf.queue i).2 ⟨_, h', rfl⟩
          rw [hq] at this
          cases this
        · rw [h']; rfl
  · rename_i i c hts
    have := hn .released rfl
    simp [step, hts] at this
  · rename_i hts
    have := hn .finish rfl
    simp only [step, hts] at this
    rw [if_pos] at this
    · cases this
    · rw [Bool.or_eq_true, List.all_eq_true]
      exact .inr fun p hp => by simpa using mem hst p hp
  · rename_i hts
    exact ⟨hts, mem hst⟩

/-- C97, partial: if nobody is in the middle of a request when `stop` is called, the server stops after finitely many of its own steps, whatever the clients do meanwhile; and as long as it has not stopped, it has
a next step. When it has stopped all connections are closed, with the leases of segments among them. Missing: connections in the middle of a request (`C97_stalled`, `C97_idle`, `C97_orphan`, `C97_crash`). -/
theorem C97_stops_partial {st st1 : St} (h : Reachable st) (hq : Settled st) (hs : step st .stop = some st1) :
    ∃ n, ∀ as st2, run st1 as = some st2 → ownSteps as ≤ n ∧
      ((∀ a, a.own = true → step st2 a = none) → st2.stage = .done) ∧ (st2.stage = .done → ∀ p ∈ st2.conns, p = .closed) := by
  obtain ⟨h1, h2, h3⟩ := hq
  have hw1 := step_wf (reachable_wf h) hs
  have hc : Calm st1 := by
    simp only [step, h1] at hs
    cases hs
    refine ⟨hw1, rfl, h2, ?_, ?_⟩
    · intro i p hp
      simp only [List.getElem?_map, Option.map_eq_some_iff] at hp
      obtain ⟨q, hq, rfl⟩ := hp
      rcases h3 q (List.mem_of_getElem? hq) with ⟨k, rfl⟩ | rfl | rfl | rfl
      · cases k <;> simp [cancel]
      · simp [cancel]
      · simp [cancel]
      · simp [cancel]
    · refine ⟨fun i hi => ?_, fun i hi => ?_⟩
      · obtain ⟨p, hp, ht⟩ := (mem_which st _ i).1 hi
        simp only [List.getElem?_map, hp, Option.map_some]
        rcases h3 p (List.mem_of_getElem? hp) with ⟨k, rfl⟩ | rfl | rfl | rfl
        · cases k <;> simp [cancel]
        · simp [cancel]
        · simp [Ph.task] at ht
        · simp [Ph.task] at ht
      · simp only [List.getElem?_map, Option.map_eq_some_iff] at hi
        obtain ⟨p, hp, he⟩ := hi
        refine (mem_which st _ i).2 ⟨p, hp, ?_⟩
        cases p <;> simp [cancel, Ph.task] at he ⊢
  refine ⟨weight st1, fun as st2 hr => ?_⟩
  obtain ⟨g1, g2⟩ := calm_run hc hr
  refine ⟨by omega, fun h => (calm_enabled g1 h).1, fun hd p hp => ?_⟩
  have := g1.stage
  rw [hd] at this
  obtain ⟨i, hi⟩ := List.getElem?_of_mem hp
  exact this i p hi

/-- A server that stops accepts nothing, and if `stop` has returned all connections are closed. -/
theorem done_inv {st st' : St} {as : List Act} (h : (st.stage ≠ .running → st.listening = false) ∧ (st.waits = true → st.stage = .done → ∀ p ∈ st.conns, p = .closed))
    (hs : run st as = some st') :
    (st'.stage ≠ .running → st'.listening = false) ∧ (st'.waits = true → st'.stage = .done → ∀ p ∈ st'.conns, p = .closed) := by
  induction as generalizing st with
  | nil => cases hs; exact h
  | cons a as ih =>
    simp only [run] at hs
    split at hs
    · rename_i s1 e
      refine ih ?_ hs
      obtain ⟨h1, h2⟩ := h
      clear hs ih as
      have no : ∀ {i : Nat} {p : Ph}, st.conns[i]? = some p → p ≠ .closed → st.waits = true → st.stage ≠ .done := by
        intro i p hp hne hw hd
        exact hne (h2 hw hd p (List.mem_of_getElem? hp))
      cases a with
      | accept =>
        simp only [step] at e
        split at e <;> cases e
        rename_i hl
        refine ⟨h1, fun hw hd => ?_⟩
        have := h1 (by rw [show st.stage = _ from hd]; simp)
        rw [hl] at this; cases this
      | sends i r =>
        simp only [step] at e
        split at e
        · rename_i hp
          split at e <;> cases e <;> exact ⟨h1, fun hw hd => (no hp (by simp) hw hd).elim⟩
        · cases e
      | arrives i =>
        simp only [step] at e
        split at e <;> (try cases e; done)
        · rename_i hp
          cases e
          refine ⟨?_, fun hw hd => ?_⟩
          · intro hne
            refine h1 fun hr => hne ?_
            show (match st.stage with | .leasing j _ => _ | s => s) = _
            rw [hr]
          · refine (no hp (by simp) hw ?_).elim
            revert hd
            show (match st.stage with | .leasing j _ => Stage.leasing j true | s => s) = _ → _
            split
            · intro h; cases h
            · exact id
        all_goals (rename_i hp; cases e; exact ⟨h1, fun hw hd => (no hp (by simp) hw hd).elim⟩)
      | asks i =>
        simp only [step] at e
        split at e <;> (try cases e; done)
        rename_i hp; cases e; exact ⟨h1, fun hw hd => (no hp (by simp) hw hd).elim⟩
      | leaves i =>
        simp only [step] at e
        split at e <;> (try cases e; done)
        all_goals (rename_i hp; cases e; exact ⟨h1, fun hw hd => (no hp (by simp) hw hd).elim⟩)
      | begins i =>
        simp only [step] at e
        split at e <;> (try cases e; done)
        rename_i hp; cases e; exact ⟨h1, fun hw hd => (no hp (by simp) hw hd).elim⟩
      | stop =>
        simp only [step] at e
        split at e <;> cases e
        exact ⟨fun _ => rfl, fun _ hd => by cases hd⟩
      | grant =>
        simp only [step] at e
        split at e
        · split at e <;> (try cases e; done)
          all_goals (rename_i hp; cases e; exact ⟨h1, fun hw hd => (no hp (by simp) hw hd).elim⟩)
        · cases e
      | gathered =>
        simp only [step] at e
        split at e
        · rename_i hts
          split at e <;> cases e
          refine ⟨fun _ => by rw [(lease_conns st).2.2.2.1]; exact h1 (by rw [hts]; simp), fun _ hd => ?_⟩
          rcases lease_stage st with ⟨i, h, _⟩ | ⟨h, _⟩ <;> rw [h] at hd <;> cases hd
        · cases e
      | released =>
        simp only [step] at e
        split at e
        · rename_i hts
          have hl := h1 (by rw [hts]; simp)
          cases e
          split
          · refine ⟨fun _ => ?_, fun _ hd => by cases hd⟩
            split <;> exact hl
          · refine ⟨fun _ => ?_, fun _ hd => ?_⟩
            · rw [(lease_conns _).2.2.2.1]; split <;> exact hl
            · exact absurd hd (lease_not_done _)
        · cases e
      | finish =>
        simp only [step] at e
        split at e
        · rename_i hts
          split at e
          · rename_i hc
            cases e
            refine ⟨fun _ => h1 (by rw [hts]; simp), fun hw _ p hp => ?_⟩
            rw [show st.waits = true from hw] at hc
            simp at hc
            exact hc p hp
          · cases e
        · cases e
    · cases hs

/-- C97: since Python 3.12.1, when `stop` returns all connections are closed. -/
theorem C97_done {st : St} (h : Reachable st) (hw : st.waits = true) (hd : st.stage = .done) : ∀ p ∈ st.conns, p = .closed := by
  obtain ⟨w, as, h⟩ := h
  exact (done_inv (st := init w) ⟨by simp [init], by simp [init]⟩ h).2 hw hd

theorem run_waits {st st' : St} {as : List Act} (hs : run st as = some st') : st'.waits = st.waits := by
  induction as generalizing st with
  | nil => cases hs; rfl
  | cons a as ih =>
    simp only [run] at hs
    split at hs
    · rename_i s1 e
      rw [ih hs]
      cases a <;> simp only [step] at e <;> (try split at e) <;> (try split at e) <;> (try split at e) <;> (try cases e) <;> try rfl
      all_goals exact (lease_conns _).2.2.2.2
    · cases hs

/-- C97 is violated, with every version of Python: while a client that has the lock sends nothing, a session's task does not end, and `stop` does not return. -/
theorem C97_stalled {st st' : St} {as : List Act} (h : Reachable st) {i j : Nat} {ts : List Nat} (hl : st.lock = some i) (hts : st.stage = .gathering ts) (hj : j ∈ ts)
    (hp : st.conns[j]? = some .leaving) (hs : run st as = some st') (ha : ∀ a ∈ as, a ≠ .arrives i ∧ a ≠ .leaves i) : st'.stage = .gathering ts := by
  have hw := reachable_wf h
  clear h
  induction as generalizing st with
  | nil => cases hs; exact hts
  | cons a as ih =>
    simp only [run] at hs
    split at hs
    · rename_i s1 e
      obtain ⟨a1, a2⟩ := ha a List.mem_cons_self
      refine ih (step_lock hw e hl a1 a2) ?_ ?_ hs (fun b hb => ha b (List.mem_cons_of_mem _ hb)) (step_wf hw e)
      · cases a with
        | gathered =>
          simp only [step, hts] at e
          split at e
          · rename_i hall
            have := List.all_eq_true.1 hall j hj
            rw [hp] at this
            cases this
          · cases e
        | _ => simp only [step, hts] at e <;> (try split at e) <;> (try split at e) <;> (try split at e) <;> (try cases e) <;> first | exact hts | rfl
      · refine step_other e hp ⟨?_, ?_, ?_, ?_, ?_⟩ ?_ ?_ ?_
        · rintro rfl; simp [step, hp] at e
        · rintro rfl; simp [step, hp] at e
        · rintro r rfl; simp [step, hp] at e
        · rintro rfl; simp [step, hp] at e
        · rintro rfl; simp [step, hp] at e
        · rintro rfl; simp [step, hl] at e
        · rintro rfl; simp [step, hts] at e
        · intro _; simp
    · cases hs

/-- Such states are reached: a session is open, another client sends `SUBSCRIBE` without a topic, and `stop` is called. -/
theorem C97_stalled_reached (w : Bool) : ∃ st, Reachable st ∧ st.waits = w ∧ st.lock = some 0 ∧ st.stage = .gathering [1] ∧ st.conns = [.holding .join, .leaving] :=
  ⟨_, ⟨w, [.accept, .accept, .sends 1 (.later (.client .locked)), .arrives 1, .begins 1, .sends 0 (.cmd .join), .grant, .stop], rfl⟩, rfl, rfl, rfl, rfl⟩

/-- C97 is violated since Python 3.12.1: a client that is connected and sends nothing keeps `stop` from returning. -/
theorem C97_idle {st st' : St} {as : List Act} (h : Reachable st) (hw : st.waits = true) {i : Nat} (hp : st.conns[i]? = some .idle) (hs : run st as = some st')
    (ha : ∀ a ∈ as, a ≠ .leaves i ∧ ∀ r, a ≠ .sends i r) : st'.stage ≠ .done := by
  have hp' : st'.conns[i]? = some .idle := by
    have hwf := reachable_wf h
    clear h hw
    induction as generalizing st with
    | nil => cases hs; exact hp
    | cons a as ih =>
      simp only [run] at hs
      split at hs
      · rename_i s1 e
        obtain ⟨a1, a2⟩ := ha a List.mem_cons_self
        refine ih ?_ hs (fun b hb => ha b (List.mem_cons_of_mem _ hb)) (step_wf hwf e)
        refine step_other e hp ⟨?_, a1, a2, ?_, ?_⟩ ?_ ?_ ?_
        · rintro rfl; simp [step, hp] at e
        · rintro rfl; simp [step, hp] at e
        · rintro rfl; simp [step, hp] at e
        · rintro rfl hh
          obtain ⟨p, hp2, hq⟩ := (hwf.queue i).1 (List.mem_of_mem_head? hh)
          rw [hp] at hp2; cases hp2; cases hq
        · intro _; rfl
        · intro _; simp
      · cases hs
  intro hd
  obtain ⟨w, bs, hb⟩ := h
  have := C97_done ⟨w, bs ++ as, run_append hb hs⟩ ((run_waits hs).trans hw) hd _ (List.mem_of_getElem? hp')
  cases this

/-- Such states are reached; with earlier versions `stop` returns, and the connection stays open. -/
theorem C97_idle_reached (w : Bool) : ∃ st, Reachable st ∧ st.waits = w ∧ st.stage = .waiting ∧ st.conns = [.idle] ∧ ((step st .finish).isSome ↔ w = false) := by
  refine ⟨_, ⟨w, [.accept, .stop, .gathered], rfl⟩, rfl, rfl, rfl, ?_⟩
  cases w <;> simp [step, St.lease, St.which, init, cancel]

/-- C97 is violated since Python 3.12.1: a client's task that is cancelled before it has run leaves its connection open, and `stop` never returns, whatever happens. -/
theorem C97_orphan {st st' : St} {as : List Act} (h : Reachable st) (hw : st.waits = true) {i : Nat} (hp : st.conns[i]? = some .orphan) (hs : run st as = some st') :
    st'.stage ≠ .done := by
  have hp' : st'.conns[i]? = some .orphan := by
    have hwf := reachable_wf h
    clear h hw
    induction as generalizing st with
    | nil => cases hs; exact hp
    | cons a as ih =>
      simp only [run] at hs
      split at hs
      · rename_i s1 e
        refine ih ?_ hs (step_wf hwf e)
        refine step_other e hp ⟨?_, ?_, ?_, ?_, ?_⟩ ?_ ?_ ?_
        · rintro rfl; simp [step, hp] at e
        · rintro rfl; simp [step, hp] at e
        · rintro r rfl; simp [step, hp] at e
        · rintro rfl; simp [step, hp] at e
        · rintro rfl; simp [step, hp] at e
        · rintro rfl hh
          obtain ⟨p, hp2, hq⟩ := (hwf.queue i).1 (List.mem_of_mem_head? hh)
          rw [hp] at hp2; cases hp2; cases hq
        · intro _; rfl
        · intro _; simp
      · cases hs
  intro hd
  obtain ⟨w, bs, hb⟩ := h
  have := C97_done ⟨w, bs ++ as, run_append hb hs⟩ ((run_waits hs).trans hw) hd _ (List.mem_of_getElem? hp')
  cases this

/-- Such states are reached: `stop` is called when a session has just been opened. -/
theorem C97_orphan_reached : ∃ st, run (init true) [.accept, .sends 0 (.later (.client .locked)), .arrives 0, .stop] = some st ∧ Reachable st ∧
    st.waits = true ∧ st.conns = [.orphan] :=
  ⟨_, rfl, ⟨true, [.accept, .sends 0 (.later (.client .locked)), .arrives 0, .stop], rfl⟩, rfl, rfl⟩

/-- C97 is violated: if a segment is made while another one's lease is cancelled, the rest of the leases are not. -/
theorem C97_crash : ∃ st, Reachable st ∧ st.stage = .crashed ∧ st.conns = [.closed, .leased, .leased] :=
  ⟨_, ⟨true, [.accept, .sends 0 (.later .create), .arrives 0, .accept, .sends 1 (.later .create), .arrives 1, .accept, .sends 2 (.later .create), .stop, .gathered,
    .arrives 2, .released], rfl⟩, rfl, rfl⟩

/-- C97 is violated: and the server will never do it. -/
theorem C97_crash_forever {st st' : St} {as : List Act} (hc : st.stage = .crashed) (hs : run st as = some st') :
    st'.stage = .crashed ∧ ((∀ a ∈ as, a.own = true) → ∀ i : Nat, st.conns[i]? = some .leased → st'.conns[i]? = some .leased) := by
  induction as generalizing st with
  | nil => cases hs; exact ⟨hc, fun _ _ h => h⟩
  | cons a as ih =>
    simp only [run] at hs
    split at hs
    · rename_i s1 e
      have hc1 : s1.stage = .crashed := by
        cases a <;> simp only [step, hc] at e <;> (try split at e) <;> (try split at e) <;> (try split at e) <;> (try cases e) <;> first | exact hc | rfl
      obtain ⟨h1, h2⟩ := ih hc1 hs
      refine ⟨h1, fun ha i hp => h2 (fun b hb => ha b (List.mem_cons_of_mem _ hb)) i ?_⟩
      have ho := ha a List.mem_cons_self
      refine step_other e hp ⟨?_, ?_, ?_, ?_, ?_⟩ ?_ ?_ ?_
      · rintro rfl; cases ho
      · rintro rfl; cases ho
      · rintro r rfl; cases ho
      · rintro rfl; cases ho
      · rintro rfl; simp [step, hp] at e
      · rintro rfl hh
        simp only [step] at e
        split at e
        · rename_i j q hl hq
          rw [hq] at hh
          cases hh
          simp [hp] at e
        · cases e
      · rintro rfl; cases ho
      · rintro rfl; simp [step, hc] at e
    · cases hs

/-! ## Examples -/

/-- Non-vacuity: a session with a request, a publisher, and a segment; `stop` closes them all. -/
example : ∃ st st1 st2, Reachable st ∧ Settled st ∧ st.conns = [.asking, .serving .plain, .leased] ∧ step st .stop = some st1 ∧
    run st1 [.grant, .gathered, .released, .finish] = some st2 ∧ st2.stage = .done ∧ st2.conns = [.closed, .closed, .closed] :=
  ⟨_, _, _, ⟨true, [.accept, .accept, .accept, .sends 0 (.later (.client .locked)), .arrives 0, .begins 0, .sends 1 (.cmd .join), .grant, .arrives 1, .begins 1,
    .sends 2 (.later .create), .arrives 2, .asks 0], rfl⟩, ⟨rfl, rfl, fun p hp => by
      change p ∈ [Ph.asking, .serving .plain, .leased] at hp
      simp at hp
      rcases hp with rfl | rfl | rfl <;> simp⟩, rfl, rfl, rfl, rfl, rfl⟩

/-- Non-vacuity: three wait for the lock; the first of them gets it, and a fourth comes. -/
example : ∃ st st', Reachable st ∧ st.queue = [1] ++ 2 :: [3] ∧ st.lock = some 0 ∧ run st [.arrives 0, .grant, .sends 4 (.cmd .quick)] = some st' ∧ st'.queue = 2 :: [3, 4] :=
  ⟨_, _, ⟨true, [.accept, .accept, .accept, .accept, .accept, .sends 0 (.cmd .sync), .grant, .sends 1 (.cmd .edge), .sends 2 (.cmd .quick), .sends 3 (.cmd .join)], rfl⟩,
    rfl, rfl, rfl, rfl⟩

end Halt
end Ez
