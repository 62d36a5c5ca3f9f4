import Verif.Model.Executor

/-!
# C103: what runs in the threads of a process

Specification: `alive` the jobs submitted that are not over.
-/

set_option linter.unusedSimpArgs false
set_option linter.unusedSectionVars false

namespace Ez
namespace Executor

variable {J : Type} [DecidableEq J]

/-- Jobs submitted that are neither done nor cancelled. -/
def alive (s : St J) : List J := s.submitted.filter fun j => decide (j ∉ s.over)

/-- Invariant. -/
structure Inv (s : St J) : Prop where
  order : ∃ taken, s.submitted = taken ++ s.queue ∧ s.started.Sublist taken ∧
    ∀ j ∈ taken, j ∈ s.started ∨ j ∈ s.over
  nodup : s.submitted.Nodup
  runs : ∀ j ∈ s.running, j ∈ s.started ∧ j ∉ s.over
  rest : ∀ j ∈ s.started, j ∈ s.running ∨ j ∈ s.over
  rnodup : s.running.Nodup
  known : ∀ j ∈ s.over, j ∈ s.submitted
  threads : min s.max s.submitted.length ≤ s.threads ∧ s.threads ≤ s.max
  busy : s.running.length ≤ s.threads
  cnodup : s.counted.Nodup
  csub : ∀ j ∈ s.counted, j ∈ s.submitted
  tnodup : s.told.Nodup
  tsub : ∀ j ∈ s.told, j ∈ s.counted ∧ j ∈ s.over

theorem inv_init (max : Nat) : Inv (init max : St J) := by
  constructor <;> simp [init]

theorem Inv.started_sub {s : St J} (h : Inv s) {j : J} (hj : j ∈ s.started) : j ∈ s.submitted := by
  obtain ⟨t, e, hs, _⟩ := h.order
  rw [e]
  exact List.mem_append_left _ (hs.subset hj)

theorem Inv.queue_fresh {s : St J} (h : Inv s) {j : J} (hj : j ∈ s.queue) : j ∉ s.started := by
  obtain ⟨t, e, hs, _⟩ := h.order
  intro hn
  have hd := h.nodup
  rw [e, List.nodup_append] at hd
  exact hd.2.2 j (hs.subset hn) j hj rfl

theorem adjust_bounds {max n k : Nat} (h1 : min max n ≤ k) (h2 : k ≤ max) :
    min max (n + 1) ≤ adjust max k ∧ adjust max k ≤ max ∧ k ≤ adjust max k := by
  unfold adjust
  split <;> omega

theorem inv_step {m : J} {s s' : St J} {a : Act J} (h : Inv s) (hs : step m s a = some s') : Inv s' := by
  cases a with
  | submit j =>
    simp only [step] at hs
    split at hs
    · cases hs
    · rename_i hj
      cases hs
      obtain ⟨t, e, hsub, ht⟩ := h.order
      have ha := adjust_bounds h.threads.1 h.threads.2
      refine { h with order := ⟨t, by simp [e], hsub, ht⟩, nodup := ?_, known := ?_, threads := ?_, busy := ?_, csub := ?_ }
      · simp only [List.nodup_append]
        exact ⟨h.nodup, by simp, by intro a ha b hb; simp at hb; subst hb; intro he; exact hj (he ▸ ha)⟩
      · intro k hk; exact List.mem_append_left _ (h.known k hk)
      · simp only [List.length_append, List.length_cons, List.length_nil]
        exact ⟨ha.1, ha.2.1⟩
      · exact Nat.le_trans h.busy ha.2.2
      · intro k hk; exact List.mem_append_left _ (h.csub k hk)
  | count j =>
    simp only [step] at hs
    split at hs
    · rename_i hj
      cases hs
      refine { h with cnodup := List.nodup_cons.2 ⟨hj.2, h.cnodup⟩, csub := ?_, tsub := ?_ }
      · intro k hk
        rcases List.mem_cons.1 hk with rfl | hk
        · exact hj.1
        · exact h.csub k hk
      · intro k hk; exact ⟨List.mem_cons_of_mem _ (h.tsub k hk).1, (h.tsub k hk).2⟩
    · cases hs
  | take =>
    simp only [step] at hs
    split at hs
    · rename_i hlt
      split at hs
      · cases hs
      · rename_i j q hq
        obtain ⟨t, e, hsub, ht⟩ := h.order
        rw [hq] at e
        have hjs : j ∉ s.started := h.queue_fresh (by simp [hq])
        split at hs
        · rename_i ho
          cases hs
          refine { h with order := ⟨t ++ [j], by simp [e], hsub.trans (List.sublist_append_left _ _), ?_⟩ }
          intro k hk
          rcases List.mem_append.1 hk with hk | hk
          · exact ht k hk
          · simp at hk; subst hk; exact .inr ho
        · rename_i ho
          cases hs
          refine { h with order := ⟨t ++ [j], by simp [e], hsub.append (List.Sublist.refl _), ?_⟩, runs := ?_, rest := ?_, rnodup := ?_, busy := ?_ }
          · intro k hk
            rcases List.mem_append.1 hk with hk | hk
            · rcases ht k hk with h1 | h1
              · exact .inl (List.mem_append_left _ h1)
              · exact .inr h1
            · exact .inl (List.mem_append_right _ hk)
          · intro k hk
            rcases List.mem_append.1 hk with hk | hk
            · exact ⟨List.mem_append_left _ (h.runs k hk).1, (h.runs k hk).2⟩
            · simp at hk; subst hk; exact ⟨by simp, ho⟩
          · intro k hk
            rcases List.mem_append.1 hk with hk | hk
            · rcases h.rest k hk with h1 | h1
              · exact .inl (List.mem_append_left _ h1)
              · exact .inr h1
            · exact .inl (List.mem_append_right _ hk)
          · simp only [List.nodup_append]
            exact ⟨h.rnodup, by simp, by intro a ha b hb; simp at hb; subst hb; intro he; exact hjs (he ▸ (h.runs a ha).1)⟩
          · simp only [List.length_append, List.length_cons, List.length_nil]
            omega
    · cases hs
  | finish j =>
    simp only [step] at hs
    split at hs
    · rename_i hj
      cases hs
      exact ended h hj.1
    · cases hs
  | cancel j =>
    simp only [step] at hs
    split at hs
    · rename_i hj
      cases hs
      obtain ⟨t, e, hsub, ht⟩ := h.order
      refine { h with order := ⟨t, e, hsub, ?_⟩, runs := ?_, rest := ?_, known := ?_, tsub := ?_ }
      · intro k hk; exact (ht k hk).imp id (List.mem_cons_of_mem _)
      · intro k hk
        refine ⟨(h.runs k hk).1, ?_⟩
        simp only [List.mem_cons, not_or]
        exact ⟨by rintro rfl; exact hj.2.1 (h.runs k hk).1, (h.runs k hk).2⟩
      · intro k hk; exact (h.rest k hk).imp id (List.mem_cons_of_mem _)
      · intro k hk
        rcases List.mem_cons.1 hk with rfl | hk
        · exact hj.1
        · exact h.known k hk
      · intro k hk; exact ⟨(h.tsub k hk).1, List.mem_cons_of_mem _ (h.tsub k hk).2⟩
    · cases hs
  | tell j =>
    simp only [step] at hs
    split at hs
    · rename_i hj
      cases hs
      refine { h with tnodup := List.nodup_cons.2 ⟨hj.2.2, h.tnodup⟩, tsub := ?_ }
      intro k hk
      rcases List.mem_cons.1 hk with rfl | hk
      · exact ⟨hj.1, hj.2.1⟩
      · exact h.tsub k hk
    · cases hs
  | term => simp only [step] at hs; cases hs; exact { h with }
  | notice =>
    simp only [step] at hs
    split at hs
    · rename_i hj
      cases hs
      have := ended h hj.2
      exact { this with }
    · cases hs
where
  ended {s : St J} (h : Inv s) {j : J} (hj : j ∈ s.running) :
      Inv { s with running := s.running.erase j, over := j :: s.over } := by
    obtain ⟨t, e, hsub, ht⟩ := h.order
    refine { h with order := ⟨t, e, hsub, ?_⟩, runs := ?_, rest := ?_, rnodup := h.rnodup.erase _, known := ?_, busy := ?_, tsub := ?_ }
    · intro k hk; exact (ht k hk).imp id (List.mem_cons_of_mem _)
    · intro k hk
      have h2 := (List.Nodup.mem_erase_iff h.rnodup).1 hk
      refine ⟨(h.runs k h2.2).1, ?_⟩
      simp only [List.mem_cons, not_or]
      exact ⟨h2.1, (h.runs k h2.2).2⟩
    · intro k hk
      rcases h.rest k hk with h1 | h1
      · by_cases hkj : k = j
        · subst hkj; exact .inr (by simp)
        · exact .inl ((List.Nodup.mem_erase_iff h.rnodup).2 ⟨hkj, h1⟩)
      · exact .inr (List.mem_cons_of_mem _ h1)
    · intro k hk
      rcases List.mem_cons.1 hk with rfl | hk
      · exact h.started_sub (h.runs _ hj).1
      · exact h.known k hk
    · have := List.length_erase_of_mem hj
      have := h.busy
      simp only
      omega
    · intro k hk; exact ⟨(h.tsub k hk).1, List.mem_cons_of_mem _ (h.tsub k hk).2⟩

theorem inv_run {m : J} {as : List (Act J)} : ∀ {s s' : St J}, Inv s → run m as s = some s' → Inv s' := by
  induction as with
  | nil => intro s s' h hr; cases hr; exact h
  | cons a as ih =>
    intro s s' h hr
    simp only [run] at hr
    split at hr
    · cases hr
    · rename_i s1 h1
      exact ih (inv_step h h1) hr

/-- States that an executor with `n` threads at most gets into. -/
def Reachable (m : J) (n : Nat) (s : St J) : Prop := ∃ as, run m as (init n) = some s

theorem Reachable.inv {m : J} {n : Nat} {s : St J} (h : Reachable m n s) : Inv s := by
  obtain ⟨as, h⟩ := h
  exact inv_run (inv_init n) h

theorem step_max {m : J} {s s' : St J} {a : Act J} (h : step m s a = some s') : s'.max = s.max := by
  cases a <;> simp only [step] at h <;> (repeat' split at h) <;> cases h <;> rfl

theorem run_max {m : J} {as : List (Act J)} : ∀ {s s' : St J}, run m as s = some s' → s'.max = s.max := by
  induction as with
  | nil => intro s s' h; cases h; rfl
  | cons a as ih =>
    intro s s' h
    simp only [run] at h
    split at h
    · cases h
    · rename_i s1 h1
      rw [ih h, step_max h1]

theorem Reachable.max {m : J} {n : Nat} {s : St J} (h : Reachable m n s) : s.max = n := by
  obtain ⟨as, h⟩ := h
  exact run_max h

/-- **C103 (order).** Jobs are started in the order in which they were submitted, each at most once; a job that was passed over
was cancelled. -/
theorem C103_in_order {m : J} {n : Nat} {s : St J} (h : Reachable m n s) :
    (∃ taken, s.submitted = taken ++ s.queue ∧ s.started.Sublist taken ∧ ∀ j ∈ taken, j ∈ s.started ∨ j ∈ s.over) ∧
    s.submitted.Nodup ∧ s.running.length ≤ n ∧ ∀ j, j ∈ s.running ↔ j ∈ s.started ∧ j ∉ s.over := by
  have hi := h.inv
  refine ⟨hi.order, hi.nodup, ?_, ?_⟩
  · have := hi.busy
    have := hi.threads.2
    rw [h.max] at this
    omega
  · intro j
    exact ⟨hi.runs j, fun hj => (hi.rest j hj.1).resolve_right hj.2⟩

theorem filter_count {α : Type} [DecidableEq α] {l l' : List α} (hl : l.Nodup) (hl' : l'.Nodup) (hs : ∀ x ∈ l', x ∈ l) :
    (l.filter fun x => decide (x ∉ l')).length + l'.length = l.length := by
  induction l generalizing l' with
  | nil => cases l' with
    | nil => rfl
    | cons y l' => exact absurd (hs y (by simp)) (by simp)
  | cons x l ih =>
    rw [List.nodup_cons] at hl
    by_cases hx : x ∈ l'
    · have h1 : (l.filter fun y => decide (y ∉ l')) = l.filter fun y => decide (y ∉ l'.erase x) := by
        apply List.filter_congr
        intro y hy
        have : y ≠ x := by rintro rfl; exact hl.1 hy
        simp [List.Nodup.mem_erase_iff hl', this]
      have h2 := ih (l' := l'.erase x) hl.2 (hl'.erase _) (by
        intro y hy
        have hy := (List.Nodup.mem_erase_iff hl').1 hy
        exact (List.mem_cons.1 (hs y hy.2)).resolve_left hy.1)
      have h3 := List.length_erase_of_mem hx
      have h4 := List.length_pos_of_mem hx
      simp only [List.filter_cons, hx, not_true_eq_false, decide_false, Bool.false_eq_true, if_false, List.length_cons]
      rw [h1]
      omega
    · have h2 := ih hl.2 hl' (by
        intro y hy
        exact (List.mem_cons.1 (hs y hy)).resolve_left (by rintro rfl; exact hx hy))
      simp only [List.filter_cons, hx, not_false_eq_true, decide_true, if_true, List.length_cons]
      omega

theorem nodup_length_le {α : Type} [DecidableEq α] {l l' : List α} (hl : l.Nodup) (hl' : l'.Nodup) (hs : ∀ x ∈ l', x ∈ l) :
    l'.length ≤ l.length := by
  have := filter_count hl hl' hs
  omega

theorem take_possible {m : J} {s : St J} (h : Inv s) (hq : s.queue ≠ []) (hb : s.running.length < s.max) :
    ∃ s', step m s .take = some s' ∧ s'.queue = s.queue.tail := by
  have hlt : s.running.length < s.threads := by
    obtain ⟨t, e, hsub, _⟩ := h.order
    have hl : s.running.length ≤ t.length := by
      have h1 := hsub.length_le
      have h2 : s.running.length ≤ s.started.length := by
        have hn : s.started.Nodup := by
          have hd := h.nodup
          rw [e, List.nodup_append] at hd
          exact hsub.nodup hd.1
        exact nodup_length_le hn h.rnodup fun j hj => (h.runs j hj).1
      omega
    have hq' : 0 < s.queue.length := List.length_pos_iff.2 hq
    have := congrArg List.length e
    simp only [List.length_append] at this
    have := h.threads.1
    omega
  cases hc : s.queue with
  | nil => exact absurd hc hq
  | cons j q =>
    simp only [step, hlt, if_true, hc]
    split
    · exact ⟨_, rfl, rfl⟩
    · exact ⟨_, rfl, rfl⟩

/-- **C103 (no job waits for nothing).** A job waits only while as many jobs are running as the executor may have threads. -/
theorem C103_waits {m : J} {n : Nat} {s : St J} (h : Reachable m n s) (hq : s.queue ≠ []) :
    s.running.length = n ∨ ∃ s', step m s .take = some s' ∧ s'.queue = s.queue.tail := by
  by_cases hb : s.running.length < s.max
  · exact .inr (take_possible h.inv hq hb)
  · have := (C103_in_order h).2.2.1
    rw [h.max] at hb
    exact .inl (by omega)

/-- Nobody submits a job. -/
def quiet : Act J → Bool
  | .submit _ => false
  | _ => true

/-- Threads take, run and end jobs. -/
def work : Act J → Nat
  | .take => 1
  | .finish _ => 1
  | .notice => 1
  | _ => 0

theorem work_step {m : J} {s s' : St J} {a : Act J} (hq : quiet a = true) (h : step m s a = some s') :
    work a + (2 * s'.queue.length + s'.running.length) ≤ 2 * s.queue.length + s.running.length := by
  cases a with
  | submit j => cases hq
  | count j => simp only [step] at h; split at h <;> cases h; simp [work]
  | take =>
    simp only [step] at h
    split at h
    · split at h
      · cases h
      · rename_i hc
        split at h <;> cases h <;> simp [work, hc] <;> omega
    · cases h
  | finish j =>
    simp only [step] at h
    split at h
    · rename_i hj
      cases h
      have := List.length_erase_of_mem hj.1
      have := List.length_pos_of_mem hj.1
      simp only [work]
      omega
    · cases h
  | cancel j => simp only [step] at h; split at h <;> cases h; simp [work]
  | tell j => simp only [step] at h; split at h <;> cases h; simp [work]
  | term => simp only [step] at h; cases h; simp [work]
  | notice =>
    simp only [step] at h
    split at h
    · rename_i hj
      cases h
      have := List.length_erase_of_mem hj.2
      have := List.length_pos_of_mem hj.2
      simp only [work]
      omega
    · cases h

theorem work_run {m : J} {as : List (Act J)} : ∀ {s s' : St J}, (∀ a ∈ as, quiet a = true) → run m as s = some s' →
    (as.map work).sum + (2 * s'.queue.length + s'.running.length) ≤ 2 * s.queue.length + s.running.length := by
  induction as with
  | nil => intro s s' _ h; cases h; simp
  | cons a as ih =>
    intro s s' hq h
    simp only [run] at h
    split at h
    · cases h
    · rename_i s1 h1
      have := work_step (hq a (by simp)) h1
      have := ih (fun b hb => hq b (by simp [hb])) h
      simp only [List.map_cons, List.sum_cons]
      omega

/-- **C103 (jobs run).** Until further jobs are submitted, the threads take at most two steps for each job that waits and one for
each that runs. When fewer jobs than `n` go on running for ever and the threads have nothing left to do, every job submitted
has been started or cancelled; the tasks of the process have been cancelled, if the termination event is set and
`monitor_termination` was not cancelled itself. -/
theorem C103_runs_partial {m : J} {n : Nat} {s s' : St J} (h : Reachable m n s) {as : List (Act J)} (hr : run m as s = some s') :
    ((∀ a ∈ as, quiet a = true) → (as.map work).sum ≤ 2 * s.queue.length + s.running.length) ∧
    (s'.running.length < n → step m s' .take = none → step m s' .notice = none →
      (∀ j ∈ s'.submitted, j ∈ s'.started ∨ j ∈ s'.over) ∧
      (s'.term = true → m ∈ s'.submitted → m ∈ s'.over)) := by
  refine ⟨fun hq => ?_, fun hl ht hn => ?_⟩
  · have := work_run hq hr
    omega
  · have hr' : Reachable m n s' := by
      obtain ⟨bs, hb⟩ := h
      refine ⟨bs ++ as, ?_⟩
      have : ∀ (bs : List (Act J)) {s0 : St J}, run m bs s0 = some s → run m (bs ++ as) s0 = some s' := by
        intro bs
        induction bs with
        | nil => intro s0 h0; cases h0; exact hr
        | cons b bs ih =>
          intro s0 h0
          simp only [run, List.cons_append] at h0 ⊢
          split at h0
          · cases h0
          · exact ih h0
      exact this bs hb
    have hi := hr'.inv
    have hqe : s'.queue = [] := by
      by_cases hq : s'.queue = []
      · exact hq
      · obtain ⟨_, h1, _⟩ := take_possible (m := m) hi hq (by rw [hr'.max]; exact hl)
        rw [ht] at h1
        cases h1
    have hall : ∀ j ∈ s'.submitted, j ∈ s'.started ∨ j ∈ s'.over := by
      obtain ⟨t, e, _, h3⟩ := hi.order
      intro j hj
      rw [e, hqe, List.append_nil] at hj
      exact h3 j hj
    refine ⟨hall, fun htm hm => ?_⟩
    rcases hall m hm with h1 | h1
    · rcases hi.rest m h1 with h2 | h2
      · simp [step, htm, h2] at hn
      · exact h2
    · exact h1

theorem noticed_step {m : J} {s s' : St J} {a : Act J} (hs : step m s a = some s')
    (hi : m ∈ s.over → s.cancelled = true) (ha : a ≠ .cancel m) : m ∈ s'.over → s'.cancelled = true := by
  cases a with
  | submit j => simp only [step] at hs; split at hs <;> cases hs; exact hi
  | count j => simp only [step] at hs; split at hs <;> cases hs; exact hi
  | take =>
    simp only [step] at hs
    split at hs
    · split at hs
      · cases hs
      · split at hs <;> cases hs <;> exact hi
    · cases hs
  | finish j =>
    simp only [step] at hs
    split at hs
    · rename_i hj
      cases hs
      intro hm
      rcases List.mem_cons.1 hm with e | hm
      · exact absurd e.symm hj.2
      · exact hi hm
    · cases hs
  | cancel j =>
    simp only [step] at hs
    split at hs
    · cases hs
      intro hm
      rcases List.mem_cons.1 hm with e | hm
      · subst e; exact absurd rfl ha
      · exact hi hm
    · cases hs
  | tell j => simp only [step] at hs; split at hs <;> cases hs; exact hi
  | term => simp only [step] at hs; cases hs; exact hi
  | notice =>
    simp only [step] at hs
    split at hs
    · cases hs; intro _; rfl
    · cases hs

/-- **C103 (cancelled by the monitor).** `monitor_termination` ends only by cancelling the tasks, which needs the termination
event, or by being cancelled before it started. -/
theorem C103_monitor {m : J} {n : Nat} {s : St J} {as : List (Act J)} (h : run m as (init n) = some s) :
    (s.cancelled = true → s.term = true ∧ m ∈ s.started) ∧ (.cancel m ∉ as → m ∈ s.over → s.cancelled = true) := by
  have key : ∀ (as : List (Act J)) {s0 : St J}, Inv s0 → (s0.cancelled = true → s0.term = true ∧ m ∈ s0.started) →
      run m as s0 = some s → (s.cancelled = true → s.term = true ∧ m ∈ s.started) := by
    intro as
    induction as with
    | nil => intro s0 _ h0 hr; cases hr; exact h0
    | cons a as ih =>
      intro s0 hi h0 hr
      simp only [run] at hr
      split at hr
      · cases hr
      · rename_i s1 h1
        refine ih (inv_step hi h1) ?_ hr
        cases a <;> simp only [step] at h1 <;> (repeat' split at h1) <;> cases h1 <;>
          first
          | exact h0
          | (intro hc; exact ⟨(h0 hc).1, List.mem_append_left _ (h0 hc).2⟩)
          | (intro hc; exact ⟨rfl, (h0 hc).2⟩)
          | (rename_i hn; intro _; exact ⟨hn.1, (hi.runs m hn.2).1⟩)
  have key2 : ∀ (as : List (Act J)) {s0 : St J}, (m ∈ s0.over → s0.cancelled = true) → (.cancel m ∉ as) →
      run m as s0 = some s → (m ∈ s.over → s.cancelled = true) := by
    intro as
    induction as with
    | nil => intro s0 h0 _ hr; cases hr; exact h0
    | cons a as ih =>
      intro s0 h0 hn hr
      simp only [run] at hr
      split at hr
      · cases hr
      · rename_i s1 h1
        exact ih (noticed_step h1 h0 (by rintro rfl; exact hn (by simp))) (fun hm => hn (by simp [hm])) hr
  exact ⟨key as (inv_init n) (by simp [init]) h, fun hn => key2 as (by simp [init]) hn h⟩

/-- **C103 (unnoticed).** As long as `n` jobs are running, no further job starts; if `monitor_termination` is among those that
wait, the tasks of the process are not cancelled, whatever else happens. -/
theorem C103_unnoticed {m : J} {n : Nat} {s s' : St J} (h : Reachable m n s) (hf : s.running.length = n)
    {as : List (Act J)} (hr : run m as s = some s') (hn : ∀ j ∈ s.running, .finish j ∉ as) (hm : m ∉ s.started)
    (hc : s.cancelled = false) :
    s'.running = s.running ∧ s'.started = s.started ∧ s'.cancelled = false := by
  have hmx := h.max
  have hi := h.inv
  clear h
  induction as generalizing s with
  | nil => cases hr; exact ⟨rfl, rfl, hc⟩
  | cons a as ih =>
    simp only [run] at hr
    split at hr
    · cases hr
    · rename_i s1 h1
      have hmr : m ∉ s.running := fun hmr => hm (hi.runs m hmr).1
      have e : s1.running = s.running ∧ s1.started = s.started ∧ s1.cancelled = s.cancelled := by
        cases a with
        | submit j => simp only [step] at h1; split at h1 <;> cases h1; exact ⟨rfl, rfl, rfl⟩
        | count j => simp only [step] at h1; split at h1 <;> cases h1; exact ⟨rfl, rfl, rfl⟩
        | take =>
          simp only [step] at h1
          split at h1
          · rename_i hlt
            have := hi.threads.2
            omega
          · cases h1
        | finish j =>
          simp only [step] at h1
          split at h1
          · rename_i hj
            exact absurd (by simp) (hn j hj.1)
          · cases h1
        | cancel j => simp only [step] at h1; split at h1 <;> cases h1; exact ⟨rfl, rfl, rfl⟩
        | tell j => simp only [step] at h1; split at h1 <;> cases h1; exact ⟨rfl, rfl, rfl⟩
        | term => simp only [step] at h1; cases h1; exact ⟨rfl, rfl, rfl⟩
        | notice =>
          simp only [step] at h1
          split at h1
          · rename_i hj
            exact absurd hj.2 hmr
          · cases h1
      have := ih (s := s1) (by rw [e.1]; exact hf) hr (fun j hj => fun hmem => hn j (e.1 ▸ hj) (by simp [hmem]))
        (by rw [e.2.1]; exact hm) (by rw [e.2.2]; exact hc) (by rw [step_max h1]; exact hmx) (inv_step hi h1)
      exact ⟨this.1.trans e.1, this.2.1.trans e.2.1, this.2.2⟩

/-- The jobs of a process with `k` functions decorated with `thread`, in the order of backendprocess.py:550-566: the
functions, then `monitor_termination`; all that can start have started. -/
def startup (n k : Nat) : List (Act Nat) :=
  (List.range k).map .submit ++ [.submit k] ++ List.replicate n .take

/-- **C103 (negation).** With two threads at most (`_max_workers` is the number of processors plus four, at most 32) and two
functions decorated with `thread` that go on, a process that is asked to end never cancels its tasks. -/
theorem C103_negation : ∃ s : St Nat, run 2 (startup 2 2 ++ [.term]) (init 2) = some s ∧ s.term = true ∧
    2 ∈ s.submitted ∧ ∀ as s', run 2 as s = some s' → .finish 0 ∉ as → .finish 1 ∉ as → s'.cancelled = false := by
  refine ⟨_, rfl, rfl, by decide, ?_⟩
  intro as s' hr h0 h1
  refine (C103_unnoticed (n := 2) ⟨startup 2 2 ++ [.term], rfl⟩ rfl hr ?_ (by decide) rfl).2.2
  intro j hj
  change j ∈ [0, 1] at hj
  simp at hj
  rcases hj with rfl | rfl
  · exact h0
  · exact h1

/-- **C103 (count).** `active_count` is the number of jobs counted whose callback has not run. It is never negative. When no
call of `submit` and no callback is under way, it is the number of jobs that are not over. -/
theorem C103_active {m : J} {n : Nat} {s : St J} (h : Reachable m n s) :
    0 ≤ activeCount s ∧
    ((∀ j ∈ s.submitted, j ∈ s.counted) → (∀ j ∈ s.over, j ∈ s.told) → activeCount s = (alive s).length) := by
  have hi := h.inv
  have hc := filter_count hi.cnodup hi.tnodup (fun j hj => (hi.tsub j hj).1)
  refine ⟨by unfold activeCount; omega, fun h1 h2 => ?_⟩
  have e : (alive s).length = (s.counted.filter fun j => decide (j ∉ s.told)).length := by
    have n1 : (alive s).Nodup := List.filter_sublist.nodup hi.nodup
    have n2 : (s.counted.filter fun j => decide (j ∉ s.told)).Nodup := List.filter_sublist.nodup hi.cnodup
    have hiff : ∀ j, j ∈ alive s ↔ j ∈ s.counted.filter fun j => decide (j ∉ s.told) := by
      intro j
      simp only [alive, List.mem_filter, decide_eq_true_eq]
      exact ⟨fun hj => ⟨h1 j hj.1, fun ht => hj.2 (hi.tsub j ht).2⟩, fun hj => ⟨hi.csub j hj.1, fun ho => hj.2 (h2 j ho)⟩⟩
    exact Nat.le_antisymm (nodup_length_le n2 n1 fun j => (hiff j).1) (nodup_length_le n1 n2 fun j => (hiff j).2)
  unfold activeCount
  rw [e]
  omega

/-- Three threads, two functions that go on: the monitor gets the third thread and the tasks are cancelled. One job is counted
after it is over. -/
example : ∃ s : St Nat, run 2 (startup 3 2 ++ [.count 2, .term, .notice, .count 0, .finish 0, .tell 0]) (init 3) = some s ∧
    Reachable 2 3 s ∧ s.cancelled = true ∧ s.running = [1] ∧ activeCount s = 1 ∧ alive s = [1] ∧ s.counted = [0, 2] :=
  ⟨_, rfl, ⟨startup 3 2 ++ [.count 2, .term, .notice, .count 0, .finish 0, .tell 0], rfl⟩, rfl, rfl, rfl, rfl, rfl⟩

end Executor
end Ez
