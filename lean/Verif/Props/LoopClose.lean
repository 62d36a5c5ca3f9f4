import Verif.Model.LoopClose

/-!
# C104: closing the task thread

Everything is stated on the run: which of its steps come before and after which, and the tasks alive at those moments.
-/

set_option linter.unusedSimpArgs false
set_option linter.unusedSectionVars false

namespace Ez
namespace LoopClose

variable {T : Type} [DecidableEq T]

/-- A run, by its last step. -/
inductive Run (st : Bool) (al : List T) : List (Act T) → St T → Prop where
  | nil : Run st al [] (init al)
  | snoc {as : List (Act T)} {s s' : St T} {a : Act T} :
      Run st al as s → step st s a = some s' → Run st al (as ++ [a]) s'

theorem run_of {st : Bool} {al : List T} {as : List (Act T)} {s : St T} (h : run st as (init al) = some s) :
    Run st al as s := by
  have key : ∀ (bs as : List (Act T)) (s1 : St T), Run st al as s1 → run st bs s1 = some s → Run st al (as ++ bs) s := by
    intro bs
    induction bs with
    | nil => intro as s1 h1 h2; cases h2; simpa using h1
    | cons b bs ih =>
      intro as s1 h1 h2
      simp only [run] at h2
      split at h2
      · cases h2
      · rename_i s2 hs
        have := ih (as ++ [b]) s2 (.snoc h1 hs) h2
        simpa using this
  exact key as [] _ .nil h

theorem run_to {st : Bool} {al : List T} {as : List (Act T)} {s : St T} (h : Run st al as s) :
    run st as (init al) = some s := by
  have app : ∀ (as : List (Act T)) {s0 s1 s2 : St T} {a : Act T}, run st as s0 = some s1 → step st s1 a = some s2 →
      run st (as ++ [a]) s0 = some s2 := by
    intro as
    induction as with
    | nil => intro s0 s1 s2 a h1 h2; cases h1; simp [run, h2]
    | cons b as ih =>
      intro s0 s1 s2 a h1 h2
      simp only [run, List.cons_append] at h1 ⊢
      split at h1
      · cases h1
      · exact ih h1 h2
  induction h with
  | nil => rfl
  | snoc _ h2 ih => exact app _ ih h2

/-- Errors reported by tasks in a run. -/
def errs : List (Act T) → Nat
  | [] => 0
  | .finish _ true :: as => errs as + 1
  | _ :: as => errs as

theorem errs_append (as bs : List (Act T)) : errs (as ++ bs) = errs as + errs bs := by
  induction as with
  | nil => simp [errs]
  | cons a as ih =>
    cases a <;> simp only [List.cons_append, errs, ih]
    rename_i t e
    cases e <;> simp only [errs, ih] <;> omega

/-- The tasks cancelled are those alive when the one `snap` of the run was done. -/
def Snapped (al : List T) (as : List (Act T)) (c : List T) : Prop :=
  ∃ p q s1, as = p ++ .snap :: q ∧ run false p (init al) = some s1 ∧ c = s1.alive ∧ .snap ∉ p ∧ .snap ∉ q

/-- `n` of the tasks `c` were alive at a moment after the snapshot, when the wait ended. -/
def Waited (al : List T) (as : List (Act T)) (c : List T) (n : Nat) : Prop :=
  ∃ p e q s1, as = p ++ e :: q ∧ (e = .snap ∧ c = [] ∨ .snap ∈ p ∧ (e = .allDone ∨ e = .timeout)) ∧
    run false p (init al) = some s1 ∧ n = (c.filter fun t => decide (t ∈ s1.alive)).length

theorem Snapped.snoc {al : List T} {as : List (Act T)} {c : List T} (h : Snapped al as c) {a : Act T} (ha : a ≠ .snap) :
    Snapped al (as ++ [a]) c := by
  obtain ⟨p, q, s1, e, h1, h2, h3, h4⟩ := h
  exact ⟨p, q ++ [a], s1, by simp [e], h1, h2, h3, by simp [h4, Ne.symm ha]⟩

theorem Waited.snoc {al : List T} {as : List (Act T)} {c : List T} {n : Nat} (h : Waited al as c n) (a : Act T) :
    Waited al (as ++ [a]) c n := by
  obtain ⟨p, e, q, s1, e1, h1, h2, h3⟩ := h
  exact ⟨p, e, q ++ [a], s1, by simp [e1], h1, h2, h3⟩

/-- What the phase says about the run so far. -/
def Past (al : List T) (as : List (Act T)) (s : St T) : Prop :=
  match s.phase with
  | .inside | .asked => .snap ∉ as ∧ s.cancelled = []
  | .waiting ts => ts = s.cancelled ∧ Snapped al as s.cancelled
  | .returned c n => c = s.cancelled.length ∧ Snapped al as s.cancelled ∧ Waited al as s.cancelled n
  | .interrupted => .interrupt ∈ as
  | _ => True

theorem Past.snoc {al : List T} {as : List (Act T)} {s s' : St T} (h : Past al as s) {a : Act T} (ha : a ≠ .snap)
    (hp : s'.phase = s.phase) (hc : s'.cancelled = s.cancelled) : Past al (as ++ [a]) s' := by
  unfold Past at h ⊢
  rw [hp, hc]
  split <;> simp_all [Ne.symm ha]
  · exact h.2.snoc ha
  · exact ⟨h.2.1.snoc ha, h.2.2.snoc a⟩

theorem past {al : List T} {as : List (Act T)} {s : St T} (h : Run false al as s) : Past al as s := by
  induction h with
  | nil => simp [Past, init]
  | @snoc as s s' a h1 h2 ih =>
    have hr := run_to h1
    cases a with
    | spawn t => simp only [step] at h2; split at h2 <;> cases h2; exact ih.snoc (by simp) rfl rfl
    | finish t e => simp only [step] at h2; split at h2 <;> cases h2; exact ih.snoc (by simp) rfl rfl
    | block => simp only [step] at h2; split at h2 <;> cases h2; exact ih.snoc (by simp) rfl rfl
    | unblock => simp only [step] at h2; split at h2 <;> cases h2; exact ih.snoc (by simp) rfl rfl
    | begin =>
      simp only [step] at h2
      split at h2
      · rename_i hp
        cases h2
        simp only [Past, hp] at ih
        simp [Past, ih]
      · cases h2
    | snap =>
      simp only [step] at h2
      split at h2
      · rename_i hp
        cases h2
        simp only [Past, hp.1] at ih
        have hs : Snapped al (as ++ [.snap]) s.alive := ⟨as, [], s, rfl, hr, rfl, ih.1, by simp⟩
        by_cases he : s.alive = []
        · simp only [Past, he, if_true] at hs ⊢
          exact ⟨rfl, hs, as, .snap, [], s, rfl, .inl ⟨rfl, rfl⟩, hr, rfl⟩
        · simp only [Past, he, if_false]
          exact ⟨trivial, hs⟩
      · cases h2
    | allDone =>
      simp only [step] at h2
      split at h2
      · rename_i ts hp
        split at h2
        · rename_i hd
          cases h2
          simp only [Past, hp] at ih
          obtain ⟨e, hs⟩ := ih
          subst e
          simp only [Past]
          refine ⟨trivial, hs.snoc (by simp), as, .allDone, [], s, rfl, .inr ⟨?_, .inl rfl⟩, hr, ?_⟩
          · obtain ⟨p, q, _, e, _⟩ := hs
            simp [e]
          · symm
            rw [List.length_eq_zero_iff, List.filter_eq_nil_iff]
            intro t ht
            simpa using hd.2 t ht
        · cases h2
      · cases h2
    | timeout =>
      simp only [step] at h2
      split at h2
      · rename_i ts hp
        split at h2
        · cases h2
          simp only [Past, hp] at ih
          obtain ⟨e, hs⟩ := ih
          subst e
          simp only [Past]
          refine ⟨trivial, hs.snoc (by simp), as, .timeout, [], s, rfl, .inr ⟨?_, .inr rfl⟩, hr, rfl⟩
          obtain ⟨p, q, _, e, _⟩ := hs
          simp [e]
        · cases h2
      · cases h2
    | interrupt => simp only [step] at h2; split at h2 <;> cases h2 <;> simp [Past]
    | record n => simp only [step] at h2; split at h2 <;> cases h2 <;> simp [Past]
    | stop => simp only [step] at h2; split at h2 <;> cases h2; simp [Past]

/-- The errors counted are those reported since the closing began. -/
theorem counted {al : List T} {as : List (Act T)} {s : St T} (h : Run false al as s) :
    (s.phase = .inside → .begin ∉ as ∧ s.errors = 0) ∧
    (s.phase ≠ .inside → ∃ p q, as = p ++ .begin :: q ∧ .begin ∉ p ∧ s.errors = errs q) := by
  induction h with
  | nil => simp [init]
  | @snoc as s s' a h1 h2 ih =>
    have lift : ∀ {s' : St T} {a : Act T}, a ≠ .begin → (s'.phase = .inside ↔ s.phase = .inside) →
        s'.errors = s.errors + (if s.phase = .inside then 0 else errs [a]) →
        (s'.phase = .inside → .begin ∉ as ++ [a] ∧ s'.errors = 0) ∧
        (s'.phase ≠ .inside → ∃ p q, as ++ [a] = p ++ .begin :: q ∧ .begin ∉ p ∧ s'.errors = errs q) := by
      intro s' a ha hp he
      refine ⟨fun hi => ?_, fun hi => ?_⟩
      · have hi := hp.1 hi
        have := ih.1 hi
        rw [he, if_pos hi, this.2]
        exact ⟨by simp [this.1, Ne.symm ha], rfl⟩
      · have hi : s.phase ≠ .inside := fun h => hi (hp.2 h)
        obtain ⟨p, q, e, hb, hq⟩ := ih.2 hi
        refine ⟨p, q ++ [a], by simp [e], hb, ?_⟩
        rw [he, if_neg hi, hq, errs_append]
    cases a with
    | spawn t => simp only [step] at h2; split at h2 <;> cases h2; exact lift (by simp) Iff.rfl (by simp [errs])
    | finish t e =>
      simp only [step] at h2
      split at h2 <;> cases h2
      refine lift (by simp) Iff.rfl ?_
      cases e <;> cases hp : s.phase <;> simp [errs, Phase.suppressing, hp]
    | block => simp only [step] at h2; split at h2 <;> cases h2; exact lift (by simp) Iff.rfl (by simp [errs])
    | unblock => simp only [step] at h2; split at h2 <;> cases h2; exact lift (by simp) Iff.rfl (by simp [errs])
    | begin =>
      simp only [step] at h2
      split at h2
      · rename_i hp
        cases h2
        refine ⟨by simp, fun _ => ⟨as, [], rfl, (ih.1 hp).1, (ih.1 hp).2⟩⟩
      · cases h2
    | snap =>
      simp only [step] at h2
      split at h2
      · rename_i hp
        cases h2
        refine lift (by simp) ?_ (by simp [errs])
        simp only [hp.1]
        split <;> simp
      · cases h2
    | allDone =>
      simp only [step] at h2
      split at h2
      · rename_i hp
        split at h2 <;> cases h2
        exact lift (by simp) (by simp [hp]) (by simp [errs])
      · cases h2
    | timeout =>
      simp only [step] at h2
      split at h2
      · rename_i hp
        split at h2 <;> cases h2
        exact lift (by simp) (by simp [hp]) (by simp [errs])
      · cases h2
    | interrupt =>
      simp only [step] at h2
      split at h2 <;> cases h2 <;> rename_i hp <;> exact lift (by simp) (by simp [hp]) (by simp [errs])
    | record n =>
      simp only [step] at h2
      split at h2 <;> cases h2 <;> rename_i hp <;> exact lift (by simp) (by simp [hp]) (by simp [errs])
    | stop =>
      simp only [step] at h2
      split at h2
      · rename_i hp
        cases h2
        exact lift (by simp) (by simp [hp.1]) (by simp [errs])
      · cases h2

/-- The closing thread is past the summary. -/
def past_summary (s : St T) : Bool :=
  match s.phase with
  | .stopping | .closed => true
  | _ => false

/-- The summary was made from the state at that moment. -/
theorem recorded {al : List T} {as : List (Act T)} {s : St T} (h : Run false al as s) :
    (past_summary s = false → ∀ n, .record n ∉ as) ∧
    (past_summary s = true → ∃ p n q s1, as = p ++ .record n :: q ∧ Run false al p s1 ∧ (∀ k, .record k ∉ p) ∧
      s.warning = warn s.summary ∧ s.cancelled = s1.cancelled ∧
      ((∃ c k, s1.phase = .returned c k ∧ s.summary = ⟨c, n, k, s1.errors, false⟩) ∨
        s1.phase = .interrupted ∧ s.summary = ⟨0, n, 0, s1.errors, true⟩)) := by
  induction h with
  | nil => simp [init, past_summary]
  | @snoc as s s' a h1 h2 ih =>
    have lift : ∀ {s' : St T} {a : Act T}, (∀ n, a ≠ .record n) → past_summary s' = past_summary s →
        s'.summary = s.summary → s'.warning = s.warning → (past_summary s = true → s'.cancelled = s.cancelled) →
        (past_summary s' = false → ∀ n, .record n ∉ as ++ [a]) ∧
        (past_summary s' = true → ∃ p n q s1, as ++ [a] = p ++ .record n :: q ∧ Run false al p s1 ∧ (∀ k, .record k ∉ p) ∧
          s'.warning = warn s'.summary ∧ s'.cancelled = s1.cancelled ∧
          ((∃ c k, s1.phase = .returned c k ∧ s'.summary = ⟨c, n, k, s1.errors, false⟩) ∨
            s1.phase = .interrupted ∧ s'.summary = ⟨0, n, 0, s1.errors, true⟩)) := by
      intro s' a ha hp hsm hw hc
      rw [hp, hsm, hw]
      refine ⟨fun hf n => ?_, fun ht => ?_⟩
      · simp only [List.mem_append, List.mem_singleton, not_or]
        exact ⟨ih.1 hf n, fun e => ha n e.symm⟩
      · obtain ⟨p, n, q, s1, e, h3⟩ := ih.2 ht
        rw [hc ht]
        exact ⟨p, n, q ++ [a], s1, by simp [e], h3⟩
    cases a with
    | spawn t =>
      simp only [step] at h2; split at h2 <;> cases h2; exact lift (by simp) rfl rfl rfl (fun _ => rfl)
    | finish t e =>
      simp only [step] at h2; split at h2 <;> cases h2; exact lift (by simp) rfl rfl rfl (fun _ => rfl)
    | block => simp only [step] at h2; split at h2 <;> cases h2; exact lift (by simp) rfl rfl rfl (fun _ => rfl)
    | unblock => simp only [step] at h2; split at h2 <;> cases h2; exact lift (by simp) rfl rfl rfl (fun _ => rfl)
    | begin =>
      simp only [step] at h2
      split at h2
      · rename_i hp
        cases h2
        exact lift (by simp) (by simp [past_summary, hp]) rfl rfl (fun _ => rfl)
      · cases h2
    | snap =>
      simp only [step] at h2
      split at h2
      · rename_i hp
        cases h2
        refine lift (by simp) ?_ rfl rfl (by simp [past_summary, hp.1])
        simp only [past_summary, hp.1]
        split <;> (rename_i hh; split at hh <;> simp_all)
      · cases h2
    | allDone =>
      simp only [step] at h2
      split at h2
      · rename_i hp
        split at h2 <;> cases h2
        exact lift (by simp) (by simp [past_summary, hp]) rfl rfl (fun _ => rfl)
      · cases h2
    | timeout =>
      simp only [step] at h2
      split at h2
      · rename_i hp
        split at h2 <;> cases h2
        exact lift (by simp) (by simp [past_summary, hp]) rfl rfl (fun _ => rfl)
      · cases h2
    | interrupt =>
      simp only [step] at h2
      split at h2 <;> cases h2 <;> rename_i hp <;>
        exact lift (by simp) (by simp [past_summary, hp]) rfl rfl (fun _ => rfl)
    | record n =>
      simp only [step] at h2
      split at h2
      · rename_i c k hp
        cases h2
        refine ⟨by simp [past_summary], fun _ => ⟨as, n, [], s, rfl, h1, ih.1 (by simp [past_summary, hp]), rfl, rfl, .inl ⟨c, k, hp, rfl⟩⟩⟩
      · rename_i hp
        cases h2
        refine ⟨by simp [past_summary], fun _ => ⟨as, n, [], s, rfl, h1, ih.1 (by simp [past_summary, hp]), rfl, rfl, .inr ⟨hp, rfl⟩⟩⟩
      · cases h2
    | stop =>
      simp only [step] at h2
      split at h2
      · rename_i hp
        cases h2
        exact lift (by simp) (by simp [past_summary, hp.1]) rfl rfl (fun _ => rfl)
      · cases h2

/-- **C104 (the summary).** When the loop is closed, the summary was made at one moment. The errors in it are those reported
since the closing began until that moment, and a warning was logged as it demands. Unless an interrupt came, `cancelled_tasks`
is the number of tasks that were alive at the snapshot, which are those that were cancelled, and `pending_tasks` the number
of those that were alive when the wait for them ended. After an interrupt both are zero. -/
theorem C104_summary {al : List T} {as : List (Act T)} {s : St T} (h : run false as (init al) = some s)
    (hc : s.phase = .closed) :
    ∃ p n q, as = p ++ .record n :: q ∧ s.summary.executorActive = n ∧ s.warning = warn s.summary ∧
      (∃ p1 p2, p = p1 ++ .begin :: p2 ∧ .begin ∉ p1 ∧ s.summary.suppressedErrors = errs p2) ∧
      (s.summary.forcedInterrupt = false →
        s.summary.cancelledTasks = s.cancelled.length ∧ Snapped al p s.cancelled ∧ Waited al p s.cancelled s.summary.pendingTasks) ∧
      (s.summary.forcedInterrupt = true → .interrupt ∈ p ∧ s.summary.cancelledTasks = 0 ∧ s.summary.pendingTasks = 0) := by
  obtain ⟨p, n, q, s1, e, h1, h2, hw, hcc, hs⟩ := (recorded (run_of h)).2 (by simp [past_summary, hc])
  have hp := past h1
  have he := counted h1
  refine ⟨p, n, q, e, ?_, hw, ?_, ?_, ?_⟩
  · rcases hs with ⟨c, k, h3, h4⟩ | ⟨h3, h4⟩ <;> rw [h4]
  · rcases hs with ⟨c, k, h3, h4⟩ | ⟨h3, h4⟩ <;> rw [h4] <;> exact he.2 (by simp [h3])
  · rcases hs with ⟨c, k, h3, h4⟩ | ⟨h3, h4⟩ <;> rw [h4]
    · intro _
      simp only [Past, h3] at hp
      rw [hcc]
      exact hp
    · intro hf; cases hf
  · rcases hs with ⟨c, k, h3, h4⟩ | ⟨h3, h4⟩ <;> rw [h4]
    · intro hf; cases hf
    · intro _
      simp only [Past, h3] at hp
      exact ⟨hp, rfl, rfl⟩

/-- Later on, a task is alive only if it was or has been started. -/
theorem alive_mono {st : Bool} {as : List (Act T)} : ∀ {s s' : St T}, run st as s = some s' → ∀ t ∈ s'.alive,
    t ∈ s.alive ∨ .spawn t ∈ as := by
  induction as with
  | nil => intro s s' h t ht; cases h; exact .inl ht
  | cons a as ih =>
    intro s s' h t ht
    simp only [run] at h
    split at h
    · cases h
    · rename_i s1 h1
      rcases ih h t ht with h2 | h2
      · have : t ∈ s.alive ∨ a = .spawn t := by
          cases a <;> simp only [step] at h1 <;> (repeat' split at h1) <;> cases h1 <;>
            first
            | exact .inl h2
            | (simp only [List.mem_filter] at h2; exact .inl h2.1)
            | (simp only [List.mem_append, List.mem_singleton] at h2
               rcases h2 with h2 | h2
               · exact .inl h2
               · subst h2; exact .inr rfl)
        rcases this with h3 | h3
        · exact .inl h3
        · exact .inr (by simp [h3])
      · exact .inr (by simp [h2])

theorem run_append {st : Bool} {as bs : List (Act T)} : ∀ {s s' : St T},
    run st (as ++ bs) s = some s' ↔ ∃ s1, run st as s = some s1 ∧ run st bs s1 = some s' := by
  induction as with
  | nil => intro s s'; simp [run]
  | cons a as ih =>
    intro s s'
    simp only [List.cons_append, run]
    cases step st s a with
    | none => simp
    | some s1 => exact ih

/-- **C104 (clean).** If the summary of a closed loop has no pending tasks and no interrupt, every task that was left unfinished
was started after the others had been cancelled. So, if no task starts then, no task is left. -/
theorem C104_clean_partial {al : List T} {as : List (Act T)} {s : St T} (h : run false as (init al) = some s)
    (hc : s.phase = .closed) (hp : s.summary.pendingTasks = 0) (hf : s.summary.forcedInterrupt = false) :
    ∃ p q, as = p ++ .snap :: q ∧ ∀ t ∈ s.alive, .spawn t ∈ q := by
  obtain ⟨p, n, q, e, _, _, _, h1, _⟩ := C104_summary h hc
  obtain ⟨_, ⟨p1, q1, s1, e1, hr1, hc1, hn1, hn2⟩, ⟨p2, x, q2, s2, e2, hx, hr2, hk⟩⟩ := h1 hf
  refine ⟨p1, q1 ++ .record n :: q, by simp [e, e1], fun t ht => ?_⟩
  rw [hp] at hk
  have hnone : ∀ u ∈ s.cancelled, u ∉ s2.alive := by
    have := (List.length_eq_zero_iff.1 hk.symm)
    rw [List.filter_eq_nil_iff] at this
    intro u hu
    simpa using this u hu
  -- from the snapshot on
  have hr : run false (p1 ++ (.snap :: q1 ++ .record n :: q)) (init al) = some s := by
    rw [← h, e, e1]; simp
  obtain ⟨s1', ha, hb⟩ := run_append.1 hr
  rw [hr1] at ha; cases ha
  rcases alive_mono hb t ht with h3 | h3
  · rw [← hc1] at h3
    -- it was cancelled, so it was over at the end of the wait
    have hr' : run false (p2 ++ (x :: q2 ++ .record n :: q)) (init al) = some s := by
      rw [← h, e, e2]; simp
    obtain ⟨s2', ha', hb'⟩ := run_append.1 hr'
    rw [hr2] at ha'; cases ha'
    rcases alive_mono hb' t ht with h4 | h4
    · exact absurd h4 (hnone t h3)
    · -- started after the end of the wait: the end of the wait is not before the snapshot
      have hlen : p1.length ≤ p2.length := by
        rcases hx with ⟨rfl, _⟩ | ⟨hs, _⟩
        · have : p1.length = p2.length := snap_unique (e1.symm.trans e2) hn1 hn2
          omega
        · have hne : ¬ p2.length ≤ p1.length := by
            intro hle
            have : p2 <+: p1 := by
              have e3 : p1 ++ (.snap :: q1) = p2 ++ (x :: q2) := e1.symm.trans e2
              exact List.prefix_of_prefix_length_le ⟨x :: q2, e3.symm⟩ ⟨.snap :: q1, rfl⟩ hle
            exact hn1 (this.subset hs)
          omega
      have e3 : p1 ++ (.snap :: q1) = p2 ++ (x :: q2) := e1.symm.trans e2
      have hpre : p1 <+: p2 := List.prefix_of_prefix_length_le ⟨.snap :: q1, e3⟩ ⟨x :: q2, rfl⟩ hlen
      obtain ⟨r, hr3⟩ := hpre
      rw [← hr3, List.append_assoc, List.append_cancel_left_eq] at e3
      have hmem : Act.spawn t ∈ (.snap :: q1 : List (Act T)) ++ .record n :: q := by
        rw [e3, List.append_assoc]
        exact List.mem_append_right _ h4
      simpa using hmem
  · simpa using h3
where
  snap_unique {p p' q q' : List (Act T)} (e : p ++ .snap :: q = p' ++ .snap :: q') (h : .snap ∉ p) (h' : .snap ∉ q) :
      p.length = p'.length := by
    induction p generalizing p' with
    | nil =>
      cases p' with
      | nil => rfl
      | cons a p' =>
        simp only [List.nil_append, List.cons_append, List.cons.injEq] at e
        exact absurd (by rw [e.2]; simp) h'
    | cons a p ih =>
      cases p' with
      | nil =>
        simp only [List.nil_append, List.cons_append, List.cons.injEq] at e
        exact absurd (by simp [e.1]) h
      | cons b p' =>
        simp only [List.cons_append, List.cons.injEq] at e
        have := ih e.2 (fun hm => h (by simp [hm]))
        simp [this]

/-- **C104 (unclean).** A summary that is not `unclean`, and so does not change the exit status, means: no job is in the executor,
no error was reported since the closing began, no interrupt came while the tasks were awaited, and every task that is left was
started after the others had been cancelled. -/
theorem C104_unclean_partial {al : List T} {as : List (Act T)} {s : St T} (h : run false as (init al) = some s)
    (hc : s.phase = .closed) (hu : s.summary.unclean = false) :
    (∃ p q, as = p ++ .snap :: q ∧ ∀ t ∈ s.alive, .spawn t ∈ q) ∧ .record 0 ∈ as ∧
    ∃ p1 p2 n q, as = p1 ++ .begin :: p2 ++ .record n :: q ∧ .begin ∉ p1 ∧ ∀ t, .finish t true ∉ p2 := by
  have hu' := hu
  simp only [Summary.unclean, Bool.or_eq_false_iff, bne_eq_false_iff_eq] at hu'
  obtain ⟨⟨⟨h1, h2⟩, h3⟩, h4⟩ := hu'
  obtain ⟨p, n, q, e, hn, _, ⟨p1, p2, e1, hb, he⟩, _, _⟩ := C104_summary h hc
  refine ⟨C104_clean_partial h hc h2 h4, ?_, p1, p2, n, q, by rw [e, e1], hb, ?_⟩
  · rw [h1] at hn
    subst hn
    simp [e]
  · rw [h3] at he
    intro t ht
    obtain ⟨u, v, huv⟩ := List.append_of_mem ht
    rw [huv, errs_append] at he
    simp only [errs] at he
    omega

/-- The steps of the closing itself; the tasks are not asked. -/
def closing : Act T → Bool
  | .begin | .snap | .allDone | .timeout | .interrupt | .record _ | .stop => true
  | _ => false

/-- Steps left. -/
def left (s : St T) : Nat :=
  match s.phase with
  | .inside => 6
  | .asked => 5
  | .waiting _ => 4
  | .returned _ _ => 3
  | .interrupted => 2
  | .stopping => 1
  | .closed => 0

theorem left_step {st : Bool} {s s' : St T} {a : Act T} (h : step st s a = some s') :
    left s' + (if closing a then 1 else 0) ≤ left s := by
  cases a <;> simp only [step] at h <;> (repeat' split at h) <;> cases h <;> simp_all [left, closing] <;>
    (repeat' split) <;> simp_all

/-- **C104 (it ends).** However the tasks behave, the closing consists of at most six steps, the next of which is possible as
soon as no task keeps the thread busy: the wait for the tasks ends by its timeout at the latest. -/
theorem C104_ends_partial {st : Bool} {s : St T} :
    (∀ {as : List (Act T)} {s' : St T}, run st as s = some s' → (as.filter closing).length ≤ left s) ∧ left s ≤ 6 ∧
    (s.phase ≠ .closed → s.blocked = false → ∃ a s', closing a = true ∧ a ≠ .interrupt ∧ step st s a = some s') := by
  refine ⟨?_, by unfold left; split <;> omega, ?_⟩
  · intro as
    induction as generalizing s with
    | nil => intro s' _; simp
    | cons a as ih =>
      intro s' h
      simp only [run] at h
      split at h
      · cases h
      · rename_i s1 h1
        have h2 := left_step h1
        have h3 := ih h
        simp only [List.filter_cons]
        split
        · rename_i hc
          simp only [hc, if_true] at h2
          simp only [List.length_cons]
          omega
        · omega
  · intro hc hb
    cases hp : s.phase with
    | inside => exact ⟨.begin, _, rfl, by simp, by simp [step, hp]; rfl⟩
    | asked => exact ⟨.snap, _, rfl, by simp, by simp [step, hp, hb]; rfl⟩
    | waiting ts => exact ⟨.timeout, _, rfl, by simp, by simp [step, hp, hb]; rfl⟩
    | returned c p => exact ⟨.record 0, _, rfl, by simp, by simp [step, hp]; rfl⟩
    | interrupted => exact ⟨.record 0, _, rfl, by simp, by simp [step, hp]; rfl⟩
    | stopping => exact ⟨.stop, _, rfl, by simp, by simp [step, hp, hb]; rfl⟩
    | closed => exact absurd hp hc

/-- **C104 (nothing runs afterwards).** A closed loop runs nothing, and its summary stays as it is. -/
theorem C104_final {st : Bool} {s s' : St T} (hc : s.phase = .closed) (hb : s.blocked = false) {a : Act T}
    (h : step st s a = some s') : False := by
  cases a <;> simp [step, hc, hb] at h

/-- **C104 (a busy thread).** While a task keeps the thread busy the loop is not closed, interrupts or not. -/
theorem C104_busy {st : Bool} {as : List (Act T)} : ∀ {s s' : St T}, s.blocked = true → s.phase ≠ .closed → .unblock ∉ as →
    run st as s = some s' → s'.phase ≠ .closed ∧ s'.alive = s.alive := by
  induction as with
  | nil => intro s s' _ hc _ h; cases h; exact ⟨hc, rfl⟩
  | cons a as ih =>
    intro s s' hb hc hn h
    simp only [run] at h
    split at h
    · cases h
    · rename_i s1 h1
      have hn' : .unblock ∉ as := fun hm => hn (by simp [hm])
      have key : s1.blocked = true ∧ s1.phase ≠ .closed ∧ s1.alive = s.alive := by
        cases a <;> simp only [step] at h1 <;> (repeat' split at h1) <;> cases h1 <;> simp_all
      have := ih key.1 key.2.1 hn' h
      exact ⟨this.1, this.2.trans key.2.2⟩

/-- **C104 (negation).** A task that was cancelled starts another one, which is then left unfinished: the summary is clean. The
log says otherwise. -/
theorem C104_negation : ∃ s : St Nat,
    run false [.begin, .snap, .spawn 1, .finish 0 false, .allDone, .record 0, .stop] (init [0]) = some s ∧
    s.phase = .closed ∧ s.alive = [1] ∧ s.cancelled = [0] ∧ s.summary.unclean = false ∧ s.warning = some (.notClean 0 1) :=
  ⟨_, rfl, rfl, rfl, rfl, rfl, rfl⟩

/-- **C104 (warnings).** A warning is logged just if the summary is unclean or a task was cancelled, jobs in the executor
aside. -/
theorem C104_warning {al : List T} {as : List (Act T)} {s : St T} (h : run false as (init al) = some s)
    (hc : s.phase = .closed) :
    (s.warning = none ↔ { s.summary with executorActive := 0 }.unclean = false ∧ s.summary.cancelledTasks = 0) ∧
    (∀ n, s.warning = some (.timedOut n) → n = s.summary.pendingTasks ∧ n ≠ 0) := by
  obtain ⟨p, n, q, _, _, hw, _, _, hi⟩ := C104_summary h hc
  rw [hw]
  generalize s.summary = r at *
  obtain ⟨c, x, pd, er, fi⟩ := r
  simp only [warn, Summary.unclean]
  constructor
  · cases fi <;> by_cases h1 : c = 0 <;> by_cases h2 : er = 0 <;> by_cases h3 : pd = 0 <;> simp [h1, h2, h3]
  · intro k
    split
    · split
      · simp
      · split
        · rename_i h3
          intro e
          simp only [Option.some.injEq, Warning.timedOut.injEq] at e
          subst e
          exact ⟨rfl, h3⟩
        · simp
    · simp

/-- **C104 (strict).** With `EZMSG_STRICT_SHUTDOWN` no task is cancelled and the summary stays empty. -/
theorem C104_strict {al : List T} {as : List (Act T)} {s : St T} (h : run true as (init al) = some s) :
    s.cancelled = [] ∧ s.summary = {} ∧ s.warning = none ∧ s.errors = 0 := by
  replace h := run_of h
  suffices hh : (s.cancelled = [] ∧ s.summary = {} ∧ s.warning = none ∧ s.errors = 0) ∧
      (s.phase = .inside ∨ s.phase = .stopping ∨ s.phase = .closed) from hh.1
  induction h with
  | nil => simp [init]
  | @snoc as s s' a _ h2 ih =>
    cases a <;> simp only [step] at h2 <;> (repeat' split at h2) <;> cases h2 <;> simp_all

/-- Three tasks: the first ends with an error when cancelled, the second in time, the third not at all. -/
example : ∃ s : St Nat,
    run false [.begin, .snap, .finish 0 true, .finish 1 false, .timeout, .record 2, .stop] (init [0, 1, 2]) = some s ∧
    s.phase = .closed ∧ s.summary = ⟨3, 2, 1, 1, false⟩ ∧ s.warning = some (.timedOut 1) ∧ s.alive = [2] :=
  ⟨_, rfl, rfl, rfl, rfl, rfl⟩

/-- All end in time: nothing is left. -/
example : ∃ s : St Nat, run false [.begin, .snap, .finish 0 false, .allDone, .record 0, .stop] (init [0]) = some s ∧
    s.phase = .closed ∧ s.summary.pendingTasks = 0 ∧ s.summary.forcedInterrupt = false ∧ s.summary.unclean = false ∧
    s.alive = [] :=
  ⟨_, rfl, rfl, rfl, rfl, rfl, rfl⟩

/-- An interrupt during the wait. -/
example : ∃ s : St Nat, run false [.begin, .snap, .interrupt, .record 0, .stop] (init [0]) = some s ∧
    s.phase = .closed ∧ s.summary = ⟨0, 0, 0, 0, true⟩ ∧ s.warning = some .interrupted ∧ s.alive = [0] :=
  ⟨_, rfl, rfl, rfl, rfl, rfl⟩

/-- A busy thread: the hypotheses of `C104_busy` and of `C104_strict`. -/
example : ∃ s : St Nat, run true [.block, .begin] (init [0]) = some s ∧ s.blocked = true ∧ s.phase = .stopping :=
  ⟨_, rfl, rfl, rfl⟩

end LoopClose
end Ez
