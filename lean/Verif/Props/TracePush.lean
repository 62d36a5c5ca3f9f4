import Verif.Model.TracePush

/-!
# C95: trace samples are sent to the graph server once, in order, while tracing is on

Specification: `recorded` are the samples recorded while tracing was on; every one of them has one fate.
-/

set_option linter.unusedSectionVars false
set_option linter.unusedSimpArgs false

namespace Ez
namespace Push
variable {A : Type}

/-! ## Specification -/

/-- The batch that the push task has taken and not yet written. -/
def St.inHand (s : St A) : List A :=
  match s.task with
  | some (.waiting b) => b
  | _ => []

/-- Steps that neither change the trace nor take samples away from the push task, nor break the connection. -/
def Quiet : Act A → Prop
  | .record _ | .wake _ | .grant | .drained | .lock | .unlock => True
  | _ => False

/-- The samples that these steps record if tracing is on. -/
def records : List (Act A) → List A
  | [] => []
  | .record a :: as => a :: records as
  | _ :: as => records as

/-! ## Lemmas -/

/-- Rearrangements of concatenated lists. -/
macro "perm_count" : tactic => `(tactic| (classical rw [List.perm_iff_count]; intro x; simp only [List.count_append]; omega))

/-- What every step keeps. -/
structure Inv (s : St A) : Prop where
  perm : s.recorded.Perm (s.sent ++ s.inHand ++ s.buf ++ (s.polled ++ s.cleared ++ s.lost))
  order : (s.sent ++ s.inHand ++ s.buf).Sublist s.recorded

theorem inHand_task {s : St A} {b : List A} (h : s.task = some (.waiting b)) : s.inHand = b := by simp [St.inHand, h]

theorem inHand_nil {s : St A} (h : ∀ b, s.task ≠ some (.waiting b)) : s.inHand = [] := by
  unfold St.inHand
  split
  · rename_i b e; exact absurd e (h b)
  · rfl

theorem clear_inv {s : St A} (h : Inv s) (on : Bool) : Inv { s.clear with on := on } := by
  constructor
  · refine h.perm.trans ?_
    change (s.sent ++ s.inHand ++ s.buf ++ _).Perm (s.sent ++ s.inHand ++ [] ++ (s.polled ++ (s.cleared ++ s.buf) ++ s.lost))
    rw [List.append_nil]
    perm_count
  · refine List.Sublist.trans ?_ h.order
    simp only [St.clear, St.inHand, List.append_nil]
    exact List.sublist_append_left _ _

theorem cancel_inv {s : St A} (h : Inv s) : Inv s.cancel := by
  unfold St.cancel
  split
  · rename_i b e
    have hb := inHand_task e
    constructor
    · refine h.perm.trans ?_
      rw [hb]
      simp only [St.inHand, List.append_nil]
      perm_count
    · refine List.Sublist.trans ?_ h.order
      rw [hb]
      simp only [St.inHand, List.append_nil]
      exact List.Sublist.append (List.sublist_append_left _ _) (List.Sublist.refl _)
  · rename_i e
    have hb := inHand_nil (s := s) (fun b hb => e b hb)
    exact ⟨by have := h.perm; rw [hb] at this; exact this, by have := h.order; rw [hb] at this; exact this⟩

theorem step_inv {s s' : St A} {a : Act A} (h : Inv s) (hs : step s a = some s') : Inv s' := by
  cases a with
  | record a =>
    simp only [step] at hs
    split at hs <;> cases hs
    · constructor
      · refine (List.Perm.append_right [a] h.perm).trans ?_
        change (s.sent ++ s.inHand ++ s.buf ++ _ ++ [a]).Perm (s.sent ++ s.inHand ++ (s.buf ++ [a]) ++ (s.polled ++ s.cleared ++ s.lost))
        perm_count
      · have := h.order
        simp only [St.inHand] at this ⊢
        rw [← List.append_assoc]
        exact List.Sublist.append this (List.Sublist.refl _)
    · exact h
  | control on =>
    simp only [step] at hs
    have hc := clear_inv h on
    split at hs <;> cases hs
    · cases ht : s.task with
      | none =>
        have : ({ s.clear with on := on, task := ({ s.clear with on := on }).task.or (some .sleeping) } : St A).inHand = ({ s.clear with on := on } : St A).inHand := by
          simp [St.inHand, St.clear, ht]
        exact ⟨by have h1 := hc.perm; rw [← this] at h1; exact h1, by have h1 := hc.order; rw [← this] at h1; exact h1⟩
      | some t =>
        have : ({ s.clear with on := on, task := ({ s.clear with on := on }).task.or (some .sleeping) } : St A).inHand = ({ s.clear with on := on } : St A).inHand := by
          simp [St.inHand, St.clear, ht]
        exact ⟨by have h1 := hc.perm; rw [← this] at h1; exact h1, by have h1 := hc.order; rw [← this] at h1; exact h1⟩
    · exact cancel_inv hc
  | poll n =>
    simp only [step] at hs
    cases hs
    constructor
    · refine h.perm.trans ?_
      change (s.sent ++ s.inHand ++ s.buf ++ _).Perm
        (s.sent ++ s.inHand ++ s.buf.drop (max 1 n) ++ (s.polled ++ s.buf.take (max 1 n) ++ s.cleared ++ s.lost))
      generalize hd : s.buf.drop (max 1 n) = d
      generalize ht : s.buf.take (max 1 n) = t
      have hb : s.buf = t ++ d := by rw [← hd, ← ht, List.take_append_drop]
      rw [hb]
      perm_count
    · refine List.Sublist.trans ?_ h.order
      simp only [St.inHand]
      exact List.Sublist.append (List.Sublist.refl _) (List.drop_sublist _ _)
  | expire =>
    simp only [step] at hs
    split at hs <;> cases hs
    exact clear_inv h false
  | wake n =>
    simp only [step] at hs
    split at hs
    · rename_i e
      have hb := inHand_nil (s := s) (by simp [e])
      have h1 := h.perm
      have h2 := h.order
      rw [hb] at h1 h2
      split at hs
      · cases hs
        constructor
        · have : s.next.inHand = [] := inHand_nil (by unfold St.next; intro b; simp only; split <;> simp)
          rw [this]; exact h1
        · have : s.next.inHand = [] := inHand_nil (by unfold St.next; intro b; simp only; split <;> simp)
          rw [this]; exact h2
      · split at hs <;> cases hs
        · constructor
          · simp only [St.inHand]
            rw [List.append_assoc s.sent, List.take_append_drop]
            simpa using h1
          · simp only [St.inHand]
            rw [List.append_assoc s.sent, List.take_append_drop]
            simpa using h2
        · constructor
          · simp only [St.inHand, List.append_nil]
            rw [List.append_assoc s.sent, List.take_append_drop]
            simpa using h1
          · simp only [St.inHand, List.append_nil]
            rw [List.append_assoc s.sent, List.take_append_drop]
            simpa using h2
    · cases hs
  | grant =>
    simp only [step] at hs
    split at hs
    · rename_i b e
      split at hs <;> cases hs
      have hb := inHand_task e
      have h1 := h.perm
      have h2 := h.order
      rw [hb] at h1 h2
      exact ⟨by simpa [St.inHand] using h1, by simpa [St.inHand] using h2⟩
    · cases hs
  | drained =>
    simp only [step] at hs
    split at hs
    · rename_i e
      cases hs
      have hb := inHand_nil (s := s) (by simp [e])
      have h1 := h.perm
      have h2 := h.order
      rw [hb] at h1 h2
      have : s.next.inHand = [] := inHand_nil (by unfold St.next; intro b; simp only; split <;> simp)
      exact ⟨by rw [this]; exact h1, by rw [this]; exact h2⟩
    · cases hs
  | broken =>
    simp only [step] at hs
    split at hs
    · rename_i e
      cases hs
      have hb := inHand_nil (s := s) (by simp [e])
      have h1 := h.perm
      have h2 := h.order
      rw [hb] at h1 h2
      exact ⟨by simpa [St.inHand] using h1, by simpa [St.inHand] using h2⟩
    · cases hs
  | lock =>
    simp only [step] at hs
    split at hs
    · cases hs
    · split at hs <;> cases hs
      exact ⟨h.perm, h.order⟩
  | unlock =>
    simp only [step] at hs
    split at hs <;> cases hs
    exact ⟨h.perm, h.order⟩
  | close =>
    simp only [step] at hs
    cases hs
    exact cancel_inv h

theorem run_inv {s s' : St A} {as : List (Act A)} (h : Inv s) (hs : run s as = some s') : Inv s' := by
  induction as generalizing s with
  | nil => cases hs; exact h
  | cons a as ih =>
    simp only [run] at hs
    split at hs
    · rename_i s1 e; exact ih (step_inv h e) hs
    · cases hs

theorem init_inv : Inv (init : St A) := ⟨by simp [init, St.inHand], by simp [init, St.inHand]⟩

/-! ## Theorems -/

/-- C95: every sample recorded has exactly one fate: it was sent, is about to be, is still there, was polled, was cleared or was lost. -/
theorem C95_account {s : St A} {as : List (Act A)} (h : run init as = some s) :
    s.recorded.Perm (s.sent ++ s.inHand ++ s.buf ++ (s.polled ++ s.cleared ++ s.lost)) := (run_inv init_inv h).perm

/-- C95: samples are sent in the order in which they were recorded, none twice (`C95_account`), and before those that are still there. -/
theorem C95_in_order {s : St A} {as : List (Act A)} (h : run init as = some s) : (s.sent ++ s.inHand ++ s.buf).Sublist s.recorded :=
  (run_inv init_inv h).order

/-- C95: while tracing is on and the connection works there is a push task. -/
theorem C95_task {s : St A} {as : List (Act A)} (h : run init as = some s) (hb : .broken ∉ as) (hc : .close ∉ as) (hon : s.on = true) :
    s.task.isSome := by
  have key : ∀ (as : List (Act A)) (s0 s : St A), (s0.on = true → s0.task.isSome) → run s0 as = some s → .broken ∉ as → .close ∉ as →
      s.on = true → s.task.isSome := by
    intro as
    induction as with
    | nil => intro s0 s h0 h _ _; cases h; exact h0
    | cons a as ih =>
      intro s0 s h0 h hb hc
      simp only [run] at h
      split at h
      · rename_i s1 e
        simp only [List.mem_cons, not_or] at hb hc
        refine ih s1 s ?_ h hb.2 hc.2
        cases a with
        | record a => simp only [step] at e; split at e <;> cases e <;> exact h0
        | control on =>
          simp only [step] at e
          split at e <;> cases e
          · intro _; cases ht : s0.task <;> simp [St.clear, ht]
          · rename_i hf
            intro hon
            exfalso
            apply hf
            revert hon
            unfold St.cancel St.clear
            simp only
            split <;> exact id
        | poll n => simp only [step] at e; cases e; exact h0
        | expire => simp only [step] at e; split at e <;> cases e; intro h; cases h
        | wake n =>
          simp only [step] at e
          split at e
          · split at e
            · cases e; intro h; simp [St.next] at h ⊢; exact h
            · split at e <;> cases e <;> intro _ <;> rfl
          · cases e
        | grant =>
          simp only [step] at e
          split at e
          · split at e <;> cases e; intro _; rfl
          · cases e
        | drained =>
          simp only [step] at e
          split at e
          · cases e; intro h; simp [St.next] at h ⊢; exact h
          · cases e
        | broken => exact absurd rfl hb.1
        | lock =>
          simp only [step] at e
          split at e
          · cases e
          · split at e <;> cases e; exact h0
        | unlock => simp only [step] at e; split at e <;> cases e; exact h0
        | close => exact absurd rfl hc.1
      · cases h
  exact key as init s (fun h => by cases h) h hb hc hon

theorem quiet_step {s s' : St A} {a : Act A} (hq : Quiet a) (hon : s.on = true) (hs : step s a = some s') :
    s'.on = true ∧ s'.sent ++ s'.inHand ++ s'.buf = s.sent ++ s.inHand ++ s.buf ++ records [a] := by
  cases a with
  | record a =>
    simp only [step, hon, if_true] at hs
    cases hs
    exact ⟨rfl, by simp [St.inHand, records]⟩
  | wake n =>
    simp only [step] at hs
    split at hs
    · rename_i e
      have hb := inHand_nil (s := s) (by simp [e])
      split at hs
      · cases hs
        refine ⟨hon, ?_⟩
        have : s.next.inHand = [] := inHand_nil (by unfold St.next; intro b; simp only; split <;> simp)
        rw [this, hb]
        simp [St.next, records]
      · split at hs <;> cases hs
        · exact ⟨hon, by rw [hb]; simp [St.inHand, records]⟩
        · exact ⟨hon, by rw [hb]; simp [St.inHand, records]⟩
    · cases hs
  | grant =>
    simp only [step] at hs
    split at hs
    · rename_i b e
      split at hs <;> cases hs
      exact ⟨hon, by rw [inHand_task e]; simp [St.inHand, records]⟩
    · cases hs
  | drained =>
    simp only [step] at hs
    split at hs
    · rename_i e
      cases hs
      have hb := inHand_nil (s := s) (by simp [e])
      have : s.next.inHand = [] := inHand_nil (by unfold St.next; intro b; simp only; split <;> simp)
      exact ⟨hon, by rw [this, hb]; simp [St.next, records]⟩
    · cases hs
  | lock =>
    simp only [step] at hs
    split at hs
    · cases hs
    · split at hs <;> cases hs
      exact ⟨hon, by simp [St.inHand, records]⟩
  | unlock =>
    simp only [step] at hs
    split at hs <;> cases hs
    exact ⟨hon, by simp [St.inHand, records]⟩
  | _ => exact absurd hq (by simp [Quiet])

/-- C95, partial: while the trace is not changed, not polled and does not expire, and the connection works, nothing is lost: what was there, followed by
everything recorded since, is what has been sent since, followed by what is still to be sent. Missing: the end of the trace (`C95_end_cleared`,
`C95_expired`) and a batch that waits for the lock when the trace is turned off (`C95_batch_lost`). -/
theorem C95_complete_partial {s s' : St A} {as : List (Act A)} (hon : s.on = true) (hq : ∀ a ∈ as, Quiet a) (h : run s as = some s') :
    s'.sent ++ s'.inHand ++ s'.buf = s.sent ++ s.inHand ++ s.buf ++ records as := by
  induction as generalizing s with
  | nil => cases h; simp [records]
  | cons a as ih =>
    simp only [run] at h
    split at h
    · rename_i s1 e
      obtain ⟨h1, h2⟩ := quiet_step (hq a (by simp)) hon e
      rw [ih h1 (fun b hb => hq b (by simp [hb])) h, h2, List.append_assoc _ (records [a])]
      congr 1
      cases a <;> rfl
    · cases h

/-- C95: while tracing is on, the push task sends everything that was recorded, if nobody keeps the lock: there is a finite number of its own steps after which
nothing is left. -/
theorem C95_sends {s : St A} (hon : s.on = true) (ht : s.task.isSome) (hl : s.locked = false) (n : Nat) :
    ∃ as s', run s as = some s' ∧ (∀ a ∈ as, a = .wake n ∨ a = .grant ∨ a = .drained) ∧ s'.buf = [] ∧ s'.inHand = [] ∧
      s'.sent = s.sent ++ s.inHand ++ s.buf := by
  have loop : ∀ (k : Nat) (s : St A), s.buf.length ≤ k → s.on = true → s.task = some .sleeping → s.locked = false →
      ∃ as s', run s as = some s' ∧ (∀ a ∈ as, a = .wake n ∨ a = .grant ∨ a = .drained) ∧ s'.buf = [] ∧ s'.inHand = [] ∧
        s'.sent = s.sent ++ s.buf := by
    intro k
    induction k with
    | zero =>
      intro s hk _ ht _
      have : s.buf = [] := List.length_eq_zero_iff.1 (Nat.le_zero.1 hk)
      exact ⟨[], s, rfl, by simp, this, by simp [St.inHand, ht], by simp [this]⟩
    | succ k ih =>
      intro s hk hon ht hl
      by_cases hb : s.buf = []
      · exact ⟨[], s, rfl, by simp, hb, by simp [St.inHand, ht], by simp [hb]⟩
      · have hne : (s.buf.take (max 1 n)).isEmpty = false := by
          cases hbuf : s.buf with
          | nil => exact absurd hbuf hb
          | cons x l =>
            have : max 1 n = (max 1 n - 1) + 1 := by omega
            rw [this]; rfl
        let s1 : St A := { s with buf := s.buf.drop (max 1 n), task := some .draining, sent := s.sent ++ s.buf.take (max 1 n) }
        let s2 : St A := { s1 with task := some .sleeping }
        have e1 : step s (.wake n) = some s1 := by
          simp [step, ht, hne, hl, s1]
        have e2 : step s1 .drained = some s2 := by
          simp only [step, s1, St.next, hon, if_true, s2]
        have hlen : s2.buf.length ≤ k := by
          have : 0 < s.buf.length := List.length_pos_iff.2 hb
          simp only [s2, s1, List.length_drop]; omega
        obtain ⟨as, s', h1, h2, h3, h4, h5⟩ := ih s2 hlen hon rfl hl
        refine ⟨.wake n :: .drained :: as, s', by simp only [run, e1, e2, h1], ?_, h3, h4, ?_⟩
        · intro a ha
          simp only [List.mem_cons] at ha
          rcases ha with rfl | rfl | ha
          · exact .inl rfl
          · exact .inr (.inr rfl)
          · exact h2 a ha
        · rw [h5]; simp [s2, s1]
  have drain : ∀ (s : St A), s.on = true → s.task = some .draining → s.locked = false →
      ∃ as s', run s as = some s' ∧ (∀ a ∈ as, a = .wake n ∨ a = .grant ∨ a = .drained) ∧ s'.buf = [] ∧ s'.inHand = [] ∧
        s'.sent = s.sent ++ s.buf := by
    intro s hon ht hl
    have e : step s .drained = some { s with task := some .sleeping } := by
      simp only [step, ht, St.next, hon, if_true]
    obtain ⟨as, s', h1, h2, h3, h4, h5⟩ := loop s.buf.length { s with task := some .sleeping } (Nat.le_refl _) hon rfl hl
    refine ⟨.drained :: as, s', by simp only [run, e, h1], ?_, h3, h4, h5⟩
    intro a ha
    rcases List.mem_cons.1 ha with rfl | ha
    · exact .inr (.inr rfl)
    · exact h2 a ha
  obtain ⟨t, ht⟩ := Option.isSome_iff_exists.1 ht
  cases t with
  | sleeping =>
    obtain ⟨as, s', h1, h2, h3, h4, h5⟩ := loop _ s (Nat.le_refl _) hon ht hl
    exact ⟨as, s', h1, h2, h3, h4, by simpa [St.inHand, ht] using h5⟩
  | draining =>
    obtain ⟨as, s', h1, h2, h3, h4, h5⟩ := drain s hon ht hl
    exact ⟨as, s', h1, h2, h3, h4, by simpa [St.inHand, ht] using h5⟩
  | waiting b =>
    have e : step s .grant = some { s with task := some .draining, sent := s.sent ++ b } := by
      simp [step, ht, hl]
    obtain ⟨as, s', h1, h2, h3, h4, h5⟩ := drain { s with task := some .draining, sent := s.sent ++ b } hon rfl hl
    refine ⟨.grant :: as, s', by simp only [run, e, h1], ?_, h3, h4, by rw [h5, inHand_task ht]⟩
    intro a ha
    rcases List.mem_cons.1 ha with rfl | ha
    · exact .inr (.inl rfl)
    · exact h2 a ha

/-- C95: nothing is recorded, so nothing further sent, while tracing is off. -/
theorem C95_off {s : St A} (hoff : s.on = false) (a : A) : step s (.record a) = some s := by simp [step, hoff]

/-- C95 is violated: turning the trace off discards all samples that have not been sent. -/
theorem C95_end_cleared (s : St A) : ∃ s', step s (.control false) = some s' ∧ s'.buf = [] ∧ s'.sent = s.sent ∧ s'.cleared = s.cleared ++ s.buf ∧
    s'.lost = s.lost ++ s.inHand ∧ s'.task = none := by
  refine ⟨({ s.clear with on := false } : St A).cancel, by simp [step], ?_⟩
  cases ht : s.task with
  | none => simp [St.cancel, St.clear, ht, St.inHand]
  | some t => cases t <;> simp [St.cancel, St.clear, ht, St.inHand]

/-- C95 is violated: when the time of the trace is up, all samples that have not been taken by then are discarded. -/
theorem C95_expired (s : St A) (hon : s.on = true) : ∃ s', step s .expire = some s' ∧ s'.buf = [] ∧ s'.sent = s.sent ∧ s'.cleared = s.cleared ++ s.buf := by
  exact ⟨{ s.clear with on := false }, by simp [step, hon], rfl, rfl, rfl⟩

/-- C95 is violated: samples that the push task has taken are lost if the trace is turned off while it waits for the lock. -/
theorem C95_batch_lost : (run (init : St Nat) [.control true, .record 1, .lock, .wake 10, .control false]).map
    (fun s => (s.recorded, s.sent, s.cleared, s.lost)) = some ([1], [], [], [1]) := by decide

/-! ## Examples -/

/-- Non-vacuity: two batches, one of which waits for the lock, and a poll. -/
example : (run (init : St Nat) [.record 0, .control true, .record 1, .record 2, .wake 1, .drained, .lock, .wake 5, .record 3, .record 4, .unlock, .grant, .poll 1, .drained,
    .wake 5, .drained]).map (fun s => (s.recorded, s.sent, s.polled, s.task)) = some ([1, 2, 3, 4], [1, 2, 4], [3], some .sleeping) := by decide

end Push
end Ez
