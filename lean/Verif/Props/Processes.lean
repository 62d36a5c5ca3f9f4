import Verif.Props.Sessions

/-!
# C29: which process owns a unit

Specification: the units of the connected processes, as listed by the server.
-/

set_option linter.unusedSectionVars false
set_option linter.unusedSimpArgs false

namespace Ez
namespace Srv
variable {T I A V : Type} [DecidableEq T] [DecidableEq I] [DecidableEq A]

/-- Connected process `p` owns unit `u`. -/
def OwnsUnit (sv : Server T I A V) (p : I) (u : A) : Prop := ∃ us, (p, .process us) ∈ sv.clients ∧ u ∈ us

theorem ownsUnit_iff {sv : Server T I A V} (h : sv.clients.keys.Nodup) {p : I} {u : A} :
    OwnsUnit sv p u ↔ ∃ us, sv.clients.get? p = some (.process us) ∧ u ∈ us := by
  constructor
  · rintro ⟨us, h1, h2⟩; exact ⟨us, PyDict.get?_of_mem h h1, h2⟩
  · rintro ⟨us, h1, h2⟩; exact ⟨us, PyDict.mem_of_get? h1, h2⟩

theorem processOwner_some {sv : Server T I A V} {u : A} {q : I} (h : processOwner sv u = some q) :
    OwnsUnit sv q u := by
  unfold processOwner at h
  rw [List.findSome?_eq_some_iff] at h
  obtain ⟨l1, c, l2, h1, h2, _⟩ := h
  split at h2
  · rename_i us hc
    split at h2
    · cases h2
      refine ⟨us, ?_, ‹_›⟩
      rw [h1]; simp [← hc]
    · cases h2
  · cases h2

theorem processOwner_none {sv : Server T I A V} {u : A} (h : processOwner sv u = none) (q : I) :
    ¬ OwnsUnit sv q u := by
  rintro ⟨us, hm, hu⟩
  unfold processOwner at h
  rw [List.findSome?_eq_none_iff] at h
  have := h _ hm
  simp [hu] at this

/-- A claim conflicts exactly when another process owns one of the units. -/
theorem conflicts_iff {sv : Server T I A V} (p : I) (us : List A)
    (huniq : ∀ p q u, OwnsUnit sv p u → OwnsUnit sv q u → p = q) :
    (conflicts sv p us).isEmpty = true ↔ ∀ u ∈ us, ∀ q, OwnsUnit sv q u → q = p := by
  unfold conflicts
  rw [List.isEmpty_iff, List.filter_eq_nil_iff]
  constructor
  · intro h u hu q hq
    have := h u hu
    cases ho : processOwner sv u with
    | none => exact absurd hq (processOwner_none ho q)
    | some q' =>
      rw [ho] at this
      have hq' : q' = p := by simpa using this
      exact (huniq _ _ _ hq (processOwner_some ho)).trans hq'
  · intro h u hu
    cases ho : processOwner sv u with
    | none => simp
    | some q' => simp [h u hu q' (processOwner_some ho)]

theorem mem_foldl_add {us : List A} {acc : PySet A} {u : A} :
    u ∈ us.foldl PySet.add acc ↔ u ∈ acc ∨ u ∈ us := by
  induction us generalizing acc with
  | nil => simp
  | cons x us ih => rw [List.foldl_cons, ih, PySet.mem_add, List.mem_cons]; grind

theorem mem_foldl_discard {us : List A} {acc : PySet A} {u : A} :
    u ∈ us.foldl PySet.discard acc ↔ u ∈ acc ∧ u ∉ us := by
  induction us generalizing acc with
  | nil => simp
  | cons x us ih => rw [List.foldl_cons, ih, PySet.mem_discard, List.mem_cons]; grind

/-- A step of a kind that does not concern ownership. -/
def Act.concernsUnits : Act T I A V → Bool
  | .registerProcess _ _ => true
  | .updateOwnership _ _ _ => true
  | .processGone _ => true
  | _ => false

theorem processes_unchanged {cfg : Cfg} {sv sv' : Server T I A V} {a : Act T I A V} {r : Reply}
    (hinv : EdgeInv sv) (hu : ∀ i c, sv.clients.get? i = some c → i ∈ sv.used)
    (hs : step cfg sv a = some (sv', r)) (ha : a.concernsUnits = false) (p : I) (u : A) :
    OwnsUnit sv' p u ↔ OwnsUnit sv p u := by
  rw [ownsUnit_iff hinv.nodup, ownsUnit_iff (nodup_step hinv hs), clients_step hinv hs]
  have hfresh : ∀ {c : Client T I A V} {j : I}, j ∉ sv.used → (∀ us, c ≠ .process us) →
      ((∃ us, (if p = j then some c else sv.clients.get? p) = some (.process us) ∧ u ∈ us) ↔
        ∃ us, sv.clients.get? p = some (.process us) ∧ u ∈ us) := by
    intro c j hj hc
    by_cases hp : p = j
    · subst hp
      simp only [if_true, Option.some.injEq]
      constructor
      · rintro ⟨us, h1, _⟩; exact absurd h1 (hc us)
      · rintro ⟨us, h1, _⟩; exact absurd (hu _ _ h1) hj
    · simp [hp]
  have hedit : ∀ {f}, (∃ us, editEdges (sv.clients.get? p) f = some (.process us) ∧ u ∈ us) ↔
        ∃ us, sv.clients.get? p = some (.process us) ∧ u ∈ us := by
    intro f
    unfold editEdges
    split
    · rename_i hg; simp [hg]
    · rfl
  cases a with
  | registerProcess => cases ha
  | updateOwnership => cases ha
  | processGone => cases ha
  | subscribe j t => exact hfresh (fresh_step hs j (by simp)) (by simp)
  | publish j t => exact hfresh (fresh_step hs j (by simp)) (by simp)
  | openSession j => exact hfresh (fresh_step hs j (by simp)) (by simp)
  | openProcess j =>
    have hj := fresh_step hs j (by simp)
    simp only [clientAfter]
    by_cases hp : p = j
    · subst hp
      simp only [if_true, Option.some.injEq]
      constructor
      · rintro ⟨us, h1, h2⟩; cases h1; simp at h2
      · rintro ⟨us, h1, _⟩; exact absurd (hu _ _ h1) hj
    · simp [hp]
  | channel j q =>
    simp only [clientAfter]
    split
    · exact hfresh (fresh_step hs j (by simp)) (by simp)
    · rfl
  | gone j =>
    simp only [clientAfter]
    by_cases hp : p = j
    · subst hp
      simp only [if_true, reduceCtorEq, false_and, exists_false, false_iff]
      rintro ⟨us, h1, _⟩
      simp [step, h1] at hs
    · simp [hp]
  | sessionConnect s x y =>
    simp only [clientAfter]
    split
    · exact hedit
    · rfl
  | sessionDisconnect s x y =>
    simp only [clientAfter]
    split
    · exact hedit
    · rfl
  | sessionClear s =>
    simp only [clientAfter]
    by_cases hp : p = s
    · subst hp
      simp only [if_true, Option.some.injEq, reduceCtorEq, false_and, exists_false, false_iff]
      rintro ⟨us, h1, _⟩
      simp [step, sessionInfo, h1] at hs
    · simp [hp]
  | sessionGone s =>
    simp only [clientAfter]
    by_cases hp : p = s
    · subst hp
      simp only [if_true, reduceCtorEq, false_and, exists_false, false_iff]
      rintro ⟨us, h1, _⟩
      simp [step, sessionInfo, h1] at hs
    · simp [hp]
  | sessionRegister s md =>
    simp only [clientAfter]
    split
    · split
      · rename_i hg; simp [hg]
      · rfl
    · rfl
  | notify j =>
    simp only [clientAfter]
    split
    · split
      · split
        · rename_i hg; simp [hg]
        · rfl
      · rfl
    · rfl
  | write s j =>
    simp only [clientAfter]
    split
    · split
      · rename_i hg; split <;> simp [hg]
      · rfl
    · rfl
  | _ => rfl

theorem units_unique_step {cfg : Cfg} {sv sv' : Server T I A V} {a : Act T I A V} {r : Reply}
    (hinv : EdgeInv sv) (hu : ∀ i c, sv.clients.get? i = some c → i ∈ sv.used)
    (huniq : ∀ p q u, OwnsUnit sv p u → OwnsUnit sv q u → p = q)
    (hs : step cfg sv a = some (sv', r)) :
    ∀ p q u, OwnsUnit sv' p u → OwnsUnit sv' q u → p = q := by
  by_cases ha : a.concernsUnits = false
  · intro p q u hp hq
    rw [processes_unchanged hinv hu hs ha] at hp hq
    exact huniq p q u hp hq
  · intro p q u
    rw [ownsUnit_iff (nodup_step hinv hs), ownsUnit_iff (nodup_step hinv hs), clients_step hinv hs,
      clients_step hinv hs]
    have hown : ∀ p, (∃ us, sv.clients.get? p = some (.process us) ∧ u ∈ us) ↔ OwnsUnit sv p u :=
      fun p => (ownsUnit_iff hinv.nodup).symm
    cases a with
    | registerProcess w units =>
      simp only [clientAfter]
      by_cases hc : (conflicts sv w units).isEmpty = true
      · have hcf := (conflicts_iff w units huniq).1 hc
        simp only [hc, and_true]
        have key : ∀ p, (∃ us, (if p = w then some (.process (units.foldl PySet.add []))
            else sv.clients.get? p) = some (.process us) ∧ u ∈ us) ↔
            if p = w then u ∈ units else OwnsUnit sv p u := by
          intro p
          split
          · constructor
            · rintro ⟨us, h1, h2⟩; cases h1; simpa [mem_foldl_add] using h2
            · intro h; exact ⟨_, rfl, by simpa [mem_foldl_add] using h⟩
          · exact hown p
        simp only [key]
        intro h1 h2
        split at h1 <;> split at h2
        · simp_all
        · exact absurd (hcf u h1 q h2) ‹_›
        · exact absurd (hcf u h2 p h1) ‹_›
        · exact huniq _ _ _ h1 h2
      · simp only [hc, and_false, Bool.false_eq_true, if_false, hown]
        exact huniq p q u
    | updateOwnership w added removed =>
      simp only [clientAfter]
      by_cases hc : (conflicts sv w added).isEmpty = true
      · have hcf := (conflicts_iff w added huniq).1 hc
        simp only [hc, and_true]
        have hold : u ∈ (processInfo sv w).getD [] → OwnsUnit sv w u := by
          intro hh
          cases hp : processInfo sv w with
          | none => rw [hp] at hh; simp at hh
          | some us =>
            rw [hp] at hh
            exact (hown w).1 ⟨us, processInfo_some.1 hp, hh⟩
        have key : ∀ p, (∃ us, (if p = w then some (.process (removed.foldl PySet.discard
              (added.foldl PySet.add ((processInfo sv w).getD []))))
            else sv.clients.get? p) = some (.process us) ∧ u ∈ us) →
            if p = w then (OwnsUnit sv w u ∨ u ∈ added) else OwnsUnit sv p u := by
          intro p
          split
          · rintro ⟨us, h1, h2⟩
            cases h1
            rw [mem_foldl_discard, mem_foldl_add] at h2
            rcases h2.1 with h3 | h3
            · exact Or.inl (hold h3)
            · exact Or.inr h3
          · exact (hown p).1
        intro g1 g2
        have h1 := key p g1
        have h2 := key q g2
        clear g1 g2
        split at h1 <;> split at h2
        · simp_all
        · rename_i e1 e2
          subst e1
          rcases h1 with h1 | h1
          · exact huniq _ _ _ h1 h2
          · exact absurd (hcf u h1 q h2) ‹_›
        · rename_i e1 e2
          subst e2
          rcases h2 with h2 | h2
          · exact huniq _ _ _ h1 h2
          · exact absurd (hcf u h2 p h1) ‹_›
        · exact huniq _ _ _ h1 h2
      · simp only [hc, and_false, Bool.false_eq_true, if_false, hown]
        exact huniq p q u
    | processGone w =>
      simp only [clientAfter]
      rintro ⟨us, h1, h2⟩ ⟨us', h3, h4⟩
      split at h1
      · cases h1
      · split at h3
        · cases h3
        · exact huniq p q u ((hown p).1 ⟨us, h1, h2⟩) ((hown q).1 ⟨us', h3, h4⟩)
    | _ => exact absurd rfl ha

/-- **C29.** At every time each unit is owned by at most one connected process. -/
theorem C29_at_most_one_owner {cfg : Cfg} {h : List (Act T I A V × Reply)} {sv : Server T I A V}
    (hr : Run cfg h sv) (p q : I) (u : A) (hp : OwnsUnit sv p u) (hq : OwnsUnit sv q u) : p = q := by
  induction hr generalizing p q u with
  | init => obtain ⟨us, h1, _⟩ := hp; simp [init] at h1
  | step hr hs ih =>
    exact units_unique_step (run_inv hr).1 (run_inv hr).2 (fun p q u h1 h2 => ih p q u h1 h2) hs p q u hp hq

/-- **C29 (claims).** A registration or ownership update that claims a unit owned by another process is
refused and changes nothing; any other one is accepted and gives the process exactly the units it
claims (for an update: what it had, plus the added, minus the removed ones), without touching the units
of other processes. -/
theorem C29_claims_exact {cfg : Cfg} {h : List (Act T I A V × Reply)} {sv sv' : Server T I A V}
    {r : Reply} (hr : Run cfg h sv) (p : I) :
    (∀ units, step cfg sv (.registerProcess p units) = some (sv', r) →
      ((∃ u ∈ units, ∃ q, q ≠ p ∧ OwnsUnit sv q u) → r = .error ∧ sv' = sv) ∧
      ((∀ u ∈ units, ∀ q, OwnsUnit sv q u → q = p) → r = .complete ∧
        ∀ q u, OwnsUnit sv' q u ↔ if q = p then u ∈ units else OwnsUnit sv q u)) ∧
    (∀ added removed, step cfg sv (.updateOwnership p added removed) = some (sv', r) →
      ((∃ u ∈ added, ∃ q, q ≠ p ∧ OwnsUnit sv q u) → r = .error ∧ sv' = sv) ∧
      ((∀ u ∈ added, ∀ q, OwnsUnit sv q u → q = p) → r = .complete ∧
        ∀ q u, OwnsUnit sv' q u ↔
          if q = p then (OwnsUnit sv p u ∨ u ∈ added) ∧ u ∉ removed else OwnsUnit sv q u)) := by
  have hinv := (run_inv hr).1
  have huniq := C29_at_most_one_owner hr
  have hown : ∀ p u, (∃ us, sv.clients.get? p = some (.process us) ∧ u ∈ us) ↔ OwnsUnit sv p u :=
    fun p u => (ownsUnit_iff hinv.nodup).symm
  constructor
  · intro units hs
    have hcf := conflicts_iff p units (fun p q u => huniq p q u)
    have hs' := hs
    simp only [step] at hs'
    split at hs'
    · rename_i old hold
      simp only [Option.some.injEq, registerProcess, hold] at hs'
      constructor
      · rintro ⟨u, hu, q, hq, ho⟩
        rw [if_neg (fun hc => hq (hcf.1 hc u hu q ho))] at hs'
        cases hs'; exact ⟨rfl, rfl⟩
      · intro hall
        have hc := hcf.2 hall
        rw [if_pos hc] at hs'
        refine ⟨by cases hs'; rfl, ?_⟩
        intro q u
        rw [ownsUnit_iff (nodup_step hinv hs), clients_step hinv hs]
        simp only [clientAfter, hc, and_true]
        split
        · constructor
          · rintro ⟨us, h1, h2⟩; cases h1; simpa [mem_foldl_add] using h2
          · intro h; exact ⟨_, rfl, by simpa [mem_foldl_add] using h⟩
        · exact hown q u
    · cases hs'
  · intro added removed hs
    have hcf := conflicts_iff p added (fun p q u => huniq p q u)
    have hs' := hs
    simp only [step] at hs'
    split at hs'
    · rename_i old hold
      simp only [Option.some.injEq, updateOwnership, hold] at hs'
      constructor
      · rintro ⟨u, hu, q, hq, ho⟩
        rw [if_neg (fun hc => hq (hcf.1 hc u hu q ho))] at hs'
        cases hs'; exact ⟨rfl, rfl⟩
      · intro hall
        have hc := hcf.2 hall
        rw [if_pos hc] at hs'
        refine ⟨by cases hs'; rfl, ?_⟩
        intro q u
        rw [ownsUnit_iff (nodup_step hinv hs), clients_step hinv hs]
        simp only [clientAfter, hc, and_true, hold, Option.getD_some]
        split
        · have : OwnsUnit sv p u ↔ u ∈ old := by
            rw [← hown, processInfo_some.1 hold]
            simp
          rw [this]
          constructor
          · rintro ⟨us, h1, h2⟩; cases h1
            simpa [mem_foldl_add, mem_foldl_discard] using h2
          · intro h
            exact ⟨_, rfl, by simpa [mem_foldl_add, mem_foldl_discard] using h⟩
        · exact hown q u
    · cases hs'

/-- **C29 (disconnects).** When a process disconnects exactly its units become free; a step of any other
kind changes no ownership. -/
theorem C29_disconnect_frees_exactly {cfg : Cfg} {h : List (Act T I A V × Reply)}
    {sv sv' : Server T I A V} {r : Reply} {a : Act T I A V} (hr : Run cfg h sv)
    (hs : step cfg sv a = some (sv', r)) :
    (∀ p, a = .processGone p → ∀ q u, OwnsUnit sv' q u ↔ OwnsUnit sv q u ∧ q ≠ p) ∧
    (a.concernsUnits = false → ∀ q u, OwnsUnit sv' q u ↔ OwnsUnit sv q u) := by
  have hinv := (run_inv hr).1
  constructor
  · rintro p rfl q u
    rw [ownsUnit_iff (nodup_step hinv hs), ownsUnit_iff hinv.nodup, clients_step hinv hs]
    simp only [clientAfter]
    by_cases hq : q = p <;> simp [hq]
  · intro ha q u
    exact processes_unchanged hinv (run_inv hr).2 hs ha q u

/-- Process 2 is refused unit 10 while process 1 owns it, and gets it after process 1 left. -/
example :
    (exec (T := Nat) (I := Nat) (A := Nat) (V := Nat)
      { settingsLimit := 10, topologyLimit := 10, queueSize := 4 }
      [.openProcess 1, .openProcess 2, .registerProcess 1 [10, 11], .registerProcess 2 [12],
        .updateOwnership 2 [10] [12], .processGone 1, .updateOwnership 2 [10] [12]]).map
      (fun x => (x.1.map (·.2), processInfo x.2 1, processInfo x.2 2)) =
    some ([.complete, .complete, .complete, .complete, .error, .complete, .complete],
      none, some [10]) := by
  srv_eval

end Srv
end Ez
