import Verif.Lemmas.Backpressure

/-!
# C01, C02: backpressure accounting

Specification: a history of calls, and what it means that a client has leased a buffer and not
freed it since.
-/

set_option linter.unusedSectionVars false

namespace Ez
variable {C : Type} [DecidableEq C]

/-- A call on a `Backpressure` object. -/
inductive BpCall (C : Type) where
  | lease (u : C) (i : Nat)
  | free (u : C) (i : Nat)
  | freeAll (u : C)

/-- One call; `none` is a raised `IndexError`. -/
def BpCall.exec (bp : Backpressure C) : BpCall C → Option (Backpressure C)
  | .lease u i => bp.lease u i
  | .free u i => bp.free u (some i)
  | .freeAll u => bp.free u none

/-- A history of calls, oldest first. -/
def BpCall.execAll : List (BpCall C) → Backpressure C → Option (Backpressure C)
  | [], bp => some bp
  | c :: cs, bp => (c.exec bp).bind (execAll cs)

/-- Specification: after history `h`, client `u` has leased buffer `i` and has not freed it since. -/
def Outstanding (h : List (BpCall C)) (u : C) (i : Nat) : Prop :=
  ∃ pre post, h = pre ++ BpCall.lease u i :: post ∧
    BpCall.free u i ∉ post ∧ BpCall.freeAll u ∉ post

/-- Specification: the call only names existing buffers. -/
def BpCall.InRange (n : Nat) : BpCall C → Prop
  | .lease _ i => i < n
  | .free _ i => i < n
  | .freeAll _ => True

theorem outstanding_nil (u : C) (i : Nat) : ¬ Outstanding [] u i := by
  rintro ⟨pre, post, h, _⟩
  simp at h

theorem outstanding_snoc (h : List (BpCall C)) (c : BpCall C) (u : C) (i : Nat) :
    Outstanding (h ++ [c]) u i ↔
      c = .lease u i ∨ (Outstanding h u i ∧ c ≠ .free u i ∧ c ≠ .freeAll u) := by
  constructor
  · rintro ⟨pre, post, he, h1, h2⟩
    rcases List.eq_nil_or_concat post with hp | ⟨post', d, hp⟩
    · subst hp
      have := List.append_inj' he (by simp)
      left; simpa using this.2
    · subst hp
      right
      have he' : h ++ [c] = (pre ++ BpCall.lease u i :: post') ++ [d] := by simp [he]
      have := List.append_inj' he' (by simp)
      obtain ⟨e1, e2⟩ := this
      have e2 : c = d := by simpa using e2
      subst e2
      refine ⟨⟨pre, post', e1, ?_, ?_⟩, ?_, ?_⟩
      · intro hm; exact h1 (by simp [hm])
      · intro hm; exact h2 (by simp [hm])
      · rintro rfl; exact h1 (by simp)
      · rintro rfl; exact h2 (by simp)
  · rintro (rfl | ⟨⟨pre, post, rfl, h1, h2⟩, h3, h4⟩)
    · exact ⟨h, [], by simp, by simp, by simp⟩
    · refine ⟨pre, post ++ [c], by simp, ?_, ?_⟩
      · simp; exact ⟨h1, fun e => h3 e.symm⟩
      · simp; exact ⟨h2, fun e => h4 e.symm⟩

theorem execAll_snoc (h : List (BpCall C)) (c : BpCall C) (bp : Backpressure C) :
    BpCall.execAll (h ++ [c]) bp = (BpCall.execAll h bp).bind (fun b => c.exec b) := by
  induction h generalizing bp with
  | nil => simp [BpCall.execAll]
  | cons a h ih =>
    simp only [List.cons_append, BpCall.execAll]
    cases a.exec bp with
    | none => rfl
    | some b => simp [ih]

/-- Snoc induction on lists. -/
theorem list_snoc_induction {α : Type} {P : List α → Prop} (h0 : P [])
    (hs : ∀ l a, P l → P (l ++ [a])) : ∀ l, P l := by
  intro l
  rw [← List.reverse_reverse l]
  induction l.reverse with
  | nil => exact h0
  | cons a t ih => rw [List.reverse_cons]; exact hs _ _ ih

theorem exec_refines (n : Nat) (h : List (BpCall C)) :
    ∀ bp, BpCall.execAll h (Backpressure.init n) = some bp →
      bp.Inv ∧ bp.buffers.length = n ∧ ∀ u i, bp.Holds u i ↔ Outstanding h u i := by
  induction h using list_snoc_induction with
  | h0 =>
    intro bp hbp
    simp [BpCall.execAll] at hbp
    subst hbp
    refine ⟨Backpressure.inv_init n, by simp [Backpressure.init], ?_⟩
    intro u i
    constructor
    · rintro ⟨b, hb, hu⟩
      have := List.mem_of_getElem? hb
      simp [Backpressure.init] at this
      rw [this.2] at hu
      simp [BufferLease.init] at hu
    · exact fun h => absurd h (outstanding_nil u i)
  | hs h c ih =>
    intro bp hbp
    rw [execAll_snoc] at hbp
    cases hb0 : BpCall.execAll h (Backpressure.init n) with
    | none => simp [hb0] at hbp
    | some b0 =>
      obtain ⟨i1, i2, i3⟩ := ih b0 hb0
      simp [hb0] at hbp
      cases c with
      | lease v j =>
        obtain ⟨a1, a2, _, a4⟩ := Backpressure.lease_spec i1 hbp
        refine ⟨a1, a2.trans i2, ?_⟩
        intro u i
        rw [a4, i3, outstanding_snoc]
        simp
        grind
      | free v j =>
        simp only [BpCall.exec] at hbp
        obtain ⟨a1, a2, a4⟩ := Backpressure.free_spec i1 hbp
        refine ⟨a1, a2.trans i2, ?_⟩
        intro u i
        rw [a4, i3, outstanding_snoc]
        simp
        grind
      | freeAll v =>
        simp only [BpCall.exec] at hbp
        obtain ⟨a1, a2, a4⟩ := Backpressure.free_spec i1 hbp
        refine ⟨a1, a2.trans i2, ?_⟩
        intro u i
        rw [a4, i3, outstanding_snoc]
        simp
        grind

/-- **C01 (totality).** A history raises exactly when some call names a buffer that does not
exist. -/
theorem C01_backpressure_raises_iff (n : Nat) (h : List (BpCall C)) :
    (BpCall.execAll h (Backpressure.init n)).isSome ↔ ∀ c ∈ h, c.InRange n := by
  induction h using list_snoc_induction with
  | h0 => simp [BpCall.execAll]
  | hs h c ih =>
    rw [execAll_snoc]
    cases hb0 : BpCall.execAll h (Backpressure.init n) with
    | none =>
      rw [hb0] at ih
      simp at ih ⊢
      obtain ⟨x, hx, hx'⟩ := ih
      exact Or.inl ⟨x, hx, hx'⟩
    | some b0 =>
      rw [hb0] at ih
      simp at ih
      obtain ⟨i1, i2, i3⟩ := exec_refines n h b0 hb0
      simp only [Option.bind_some, List.mem_append, List.mem_singleton]
      have key : (c.exec b0).isSome ↔ c.InRange n := by
        cases c with
        | lease v j =>
          have := Backpressure.lease_eq_none (bp := b0) (u := v) (i := j)
          simp only [BpCall.exec, BpCall.InRange]
          cases hh : b0.lease v j <;> simp [hh, i2] at this ⊢ <;> omega
        | free v j =>
          have := Backpressure.free_some_eq_none (bp := b0) (u := v) (i := j)
          simp only [BpCall.exec, BpCall.InRange]
          cases hh : b0.free v (some j) <;> simp [hh, i2] at this ⊢ <;> omega
        | freeAll v =>
          obtain ⟨b', hb'⟩ := Backpressure.free_none_isSome i1 v
          simp [BpCall.exec, BpCall.InRange, hb']
      rw [key]
      constructor
      · rintro hc x (hx | rfl)
        · exact ih x hx
        · exact hc
      · intro hall; exact hall c (Or.inr rfl)

/-- **C01.** After any history of calls: buffer `i` is available exactly when nobody has an
outstanding lease on it, and that is also exactly when `wait(i)` returns; `pressure` is the number
of buffers with an outstanding lease (the length of a duplicate-free list of exactly those
buffers); `is_empty`, and likewise the completion of `sync()`, means that nothing at all is
outstanding. -/
theorem C01_backpressure_accounting (n : Nat) (h : List (BpCall C)) (bp : Backpressure C)
    (hbp : BpCall.execAll h (Backpressure.init n) = some bp) :
    (∀ i, i < n → (bp.available i = some true ↔ ∀ u, ¬ Outstanding h u i)) ∧
    (∀ i, i < n → (bp.waitReady i = some true ↔ ∀ u, ¬ Outstanding h u i)) ∧
    (∃ l : List Nat, l.Nodup ∧ (∀ i, i ∈ l ↔ ∃ u, Outstanding h u i) ∧
      bp.pressure = (l.length : Int)) ∧
    (bp.isEmpty = true ↔ ∀ u i, ¬ Outstanding h u i) ∧
    (bp.syncReady = true ↔ ∀ u i, ¬ Outstanding h u i) := by
  obtain ⟨i1, i2, i3⟩ := exec_refines n h bp hbp
  have hav : ∀ i, i < n → (bp.available i = some true ↔ ∀ u, ¬ Outstanding h u i) := by
    intro i hi
    rw [Backpressure.available_iff i1 (by omega)]
    simp [i3]
  have hlt : ∀ u i, Outstanding h u i → i < n := by
    intro u i ho
    rw [← i3] at ho
    have := Backpressure.holds_lt ho
    omega
  have hpress := Backpressure.pressure_count i1
  rw [i2] at hpress
  have hlist : ∀ i, i ∈ (List.range n).filter (fun i => bp.available i != some true) ↔
      ∃ u, Outstanding h u i := by
    intro i
    simp only [List.mem_filter, List.mem_range, bne_iff_ne, ne_eq]
    constructor
    · rintro ⟨hi, hne⟩
      rw [hav i hi] at hne
      simpa using hne
    · rintro ⟨u, hu⟩
      refine ⟨hlt u i hu, ?_⟩
      rw [hav i (hlt u i hu)]
      exact fun hall => hall u hu
  have hzero : bp.pressure = 0 ↔ ∀ u i, ¬ Outstanding h u i := by
    rw [hpress]
    constructor
    · intro h0 u i ho
      have h0' : ((List.range n).filter (fun i => bp.available i != some true)).length = 0 := by
        omega
      have : i ∈ (List.range n).filter (fun i => bp.available i != some true) :=
        (hlist i).2 ⟨u, ho⟩
      rw [List.length_eq_zero_iff.mp h0'] at this
      simp at this
    · intro hall
      have : (List.range n).filter (fun i => bp.available i != some true) = [] := by
        rw [List.eq_nil_iff_forall_not_mem]
        intro i hi
        obtain ⟨u, hu⟩ := (hlist i).1 hi
        exact hall u i hu
      rw [this]; rfl
  refine ⟨hav, hav, ⟨_, List.Pairwise.filter _ List.nodup_range, hlist, hpress⟩, ?_, ?_⟩
  · rw [← hzero]; simp [Backpressure.isEmpty]
  · rw [← hzero]; simp [Backpressure.syncReady, i1.glob]

/-- Non-vacuity of C01: two clients on three buffers, a re-lease, a double free, a free-all. -/
example :
    let h : List (BpCall Nat) :=
      [.lease 7 0, .lease 8 0, .lease 7 0, .lease 8 2, .free 7 0, .free 7 0, .lease 7 1, .freeAll 7]
    ((BpCall.execAll h (Backpressure.init 3)).map (fun b => (b.pressure, b.available 0, b.available 1,
      b.available 2, b.isEmpty))) = some (2, some false, some true, some false, false) := by
  decide

/-- **C02 (frame).** In every reachable state, freeing removes exactly the named client's
lease(s): afterwards client `v` holds buffer `j` iff it did before and it is not one of the leases
being freed. The call never raises (unless it names a buffer that does not exist). -/
theorem C02_free_isolated (n : Nat) (h : List (BpCall C)) (bp : Backpressure C)
    (hbp : BpCall.execAll h (Backpressure.init n) = some bp) (u : C) (i : Option Nat)
    (hi : ∀ k, i = some k → k < n) :
    ∃ bp', bp.free u i = some bp' ∧ bp'.buffers.length = n ∧
      ∀ v j, bp'.Holds v j ↔ bp.Holds v j ∧ ¬ (v = u ∧ (i = none ∨ i = some j)) := by
  obtain ⟨i1, i2, i3⟩ := exec_refines n h bp hbp
  have : ∃ bp', bp.free u i = some bp' := by
    cases i with
    | none => exact Backpressure.free_none_isSome i1 u
    | some k =>
      cases hh : bp.free u (some k) with
      | none =>
        rw [Backpressure.free_some_eq_none] at hh
        have := hi k rfl
        omega
      | some b => exact ⟨b, rfl⟩
  obtain ⟨bp', hb'⟩ := this
  obtain ⟨_, a2, a3⟩ := Backpressure.free_spec i1 hb'
  exact ⟨bp', hb', a2.trans i2, a3⟩

theorem free1_noop {bp : Backpressure C} {u : C} {k : Nat}
    (hk : k < bp.buffers.length) (hno : ¬ bp.Holds u k) : bp.free1 u k = some bp := by
  unfold Backpressure.free1
  rw [List.getElem?_eq_getElem hk]
  have : u ∉ (bp.buffers[k]).leases := fun hm =>
    hno ⟨_, List.getElem?_eq_getElem hk, hm⟩
  simp [BufferLease.remove, this]

theorem settle_noop {bp : Backpressure C} (hinv : bp.Inv) : bp.settle = bp := by
  unfold Backpressure.settle Backpressure.isEmpty
  split
  · rename_i hz
    have := hinv.glob
    rw [hz] at this
    cases bp
    simp_all
  · rfl

/-- **C02 (no-op).** In every reachable state, freeing what is not held leaves the object exactly
as it was. -/
theorem C02_free_absent_noop (n : Nat) (h : List (BpCall C)) (bp : Backpressure C)
    (hbp : BpCall.execAll h (Backpressure.init n) = some bp) (u : C) (i : Option Nat)
    (hi : ∀ k, i = some k → k < n)
    (hno : ∀ k, (i = none ∨ i = some k) → ¬ bp.Holds u k) :
    bp.free u i = some bp := by
  obtain ⟨i1, i2, i3⟩ := exec_refines n h bp hbp
  cases i with
  | some k =>
    simp only [Backpressure.free]
    rw [free1_noop (by rw [i2]; exact hi k rfl) (hno k (Or.inr rfl))]
    simp [settle_noop i1]
  | none =>
    simp only [Backpressure.free]
    have : ∀ l : List Nat, (∀ k ∈ l, k < bp.buffers.length) →
        Backpressure.freeList u l bp = some bp := by
      intro l hl
      induction l with
      | nil => rfl
      | cons a l ih =>
        unfold Backpressure.freeList
        rw [free1_noop (hl a (by simp)) (hno a (Or.inl rfl))]
        exact ih (fun k hk => hl k (by simp [hk]))
    rw [this _ (by simp)]
    simp [settle_noop i1]

/-- **C02 (idempotence).** In every reachable state, freeing twice is freeing once. -/
theorem C02_free_idempotent (n : Nat) (h : List (BpCall C)) (bp bp' : Backpressure C)
    (hbp : BpCall.execAll h (Backpressure.init n) = some bp) (u : C) (i : Option Nat)
    (hf : bp.free u i = some bp') : bp'.free u i = some bp' := by
  obtain ⟨i1, i2, i3⟩ := exec_refines n h bp hbp
  obtain ⟨a1, a2, a3⟩ := Backpressure.free_spec i1 hf
  have hc : ∃ c : BpCall C, c.exec bp = some bp' := by
    cases i with
    | none => exact ⟨.freeAll u, hf⟩
    | some k => exact ⟨.free u k, hf⟩
  obtain ⟨c, hc⟩ := hc
  refine C02_free_absent_noop n (h ++ [c]) bp' ?_ u i ?_ ?_
  · rw [execAll_snoc, hbp]; exact hc
  · rintro k rfl
    have : ¬ bp.buffers.length ≤ k := by
      rw [← Backpressure.free_some_eq_none (u := u), hf]; simp
    omega
  · intro k hk hh
    rw [a3] at hh
    exact hh.2 ⟨rfl, hk⟩

/-- Non-vacuity of C02: a state in which two clients share a buffer; freeing one keeps the other. -/
example :
    ((BpCall.execAll [.lease 7 0, .lease 8 0, .lease 7 1] (Backpressure.init 2 : Backpressure Nat)).bind
      (fun b => (b.free 7 none).map (fun b => (b.buffers.map (·.leases), b.pressure)))) =
      some ([[8], []], 1) := by
  decide

end Ez
