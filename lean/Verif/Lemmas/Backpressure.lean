import Verif.Model.Backpressure

/-! # Invariant and frame lemmas for `Backpressure` -/

set_option linter.unusedSectionVars false
set_option linter.unusedSimpArgs false

namespace Ez.Backpressure
variable {C : Type} [DecidableEq C]

/-- Client `u` holds a lease on buffer `i`. -/
def Holds (bp : Backpressure C) (u : C) (i : Nat) : Prop :=
  ∃ b, bp.buffers[i]? = some b ∧ u ∈ b.leases

/-- Number of buffers with a lease. -/
def busy (bs : List (BufferLease C)) : Nat := bs.countP (fun b => !b.leases.isEmpty)

/-- Representation invariant without the global event. -/
structure Inv0 (bp : Backpressure C) : Prop where
  flag : ∀ b ∈ bp.buffers, b.empty = b.leases.isEmpty
  press : bp.pressure = (busy bp.buffers : Int)

/-- Representation invariant. -/
structure Inv (bp : Backpressure C) : Prop extends Inv0 bp where
  glob : bp.empty = (bp.pressure == 0)

theorem inv_init (n : Nat) : Inv (init n : Backpressure C) := by
  refine ⟨⟨?_, ?_⟩, ?_⟩
  · intro b hb
    simp [init] at hb
    rw [hb.2]; rfl
  · simp [init, busy, BufferLease.init, List.countP_replicate]
  · simp [init]

theorem countP_set {α : Type} (p : α → Bool) (l : List α) (i : Nat) (b b' : α)
    (h : l[i]? = some b) :
    (l.set i b').countP p + (if p b then 1 else 0) = l.countP p + (if p b' then 1 else 0) := by
  induction l generalizing i with
  | nil => simp at h
  | cons a l ih =>
    cases i with
    | zero =>
      simp at h
      subst h
      simp [List.countP_cons]
      omega
    | succ i =>
      simp at h
      have := ih i h
      simp [List.countP_cons]
      omega

theorem holds_set {bs : List (BufferLease C)} {i j : Nat} {b b' : BufferLease C} {u : C}
    (h : bs[i]? = some b) :
    (∃ x, (bs.set i b')[j]? = some x ∧ u ∈ x.leases) ↔
      (if j = i then u ∈ b'.leases else ∃ x, bs[j]? = some x ∧ u ∈ x.leases) := by
  have hi : i < bs.length := by
    rcases Nat.lt_or_ge i bs.length with h' | h'
    · exact h'
    · simp [List.getElem?_eq_none h'] at h
  by_cases hji : j = i
  · subst hji
    simp [List.getElem?_set_self hi]
  · have : i ≠ j := fun e => hji e.symm
    simp [List.getElem?_set_ne this, hji]

theorem lease_eq_none {bp : Backpressure C} {u : C} {i : Nat} :
    lease bp u i = none ↔ bp.buffers.length ≤ i := by
  unfold lease
  split
  · rename_i h
    simp at h
    simp [h]
  · rename_i b h
    have : i < bp.buffers.length := by
      rcases Nat.lt_or_ge i bp.buffers.length with h' | h'
      · exact h'
      · simp [List.getElem?_eq_none h'] at h
    simp; omega

theorem lease_spec {bp bp' : Backpressure C} {u : C} {i : Nat} (hinv : Inv bp)
    (h : lease bp u i = some bp') :
    Inv bp' ∧ bp'.buffers.length = bp.buffers.length ∧ i < bp.buffers.length ∧
      ∀ v j, Holds bp' v j ↔ Holds bp v j ∨ (v = u ∧ j = i) := by
  unfold lease at h
  split at h
  · exact absurd h (by simp)
  · rename_i b hb
    simp at h
    have hi : i < bp.buffers.length := by
      rcases Nat.lt_or_ge i bp.buffers.length with h' | h'
      · exact h'
      · simp [List.getElem?_eq_none h'] at hb
    have hbm : b ∈ bp.buffers := List.mem_of_getElem? hb
    have hfl := hinv.flag b hbm
    have hadd : (b.add u).leases.isEmpty = false := by
      have : u ∈ (b.add u).leases := by simp [BufferLease.add]
      cases hl : (b.add u).leases with
      | nil => rw [hl] at this; simp at this
      | cons => rfl
    subst h
    refine ⟨⟨⟨?_, ?_⟩, ?_⟩, by simp, hi, ?_⟩
    · intro x hx
      rcases List.mem_or_eq_of_mem_set hx with hx | hx
      · exact hinv.flag x hx
      · subst hx; rw [hadd]; rfl
    · have hc := countP_set (fun b : BufferLease C => !b.leases.isEmpty) bp.buffers i b (b.add u) hb
      have hp := hinv.press
      simp only [busy] at hp ⊢
      simp only [hadd] at hc
      simp only [BufferLease.isEmpty, hfl]
      cases hle : b.leases.isEmpty <;> simp [hle] at hc ⊢ <;> omega
    · have hp := hinv.press
      simp only [BufferLease.isEmpty, hfl]
      have hb0 : b.leases.isEmpty = false → 0 < busy bp.buffers := by
        intro h0
        unfold busy
        rw [List.countP_pos_iff]
        exact ⟨b, hbm, by simp [h0]⟩
      cases hle : b.leases.isEmpty
      · have := hb0 hle
        simp; omega
      · simp; omega
    · intro v j
      unfold Holds
      rw [holds_set hb]
      by_cases hji : j = i
      · subst hji
        simp [BufferLease.add, hb]
      · simp [hji]

theorem free1_eq_none {bp : Backpressure C} {u : C} {i : Nat} :
    free1 bp u i = none ↔ bp.buffers.length ≤ i := by
  unfold free1
  split
  · rename_i h
    simp at h
    simp [h]
  · rename_i b h
    have : i < bp.buffers.length := by
      rcases Nat.lt_or_ge i bp.buffers.length with h' | h'
      · exact h'
      · simp [List.getElem?_eq_none h'] at h
    split
    · simp; omega
    · simp; omega

theorem free1_spec {bp bp' : Backpressure C} {u : C} {i : Nat} (hinv : Inv0 bp)
    (h : free1 bp u i = some bp') :
    Inv0 bp' ∧ bp'.buffers.length = bp.buffers.length ∧ bp'.empty = bp.empty ∧
      bp'.pressure ≤ bp.pressure ∧
      ∀ v j, Holds bp' v j ↔ Holds bp v j ∧ ¬ (v = u ∧ j = i) := by
  unfold free1 at h
  split at h
  · exact absurd h (by simp)
  · rename_i b hb
    have hi : i < bp.buffers.length := by
      rcases Nat.lt_or_ge i bp.buffers.length with h' | h'
      · exact h'
      · simp [List.getElem?_eq_none h'] at hb
    have hbm : b ∈ bp.buffers := List.mem_of_getElem? hb
    have hfl := hinv.flag b hbm
    split at h
    · rename_i hr
      simp at h
      subst h
      refine ⟨hinv, rfl, rfl, Int.le_refl _, ?_⟩
      intro v j
      constructor
      · intro hh
        refine ⟨hh, ?_⟩
        rintro ⟨rfl, rfl⟩
        obtain ⟨x, hx, hvx⟩ := hh
        rw [hb] at hx
        cases hx
        simp [BufferLease.remove, hvx] at hr
      · exact fun hh => hh.1
    · rename_i b' hr
      simp at h
      unfold BufferLease.remove at hr
      split at hr
      · rename_i hub
        simp at hr
        have hb'l : b'.leases = b.leases.discard u := by rw [← hr]
        have hbne : b.leases.isEmpty = false := by
          cases hl : b.leases with
          | nil => rw [hl] at hub; simp at hub
          | cons => rfl
        have hb'e : b'.empty = b'.leases.isEmpty := by
          rw [← hr]
          cases hd : b.leases.discard u with
          | nil => simp
          | cons => simp [hfl, hbne]
        subst h
        have hc := countP_set (fun b : BufferLease C => !b.leases.isEmpty) bp.buffers i b b' hb
        have hp := hinv.press
        refine ⟨⟨?_, ?_⟩, by simp, rfl, ?_, ?_⟩
        · intro x hx
          rcases List.mem_or_eq_of_mem_set hx with hx | hx
          · exact hinv.flag x hx
          · subst hx; exact hb'e
        · simp only [busy] at hp ⊢
          simp only [BufferLease.isEmpty, hb'e]
          simp only [hbne] at hc
          cases hle : b'.leases.isEmpty <;> simp [hle] at hc ⊢ <;> omega
        · simp only
          split <;> omega
        · intro v j
          unfold Holds
          simp only
          rw [holds_set hb]
          by_cases hji : j = i
          · subst hji
            simp [hb'l, hb]
          · simp [hji]
      · exact absurd hr (by simp)

theorem freeList_spec {u : C} (is : List Nat) {bp bp' : Backpressure C} (hinv : Inv0 bp)
    (h : freeList u is bp = some bp') :
    Inv0 bp' ∧ bp'.buffers.length = bp.buffers.length ∧ bp'.empty = bp.empty ∧
      bp'.pressure ≤ bp.pressure ∧
      ∀ v j, Holds bp' v j ↔ Holds bp v j ∧ ¬ (v = u ∧ j ∈ is) := by
  induction is generalizing bp with
  | nil =>
    simp [freeList] at h
    subst h
    exact ⟨hinv, rfl, rfl, Int.le_refl _, by simp⟩
  | cons i is ih =>
    unfold freeList at h
    split at h
    · exact absurd h (by simp)
    · rename_i bp1 h1
      obtain ⟨a1, a2, a3, a4, a5⟩ := free1_spec hinv h1
      obtain ⟨b1, b2, b3, b4, b5⟩ := ih a1 h
      refine ⟨b1, b2.trans a2, b3.trans a3, Int.le_trans b4 a4, ?_⟩
      intro v j
      rw [b5, a5]
      simp only [List.mem_cons]
      grind

theorem freeList_isSome {u : C} (is : List Nat) {bp : Backpressure C} (hinv : Inv0 bp)
    (h : ∀ i ∈ is, i < bp.buffers.length) : ∃ bp', freeList u is bp = some bp' := by
  induction is generalizing bp with
  | nil => exact ⟨bp, rfl⟩
  | cons i is ih =>
    unfold freeList
    cases h1 : free1 bp u i with
    | none =>
      rw [free1_eq_none] at h1
      have := h i (by simp)
      omega
    | some bp1 =>
      obtain ⟨a1, a2, _⟩ := free1_spec hinv h1
      exact ih a1 (fun k hk => by rw [a2]; exact h k (by simp [hk]))

theorem settle_spec {bp bp0 : Backpressure C} (h0 : Inv0 bp) (hinv : Inv bp0)
    (he : bp.empty = bp0.empty) (hp : bp.pressure ≤ bp0.pressure) : Inv (settle bp) := by
  unfold settle isEmpty
  split
  · rename_i hz
    exact ⟨⟨h0.flag, h0.press⟩, by simpa using hz⟩
  · rename_i hz
    refine ⟨h0, ?_⟩
    rw [he, hinv.glob]
    have h1 := h0.press
    have h2 := hinv.press
    have hz' : bp.pressure ≠ 0 := by intro h; exact hz (by simp [h])
    have h3 : 0 ≤ bp.pressure := by rw [h1]; exact Int.natCast_nonneg _
    have : bp0.pressure ≠ 0 := by omega
    rw [beq_eq_false_iff_ne.mpr hz', beq_eq_false_iff_ne.mpr this]

theorem settle_buffers (bp : Backpressure C) : (settle bp).buffers = bp.buffers := by
  unfold settle; split <;> rfl

theorem settle_holds (bp : Backpressure C) (u : C) (i : Nat) :
    Holds (settle bp) u i ↔ Holds bp u i := by
  unfold Holds; rw [settle_buffers]

theorem free_some_eq_none {bp : Backpressure C} {u : C} {i : Nat} :
    free bp u (some i) = none ↔ bp.buffers.length ≤ i := by
  simp [free, free1_eq_none]

theorem free_none_isSome {bp : Backpressure C} (hinv : Inv bp) (u : C) :
    ∃ bp', free bp u none = some bp' := by
  obtain ⟨bp', h⟩ := freeList_isSome (u := u) (List.range bp.buffers.length) hinv.toInv0
    (fun i hi => by simpa using hi)
  exact ⟨settle bp', by simp [free, h]⟩

theorem holds_lt {bp : Backpressure C} {u : C} {i : Nat} (h : Holds bp u i) :
    i < bp.buffers.length := by
  obtain ⟨b, hb, _⟩ := h
  rcases Nat.lt_or_ge i bp.buffers.length with h' | h'
  · exact h'
  · simp [List.getElem?_eq_none h'] at hb

theorem free_spec {bp bp' : Backpressure C} {u : C} {i : Option Nat} (hinv : Inv bp)
    (h : free bp u i = some bp') :
    Inv bp' ∧ bp'.buffers.length = bp.buffers.length ∧
      ∀ v j, Holds bp' v j ↔ Holds bp v j ∧ ¬ (v = u ∧ (i = none ∨ i = some j)) := by
  cases i with
  | none =>
    simp only [free, Option.map_eq_some_iff] at h
    obtain ⟨bp1, h1, rfl⟩ := h
    obtain ⟨a1, a2, a3, a4, a5⟩ := freeList_spec _ hinv.toInv0 h1
    refine ⟨settle_spec a1 hinv a3 a4, by rw [settle_buffers, a2], ?_⟩
    intro v j
    rw [settle_holds, a5]
    constructor
    · rintro ⟨hh, hn⟩
      refine ⟨hh, ?_⟩
      rintro ⟨rfl, _⟩
      exact hn ⟨rfl, by simpa using holds_lt hh⟩
    · rintro ⟨hh, hn⟩
      refine ⟨hh, ?_⟩
      rintro ⟨rfl, _⟩
      exact hn ⟨rfl, Or.inl rfl⟩
  | some i =>
    simp only [free, Option.map_eq_some_iff] at h
    obtain ⟨bp1, h1, rfl⟩ := h
    obtain ⟨a1, a2, a3, a4, a5⟩ := free1_spec hinv.toInv0 h1
    refine ⟨settle_spec a1 hinv a3 a4, by rw [settle_buffers, a2], ?_⟩
    intro v j
    rw [settle_holds, a5]
    grind

theorem available_iff {bp : Backpressure C} (hinv : Inv bp) {i : Nat}
    (hi : i < bp.buffers.length) :
    available bp i = some true ↔ ∀ u, ¬ Holds bp u i := by
  unfold available Holds
  rw [List.getElem?_eq_getElem hi]
  simp only [Option.map_some, BufferLease.isEmpty, Option.some.injEq]
  rw [hinv.flag _ (List.getElem_mem hi), List.isEmpty_iff]
  constructor
  · intro h u
    rintro ⟨b, hb, hu⟩
    subst hb
    rw [h] at hu
    simp at hu
  · intro h
    cases hl : bp.buffers[i].leases with
    | nil => rfl
    | cons a t => exact absurd ⟨_, rfl, by rw [hl]; simp⟩ (h a)

theorem available_dichotomy {bp : Backpressure C} {i : Nat}
    (hi : i < bp.buffers.length) :
    available bp i = some true ∨ available bp i = some false := by
  unfold available
  rw [List.getElem?_eq_getElem hi]
  simp only [Option.map_some, BufferLease.isEmpty]
  cases bp.buffers[i].empty <;> simp

/-- The pressure counter counts the indices that are held by somebody. -/
theorem pressure_count {bp : Backpressure C} (hinv : Inv bp) :
    bp.pressure = (((List.range bp.buffers.length).filter
      (fun i => available bp i != some true)).length : Int) := by
  rw [hinv.press]
  congr 1
  have hflag := hinv.flag
  unfold available busy
  generalize bp.buffers = bs at hflag
  rw [← List.countP_eq_length_filter]
  induction bs with
  | nil => simp
  | cons b bs ih =>
    rw [List.length_cons, List.range_succ_eq_map, List.countP_cons, List.countP_cons,
      ih (fun x hx => hflag x (by simp [hx])), List.countP_map]
    have := hflag b (by simp)
    simp only [Function.comp_def, List.getElem?_cons_succ, List.getElem?_cons_zero,
      Option.map_some, BufferLease.isEmpty, this]
    congr 1
    cases b.leases.isEmpty <;> simp

end Ez.Backpressure
