import Verif.Model.Draw
import Verif.Lemmas.Py
import Verif.Props.Compact

/-!
# C73: drawing graphs
-/

namespace Ez
namespace Draw

set_option linter.unusedSectionVars false
set_option linter.unusedSimpArgs false

variable {S I : Type} [DecidableEq S]

/-! ## Specification: reading a drawing -/

/-- What a drawing shows: nodes with the subgraphs around them and their label, subgraphs, connections. -/
structure Pic (S I : Type) where
  nodes : List (List S × I) := []
  subs : List (List S) := []
  conns : List (I × I) := []
  deriving DecidableEq

/-- Reading a drawing inside the subgraphs `at_`; `none` if subgraphs do not begin and end properly. -/
def read : List S → List (Line S I) → Option (Pic S I)
  | at_, [] => if at_ = [] then some {} else none
  | at_, .begins _ s :: ls => (read (at_ ++ [s]) ls).map fun p => { p with subs := (at_ ++ [s]) :: p.subs }
  | at_, .ends :: ls => if at_ = [] then none else read at_.dropLast ls
  | at_, .node i s :: ls => (read at_ ls).map fun p => { p with nodes := (at_ ++ [s], i) :: p.nodes }
  | at_, .conn a b :: ls => (read at_ ls).map fun p => { p with conns := (a, b) :: p.conns }

/-- `a` is a part of `b`'s path: `b` is inside the component `a`. -/
def Inside (a b : List S) : Prop := a <+: b ∧ a ≠ b

/-! ## Trees -/

/-- Entries of strings with their positions. -/
def leavesK : Kids S → List (List S × List S)
  | .nil => []
  | .leaf s n rest => ([s], n) :: leavesK rest
  | .sub s k rest => (leavesK k).map (fun q => (s :: q.1, q.2)) ++ leavesK rest

/-- Positions of dictionaries. -/
def subsK : Kids S → List (List S)
  | .nil => []
  | .leaf _ _ rest => subsK rest
  | .sub s k rest => [s] :: ((subsK k).map (s :: ·) ++ subsK rest)

def headsK : Kids S → List S
  | .nil => []
  | .leaf s _ rest => s :: headsK rest
  | .sub s _ rest => s :: headsK rest

/-- Keys of dictionaries are distinct, and no dictionary except the outermost is empty. -/
def WF : Kids S → Prop
  | .nil => True
  | .leaf s _ rest => s ∉ headsK rest ∧ WF rest
  | .sub s k rest => s ∉ headsK rest ∧ k ≠ .nil ∧ WF k ∧ WF rest

theorem head_mem {k : Kids S} {p : List S × List S} (h : p ∈ leavesK k) : ∃ s t, p.1 = s :: t ∧ s ∈ headsK k := by
  induction k generalizing p with
  | nil => simp [leavesK] at h
  | leaf s n rest ih =>
    simp only [leavesK, List.mem_cons] at h
    rcases h with rfl | h
    · exact ⟨s, [], rfl, by simp [headsK]⟩
    · obtain ⟨s', t, h1, h2⟩ := ih h
      exact ⟨s', t, h1, by simp [headsK, h2]⟩
  | sub s k rest ihk ih =>
    simp only [leavesK, List.mem_append, List.mem_map] at h
    rcases h with ⟨q, hq, rfl⟩ | h
    · exact ⟨s, q.1, rfl, by simp [headsK]⟩
    · obtain ⟨s', t, h1, h2⟩ := ih h
      exact ⟨s', t, h1, by simp [headsK, h2]⟩

theorem sub_head_mem {k : Kids S} {p : List S} (h : p ∈ subsK k) : ∃ s t, p = s :: t ∧ s ∈ headsK k := by
  induction k generalizing p with
  | nil => simp [subsK] at h
  | leaf s n rest ih =>
    obtain ⟨s', t, h1, h2⟩ := ih h
    exact ⟨s', t, h1, by simp [headsK, h2]⟩
  | sub s k rest ihk ih =>
    simp only [subsK, List.mem_cons, List.mem_append, List.mem_map] at h
    rcases h with rfl | ⟨q, hq, rfl⟩ | h
    · exact ⟨s, [], rfl, by simp [headsK]⟩
    · exact ⟨s, q, rfl, by simp [headsK]⟩
    · obtain ⟨s', t, h1, h2⟩ := ih h
      exact ⟨s', t, h1, by simp [headsK, h2]⟩

theorem leaves_ne {k : Kids S} (h : WF k) (hk : k ≠ .nil) : leavesK k ≠ [] := by
  induction k with
  | nil => exact absurd rfl hk
  | leaf s n rest => simp [leavesK]
  | sub s k rest ihk => simp [leavesK, ihk h.2.2.1 h.2.1]

theorem subs_nodup {k : Kids S} (h : WF k) : (subsK k).Nodup := by
  induction k with
  | nil => simp [subsK]
  | leaf s n rest ih => exact ih h.2
  | sub s k rest ihk ih =>
    have hs : ∀ x ∈ subsK rest, ∃ t, x = s :: t → False := fun x hx => by
      refine ⟨[], fun e => ?_⟩
      obtain ⟨s', t, h1, h2⟩ := sub_head_mem hx
      rw [e] at h1
      simp only [List.cons.injEq] at h1
      exact h.1 (h1.1 ▸ h2)
    have hs' : ∀ t, s :: t ∉ subsK rest := fun t hx => by
      obtain ⟨s', t', h1, h2⟩ := sub_head_mem hx
      simp only [List.cons.injEq] at h1
      exact h.1 (h1.1 ▸ h2)
    simp only [subsK, List.nodup_cons, List.mem_append, List.mem_map, List.cons.injEq, true_and, exists_eq_right, not_or]
    refine ⟨⟨fun hn => ?_, hs' []⟩, List.nodup_append.2 ⟨?_, ih h.2.2.2, ?_⟩⟩
    · obtain ⟨s', t, h1, _⟩ := sub_head_mem hn
      simp at h1
    · exact List.Pairwise.map _ (fun a b hab => by simpa using hab) (ihk h.2.2.1)
    · intro a ha b hb hab
      subst hab
      simp only [List.mem_map] at ha
      obtain ⟨t, _, rfl⟩ := ha
      exact hs' t hb

theorem subs_mem {k : Kids S} (h : WF k) {p : List S} :
    p ∈ subsK k ↔ p ≠ [] ∧ ∃ q ∈ leavesK k, Inside p q.1 := by
  induction k generalizing p with
  | nil => simp [subsK, leavesK]
  | leaf s n rest ih =>
    simp only [subsK, leavesK, ih h.2, List.mem_cons, exists_eq_or_imp]
    constructor
    · rintro ⟨h1, h2⟩; exact ⟨h1, .inr h2⟩
    · rintro ⟨h1, h2 | h2⟩
      · exfalso
        obtain ⟨h3, h4⟩ := h2
        cases p with
        | nil => exact h1 rfl
        | cons a p =>
          rw [List.cons_prefix_cons] at h3
          have := List.prefix_nil.1 h3.2
          exact h4 (by rw [h3.1, this])
      · exact ⟨h1, h2⟩
  | sub s k rest ihk ih =>
    simp only [subsK, leavesK, List.mem_cons, List.mem_append, List.mem_map, ih h.2.2.2]
    constructor
    · rintro (rfl | ⟨t, ht, rfl⟩ | ⟨h1, q, hq, h2⟩)
      · obtain ⟨q, hq⟩ := List.exists_mem_of_ne_nil _ (leaves_ne h.2.2.1 h.2.1)
        refine ⟨by simp, _, .inl ⟨q, hq, rfl⟩, ?_⟩
        obtain ⟨s', t, h1, _⟩ := head_mem hq
        simp [Inside, h1]
      · obtain ⟨_, q, hq, h3, h4⟩ := (ihk h.2.2.1).1 ht
        exact ⟨by simp, _, .inl ⟨q, hq, rfl⟩, by simpa using h3, by simpa using h4⟩
      · exact ⟨h1, q, .inr hq, h2⟩
    · rintro ⟨h1, q, ⟨q', hq, rfl⟩ | hq, h2⟩
      · cases p with
        | nil => exact absurd rfl h1
        | cons a p =>
          obtain ⟨h3, h4⟩ := h2
          rw [List.cons_prefix_cons] at h3
          obtain ⟨rfl, h3⟩ := h3
          by_cases hp : p = []
          · subst hp; exact .inl rfl
          · refine .inr (.inl ⟨p, (ihk h.2.2.1).2 ⟨hp, q', hq, h3, ?_⟩, rfl⟩)
            intro e; exact h4 (by rw [e])
      · exact .inr (.inr ⟨h1, q, hq, h2⟩)

theorem leaves_nodup {k : Kids S} (h : WF k) : ((leavesK k).map (·.1)).Nodup := by
  induction k with
  | nil => simp [leavesK]
  | leaf s n rest ih =>
    simp only [leavesK, List.map_cons, List.nodup_cons, List.mem_map, not_exists, not_and]
    refine ⟨fun q hq e => ?_, ih h.2⟩
    obtain ⟨s', t, h1, h2⟩ := head_mem hq
    rw [e] at h1
    simp only [List.cons.injEq] at h1
    exact h.1 (h1.1 ▸ h2)
  | sub s k rest ihk ih =>
    simp only [leavesK, List.map_append, List.map_map]
    refine List.nodup_append.2 ⟨?_, ih h.2.2.2, ?_⟩
    · have := List.Pairwise.map (s :: ·) (S := (· ≠ ·)) (fun a b hab => by simpa using hab) (ihk h.2.2.1)
      rw [List.map_map] at this
      exact this
    · intro a ha b hb hab
      subst hab
      simp only [List.mem_map, Function.comp] at ha hb
      obtain ⟨q, _, rfl⟩ := ha
      obtain ⟨q', hq', e⟩ := hb
      obtain ⟨s', t, h1, h2⟩ := head_mem hq'
      rw [e] at h1
      simp only [List.cons.injEq] at h1
      exact h.1 (h1.1 ▸ h2)

/-! ## Entering names -/

theorem chain_wf {n p : List S} : WF (chain n p) ∧ (p ≠ [] → chain n p ≠ .nil) ∧
    (∀ s t, p = s :: t → headsK (chain n p) = [s]) ∧ (p ≠ [] → leavesK (chain n p) = [(p, n)]) := by
  match p with
  | [] => simp [chain, WF]
  | [s] => simp [chain, WF, headsK, leavesK]
  | s :: s2 :: t =>
    have := chain_wf (n := n) (p := s2 :: t)
    simp [chain, WF, headsK, leavesK, this]

theorem ins_heads {n : List S} {k k' : Kids S} {p : List S} (h : ins n k p = some k') {s : S} :
    s ∈ headsK k' ↔ s ∈ headsK k ∨ p.head? = some s := by
  induction k generalizing k' p with
  | nil =>
    match p, h with
    | s' :: t, h =>
      simp only [ins, Option.some.injEq] at h
      subst h
      rw [chain_wf.2.2.1 s' t rfl]
      simp [headsK, eq_comm]
  | leaf s' m rest ih =>
    match p, h with
    | [x], h =>
      simp only [ins] at h
      split at h
      next e => simp only [Option.some.injEq] at h; subst h; subst e; simp only [headsK, List.mem_cons, List.head?_cons, Option.some.injEq]; grind
      next e =>
        simp only [Option.map_eq_some_iff] at h
        obtain ⟨r, hr, rfl⟩ := h
        simp only [headsK, List.mem_cons, ih hr]; grind
    | x :: x2 :: t, h =>
      simp only [ins, Option.ite_none_left_eq_some, Option.map_eq_some_iff] at h
      obtain ⟨_, r, hr, rfl⟩ := h
      simp only [headsK, List.mem_cons, ih hr]; grind
  | sub s' k rest ihk ih =>
    match p, h with
    | [x], h =>
      simp only [ins] at h
      split at h
      next e => simp only [Option.some.injEq] at h; subst h; subst e; simp only [headsK, List.mem_cons, List.head?_cons, Option.some.injEq]; grind
      next e =>
        simp only [Option.map_eq_some_iff] at h
        obtain ⟨r, hr, rfl⟩ := h
        simp only [headsK, List.mem_cons, ih hr]; grind
    | x :: x2 :: t, h =>
      simp only [ins] at h
      split at h
      next e =>
        simp only [Option.map_eq_some_iff] at h
        obtain ⟨r, hr, rfl⟩ := h
        subst e
        simp only [headsK, List.mem_cons, List.head?_cons, Option.some.injEq]; grind
      next e =>
        simp only [Option.map_eq_some_iff] at h
        obtain ⟨r, hr, rfl⟩ := h
        simp only [headsK, List.mem_cons, ih hr]; grind

theorem ins_ne {n : List S} {k k' : Kids S} {p : List S} (h : ins n k p = some k') : k' ≠ .nil := by
  rintro rfl
  match p, h with
  | [], h => cases k <;> simp [ins] at h
  | s :: t, h =>
    have := (ins_heads h (s := s)).2 (.inr rfl)
    simp [headsK] at this

theorem ins_wf {n : List S} {k k' : Kids S} {p : List S} (h : ins n k p = some k') (w : WF k) : WF k' := by
  induction k generalizing k' p with
  | nil =>
    match p, h with
    | s' :: t, h => simp only [ins, Option.some.injEq] at h; subst h; exact chain_wf.1
  | leaf s' m rest ih =>
    match p, h with
    | [x], h =>
      simp only [ins] at h
      split at h
      next e => simp only [Option.some.injEq] at h; subst h; subst e; exact w
      next e =>
        simp only [Option.map_eq_some_iff] at h
        obtain ⟨r, hr, rfl⟩ := h
        exact ⟨by rw [ins_heads hr]; have := w.1; grind, ih hr w.2⟩
    | x :: x2 :: t, h =>
      simp only [ins, Option.ite_none_left_eq_some, Option.map_eq_some_iff] at h
      obtain ⟨_, r, hr, rfl⟩ := h
      exact ⟨by rw [ins_heads hr]; have := w.1; grind, ih hr w.2⟩
  | sub s' k rest ihk ih =>
    match p, h with
    | [x], h =>
      simp only [ins] at h
      split at h
      next e => simp only [Option.some.injEq] at h; subst h; subst e; exact ⟨w.1, w.2.2.2⟩
      next e =>
        simp only [Option.map_eq_some_iff] at h
        obtain ⟨r, hr, rfl⟩ := h
        exact ⟨by rw [ins_heads hr]; have := w.1; grind, w.2.1, w.2.2.1, ih hr w.2.2.2⟩
    | x :: x2 :: t, h =>
      simp only [ins] at h
      split at h
      next e =>
        simp only [Option.map_eq_some_iff] at h
        obtain ⟨r, hr, rfl⟩ := h
        exact ⟨w.1, ins_ne hr, ihk hr w.2.2.1, w.2.2.2⟩
      next e =>
        simp only [Option.map_eq_some_iff] at h
        obtain ⟨r, hr, rfl⟩ := h
        exact ⟨by rw [ins_heads hr]; have := w.1; grind, w.2.1, w.2.2.1, ih hr w.2.2.2⟩

/-- A name is entered at its position; what was there or inside is gone. -/
theorem ins_mem {n : List S} {k k' : Kids S} {p : List S} (h : ins n k p = some k') (w : WF k)
    {q : List S × List S} : q ∈ leavesK k' ↔ q = (p, n) ∨ (q ∈ leavesK k ∧ ¬ p <+: q.1) := by
  have other : ∀ {r : Kids S} {x : S} {t : List S}, x ∉ headsK r → ∀ q ∈ leavesK r, ¬ (x :: t) <+: q.1 := by
    intro r x t hx q hq hp
    obtain ⟨s', t', h1, h2⟩ := head_mem hq
    rw [h1, List.cons_prefix_cons] at hp
    exact hx (hp.1 ▸ h2)
  induction k generalizing k' p q with
  | nil =>
    match p, h with
    | s' :: t, h =>
      simp only [ins, Option.some.injEq] at h; subst h
      rw [chain_wf.2.2.2 (by simp)]
      simp [leavesK]
  | leaf s' m rest ih =>
    match p, h with
    | [x], h =>
      simp only [ins] at h
      split at h
      next e =>
        simp only [Option.some.injEq] at h; subst h; subst e
        simp only [leavesK, List.mem_cons]
        have := other (t := []) w.1 q
        constructor
        · rintro (h1 | h1)
          · exact .inl h1
          · exact .inr ⟨.inr h1, this h1⟩
        · rintro (h1 | ⟨rfl | h1, h2⟩)
          · exact .inl h1
          · exact absurd (List.prefix_refl _) h2
          · exact .inr h1
      next e =>
        simp only [Option.map_eq_some_iff] at h
        obtain ⟨r, hr, rfl⟩ := h
        simp only [leavesK, List.mem_cons, ih hr w.2]
        constructor
        · rintro (rfl | h1 | h1)
          · exact .inr ⟨.inl rfl, by simp [List.cons_prefix_cons, Ne.symm e]⟩
          · exact .inl h1
          · exact .inr ⟨.inr h1.1, h1.2⟩
        · rintro (h1 | ⟨h1 | h1, h2⟩)
          · exact .inr (.inl h1)
          · exact .inl h1
          · exact .inr (.inr ⟨h1, h2⟩)
    | x :: x2 :: t, h =>
      simp only [ins, Option.ite_none_left_eq_some, Option.map_eq_some_iff] at h
      obtain ⟨e, r, hr, rfl⟩ := h
      simp only [leavesK, List.mem_cons, ih hr w.2]
      constructor
      · rintro (rfl | h1 | h1)
        · exact .inr ⟨.inl rfl, by simp [List.cons_prefix_cons]⟩
        · exact .inl h1
        · exact .inr ⟨.inr h1.1, h1.2⟩
      · rintro (h1 | ⟨h1 | h1, h2⟩)
        · exact .inr (.inl h1)
        · exact .inl h1
        · exact .inr (.inr ⟨h1, h2⟩)
  | sub s' k rest ihk ih =>
    match p, h with
    | [x], h =>
      simp only [ins] at h
      split at h
      next e =>
        simp only [Option.some.injEq] at h; subst h; subst e
        simp only [leavesK, List.mem_cons, List.mem_append, List.mem_map]
        have := other (t := []) w.1 q
        constructor
        · rintro (h1 | h1)
          · exact .inl h1
          · exact .inr ⟨.inr h1, this h1⟩
        · rintro (h1 | ⟨⟨q', _, rfl⟩ | h1, h2⟩)
          · exact .inl h1
          · exact absurd (by simp [List.cons_prefix_cons]) h2
          · exact .inr h1
      next e =>
        simp only [Option.map_eq_some_iff] at h
        obtain ⟨r, hr, rfl⟩ := h
        simp only [leavesK, List.mem_cons, List.mem_append, List.mem_map, ih hr w.2.2.2]
        constructor
        · rintro (⟨q', h1, rfl⟩ | h1 | h1)
          · exact .inr ⟨.inl ⟨q', h1, rfl⟩, by simp [List.cons_prefix_cons, Ne.symm e]⟩
          · exact .inl h1
          · exact .inr ⟨.inr h1.1, h1.2⟩
        · rintro (h1 | ⟨h1 | h1, h2⟩)
          · exact .inr (.inl h1)
          · exact .inl h1
          · exact .inr (.inr ⟨h1, h2⟩)
    | x :: x2 :: t, h =>
      simp only [ins] at h
      split at h
      next e =>
        simp only [Option.map_eq_some_iff] at h
        obtain ⟨r, hr, rfl⟩ := h
        subst e
        simp only [leavesK, List.mem_cons, List.mem_append, List.mem_map]
        have ho := other (t := x2 :: t) w.1 q
        constructor
        · rintro (⟨q', h1, rfl⟩ | h1)
          · rcases (ihk hr w.2.2.1).1 h1 with rfl | ⟨h1, h2⟩
            · exact .inl rfl
            · exact .inr ⟨.inl ⟨q', h1, rfl⟩, by simpa [List.cons_prefix_cons] using h2⟩
          · exact .inr ⟨.inr h1, ho h1⟩
        · rintro (rfl | ⟨⟨q', h1, rfl⟩ | h1, h2⟩)
          · exact .inl ⟨(x2 :: t, n), (ihk hr w.2.2.1).2 (.inl rfl), rfl⟩
          · refine .inl ⟨q', (ihk hr w.2.2.1).2 (.inr ⟨h1, ?_⟩), rfl⟩
            intro h3; exact h2 (by rw [List.cons_prefix_cons]; exact ⟨rfl, h3⟩)
          · exact .inr h1
      next e =>
        simp only [Option.map_eq_some_iff] at h
        obtain ⟨r, hr, rfl⟩ := h
        simp only [leavesK, List.mem_cons, List.mem_append, List.mem_map, ih hr w.2.2.2]
        constructor
        · rintro (⟨q', h1, rfl⟩ | h1 | h1)
          · exact .inr ⟨.inl ⟨q', h1, rfl⟩, by simp [List.cons_prefix_cons, Ne.symm e]⟩
          · exact .inl h1
          · exact .inr ⟨.inr h1.1, h1.2⟩
        · rintro (h1 | ⟨h1 | h1, h2⟩)
          · exact .inr (.inl h1)
          · exact .inl h1
          · exact .inr (.inr ⟨h1, h2⟩)

/-- Entering a name fails if and only if the path goes through a name. -/
theorem ins_none {n : List S} {k : Kids S} {p : List S} (hp : p ≠ []) (w : WF k) :
    ins n k p = none ↔ ∃ q ∈ leavesK k, Inside q.1 p := by
  have other : ∀ {r : Kids S} {x : S} {t : List S}, x ∉ headsK r → ∀ q ∈ leavesK r, ¬ q.1 <+: (x :: t) := by
    intro r x t hx q hq hp
    obtain ⟨s', t', h1, h2⟩ := head_mem hq
    rw [h1, List.cons_prefix_cons] at hp
    exact hx (hp.1 ▸ h2)
  have single : ∀ {r : Kids S} {x : S}, ∀ q ∈ leavesK r, ¬ Inside q.1 [x] := by
    rintro r x q hq ⟨h3, h4⟩
    obtain ⟨s', t', h1, h2⟩ := head_mem hq
    rw [h1] at h3 h4
    rw [List.cons_prefix_cons, List.prefix_nil] at h3
    exact h4 (by rw [h3.1, h3.2])
  induction k generalizing p with
  | nil =>
    match p, hp with
    | s' :: t, _ => simp [ins, leavesK]
  | leaf s' m rest ih =>
    match p, hp with
    | [x], _ =>
      have h1 : ¬ ∃ q ∈ leavesK (.leaf s' m rest), Inside q.1 [x] := fun ⟨q, hq, h⟩ => single q hq h
      have h2 : ¬ ∃ q ∈ leavesK rest, Inside q.1 [x] := fun ⟨q, hq, h⟩ => single q hq h
      have h3 := ih (p := [x]) (by simp) w.2
      simp only [h1, iff_false]
      simp only [ins]
      split
      · simp
      · simp only [Option.map_eq_none_iff]; exact fun h => h2 (h3.1 h)
    | x :: x2 :: t, _ =>
      have h3 := ih (p := x :: x2 :: t) (by simp) w.2
      simp only [ins]
      simp only [leavesK, List.mem_cons, exists_eq_or_imp]
      split
      next e => subst e; simp [Inside, List.cons_prefix_cons]
      next e =>
        simp only [Option.map_eq_none_iff, h3]
        simp [Inside, List.cons_prefix_cons, e]
  | sub s' k rest ihk ih =>
    match p, hp with
    | [x], _ =>
      have h1 : ¬ ∃ q ∈ leavesK (.sub s' k rest), Inside q.1 [x] := fun ⟨q, hq, h⟩ => single q hq h
      have h2 : ¬ ∃ q ∈ leavesK rest, Inside q.1 [x] := fun ⟨q, hq, h⟩ => single q hq h
      have h3 := ih (p := [x]) (by simp) w.2.2.2
      simp only [h1, iff_false]
      simp only [ins]
      split
      · simp
      · simp only [Option.map_eq_none_iff]; exact fun h => h2 (h3.1 h)
    | x :: x2 :: t, _ =>
      have h3 := ih (p := x :: x2 :: t) (by simp) w.2.2.2
      have h4 := ihk (p := x2 :: t) (by simp) w.2.2.1
      simp only [ins]
      simp only [leavesK, List.mem_append, List.mem_map]
      split
      next e =>
        subst e
        simp only [Option.map_eq_none_iff, h4]
        constructor
        · rintro ⟨q, hq, h5, h6⟩
          exact ⟨_, .inl ⟨q, hq, rfl⟩, by simpa [List.cons_prefix_cons] using h5, by simpa using h6⟩
        · rintro ⟨q, ⟨q', hq, rfl⟩ | hq, h5, h6⟩
          · exact ⟨q', hq, by simpa [List.cons_prefix_cons] using h5, by simpa using h6⟩
          · exact absurd h5 (other w.1 q hq)
      next e =>
        simp only [Option.map_eq_none_iff, h3]
        constructor
        · rintro ⟨q, hq, h5⟩; exact ⟨q, .inr hq, h5⟩
        · rintro ⟨q, ⟨q', hq, rfl⟩ | hq, h5, h6⟩
          · simp [List.cons_prefix_cons, e] at h5
          · exact ⟨q, hq, h5, h6⟩

/-! ## All names -/

/-- No later name is `n` or contains it. -/
def Lasts (l : List (List S)) (n : List S) : Prop := ∃ l1 l2, l = l1 ++ n :: l2 ∧ ∀ m ∈ l2, ¬ m <+: n

theorem lasts_snoc {l : List (List S)} {n m : List S} :
    Lasts (l ++ [n]) m ↔ m = n ∨ (Lasts l m ∧ ¬ n <+: m) := by
  constructor
  · rintro ⟨l1, l2, h1, h2⟩
    rcases List.eq_nil_or_concat l2 with rfl | ⟨l2', x, rfl⟩
    · have := List.append_inj_right' h1 rfl
      simp at this
      exact .inl this.symm
    · rw [List.concat_eq_append, ← List.cons_append, ← List.append_assoc] at h1
      have e1 := List.append_inj_left' h1 rfl
      have e2 := List.append_inj_right' h1 rfl
      simp at e2
      subst e2
      refine .inr ⟨⟨l1, l2', e1, fun m hm => h2 m (by simp [hm])⟩, h2 n (by simp)⟩
  · rintro (rfl | ⟨⟨l1, l2, rfl, h2⟩, h3⟩)
    · exact ⟨l, [], rfl, by simp⟩
    · refine ⟨l1, l2 ++ [n], by simp, ?_⟩
      intro x hx
      rw [List.mem_append, List.mem_singleton] at hx
      rcases hx with hx | rfl
      · exact h2 x hx
      · exact h3

theorem lasts_mem {l : List (List S)} {n : List S} (h : Lasts l n) : n ∈ l := by
  obtain ⟨l1, l2, rfl, _⟩ := h; simp

theorem lasts_exists {l : List (List S)} {p : List S} (h : ∃ q ∈ l, Inside q p) :
    ∃ q, Lasts l q ∧ Inside q p := by
  induction l using list_snoc_induction with
  | h0 => simp at h
  | hs l n ih =>
    by_cases hn : Inside n p
    · exact ⟨n, lasts_snoc.2 (.inl rfl), hn⟩
    · obtain ⟨q, hq, hp⟩ := h
      rw [List.mem_append, List.mem_singleton] at hq
      rcases hq with hq | rfl
      · obtain ⟨q', h1, h2⟩ := ih ⟨q, hq, hp⟩
        refine ⟨q', lasts_snoc.2 (.inr ⟨h1, fun h3 => ?_⟩), h2⟩
        by_cases he : n = p
        · subst he
          exact h2.2 (List.IsPrefix.eq_of_length h2.1 (Nat.le_antisymm h2.1.length_le h3.length_le))
        · exact hn ⟨h3.trans h2.1, he⟩
      · exact absurd hp hn

theorem build_snoc {k : Kids S} {l : List (List S)} {n : List S} :
    build k (l ++ [n]) = (build k l).bind (fun k' => ins n k' n) := by
  induction l generalizing k with
  | nil => simp [build]
  | cons m l ih =>
    simp only [List.cons_append, build]
    cases ins m k m with
    | none => rfl
    | some k' => simp only [Option.bind_some]; exact ih

theorem build_some {l : List (List S)} {k : Kids S} (h : build .nil l = some k) :
    WF k ∧ ∀ q, q ∈ leavesK k ↔ Lasts l q.1 ∧ q.2 = q.1 := by
  induction l using list_snoc_induction generalizing k with
  | h0 =>
    simp only [build, Option.some.injEq] at h
    subst h
    refine ⟨trivial, fun q => ?_⟩
    simp [leavesK, Lasts]
  | hs l n ih =>
    rw [build_snoc, Option.bind_eq_some_iff] at h
    obtain ⟨k', h1, h2⟩ := h
    obtain ⟨w, hm⟩ := ih h1
    refine ⟨ins_wf h2 w, fun q => ?_⟩
    rw [ins_mem h2 w, hm, lasts_snoc]
    constructor
    · rintro (rfl | ⟨⟨h3, h4⟩, h5⟩)
      · exact ⟨.inl rfl, rfl⟩
      · exact ⟨.inr ⟨h3, h5⟩, h4⟩
    · rintro ⟨h3 | h3, h4⟩
      · left; rw [Prod.ext_iff]; exact ⟨h3, h4.trans h3⟩
      · exact .inr ⟨⟨h3.1, h4⟩, h3.2⟩

theorem build_none {l : List (List S)} (hl : ∀ n ∈ l, n ≠ []) :
    build .nil l = none ↔ ∃ l1 n l2, l = l1 ++ n :: l2 ∧ ∃ q ∈ l1, Inside q n := by
  induction l using list_snoc_induction with
  | h0 => simp [build]
  | hs l n ih =>
    have ih := ih (fun n hn => hl n (by simp [hn]))
    rw [build_snoc, Option.bind_eq_none_iff]
    constructor
    · intro h
      cases hb : build .nil l with
      | none =>
        obtain ⟨l1, m, l2, rfl, h1⟩ := ih.1 hb
        exact ⟨l1, m, l2 ++ [n], by simp, h1⟩
      | some k =>
        have h1 := h k hb
        obtain ⟨w, hm⟩ := build_some hb
        obtain ⟨q, hq, h2⟩ := (ins_none (hl n (by simp)) w).1 h1
        exact ⟨l, n, [], rfl, q.1, lasts_mem ((hm q).1 hq).1, h2⟩
    · rintro ⟨l1, m, l2, h1, h2⟩ k hk
      obtain ⟨w, hm⟩ := build_some hk
      rcases List.eq_nil_or_concat l2 with rfl | ⟨l2', x, rfl⟩
      · have e1 := List.append_inj_left' h1 rfl
        have e2 := List.append_inj_right' h1 rfl
        simp at e2
        subst e1; subst e2
        obtain ⟨q, h3, h4⟩ := lasts_exists h2
        exact (ins_none (hl n (by simp)) w).2 ⟨(q, q), (hm _).2 ⟨h3, rfl⟩, h4⟩
      · exfalso
        rw [List.concat_eq_append, ← List.cons_append, ← List.append_assoc] at h1
        have e1 := List.append_inj_left' h1 rfl
        have := ih.2 ⟨l1, m, l2', e1, h2⟩
        rw [this] at hk
        simp at hk

/-! ## Reading what was drawn -/

theorem read_structure {lower : S → S} {uid : List S → I} {k : Kids S} {at_ : List S} {ls : List (Line S I)} :
    read at_ (structureLines lower uid k ++ ls) = (read at_ ls).map fun p =>
      { nodes := (leavesK k).map (fun q => (at_ ++ q.1, uid q.2)) ++ p.nodes,
        subs := (subsK k).map (at_ ++ ·) ++ p.subs, conns := p.conns } := by
  induction k generalizing at_ ls with
  | nil => simp [structureLines, leavesK, subsK]
  | leaf s n rest ih =>
    simp only [structureLines, List.cons_append, read, ih, leavesK, subsK, List.map_cons, Option.map_map]
    rfl
  | sub s k rest ihk ih =>
    simp only [structureLines, List.cons_append, read, List.append_assoc, ihk]
    rw [if_neg (by simp), List.dropLast_append_of_ne_nil (by simp)]
    simp only [List.dropLast_singleton, List.append_nil, ih, leavesK, subsK, Option.map_map, List.map_append,
      List.map_map, List.map_cons, List.cons_append, List.append_assoc]
    congr 1

theorem connLines_none {ord : List (List S) → List (List S)} (ho : ∀ l, (ord l).Perm l) {uid : List S → I}
    {keys : List (List S)} {g : Graph (List S)} :
    connLines ord uid keys g = none ↔ ∃ e ∈ g, ∃ c ∈ e.2, c ∉ keys := by
  induction g with
  | nil => simp [connLines]
  | cons e g ih =>
    simp only [connLines, List.mem_cons, exists_eq_or_imp]
    split
    next h =>
      simp only [List.all_eq_true, decide_eq_true_eq] at h
      rw [Option.map_eq_none_iff, ih]
      constructor
      · exact .inr
      · rintro (⟨c, hc, h1⟩ | h1)
        · exact absurd (h c ((ho _).mem_iff.2 hc)) h1
        · exact h1
    next h =>
      simp only [List.all_eq_true, decide_eq_true_eq, Classical.not_forall] at h
      obtain ⟨c, hc, h1⟩ := h
      simp only [true_iff]
      exact .inl ⟨c, (ho _).mem_iff.1 hc, h1⟩

theorem connLines_read {ord : List (List S) → List (List S)} {uid : List S → I} {keys : List (List S)}
    {g : Graph (List S)} {ls : List (Line S I)} (h : connLines ord uid keys g = some ls) :
    read [] ls = some { conns := g.flatMap (fun e => (ord e.2).map (fun c => (uid e.1, uid c))) } := by
  induction g generalizing ls with
  | nil => simp only [connLines, Option.some.injEq] at h; subst h; simp [read]
  | cons e g ih =>
    simp only [connLines, Option.ite_none_right_eq_some, Option.map_eq_some_iff] at h
    obtain ⟨_, ls', h1, rfl⟩ := h
    have h2 := ih h1
    have : ∀ cs : List (List S), read [] (cs.map (fun c => (Line.conn (uid e.1) (uid c) : Line S I)) ++ ls') =
        some { conns := cs.map (fun c => (uid e.1, uid c)) ++
          g.flatMap (fun e => (ord e.2).map (fun c => (uid e.1, uid c))) } := by
      intro cs
      induction cs with
      | nil => simpa using h2
      | cons c cs ihc => simp only [List.map_cons, List.cons_append, read, ihc, Option.map_some]
    rw [this, List.flatMap_cons]

/-- **C73.**  If `graph_string` returns, its drawing can be read: every node that no later key contains is drawn exactly once, inside the
subgraphs its path names and with its own identifier, and nothing else is; the subgraphs are the components around these nodes,
each begun once; and every connection is drawn exactly once. -/
theorem C73_picture {lower : S → S} {ord : List (List S) → List (List S)} (ho : ∀ l, (ord l).Perm l)
    {uid : List S → I} {g : Graph (List S)} {ls : List (Line S I)} (h : graphString lower ord uid g = some ls) :
    ∃ p, read [] ls = some p ∧ (p.nodes.map (·.1)).Nodup ∧
      (∀ a i, (a, i) ∈ p.nodes ↔ Lasts (PyDict.keys g) a ∧ i = uid a) ∧
      p.subs.Nodup ∧ (∀ a, a ∈ p.subs ↔ a ≠ [] ∧ ∃ n, Lasts (PyDict.keys g) n ∧ Inside a n) ∧
      p.conns.Perm (g.flatMap fun e => e.2.map fun c => (uid e.1, uid c)) := by
  unfold graphString at h
  rw [Option.bind_eq_some_iff] at h
  obtain ⟨k, hk, h⟩ := h
  rw [Option.map_eq_some_iff] at h
  obtain ⟨cs, hc, rfl⟩ := h
  obtain ⟨w, hm⟩ := build_some hk
  refine ⟨_, by rw [read_structure, connLines_read hc]; rfl, ?_, ?_, ?_, ?_, ?_⟩
  · have := leaves_nodup w
    simpa [Function.comp_def] using this
  · intro a i
    simp only [List.nil_append, List.append_nil, List.mem_map, Prod.mk.injEq]
    constructor
    · rintro ⟨q, hq, rfl, rfl⟩
      obtain ⟨h1, h2⟩ := (hm q).1 hq
      exact ⟨h1, by rw [h2]⟩
    · rintro ⟨h1, rfl⟩
      exact ⟨(a, a), (hm _).2 ⟨h1, rfl⟩, rfl, rfl⟩
  · simpa using subs_nodup w
  · intro a
    simp only [List.nil_append, List.map_id', List.append_nil]
    rw [subs_mem w]
    constructor
    · rintro ⟨h1, q, hq, h2⟩; exact ⟨h1, q.1, ((hm q).1 hq).1, h2⟩
    · rintro ⟨h1, n, hn, h2⟩; exact ⟨h1, (n, n), (hm _).2 ⟨hn, rfl⟩, h2⟩
  · have : ∀ g : Graph (List S), (g.flatMap fun e => (ord e.2).map fun c => (uid e.1, uid c)).Perm
        (g.flatMap fun e => e.2.map fun c => (uid e.1, uid c)) := by
      intro g
      induction g with
      | nil => exact List.Perm.refl _
      | cons e g ih =>
        rw [List.flatMap_cons, List.flatMap_cons]
        exact ((ho e.2).map _).append ih
    exact this g

/-- **C73.**  `graph_string` raises an exception if and only if a target is not a key, or a key is inside an earlier one. -/
theorem C73_raises {lower : S → S} {ord : List (List S) → List (List S)} (ho : ∀ l, (ord l).Perm l)
    {uid : List S → I} {g : Graph (List S)} (hk : ∀ n ∈ PyDict.keys g, n ≠ []) :
    graphString lower ord uid g = none ↔
      (∃ e ∈ g, ∃ c ∈ e.2, c ∉ PyDict.keys g) ∨
      ∃ l1 n l2, PyDict.keys g = l1 ++ n :: l2 ∧ ∃ q ∈ l1, Inside q n := by
  unfold graphString
  rw [← connLines_none ho (uid := uid), ← build_none hk]
  cases build .nil (PyDict.keys g) <;> cases connLines ord uid (PyDict.keys g) g <;> simp

/-- **C73.**  If no node is inside another one and all targets are keys, as in the graphs of the graph server, the drawing
shows all nodes. -/
theorem C73_complete {lower : S → S} {ord : List (List S) → List (List S)} (ho : ∀ l, (ord l).Perm l)
    {uid : List S → I} {g : Graph (List S)} (hn : (PyDict.keys g).Nodup) (hk : ∀ n ∈ PyDict.keys g, n ≠ [])
    (ht : ∀ e ∈ g, ∀ c ∈ e.2, c ∈ PyDict.keys g)
    (hi : ∀ a ∈ PyDict.keys g, ∀ b ∈ PyDict.keys g, ¬ Inside a b) :
    ∃ ls p, graphString lower ord uid g = some ls ∧ read [] ls = some p ∧ (p.nodes.map (·.1)).Nodup ∧
      (∀ a i, (a, i) ∈ p.nodes ↔ a ∈ PyDict.keys g ∧ i = uid a) ∧
      p.conns.Perm (g.flatMap fun e => e.2.map fun c => (uid e.1, uid c)) := by
  cases h : graphString lower ord uid g with
  | none =>
    exfalso
    rcases (C73_raises ho hk).1 h with ⟨e, he, c, hc, h1⟩ | ⟨l1, n, l2, h1, q, hq, h2⟩
    · exact h1 (ht e he c hc)
    · exact hi q (by rw [h1]; simp [hq]) n (by rw [h1]; simp) h2
  | some ls =>
    obtain ⟨p, h1, h2, h3, _, _, h4⟩ := C73_picture ho h
    refine ⟨ls, p, rfl, h1, h2, fun a i => ?_, h4⟩
    rw [h3]
    constructor
    · rintro ⟨h5, h6⟩; exact ⟨lasts_mem h5, h6⟩
    · rintro ⟨h5, h6⟩
      refine ⟨?_, h6⟩
      obtain ⟨l1, l2, h7⟩ := List.append_of_mem h5
      refine ⟨l1, l2, h7, fun m hm h8 => ?_⟩
      have hme : m ≠ a := by
        rintro rfl
        rw [h7, List.nodup_append] at hn
        exact (List.nodup_cons.1 hn.2.1).1 hm
      exact hi m (by rw [h7]; simp [hm]) a h5 ⟨h8, hme⟩

/-! ## Drawing compact graphs -/

/-- Names as lists of segments, for `Compact`. -/
def segments : Compact.Names (List S) where
  parent p := if 2 ≤ p.length then some p.dropLast else none
  size := List.length
  lt := by
    intro n p h
    simp only [Option.ite_none_right_eq_some, Option.some.injEq] at h
    obtain ⟨h1, rfl⟩ := h
    simp; omega

theorem up_ne {i : Nat} {x a : List S} (hx : x ≠ []) (h : Compact.up segments i x = some a) : a ≠ [] := by
  induction i generalizing x with
  | zero => simp only [Compact.up, Option.some.injEq] at h; subst h; exact hx
  | succ i ih =>
    simp only [Compact.up, segments, Option.bind_eq_some_iff, Option.ite_none_right_eq_some, Option.some.injEq] at h
    obtain ⟨p, ⟨h1, rfl⟩, h2⟩ := h
    exact ih (by intro e; have := congrArg List.length e; simp at this; omega) h2

theorem inside_up {a b : List S} (ha : a ≠ []) (h : Inside a b) : ∃ i, Compact.up segments (i + 1) b = some a := by
  obtain ⟨⟨t, rfl⟩, h2⟩ := h
  induction t using list_snoc_induction with
  | h0 => simp at h2
  | hs t x ih =>
    have hp : segments.parent (a ++ (t ++ [x])) = some (a ++ t) := by
      have h0 : 0 < a.length := List.length_pos_iff.2 ha
      simp only [segments]
      rw [if_pos (by simp; omega), ← List.append_assoc, List.dropLast_concat]
    by_cases ht : t = []
    · subst ht
      exact ⟨0, by simp only [Compact.up, hp, Option.bind_some, List.append_nil]⟩
    · obtain ⟨i, hi⟩ := ih (by intro e; exact ht (by simpa using e))
      exact ⟨i + 1, by rw [Compact.up, hp, Option.bind_some]; exact hi⟩

/-- **C73** (partial: as `C72_topmost_partial`).  What `get_compactified_graph` makes of a graph whose targets are keys can be
drawn, and all of it is drawn. -/
theorem C73_compact_partial {lower : S → S} {ord : List (List S) → List (List S)} (ho : ∀ l, (ord l).Perm l)
    {uid : List S → I} {ord' : Nat → List (List S) → List (List S)} (ho' : ∀ k l x, x ∈ ord' k l ↔ x ∈ l)
    {g g' : Graph (List S)} {level : Nat} (hl : 0 < level) (he : level ≤ 2 ∨ Compact.Even segments g)
    (hk : ∀ n ∈ PyDict.keys g, n ≠ []) (ht : ∀ e ∈ g, ∀ c ∈ e.2, c ∈ PyDict.keys g)
    (e : Compact.compactify segments ord' g level = some g') :
    ∃ ls p, graphString lower ord uid g' = some ls ∧ read [] ls = some p ∧ (p.nodes.map (·.1)).Nodup ∧
      (∀ a i, (a, i) ∈ p.nodes ↔ a ∈ PyDict.keys g' ∧ i = uid a) ∧
      p.conns.Perm (g'.flatMap fun e => e.2.map fun c => (uid e.1, uid c)) := by
  by_cases hg : g = []
  · subst hg
    simp only [Compact.compactify, or_true, if_true, Option.some.injEq] at e
    subst e
    exact C73_complete ho (by simp [PyDict.keys]) (by simp [PyDict.keys]) (by simp) (by simp [PyDict.keys])
  · obtain ⟨f, h1, h2, h3⟩ := Compact.C72_image segments ho' hl hg e
    have hne : ∀ n ∈ PyDict.keys g', n ≠ [] := by
      intro n hn
      obtain ⟨x, hx, rfl⟩ := (h2.1 n).1 hn
      obtain ⟨i, _, hi⟩ := h1 x
      exact up_ne (hk x hx) hi
    have node : ∀ n ∈ PyDict.keys g', Compact.Node g' n := by
      intro n hn
      obtain ⟨e', he', rfl⟩ := List.mem_map.1 hn
      exact ⟨e', he', .inl rfl⟩
    refine C73_complete ho h3 hne ?_ ?_
    · intro e' he' c hc
      obtain ⟨_, x, y, ⟨e2, he2, rfl, hy⟩, _, rfl⟩ := (h2.2 e'.1 c).1 ⟨e', he', rfl, hc⟩
      exact (h2.1 _).2 ⟨y, ht e2 he2 y hy, rfl⟩
    · intro a ha b hb hi
      obtain ⟨i, hu⟩ := inside_up (hne a ha) hi
      exact Compact.C72_leaves_partial ho' hl he e (node a ha) (node b hb) hu

/-- **C73** fails for compact graphs of level 3: the node `SYS/IN` is not drawn, though it is a key of the compact graph and has a
connection. -/
theorem C73_compact_fails : ∃ g' ls p, Compact.compactify segments (fun _ l => l)
      [(["SYS", "IN"], [["SYS", "A", "B", "X"]]), (["SYS", "A", "B", "X"], [])] 3 = some g' ∧
    graphString (I := List String) String.toLower id id g' = some ls ∧ read [] ls = some p ∧
    ["SYS", "IN"] ∈ PyDict.keys g' ∧ ["SYS", "IN"] ∉ p.nodes.map (·.1) ∧ (["SYS", "IN"], ["SYS"]) ∈ p.conns :=
  ⟨[(["SYS", "IN"], [["SYS"]]), (["SYS"], [])], [.node ["SYS"] "SYS", .conn ["SYS", "IN"] ["SYS"]],
    { nodes := [(["SYS"], ["SYS"])], conns := [(["SYS", "IN"], ["SYS"])] }, by decide, by decide +kernel, by simp [read],
    by decide, by decide, by decide⟩

/-! ## Examples -/

/-- `SYS/A/X → SYS/B`. -/
def small : Graph (List String) := [(["SYS", "A", "X"], [["SYS", "B"]]), (["SYS", "B"], [])]

example : graphString (I := List String) String.toLower id id small = some
    [.begins "sys" "SYS", .begins "a" "A", .node ["SYS", "A", "X"] "X", .ends, .node ["SYS", "B"] "B", .ends,
      .conn ["SYS", "A", "X"] ["SYS", "B"]] := by decide +kernel

example : ∃ ls p, graphString (I := List String) String.toLower id id small = some ls ∧ read [] ls = some p ∧
    (p.nodes.map (·.1)).Nodup ∧ (∀ a i, (a, i) ∈ p.nodes ↔ a ∈ PyDict.keys small ∧ i = id a) ∧
    p.conns.Perm (small.flatMap fun e => e.2.map fun c => (id e.1, id c)) :=
  C73_complete (fun _ => List.Perm.refl _) (by decide) (by decide) (by decide) (by unfold Inside; decide)

/-- The same graph at level 1. -/
example : ∃ g', Compact.compactify segments (fun _ l => l) small 1 = some g' ∧
    ∃ ls p, graphString (I := List String) String.toLower id id g' = some ls ∧ read [] ls = some p ∧
    (p.nodes.map (·.1)).Nodup ∧ (∀ a i, (a, i) ∈ p.nodes ↔ a ∈ PyDict.keys g' ∧ i = id a) ∧
    p.conns.Perm (g'.flatMap fun e => e.2.map fun c => (id e.1, id c)) :=
  ⟨[(["SYS", "A"], [["SYS", "B"]]), (["SYS", "B"], [])], by decide, C73_compact_partial (ord' := fun _ l => l)
    (fun _ => List.Perm.refl _) (fun _ _ _ => Iff.rfl) (g := small) (level := 1) (by decide) (.inl (by decide)) (by decide)
    (by decide) (by decide)⟩

/-- **C73** fails for nodes inside others, as compact graphs can contain (`Compact.stuck`): with `SYS` after `SYS/IN` the node
`SYS/IN` is not drawn, though its connection is. -/
theorem C73_lost : ∃ ls p, graphString (I := List String) String.toLower id id
      [(["SYS", "IN"], [["SYS"]]), (["SYS"], [])] = some ls ∧ read [] ls = some p ∧
    p.nodes = [(["SYS"], ["SYS"])] ∧ p.conns = [(["SYS", "IN"], ["SYS"])] :=
  ⟨[.node ["SYS"] "SYS", .conn ["SYS", "IN"] ["SYS"]], _, by decide +kernel, by simp [read]; rfl, rfl, rfl⟩

/-- With `SYS` before `SYS/IN` an exception is raised. -/
theorem C73_type_error : graphString (I := List String) String.toLower id id
    [(["SYS"], []), (["SYS", "IN"], [["SYS"]])] = none := by decide +kernel

/-- **C73** fails: two different subgraphs can have the same identifier. -/
theorem C73_same_identifier : ∃ ls, graphString (I := List String) String.toLower id id
      [(["A", "FILTER", "X"], []), (["B", "FILTER", "X"], [])] = some ls ∧
    ls.count (.begins "filter" "FILTER") = 2 := by
  refine ⟨[.begins "a" "A", .begins "filter" "FILTER", .node ["A", "FILTER", "X"] "X", .ends, .ends,
    .begins "b" "B", .begins "filter" "FILTER", .node ["B", "FILTER", "X"] "X", .ends, .ends], by decide +kernel, by decide +kernel⟩

end Draw
end Ez
