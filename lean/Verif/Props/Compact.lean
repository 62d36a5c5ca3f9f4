import Verif.Model.Compact
import Verif.Lemmas.Py
import Verif.Props.Backpressure

/-!
# C72: compact graphs
-/

namespace Ez
namespace Compact

set_option linter.unusedSectionVars false
set_option linter.unusedSimpArgs false

variable {N : Type} [DecidableEq N]

/-! ## Specification -/

/-- The component `i` levels above. -/
def up (nm : Names N) : Nat → N → Option N
  | 0, n => some n
  | i + 1, n => (nm.parent n).bind (up nm i)

/-- The nodes of a graph. -/
def Node (g : Graph N) (n : N) : Prop := ∃ e ∈ g, n = e.1 ∨ n ∈ e.2

/-- There is a connection. -/
def Edge (g : Graph N) (a b : N) : Prop := ∃ e ∈ g, a = e.1 ∧ b ∈ e.2

/-- The level of a component is at most `k`: no node is further below it. -/
def AtMost (nm : Names N) (g : Graph N) (a : N) (k : Nat) : Prop := ∀ x d, Node g x → up nm d x = some a → d ≤ k

/-- `a` is the topmost component above `x` (or `x`) with a level of at most `k`. -/
def IsTop (nm : Names N) (g : Graph N) (k : Nat) (x a : N) : Prop :=
  (∃ i, up nm i x = some a) ∧ AtMost nm g a k ∧ ∀ b, nm.parent a = some b → ¬ AtMost nm g b k

/-- `g'` shows the nodes of `g` as `f` says: the keys are shown, and exactly the connections between nodes shown apart. -/
def Image (g : Graph N) (f : N → N) (g' : Graph N) : Prop :=
  (∀ a, a ∈ PyDict.keys g' ↔ ∃ x ∈ PyDict.keys g, f x = a) ∧
  ∀ a b, Edge g' a b ↔ a ≠ b ∧ ∃ x y, Edge g x y ∧ f x = a ∧ f y = b

/-! ## Levels -/

theorem climb_le {nm : Names N} : ∀ {fuel : Nat} {n : N}, nm.size n ≤ fuel → ∀ {lv : N → Nat} {d k : Nat} {a : N},
    climb nm fuel lv n d a ≤ k ↔ lv a ≤ k ∧ ∀ i, up nm i n = some a → d + i ≤ k := by
  intro fuel
  induction fuel with
  | zero =>
    intro n hs lv d k a
    have hp : nm.parent n = none := by
      cases h : nm.parent n with
      | none => rfl
      | some p => have := nm.lt n p h; omega
    simp only [climb, put]
    constructor
    · intro h
      by_cases ha : a = n
      · subst ha
        rw [if_pos rfl] at h
        refine ⟨by omega, fun i hi => ?_⟩
        cases i with
        | zero => omega
        | succ i => simp [up, hp] at hi
      · rw [if_neg ha] at h
        refine ⟨h, fun i hi => ?_⟩
        cases i with
        | zero => simp only [up, Option.some.injEq] at hi; exact absurd hi.symm ha
        | succ i => simp [up, hp] at hi
    · rintro ⟨h1, h2⟩
      split
      next ha => subst ha; have := h2 0 rfl; omega
      next => exact h1
  | succ fuel ih =>
    intro n hs lv d k a
    cases hp : nm.parent n with
    | none =>
      simp only [climb, hp, put]
      constructor
      · intro h
        by_cases ha : a = n
        · subst ha
          rw [if_pos rfl] at h
          refine ⟨by omega, fun i hi => ?_⟩
          cases i with
          | zero => omega
          | succ i => simp [up, hp] at hi
        · rw [if_neg ha] at h
          refine ⟨h, fun i hi => ?_⟩
          cases i with
          | zero => simp only [up, Option.some.injEq] at hi; exact absurd hi.symm ha
          | succ i => simp [up, hp] at hi
      · rintro ⟨h1, h2⟩
        split
        next ha => subst ha; have := h2 0 rfl; omega
        next => exact h1
    | some p =>
      simp only [climb, hp]
      rw [ih (by have := nm.lt n p hp; omega)]
      simp only [put]
      constructor
      · rintro ⟨h1, h2⟩
        refine ⟨?_, fun i hi => ?_⟩
        · split at h1
          next ha => subst ha; omega
          next => exact h1
        · cases i with
          | zero =>
            simp only [up, Option.some.injEq] at hi
            subst hi
            simp at h1
            omega
          | succ i =>
            simp only [up, hp, Option.bind_some] at hi
            have := h2 i hi
            omega
      · rintro ⟨h1, h2⟩
        refine ⟨?_, fun i hi => ?_⟩
        · split
          next ha => subst ha; have := h2 0 rfl; omega
          next => exact h1
        · have := h2 (i + 1) (by simp only [up, hp, Option.bind_some]; exact hi)
          omega

theorem updateLevel_le {nm : Names N} {lv : N → Nat} {n a : N} {k : Nat} :
    updateLevel nm lv n a ≤ k ↔ lv a ≤ k ∧ ∀ i, up nm i n = some a → i ≤ k := by
  unfold updateLevel
  rw [climb_le (Nat.le_refl _)]
  simp

theorem foldl_updateLevel_le {nm : Names N} {l : List N} {lv : N → Nat} {a : N} {k : Nat} :
    l.foldl (updateLevel nm) lv a ≤ k ↔ lv a ≤ k ∧ ∀ n ∈ l, ∀ i, up nm i n = some a → i ≤ k := by
  induction l generalizing lv with
  | nil => simp
  | cons n l ih =>
    rw [List.foldl_cons, ih, updateLevel_le]
    simp only [List.mem_cons, forall_eq_or_imp, and_assoc]

theorem levels_le {nm : Names N} {g : Graph N} {a : N} {k : Nat} :
    pipelineLevels nm g a ≤ k ↔ AtMost nm g a k := by
  have key : ∀ (g : Graph N) (lv : N → Nat),
      g.foldl (fun lv e => e.2.foldl (updateLevel nm) (updateLevel nm lv e.1)) lv a ≤ k ↔
        lv a ≤ k ∧ AtMost nm g a k := by
    intro g
    induction g with
    | nil => intro lv; simp [AtMost, Node]
    | cons e g ih =>
      intro lv
      rw [List.foldl_cons, ih, foldl_updateLevel_le, updateLevel_le]
      constructor
      · rintro ⟨⟨⟨h1, h2⟩, h3⟩, h4⟩
        refine ⟨h1, ?_⟩
        rintro x d ⟨e', he, hx⟩ hd
        rw [List.mem_cons] at he
        rcases he with rfl | he
        · rcases hx with rfl | hx
          · exact h2 d hd
          · exact h3 x hx d hd
        · exact h4 x d ⟨e', he, hx⟩ hd
      · rintro ⟨h1, h2⟩
        exact ⟨⟨⟨h1, fun i => h2 e.1 i ⟨e, by simp, .inl rfl⟩⟩, fun n hn i => h2 n i ⟨e, by simp, .inr hn⟩⟩,
          fun x d ⟨e', he, hx⟩ => h2 x d ⟨e', by simp [he], hx⟩⟩
  have := key g (fun _ => 0)
  unfold pipelineLevels
  rw [this]
  simp

theorem leaves_iff {nm : Names N} {g : Graph N} :
    leaves nm g = true ↔ ∀ x, Node g x → AtMost nm g x 0 := by
  unfold leaves Node
  simp only [List.all_eq_true, decide_eq_true_eq, List.mem_cons]
  constructor
  · rintro h x ⟨e, he, hx⟩
    rw [← levels_le]
    exact Nat.le_of_eq (h e he x hx)
  · intro h e he n hn
    have := levels_le.2 (h n ⟨e, he, hn⟩)
    omega

/-! ## One level -/

/-- The map of `s` agrees with `F`. -/
def Agrees (s : St N) (F : N → N) : Prop := ∀ x y, PyDict.get? s.map x = some y → F x = y

/-- The map grows. -/
def Le (s s' : St N) : Prop := ∀ x y, PyDict.get? s.map x = some y → PyDict.get? s'.map x = some y

theorem Le.trans {s s' s'' : St N} (h : Le s s') (h' : Le s' s'') : Le s s'' := fun x y hx => h' x y (h x y hx)

theorem Le.agrees {s s' : St N} {F : N → N} (h : Le s s') (a : Agrees s' F) : Agrees s F :=
  fun x y hx => a x y (h x y hx)

theorem set_le {s : St N} {n m : N} {lv : N → Nat} (h : PyDict.get? s.map n = none) :
    Le s ⟨lv, PyDict.set s.map n m⟩ := by
  intro x y hx
  simp only [PyDict.get?_set]
  split
  next hxn => subst hxn; rw [h] at hx; simp at hx
  next => exact hx

theorem nodeUpdate_le (nm : Names N) (s : St N) (n : N) :
    Le s (nodeUpdate nm s n).1 ∧ PyDict.get? (nodeUpdate nm s n).1.map n = some (nodeUpdate nm s n).2 := by
  unfold nodeUpdate
  cases hm : PyDict.get? s.map n with
  | some m => exact ⟨fun x y h => h, hm⟩
  | none =>
    cases nm.parent n with
    | none => exact ⟨set_le hm, by simp [PyDict.get?_set]⟩
    | some p =>
      simp only
      split
      · exact ⟨set_le hm, by simp [PyDict.get?_set]⟩
      · exact ⟨set_le hm, by simp [PyDict.get?_set]⟩

theorem updates_le (nm : Names N) (s : St N) (l : List N) : Le s (updates nm s l).1 ∧
    (∀ F, Agrees (updates nm s l).1 F → (updates nm s l).2 = l.map F) ∧
    ∀ n ∈ l, (PyDict.get? (updates nm s l).1.map n).isSome := by
  induction l generalizing s with
  | nil => exact ⟨fun x y h => h, fun F _ => rfl, by simp⟩
  | cons n l ih =>
    have h := nodeUpdate_le nm s n
    have h' := ih (nodeUpdate nm s n).1
    refine ⟨h.1.trans h'.1, fun F hF => ?_, ?_⟩
    · simp only [updates] at hF ⊢
      rw [h'.2.1 F hF, List.map_cons, h'.1.agrees hF n _ h.2]
    · intro m hm
      rw [List.mem_cons] at hm
      simp only [updates]
      rcases hm with rfl | hm
      · rw [h'.1 _ _ h.2]; rfl
      · exact h'.2.2 m hm

theorem entry_le (nm : Names N) {ord : List N → List N} (ho : ∀ l x, x ∈ ord l ↔ x ∈ l) (x : St N × Graph N)
    (e : N × PySet N) :
    Le x.1 (entry nm ord x e).1 ∧ ∀ n, (n = e.1 ∨ n ∈ e.2) → (PyDict.get? (entry nm ord x e).1.map n).isSome := by
  have h := nodeUpdate_le nm x.1 e.1
  have h' := updates_le nm (nodeUpdate nm x.1 e.1).1 (ord e.2)
  refine ⟨h.1.trans h'.1, ?_⟩
  rintro n (rfl | hn)
  · simp only [entry]
    rw [h'.1 _ _ h.2]; rfl
  · exact h'.2.2 n ((ho _ _).2 hn)

theorem fold_le (nm : Names N) {ord : List N → List N} (ho : ∀ l x, x ∈ ord l ↔ x ∈ l) (g : Graph N)
    (x : St N × Graph N) :
    Le x.1 (g.foldl (entry nm ord) x).1 ∧ ∀ n, Node g n → (PyDict.get? (g.foldl (entry nm ord) x).1.map n).isSome := by
  induction g generalizing x with
  | nil => exact ⟨fun x y h => h, by simp [Node]⟩
  | cons e g ih =>
    have h := entry_le nm ho x e
    have h' := ih (entry nm ord x e)
    refine ⟨h.1.trans h'.1, ?_⟩
    rintro n ⟨e', he, hn⟩
    rw [List.mem_cons] at he
    rcases he with rfl | he
    · have := h.2 n hn
      rw [Option.isSome_iff_exists] at this
      obtain ⟨m, hm⟩ := this
      rw [List.foldl_cons, h'.1 _ _ hm]; rfl
    · exact h'.2 n ⟨e', he, hn⟩

theorem mem_foldl_add {l : List N} {old : PySet N} {b : N} : b ∈ l.foldl PySet.add old ↔ b ∈ old ∨ b ∈ l := by
  induction l generalizing old with
  | nil => simp
  | cons x l ih =>
    rw [List.foldl_cons, ih, PySet.mem_add, List.mem_cons]
    grind

theorem edge_get {g : Graph N} (hn : (PyDict.keys g).Nodup) {a b : N} :
    Edge g a b ↔ ∃ cs, PyDict.get? g a = some cs ∧ b ∈ cs := by
  constructor
  · rintro ⟨⟨a', cs⟩, he, rfl, hb⟩
    exact ⟨cs, PyDict.get?_of_mem hn he, hb⟩
  · rintro ⟨cs, h, hb⟩
    exact ⟨(a, cs), PyDict.mem_of_get? h, rfl, hb⟩

/-- What the dictionary being built contains. -/
structure Built (x : Graph N) (F : N → N) (K : N → Prop) (E : N → N → Prop) : Prop where
  nodup : (PyDict.keys x).Nodup
  keys : ∀ a, a ∈ PyDict.keys x ↔ ∃ n, K n ∧ F n = a
  edges : ∀ a b, (∃ cs, PyDict.get? x a = some cs ∧ b ∈ cs) ↔ a ≠ b ∧ ∃ m n, E m n ∧ F m = a ∧ F n = b

theorem fold_built (nm : Names N) {ord : List N → List N} (ho : ∀ l x, x ∈ ord l ↔ x ∈ l) (F : N → N) (g : Graph N)
    (x : St N × Graph N) (K : N → Prop) (E : N → N → Prop) (h : Built x.2 F K E)
    (hF : Agrees (g.foldl (entry nm ord) x).1 F) :
    Built (g.foldl (entry nm ord) x).2 F (fun n => K n ∨ n ∈ PyDict.keys g) (fun m n => E m n ∨ Edge g m n) := by
  induction g generalizing x K E with
  | nil =>
    refine ⟨h.nodup, ?_, ?_⟩
    · intro a; rw [List.foldl_nil, h.keys]; simp [PyDict.keys]
    · intro a b; rw [List.foldl_nil, h.edges]; simp [Edge]
  | cons e g ih =>
    have hF1 : Agrees (entry nm ord x e).1 F := (fold_le nm ho g _).1.agrees hF
    have u1 := nodeUpdate_le nm x.1 e.1
    have u2 := updates_le nm (nodeUpdate nm x.1 e.1).1 (ord e.2)
    have hsrc : (nodeUpdate nm x.1 e.1).2 = F e.1 := (u2.1.agrees hF1 _ _ u1.2).symm
    have hts := u2.2.1 F hF1
    have hb : Built (entry nm ord x e).2 F (fun n => K n ∨ n = e.1) (fun m n => E m n ∨ (m = e.1 ∧ n ∈ e.2)) := by
      simp only [entry]
      rw [hts, hsrc]
      refine ⟨?_, ?_, ?_⟩
      · rw [PyDict.keys_modify]; exact PyDict.nodup_setdefault h.nodup
      · intro a
        rw [PyDict.keys_modify, PyDict.mem_keys, PyDict.get?_setdefault]
        split
        next ha => subst ha; simp only [Option.isSome_some, true_iff]; exact ⟨e.1, .inr rfl, rfl⟩
        next ha =>
          rw [← PyDict.mem_keys, h.keys]
          constructor
          · rintro ⟨n, hn, h2⟩; exact ⟨n, .inl hn, h2⟩
          · rintro ⟨n, hn | rfl, h2⟩
            · exact ⟨n, hn, h2⟩
            · exact absurd h2.symm ha
      · intro a b
        rw [PyDict.get?_modify, PyDict.get?_setdefault]
        have hE := h.edges a b
        by_cases ha : a = F e.1
        · rw [if_pos ha, if_pos ha, Option.map_some]
          simp only [Option.some.injEq]
          constructor
          · rintro ⟨cs, rfl, hb⟩
            rw [PySet.mem_discard, mem_foldl_add] at hb
            refine ⟨fun hab => hb.2 (by rw [← hab]; exact ha), ?_⟩
            rcases hb.1 with hb1 | hb1
            · have : ∃ cs, PyDict.get? x.2 a = some cs ∧ b ∈ cs := by
                cases hg : PyDict.get? x.2 (F e.1) with
                | none => rw [hg] at hb1; simp at hb1
                | some cs => rw [hg] at hb1; exact ⟨cs, by rw [ha]; exact hg, hb1⟩
              obtain ⟨_, m, n, h1, h2, h3⟩ := hE.1 this
              exact ⟨m, n, .inl h1, h2, h3⟩
            · rw [List.mem_map] at hb1
              obtain ⟨n, hn, rfl⟩ := hb1
              exact ⟨e.1, n, .inr ⟨rfl, (ho _ _).1 hn⟩, ha.symm, rfl⟩
          · rintro ⟨hab, m, n, h1 | ⟨rfl, h1⟩, h2, h3⟩
            · obtain ⟨cs, h4, h5⟩ := hE.2 ⟨hab, m, n, h1, h2, h3⟩
              refine ⟨_, rfl, ?_⟩
              rw [PySet.mem_discard, mem_foldl_add, ← ha, h4]
              exact ⟨.inl h5, fun hba => hab hba.symm⟩
            · refine ⟨_, rfl, ?_⟩
              rw [PySet.mem_discard, mem_foldl_add, ← ha]
              refine ⟨.inr ?_, fun hba => hab hba.symm⟩
              rw [List.mem_map]
              exact ⟨n, (ho _ _).2 h1, h3⟩
        · rw [if_neg ha, if_neg ha, hE]
          constructor
          · rintro ⟨hab, m, n, h1, h2, h3⟩; exact ⟨hab, m, n, .inl h1, h2, h3⟩
          · rintro ⟨hab, m, n, h1 | ⟨rfl, h1⟩, h2, h3⟩
            · exact ⟨hab, m, n, h1, h2, h3⟩
            · exact absurd h2.symm ha
    have := ih (entry nm ord x e) _ _ hb hF
    refine ⟨this.nodup, ?_, ?_⟩
    · intro a
      rw [List.foldl_cons, this.keys]
      simp only [PyDict.keys, List.map_cons, List.mem_cons, or_assoc]
    · intro a b
      rw [List.foldl_cons, this.edges]
      have : ∀ m n, ((E m n ∨ m = e.1 ∧ n ∈ e.2) ∨ Edge g m n) ↔ (E m n ∨ Edge (e :: g) m n) := by
        intro m n
        simp only [Edge, List.mem_cons, exists_eq_or_imp, or_assoc]
      simp only [this]

/-- The map made in one level. -/
def mapOf (nm : Names N) (ord : List N → List N) (lv : N → Nat) (g : Graph N) (n : N) : N :=
  (PyDict.get? (g.foldl (entry nm ord) (⟨lv, []⟩, [])).1.map n).getD n

theorem pass_image (nm : Names N) {ord : List N → List N} (ho : ∀ l x, x ∈ ord l ↔ x ∈ l) (lv : N → Nat) (g : Graph N) :
    Image g (mapOf nm ord lv g) (pass nm ord lv g).2 ∧ (PyDict.keys (pass nm ord lv g).2).Nodup := by
  have hF : Agrees (g.foldl (entry nm ord) (⟨lv, []⟩, [])).1 (mapOf nm ord lv g) := by
    intro x y h; simp [mapOf, h]
  have h := fold_built nm ho (mapOf nm ord lv g) g (⟨lv, []⟩, []) (fun _ => False) (fun _ _ => False)
    ⟨by simp [PyDict.keys], by simp [PyDict.keys], by simp [PyDict.get?_nil]⟩ hF
  refine ⟨⟨fun a => ?_, fun a b => ?_⟩, h.nodup⟩
  · have := h.keys a
    simp only [false_or] at this
    exact this
  · have := h.edges a b
    simp only [false_or] at this
    exact (edge_get h.nodup).trans this

theorem Image.trans {g g1 g2 : Graph N} {f h : N → N} (i1 : Image g f g1) (i2 : Image g1 h g2) :
    Image g (h ∘ f) g2 := by
  refine ⟨fun a => ?_, fun a b => ?_⟩
  · rw [i2.1]
    constructor
    · rintro ⟨x, hx, rfl⟩
      obtain ⟨y, hy, rfl⟩ := (i1.1 x).1 hx
      exact ⟨y, hy, rfl⟩
    · rintro ⟨x, hx, rfl⟩
      exact ⟨f x, (i1.1 _).2 ⟨x, hx, rfl⟩, rfl⟩
  · rw [i2.2]
    constructor
    · rintro ⟨hab, x, y, he, rfl, rfl⟩
      obtain ⟨_, x', y', he', rfl, rfl⟩ := (i1.2 x y).1 he
      exact ⟨hab, x', y', he', rfl, rfl⟩
    · rintro ⟨hab, x, y, he, rfl, rfl⟩
      refine ⟨hab, f x, f y, (i1.2 _ _).2 ⟨fun h1 => hab (by simp [h1]), x, y, he, rfl, rfl⟩, rfl, rfl⟩

theorem Image.node {g g' : Graph N} {f : N → N} (i : Image g f g') {n : N} (h : Node g' n) :
    ∃ x, Node g x ∧ f x = n := by
  obtain ⟨e, he, rfl | hn⟩ := h
  · obtain ⟨x, hx, h1⟩ := (i.1 e.1).1 (List.mem_map.2 ⟨e, he, rfl⟩)
    obtain ⟨e', he', rfl⟩ := List.mem_map.1 hx
    exact ⟨e'.1, ⟨e', he', .inl rfl⟩, h1⟩
  · obtain ⟨_, x, y, ⟨e', he', rfl, hy⟩, _, h1⟩ := (i.2 e.1 n).1 ⟨e, he, rfl, hn⟩
    exact ⟨y, ⟨e', he', .inr hy⟩, h1⟩

theorem Image.node_map {g g' : Graph N} {f : N → N} (i : Image g f g') {x : N} (h : Node g x) : Node g' (f x) := by
  obtain ⟨e, he, hx⟩ := h
  have hk : Node g' (f e.1) := by
    obtain ⟨e', he', h1⟩ := List.mem_map.1 ((i.1 (f e.1)).2 ⟨e.1, List.mem_map.2 ⟨e, he, rfl⟩, rfl⟩)
    exact ⟨e', he', .inl h1.symm⟩
  rcases hx with rfl | hx
  · exact hk
  · by_cases h1 : f e.1 = f x
    · rw [← h1]; exact hk
    · obtain ⟨e', he', _, h2⟩ := (i.2 (f e.1) (f x)).2 ⟨h1, e.1, x, ⟨e, he, rfl, hx⟩, rfl, rfl⟩
      exact ⟨e', he', .inr h2⟩

/-! ## Ancestors -/

theorem up_succ {nm : Names N} {i : Nat} {n a : N} : up nm (i + 1) n = some a ↔
    ∃ b, up nm i n = some b ∧ nm.parent b = some a := by
  induction i generalizing n with
  | zero => simp [up]
  | succ i ih =>
    have h : up nm (i + 1 + 1) n = (nm.parent n).bind (up nm (i + 1)) := rfl
    have h' : up nm (i + 1) n = (nm.parent n).bind (up nm i) := rfl
    rw [h, h']
    cases nm.parent n with
    | none => simp
    | some p => simp only [Option.bind_some]; exact ih

theorem up_add {nm : Names N} {i j : Nat} {n b a : N} (h : up nm i n = some b) (h' : up nm j b = some a) :
    up nm (i + j) n = some a := by
  induction i generalizing n with
  | zero => simp only [up, Option.some.injEq] at h; subst h; simpa using h'
  | succ i ih =>
    simp only [up, Option.bind_eq_some_iff] at h
    obtain ⟨p, h1, h2⟩ := h
    have : i + 1 + j = (i + j) + 1 := by omega
    rw [this]
    simp only [up, h1, Option.bind_some]
    exact ih h2

theorem nodeUpdate_up (nm : Names N) (s : St N) (n : N)
    (h : ∀ x y, PyDict.get? s.map x = some y → x = y ∨ nm.parent x = some y) :
    ∀ x y, PyDict.get? (nodeUpdate nm s n).1.map x = some y → x = y ∨ nm.parent x = some y := by
  unfold nodeUpdate
  cases hm : PyDict.get? s.map n with
  | some m => exact h
  | none =>
    cases hp : nm.parent n with
    | none =>
      intro x y
      simp only [PyDict.get?_set]
      split
      next hx => intro he; simp only [Option.some.injEq] at he; exact .inl (hx.trans he)
      next => exact h x y
    | some p =>
      simp only
      split
      · intro x y
        simp only [PyDict.get?_set]
        split
        next hx => intro he; simp only [Option.some.injEq] at he; exact .inr (by rw [hx, hp, he])
        next => exact h x y
      · intro x y
        simp only [PyDict.get?_set]
        split
        next hx => intro he; simp only [Option.some.injEq] at he; exact .inl (hx.trans he)
        next => exact h x y

/-- Anything kept by `get_node_update` is kept by a level. -/
theorem fold_keeps {nm : Names N} {ord : List N → List N} (ho : ∀ l x, x ∈ ord l ↔ x ∈ l) {I : St N → Prop} {X : N → Prop}
    (hI : ∀ s n, X n → I s → I (nodeUpdate nm s n).1) (g : Graph N) (hX : ∀ n, Node g n → X n) (x : St N × Graph N)
    (h : I x.1) : I (g.foldl (entry nm ord) x).1 := by
  induction g generalizing x with
  | nil => exact h
  | cons e g ih =>
    rw [List.foldl_cons]
    refine ih (fun n ⟨e', he, hn⟩ => hX n ⟨e', by simp [he], hn⟩) _ ?_
    have hu : ∀ (l : List N) (s : St N), (∀ n ∈ l, X n) → I s → I (updates nm s l).1 := by
      intro l
      induction l with
      | nil => intro s _ hs; exact hs
      | cons n l ihl => intro s hl hs; exact ihl _ (fun m hm => hl m (by simp [hm])) (hI s n (hl n (by simp)) hs)
    exact hu _ _ (fun n hn => hX n ⟨e, by simp, .inr ((ho _ _).1 hn)⟩) (hI _ _ (hX _ ⟨e, by simp, .inl rfl⟩) h)

theorem mapOf_up (nm : Names N) {ord : List N → List N} (ho : ∀ l x, x ∈ ord l ↔ x ∈ l) (lv : N → Nat) (g : Graph N)
    (n : N) : mapOf nm ord lv g n = n ∨ nm.parent n = some (mapOf nm ord lv g n) := by
  have := fold_keeps (nm := nm) ho
    (I := fun s => ∀ x y, PyDict.get? s.map x = some y → x = y ∨ nm.parent x = some y) (X := fun _ => True)
    (fun s n _ h => nodeUpdate_up nm s n h) g (fun _ _ => trivial) (⟨lv, []⟩, []) (by simp [PyDict.get?_nil])
  unfold mapOf
  cases h : PyDict.get? (g.foldl (entry nm ord) (⟨lv, []⟩, [])).1.map n with
  | none => simp
  | some y => simp only [Option.getD_some]; exact (this n y h).imp Eq.symm id

theorem passes_image (nm : Names N) {ord : Nat → List N → List N} (ho : ∀ k l x, x ∈ ord k l ↔ x ∈ l) (lv : N → Nat)
    (g : Graph N) (k : Nat) :
    ∃ f : N → N, (∀ x, ∃ i, i ≤ k + 1 ∧ up nm i x = some (f x)) ∧ Image g f (passes nm ord (k + 1) (lv, g)).2 ∧
      (PyDict.keys (passes nm ord (k + 1) (lv, g)).2).Nodup := by
  have one (k : Nat) (lv : N → Nat) (g : Graph N) (n : N) :
      ∃ i, i ≤ 1 ∧ up nm i n = some (mapOf nm (ord k) lv g n) := by
    rcases mapOf_up nm (ho k) lv g n with h | h
    · exact ⟨0, by omega, by simp [up, h]⟩
    · exact ⟨1, by omega, by simp [up, h]⟩
  induction k with
  | zero =>
    have h := pass_image nm (ho 0) lv g
    exact ⟨_, one 0 lv g, h.1, h.2⟩
  | succ k ih =>
    obtain ⟨f, h1, h2, _⟩ := ih
    have h := pass_image nm (ho (k + 1)) (passes nm ord (k + 1) (lv, g)).1 (passes nm ord (k + 1) (lv, g)).2
    refine ⟨_, fun x => ?_, h2.trans h.1, h.2⟩
    obtain ⟨i, hi, h3⟩ := h1 x
    obtain ⟨j, hj, h4⟩ := one (k + 1) (passes nm ord (k + 1) (lv, g)).1 (passes nm ord (k + 1) (lv, g)).2 (f x)
    exact ⟨i + j, by omega, up_add h3 h4⟩

/-- **C72.**  Whatever graph and compact level: each node is shown as itself or as a component at most so many levels above it,
and the connections shown are exactly those between nodes which are shown apart.  Nothing is invented, nothing is lost. -/
theorem C72_image (nm : Names N) {ord : Nat → List N → List N} (ho : ∀ k l x, x ∈ ord k l ↔ x ∈ l) {g g' : Graph N}
    {level : Nat} (hl : 0 < level) (hg : g ≠ []) (e : compactify nm ord g level = some g') :
    ∃ f : N → N, (∀ x, ∃ i, i ≤ level ∧ up nm i x = some (f x)) ∧ Image g f g' ∧ (PyDict.keys g').Nodup := by
  unfold compactify at e
  rw [if_neg (by rintro (h | h); omega; exact hg h)] at e
  simp only [Option.ite_none_right_eq_some, Option.some.injEq] at e
  obtain ⟨_, rfl⟩ := e
  obtain ⟨k, rfl⟩ : ∃ k, level = k + 1 := ⟨level - 1, by omega⟩
  exact passes_image nm ho _ g k

/-- **C72.**  At level 0 the graph is shown as it is. -/
theorem C72_level_zero (nm : Names N) (ord : Nat → List N → List N) (g : Graph N) :
    compactify nm ord g 0 = some g := by simp [compactify]

/-- **C72.**  A graph is refused if and only if a node is part of another one. -/
theorem C72_refused (nm : Names N) (ord : Nat → List N → List N) (g : Graph N) {level : Nat} (hl : 0 < level) :
    compactify nm ord g level = none ↔ ∃ x y i, Node g x ∧ Node g y ∧ up nm (i + 1) y = some x := by
  have hlv : leaves nm g = false ↔ ∃ x y i, Node g x ∧ Node g y ∧ up nm (i + 1) y = some x := by
    rw [← Bool.not_eq_true, leaves_iff]
    constructor
    · intro h
      simp only [AtMost, Classical.not_forall] at h
      obtain ⟨x, hx, y, d, hy, hd, h1⟩ := h
      obtain ⟨i, rfl⟩ : ∃ i, d = i + 1 := ⟨d - 1, by omega⟩
      exact ⟨x, y, i, hx, hy, hd⟩
    · rintro ⟨x, y, i, hx, hy, hi⟩ h
      have := h x hx y (i + 1) hy hi
      omega
  unfold compactify
  by_cases hg : g = []
  · subst hg
    simp [Node]
  · rw [if_neg (by rintro (h | h); omega; exact hg h), ← hlv]
    cases leaves nm g <;> simp

/-! ## Which components are shown -/

/-- Where `get_node_update` sends a node, given the levels at the beginning of the pass. -/
def goes (nm : Names N) (lv : N → Nat) (n : N) : N :=
  match nm.parent n with
  | none => n
  | some p => if lv p = lv n + 1 then p else n

/-- What holds during a pass over the nodes `X`, no parent of which is in `X`. -/
structure During (nm : Names N) (X : N → Prop) (lv : N → Nat) (s : St N) : Prop where
  map : ∀ x y, PyDict.get? s.map x = some y → X x ∧ y = goes nm lv x
  other : ∀ a, ¬ X a → s.lv a = lv a
  todo : ∀ n, PyDict.get? s.map n = none → s.lv n = lv n
  stays : ∀ n p, X n → (PyDict.get? s.map n).isSome → nm.parent n = some p → lv p ≠ lv n + 1 →
    s.lv n = lv n + (lv n + 1)

theorem during_update {nm : Names N} {X : N → Prop} {lv : N → Nat} {s : St N} {n : N} (h : During nm X lv s) (hn : X n)
    (hX : ∀ n p, X n → nm.parent n = some p → ¬ X p) : During nm X lv (nodeUpdate nm s n).1 := by
  unfold nodeUpdate
  cases hm : PyDict.get? s.map n with
  | some m => exact h
  | none =>
    cases hp : nm.parent n with
    | none =>
      refine ⟨?_, h.other, ?_, ?_⟩
      · intro x y
        simp only [PyDict.get?_set]
        split
        next hx =>
          intro he; simp only [Option.some.injEq] at he
          subst hx; subst he; exact ⟨hn, by simp only [goes, hp]⟩
        next => exact h.map x y
      · intro x
        simp only [PyDict.get?_set]
        split
        · simp
        · exact h.todo x
      · intro x p hx
        simp only [PyDict.get?_set]
        split
        next hxn => subst hxn; simp [hp]
        next => exact h.stays x p hx
    | some p =>
      have e1 : s.lv p = lv p := h.other p (hX n p hn hp)
      have e2 : s.lv n = lv n := h.todo n hm
      simp only [e1, e2]
      split
      next hlv =>
        refine ⟨?_, h.other, ?_, ?_⟩
        · intro x y
          simp only [PyDict.get?_set]
          split
          next hx =>
            intro he; simp only [Option.some.injEq] at he
            subst hx; subst he; exact ⟨hn, by simp only [goes, hp, hlv, if_true]⟩
          next => exact h.map x y
        · intro x
          simp only [PyDict.get?_set]
          split
          · simp
          · exact h.todo x
        · intro x q hx
          simp only [PyDict.get?_set]
          split
          next hxn =>
            subst hxn
            intro _ hq hne
            rw [hp, Option.some.injEq] at hq
            subst hq
            exact absurd hlv hne
          next => exact h.stays x q hx
      next hlv =>
        refine ⟨?_, ?_, ?_, ?_⟩
        · intro x y
          simp only [PyDict.get?_set]
          split
          next hx =>
            intro he; simp only [Option.some.injEq] at he
            subst hx; subst he; exact ⟨hn, by simp only [goes, hp, hlv, if_false]⟩
          next => exact h.map x y
        · intro a ha
          simp only [put]
          split
          next han => subst han; exact absurd hn ha
          next => exact h.other a ha
        · intro x
          simp only [PyDict.get?_set, put]
          split
          · simp
          next hxn => exact h.todo x
        · intro x q hx
          simp only [PyDict.get?_set, put]
          split
          next hxn => subst hxn; intro _ _ _; rfl
          next => exact h.stays x q hx

theorem pass_during {nm : Names N} {ord : List N → List N} (ho : ∀ l x, x ∈ ord l ↔ x ∈ l) {lv : N → Nat} {g : Graph N}
    (hX : ∀ n p, Node g n → nm.parent n = some p → ¬ Node g p) :
    (∀ n, Node g n → mapOf nm ord lv g n = goes nm lv n) ∧
    (∀ a, ¬ Node g a → (pass nm ord lv g).1 a = lv a) ∧
    (∀ n p, Node g n → nm.parent n = some p → lv p ≠ lv n + 1 → (pass nm ord lv g).1 n = lv n + (lv n + 1)) := by
  have h : During nm (Node g) lv (g.foldl (entry nm ord) (⟨lv, []⟩, [])).1 :=
    fold_keeps ho (fun s n hn h => during_update h hn hX) g (fun n h => h) _
      ⟨by simp [PyDict.get?_nil], fun _ _ => rfl, fun _ _ => rfl, by simp [PyDict.get?_nil]⟩
  have hk := (fold_le nm ho g (⟨lv, []⟩, [])).2
  refine ⟨fun n hn => ?_, h.other, fun n p hn hp hne => h.stays n p hn (hk n hn) hp hne⟩
  have := hk n hn
  rw [Option.isSome_iff_exists] at this
  obtain ⟨m, hm⟩ := this
  unfold mapOf
  rw [hm, Option.getD_some]
  exact (h.map n m hm).2

theorem AtMost.child {nm : Names N} {g : Graph N} {b c : N} {k : Nat} (h : AtMost nm g b k)
    (hp : nm.parent c = some b) : AtMost nm g c k := by
  intro x d hx hd
  have := h x (d + 1) hx (up_succ.2 ⟨c, hd, hp⟩)
  omega

theorem AtMost.below {nm : Names N} {g : Graph N} {k i : Nat} {n a : N} (h : AtMost nm g a k)
    (hu : up nm i n = some a) : AtMost nm g n k := by
  induction i generalizing a with
  | zero => simp only [up, Option.some.injEq] at hu; subst hu; exact h
  | succ i ih =>
    obtain ⟨b, h1, h2⟩ := up_succ.1 hu
    exact ih (h.child h2) h1

theorem AtMost.mono {nm : Names N} {g : Graph N} {k k' : Nat} {a : N} (h : AtMost nm g a k) (hk : k ≤ k') :
    AtMost nm g a k' := fun x d hx hd => Nat.le_trans (h x d hx hd) hk

/-- Every component of a level above 2 has only parts of the level below. -/
def Even (nm : Names N) (g : Graph N) : Prop :=
  ∀ x i c b, Node g x → up nm i x = some c → nm.parent c = some b →
    AtMost nm g b 2 ∨ ∀ k, AtMost nm g c k → AtMost nm g b (k + 1)

/-- The state of `graph` and levels after `k` passes, when all went well. -/
structure Fine (nm : Names N) (g0 : Graph N) (k : Nat) (f : N → N) (lv : N → Nat) (g : Graph N) : Prop where
  nodes : ∀ n, Node g n → ∃ x, Node g0 x ∧ f x = n
  top : ∀ x, Node g0 x → IsTop nm g0 k x (f x)
  at_k : ∀ n p, Node g n → nm.parent n = some p → lv n = k
  above : ∀ n i a, Node g n → up nm (i + 1) n = some a → lv a = pipelineLevels nm g0 a

theorem Fine.above_not {nm : Names N} {g0 g : Graph N} {k : Nat} {f : N → N} {lv : N → Nat} (h : Fine nm g0 k f lv g)
    {n a : N} {i : Nat} (hn : Node g n) (hu : up nm (i + 1) n = some a) : ¬ AtMost nm g0 a k ∧ ¬ Node g a := by
  have h1 : ¬ AtMost nm g0 a k := by
    intro hA
    obtain ⟨x, hx, rfl⟩ := h.nodes n hn
    simp only [up, Option.bind_eq_some_iff] at hu
    obtain ⟨p, h1, h2⟩ := hu
    exact (h.top x hx).2.2 p h1 (hA.below h2)
  refine ⟨h1, fun ha => ?_⟩
  obtain ⟨y, hy, rfl⟩ := h.nodes a ha
  exact h1 (h.top y hy).2.1

theorem fine_top {nm : Names N} {g0 g : Graph N} {k : Nat} {f : N → N} {lv : N → Nat} (h : Fine nm g0 k f lv g)
    {ord : List N → List N} (ho : ∀ l x, x ∈ ord l ↔ x ∈ l) (hf : ∀ x, Node g0 x → Node g (f x)) :
    ∀ x, Node g0 x → IsTop nm g0 (k + 1) x (mapOf nm ord lv g (f x)) := by
  have hd := pass_during (nm := nm) (ord := ord) ho (lv := lv) (g := g)
    (fun n p hn hp => (h.above_not hn (i := 0) (by simp [up, hp])).2)
  intro x hx
  obtain ⟨⟨i, hi⟩, h2, h3⟩ := h.top x hx
  rw [hd.1 _ (hf x hx)]
  unfold goes
  cases hp : nm.parent (f x) with
  | none => exact ⟨⟨i, hi⟩, h2.mono (by omega), by simp [hp]⟩
  | some p =>
    have e1 := h.at_k (f x) p (hf x hx) hp
    have e2 := h.above (f x) 0 p (hf x hx) (by simp [up, hp])
    have hp1 : ¬ AtMost nm g0 p k := h3 p hp
    simp only [e1, e2]
    split
    next hlv =>
      refine ⟨⟨i + 1, up_succ.2 ⟨_, hi, hp⟩⟩, levels_le.1 (by omega), fun b hb hA => hp1 ?_⟩
      intro y d hy hd
      have := hA y (d + 1) hy (up_succ.2 ⟨p, hd, hb⟩)
      omega
    next hlv =>
      refine ⟨⟨i, hi⟩, h2.mono (by omega), fun b hb hA => ?_⟩
      rw [hp, Option.some.injEq] at hb
      subst hb
      have h4 := levels_le.2 hA
      rw [← levels_le] at hp1
      omega

theorem fine_pass {nm : Names N} {g0 g : Graph N} {k : Nat} {f : N → N} {lv : N → Nat} (h : Fine nm g0 k f lv g)
    {ord : List N → List N} (ho : ∀ l x, x ∈ ord l ↔ x ∈ l) (hf : ∀ x, Node g0 x → Node g (f x))
    (he : k = 0 ∨ Even nm g0) :
    Fine nm g0 (k + 1) (mapOf nm ord lv g ∘ f) (pass nm ord lv g).1 (pass nm ord lv g).2 := by
  have hd := pass_during (nm := nm) (ord := ord) ho (lv := lv) (g := g)
    (fun n p hn hp => (h.above_not hn (i := 0) (by simp [up, hp])).2)
  have hi := (pass_image nm ho lv g).1
  have ht := fine_top h ho hf
  refine ⟨?_, ht, ?_, ?_⟩
  · intro n hn
    obtain ⟨m, hm, h1⟩ := hi.node hn
    obtain ⟨x, hx, rfl⟩ := h.nodes m hm
    exact ⟨x, hx, h1⟩
  · intro n p hn hp
    obtain ⟨m, hm, h1⟩ := hi.node hn
    rw [hd.1 m hm] at h1
    unfold goes at h1
    cases hq : nm.parent m with
    | none => simp only [hq] at h1; subst h1; rw [hq] at hp; simp at hp
    | some q =>
      have e1 := h.at_k m q hm hq
      have e2 := h.above m 0 q hm (by simp [up, hq])
      have n1 := h.above_not hm (i := 0) (a := q) (by simp [up, hq])
      simp only [hq] at h1
      split at h1
      next hlv =>
        subst h1
        rw [hd.2.1 _ n1.2, e2]
        omega
      next hlv =>
        subst h1
        rw [hd.2.2 m q hm hq hlv, e1]
        by_cases hk : k = 0
        · subst hk; rfl
        · exfalso
          obtain ⟨x, hx, rfl⟩ := h.nodes m hm
          obtain ⟨⟨i, hi⟩, h2, h3⟩ := h.top x hx
          have n2 : ¬ AtMost nm g0 q (k + 1) := by
            rw [← levels_le]
            have := n1.1
            rw [← levels_le] at this
            omega
          rcases (he.resolve_left hk) x i _ q hx hi hq with h4 | h4
          · exact n2 (h4.mono (by omega))
          · exact n2 (h4 k h2)
  · intro n i a hn hu
    obtain ⟨m, hm, h1⟩ := hi.node hn
    have key : ∃ j, up nm (j + 1) m = some a := by
      rcases mapOf_up nm ho lv g m with h2 | h2
      · rw [h2] at h1; subst h1; exact ⟨i, hu⟩
      · rw [h1] at h2; exact ⟨i + 1, by show (nm.parent m).bind _ = _; rw [h2]; exact hu⟩
    obtain ⟨j, hj⟩ := key
    rw [hd.2.1 a (h.above_not hm hj).2]
    exact h.above m j a hm hj

theorem fine_start {nm : Names N} {g : Graph N} (h : leaves nm g = true) :
    Fine nm g 0 id (pipelineLevels nm g) g := by
  rw [leaves_iff] at h
  refine ⟨fun n hn => ⟨n, hn, rfl⟩, fun x hx => ⟨⟨0, rfl⟩, h x hx, ?_⟩, ?_, fun _ _ _ _ _ => rfl⟩
  · intro b hb hA
    have := hA x 1 hx (by simp only [id] at hb; simp [up, hb])
    omega
  · intro n p hn _
    have := levels_le.2 (h n hn)
    omega

theorem passes_fine {nm : Names N} {ord : Nat → List N → List N} (ho : ∀ k l x, x ∈ ord k l ↔ x ∈ l) {g : Graph N}
    (h : leaves nm g = true) (k : Nat) (he : k ≤ 1 ∨ Even nm g) :
    ∃ f, Fine nm g k f (passes nm ord k (pipelineLevels nm g, g)).1 (passes nm ord k (pipelineLevels nm g, g)).2 ∧
      (∀ x, Node g x → Node (passes nm ord k (pipelineLevels nm g, g)).2 (f x)) ∧
      ∀ m g', Image (passes nm ord k (pipelineLevels nm g, g)).2 m g' → Image g (m ∘ f) g' := by
  induction k with
  | zero => exact ⟨id, fine_start h, fun x hx => hx, fun m g' i => i⟩
  | succ k ih =>
    obtain ⟨f, h1, h2, h3⟩ := ih (he.imp (by omega) id)
    have hi := (pass_image nm (ho k) (passes nm ord k (pipelineLevels nm g, g)).1
      (passes nm ord k (pipelineLevels nm g, g)).2).1
    exact ⟨_, fine_pass h1 (ho k) h2 (he.imp (by omega) id), fun x hx => hi.node_map (h2 x hx),
      fun m g' i => h3 _ g' (hi.trans i)⟩

/-- **C72** (partial: for levels above 2, only graphs in which every component of a level above 2 has parts of the level just
below only).  Each node is shown as the topmost component above it whose level is at most the compact level. -/
theorem C72_topmost_partial {nm : Names N} {ord : Nat → List N → List N} (ho : ∀ k l x, x ∈ ord k l ↔ x ∈ l)
    {g g' : Graph N} {level : Nat} (hl : 0 < level) (he : level ≤ 2 ∨ Even nm g)
    (e : compactify nm ord g level = some g') :
    ∃ f : N → N, (∀ x, Node g x → IsTop nm g level x (f x)) ∧ Image g f g' := by
  unfold compactify at e
  by_cases hg : g = []
  · subst hg
    rw [if_pos (.inr rfl), Option.some.injEq] at e
    subst e
    exact ⟨id, by simp [Node], by simp [Image, Edge, PyDict.keys]⟩
  · rw [if_neg (by rintro (h | h); omega; exact hg h)] at e
    simp only [Option.ite_none_right_eq_some, Option.some.injEq] at e
    obtain ⟨hv, rfl⟩ := e
    obtain ⟨k, rfl⟩ : ∃ k, level = k + 1 := ⟨level - 1, by omega⟩
    obtain ⟨f, h1, h2, h3⟩ := passes_fine ho hv k (he.imp (by omega) id)
    exact ⟨_, fine_top h1 (ho k) h2, h3 _ _ (pass_image nm (ho k) _ _).1⟩

theorem isTop_unique {nm : Names N} {g : Graph N} {k : Nat} {x a b : N} (ha : IsTop nm g k x a) (hb : IsTop nm g k x b) :
    a = b := by
  have key : ∀ {i j : Nat} {a b : N}, i < j → up nm i x = some a → up nm j x = some b →
      (∀ c, nm.parent a = some c → ¬ AtMost nm g c k) → AtMost nm g b k → False := by
    intro i j a b hij h1 h2 h3 h4
    obtain ⟨d, rfl⟩ : ∃ d, j = (i + 1) + d := ⟨j - i - 1, by omega⟩
    have : ∃ c, nm.parent a = some c ∧ up nm d c = some b := by
      clear h3 h4 hij ha hb
      induction i generalizing x with
      | zero =>
        simp only [up, Option.some.injEq] at h1
        subst h1
        rw [show 0 + 1 + d = d + 1 by omega] at h2
        simp only [up, Option.bind_eq_some_iff] at h2
        exact h2
      | succ i ih =>
        rw [show i + 1 + 1 + d = (i + 1 + d) + 1 by omega] at h2
        simp only [up, Option.bind_eq_some_iff] at h1 h2
        obtain ⟨p, hp, h1⟩ := h1
        obtain ⟨q, hq, h2⟩ := h2
        rw [hp, Option.some.injEq] at hq
        subst hq
        exact ih h1 h2
    obtain ⟨c, hc, hd⟩ := this
    exact h3 c hc (h4.below hd)
  obtain ⟨⟨i, hi⟩, h1, h2⟩ := ha
  obtain ⟨⟨j, hj⟩, h3, h4⟩ := hb
  rcases Nat.lt_trichotomy i j with h | h | h
  · exact (key h hi hj h2 h3).elim
  · subst h; rw [hi, Option.some.injEq] at hj; exact hj
  · exact (key h hj hi h4 h1).elim

/-- **C72** (partial: as `C72_topmost_partial`).  No node shown is part of another node shown, so the graph shown could be
compactified further, or drawn. -/
theorem C72_leaves_partial {nm : Names N} {ord : Nat → List N → List N} (ho : ∀ k l x, x ∈ ord k l ↔ x ∈ l)
    {g g' : Graph N} {level : Nat} (hl : 0 < level) (he : level ≤ 2 ∨ Even nm g)
    (e : compactify nm ord g level = some g') {a b : N} {i : Nat} (ha : Node g' a) (hb : Node g' b)
    (hu : up nm (i + 1) b = some a) : False := by
  obtain ⟨f, h1, h2⟩ := C72_topmost_partial ho hl he e
  obtain ⟨x, hx, rfl⟩ := h2.node ha
  obtain ⟨y, hy, rfl⟩ := h2.node hb
  simp only [up, Option.bind_eq_some_iff] at hu
  obtain ⟨p, hp, hu⟩ := hu
  exact (h1 y hy).2.2 p hp ((h1 x hx).2.1.below hu)

/-! ## Paths -/

/-- Names as the sequences of their parts, the last one first. -/
def paths : Names (List String) where
  parent
    | _ :: b :: l => some (b :: l)
    | _ => none
  size := List.length
  lt := by
    intro n p h
    match n, h with
    | _ :: b :: l, h => simp only [Option.some.injEq] at h; subst h; simp

/-- `SYS/IN → SYS/A/B/X`, `SYS/A/B/X → SYS/A/B/Y`. -/
def deep : Graph (List String) :=
  [(["IN", "SYS"], [["X", "B", "A", "SYS"]]), (["X", "B", "A", "SYS"], [["Y", "B", "A", "SYS"]]),
   (["Y", "B", "A", "SYS"], [])]

/-- Level 2 works. -/
example : compactify paths (fun _ l => l) deep 2 =
    some [(["IN", "SYS"], [["A", "SYS"]]), (["A", "SYS"], [])] := by decide

example : ∃ f : List String → List String, (∀ x, Node deep x → IsTop paths deep 2 x (f x)) ∧
    Image deep f [(["IN", "SYS"], [["A", "SYS"]]), (["A", "SYS"], [])] :=
  C72_topmost_partial (ord := fun _ l => l) (fun _ _ _ => Iff.rfl) (by decide) (.inl (by decide)) (by decide)

/-- A unit beside a subsystem of level 2 at compact level 3: the node is never merged into the system. -/
theorem stuck : compactify paths (fun _ l => l) deep 3 = some [(["IN", "SYS"], [["SYS"]]), (["SYS"], [])] := by decide

/-- `SYS/IN → SYS/A/B/C/X`. -/
def deeper : Graph (List String) :=
  [(["IN", "SYS"], [["X", "C", "B", "A", "SYS"]]), (["X", "C", "B", "A", "SYS"], [])]

/-- A unit beside a subsystem of level 3 at compact level 3: the node is merged into the system too early, and the
subsystem is not. -/
theorem early : compactify paths (fun _ l => l) deeper 3 = some [(["SYS"], [["A", "SYS"]]), (["A", "SYS"], [])] := by decide

theorem mem_paths {x : List String} : Node deep x →
    x = ["IN", "SYS"] ∨ x = ["X", "B", "A", "SYS"] ∨ x = ["Y", "B", "A", "SYS"] := by
  rintro ⟨e, he, hx⟩
  simp [deep] at he
  rcases he with rfl | rfl | rfl <;> simp at hx <;> grind

/-- **C72** fails: what is shown need not be the topmost components of the compact level, and of the nodes shown one can be
part of another. -/
theorem C72_topmost_fails :
    (∃ g', compactify paths (fun _ l => l) deep 3 = some g' ∧
      (∃ a b, Node g' a ∧ Node g' b ∧ paths.parent b = some a) ∧
      ¬ ∃ f : List String → List String, (∀ x, Node deep x → IsTop paths deep 3 x (f x)) ∧ Image deep f g') ∧
    (∃ g', compactify paths (fun _ l => l) deeper 3 = some g' ∧
      ∃ a, Node g' a ∧ ¬ AtMost paths deeper a 3) := by
  refine ⟨⟨_, stuck, ⟨["SYS"], ["IN", "SYS"], ⟨_, List.mem_cons_self, .inr (by simp)⟩,
    ⟨_, List.mem_cons_self, .inl rfl⟩, rfl⟩, ?_⟩, ⟨_, early, ["SYS"], ⟨_, List.mem_cons_self, .inl rfl⟩, ?_⟩⟩
  · rintro ⟨f, h1, h2⟩
    obtain ⟨x, hx, h3⟩ := h2.node (n := ["IN", "SYS"]) ⟨_, List.mem_cons_self, .inl rfl⟩
    have h4 := (h1 x hx).2.2 ["SYS"] (by rw [h3]; rfl)
    obtain ⟨y, hy, h5⟩ := h2.node (n := ["SYS"]) ⟨_, List.mem_cons_self, .inr (by simp)⟩
    have h6 := (h1 y hy).2.1
    rw [h5] at h6
    exact h4 h6
  · intro h
    have := h ["X", "C", "B", "A", "SYS"] 4 ⟨_, List.mem_cons_of_mem _ List.mem_cons_self, .inl rfl⟩ rfl
    omega

/-- A graph of depth 3 which is even, at compact level 3: all is one node. -/
def level3 : Graph (List String) :=
  [(["X", "B", "A", "SYS"], [["Y", "B", "A", "SYS"]]), (["Y", "B", "A", "SYS"], [])]

theorem up_size {nm : Names N} {d : Nat} {x b : N} (h : up nm d x = some b) : d + nm.size b ≤ nm.size x := by
  induction d generalizing x with
  | zero => simp only [up, Option.some.injEq] at h; subst h; omega
  | succ d ih =>
    simp only [up, Option.bind_eq_some_iff] at h
    obtain ⟨p, hp, h⟩ := h
    have := nm.lt x p hp
    have := ih h
    omega

theorem level3_even : Even paths level3 := by
  have node : ∀ {x : List String}, Node level3 x → x = ["X", "B", "A", "SYS"] ∨ x = ["Y", "B", "A", "SYS"] := by
    rintro x ⟨e, he, hx⟩
    simp [level3] at he
    rcases he with rfl | rfl <;> simp at hx <;> grind
  have size : ∀ {x : List String} {d : Nat} {b : List String}, Node level3 x → up paths d x = some b →
      d + b.length ≤ 4 := by
    intro x d b hx hd
    have := up_size hd
    rcases node hx with rfl | rfl <;> simpa [paths] using this
  intro x i c b hx hc hb
  have hb' := size hx (up_succ.2 ⟨c, hc, hb⟩)
  have hl : b.length + 1 = c.length := by
    match c, hb with
    | _ :: b' :: l, hb => simp only [paths, Option.some.injEq] at hb; subst hb; simp
  have hlc : 0 < c.length := by omega
  by_cases h : 2 ≤ b.length
  · exact .inl fun y d hy hd => by have := size hy hd; omega
  · refine .inr fun k hk y d hy hd => ?_
    have h2 : 2 ≤ i := by
      have hi : x.length ≤ i + c.length := by
        clear hk hd hy hb hb' hl h
        have hx' := node hx
        clear hx
        match i, hc with
        | 0, hc => simp only [up, Option.some.injEq] at hc; subst hc; omega
        | 1, hc => rcases hx' with rfl | rfl <;> simp [up, paths] at hc <;> subst hc <;> simp
        | 2, hc => rcases hx' with rfl | rfl <;> simp [up, paths] at hc <;> subst hc <;> simp
        | i + 3, hc =>
          have hc0 : 0 < c.length := hlc
          rcases hx' with rfl | rfl <;> simp <;> omega
      have : x.length = 4 := by rcases node hx with rfl | rfl <;> rfl
      omega
    have := hk x i hx hc
    have := size hy hd
    have : 0 < b.length := by
      match c, hb with
      | _ :: b' :: l, hb => simp only [paths, Option.some.injEq] at hb; subst hb; simp
    omega

example : compactify paths (fun _ l => l) level3 3 = some [(["SYS"], [])] := by decide

example : ∃ f : List String → List String, (∀ x, Node level3 x → IsTop paths level3 3 x (f x)) ∧
    Image level3 f [(["SYS"], [])] :=
  C72_topmost_partial (ord := fun _ l => l) (fun _ _ _ => Iff.rfl) (by decide) (.inr level3_even) (by decide)

/-- A node which is part of another one. -/
example : compactify paths (fun _ l => l) [(["A"], [["X", "A"]]), (["X", "A"], [])] 1 = none := by decide

end Compact
end Ez
