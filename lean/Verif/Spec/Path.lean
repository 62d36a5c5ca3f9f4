/-!
# Paths of a relation

A small specification used by the graph properties.
-/

namespace Ez

/-- `Path E a b`: `b` is reached from `a` by one or more steps of `E`. -/
inductive Path {T : Type} (E : T → T → Prop) : T → T → Prop where
  | single {a b : T} : E a b → Path E a b
  | cons {a b c : T} : E a b → Path E b c → Path E a c

/-- `Reaches E a b`: zero or more steps. -/
def Reaches {T : Type} (E : T → T → Prop) (a b : T) : Prop := a = b ∨ Path E a b

namespace Path
variable {T : Type} {E F : T → T → Prop}

theorem trans {a b c : T} (h1 : Path E a b) (h2 : Path E b c) : Path E a c := by
  induction h1 with
  | single h => exact .cons h h2
  | cons h _ ih => exact .cons h (ih h2)

theorem snoc {a b c : T} (h1 : Path E a b) (h2 : E b c) : Path E a c := h1.trans (.single h2)

theorem mono (h : ∀ a b, E a b → F a b) {a b : T} (p : Path E a b) : Path F a b := by
  induction p with
  | single e => exact .single (h _ _ e)
  | cons e _ ih => exact .cons (h _ _ e) ih

theorem reverse {a b : T} (p : Path E a b) : Path (fun x y => E y x) b a := by
  induction p with
  | single e => exact .single e
  | cons e _ ih => exact ih.snoc e

/-- The last step. -/
theorem last {a b : T} (p : Path E a b) : E a b ∨ ∃ c, Path E a c ∧ E c b := by
  induction p with
  | single e => exact Or.inl e
  | cons e p ih =>
    rcases ih with h | ⟨c, h1, h2⟩
    · exact Or.inr ⟨_, .single e, h⟩
    · exact Or.inr ⟨c, .cons e h1, h2⟩

/-- The first step. -/
theorem first {a b : T} (p : Path E a b) : E a b ∨ ∃ c, E a c ∧ Path E c b := by
  cases p with
  | single e => exact Or.inl e
  | cons e p => exact Or.inr ⟨_, e, p⟩

theorem congr (h : ∀ a b, E a b ↔ F a b) {a b : T} : Path E a b ↔ Path F a b :=
  ⟨mono (fun a b => (h a b).1), mono (fun a b => (h a b).2)⟩

/-- A path in a relation extended by one edge `(u, v)` either avoids it or passes through it. -/
theorem of_insert {u v a b : T} (p : Path (fun x y => E x y ∨ (x = u ∧ y = v)) a b) :
    Path E a b ∨ (Reaches E a u ∧ Reaches E v b) := by
  induction p with
  | single e =>
    rcases e with e | ⟨rfl, rfl⟩
    · exact Or.inl (.single e)
    · exact Or.inr ⟨Or.inl rfl, Or.inl rfl⟩
  | cons e p ih =>
    rcases e with e | ⟨rfl, rfl⟩
    · rcases ih with h | ⟨h1, h2⟩
      · exact Or.inl (.cons e h)
      · refine Or.inr ⟨?_, h2⟩
        rcases h1 with rfl | h1
        · exact Or.inr (.single e)
        · exact Or.inr (.cons e h1)
    · rcases ih with h | ⟨_, h2⟩
      · exact Or.inr ⟨Or.inl rfl, Or.inr h⟩
      · exact Or.inr ⟨Or.inl rfl, h2⟩

end Path

theorem Reaches.trans {T : Type} {E : T → T → Prop} {a b c : T} (h1 : Reaches E a b)
    (h2 : Reaches E b c) : Reaches E a c := by
  rcases h1 with rfl | h1
  · exact h2
  · rcases h2 with rfl | h2
    · exact Or.inr h1
    · exact Or.inr (h1.trans h2)

theorem Reaches.mono {T : Type} {E F : T → T → Prop} (h : ∀ a b, E a b → F a b) {a b : T}
    (p : Reaches E a b) : Reaches F a b := by
  rcases p with rfl | p
  · exact Or.inl rfl
  · exact Or.inr (p.mono h)

end Ez
