/-!
# Python containers used by the models

A Python `set` is modelled by a list; only membership (and emptiness) is ever observed.
`insert` keeps the list duplicate free, `discard` removes every copy.
-/

namespace Ez

/-- A Python `set`. -/
abbrev PySet (α : Type) := List α

namespace PySet

variable {α : Type} [DecidableEq α]

/-- `s.add(x)` -/
def add (s : PySet α) (x : α) : PySet α := if x ∈ s then s else s ++ [x]

/-- `s.discard(x)` -/
def discard (s : PySet α) (x : α) : PySet α := s.filter (fun y => decide (y ≠ x))

@[simp] theorem mem_add {s : PySet α} {x y : α} : y ∈ add s x ↔ y ∈ s ∨ y = x := by
  unfold add
  split
  · constructor
    · intro h; exact Or.inl h
    · rintro (h | h)
      · exact h
      · subst h; assumption
  · simp

@[simp] theorem mem_discard {s : PySet α} {x y : α} : y ∈ discard s x ↔ y ∈ s ∧ y ≠ x := by
  simp [discard]

theorem nodup_add {s : PySet α} {x : α} (h : s.Nodup) : (add s x).Nodup := by
  unfold add
  split
  · exact h
  · rename_i hx
    rw [List.nodup_append]
    refine ⟨h, by simp, ?_⟩
    intro a ha b hb
    simp at hb
    subst hb
    intro hab
    subst hab
    exact hx ha

theorem nodup_discard {s : PySet α} {x : α} (h : s.Nodup) : (discard s x).Nodup :=
  h.filter _

end PySet

/-- A Python `dict` in insertion order. Keys are kept unique by the operations below. -/
abbrev PyDict (K V : Type) := List (K × V)

namespace PyDict
variable {K V : Type} [DecidableEq K]

/-- `d.get(k)` (`none` when absent) -/
def get? (d : PyDict K V) (k : K) : Option V := (d.find? (fun p => decide (p.1 = k))).map (·.2)

/-- `d.setdefault(k, v)` (also a `defaultdict` access `d[k]` with default `v`) -/
def setdefault (d : PyDict K V) (k : K) (v : V) : PyDict K V :=
  if (get? d k).isSome then d else d ++ [(k, v)]

/-- In-place change of the value stored under `k`; nothing happens if `k` is absent. -/
def modify (d : PyDict K V) (k : K) (f : V → V) : PyDict K V :=
  d.map (fun p => if p.1 = k then (p.1, f p.2) else p)

/-- `d[k] = v` -/
def set (d : PyDict K V) (k : K) (v : V) : PyDict K V :=
  if (get? d k).isSome then modify d k (fun _ => v) else d ++ [(k, v)]

/-- `d.pop(k, None)` / `del d[k]` for a present key -/
def pop (d : PyDict K V) (k : K) : PyDict K V := d.filter (fun p => decide (p.1 ≠ k))

/-- `d.keys()` -/
def keys (d : PyDict K V) : List K := d.map (·.1)

end PyDict

end Ez
