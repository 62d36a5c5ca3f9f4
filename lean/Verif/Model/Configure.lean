/-!
# How settings reach the components of a system

Source: `src/ezmsg/core/backend.py`: `crawl_components` (75-87), the calls of `network`, `process_components` and `configure` in
`ExecutionContext.setup` (258-270, 297-306), `collect_processes` and `_collect_processes` (982-1032);
`Component.apply_settings` (`component.py:170-181`), `Collection.configure`, `network` and `process_components` (`collection.py:68-102`).

Every component has an identity and a current value of `SETTINGS`. What the three methods of a collection return or do is a function
of the current settings of the collection; `configure` calls `apply_settings` on components of its choice, in order.

Simplifications:
* The methods do not raise, do not look at anything but the settings of their own collection, and do not change the tree.
* The relay units (206-255, 308-314), which have no settings of the user, are left out.
* From the order of the calls of `process_components` only their results are kept.
-/

namespace Ez
namespace Configure

/-- A component: a unit (`coll = false`) or a collection with its methods and components. `N`: what `network` returns; `P`: what
`process_components` returns. -/
inductive Comp (K S N P : Type) where
  | mk (id : K) (coll : Bool) (configure : S → List (K × S)) (network : S → N) (procs : S → P) (children : List (Comp K S N P))

variable {K S N P : Type}

def Comp.id : Comp K S N P → K | .mk i _ _ _ _ _ => i
def Comp.coll : Comp K S N P → Bool | .mk _ b _ _ _ _ => b
def Comp.configure : Comp K S N P → S → List (K × S) | .mk _ _ f _ _ _ => f
def Comp.network : Comp K S N P → S → N | .mk _ _ _ f _ _ => f
def Comp.procs : Comp K S N P → S → P | .mk _ _ _ _ f _ => f
def Comp.children : Comp K S N P → List (Comp K S N P) | .mk _ _ _ _ _ cs => cs

mutual
/-- The number of components in a tree. -/
def size : Comp K S N P → Nat
  | .mk _ _ _ _ _ cs => sizes cs + 1
/-- The number of components in a list of trees. -/
def sizes : List (Comp K S N P) → Nat
  | [] => 0
  | c :: cs => size c + sizes cs
end

theorem size_eq (c : Comp K S N P) : size c = sizes c.children + 1 := by
  cases c with
  | mk _ _ _ _ _ cs => simp only [size, Comp.children]

theorem sizes_append (a b : List (Comp K S N P)) : sizes (a ++ b) = sizes a + sizes b := by
  induction a with
  | nil => simp [sizes]
  | cons x a ih => simp only [List.cons_append, sizes, ih]; omega

theorem sizes_reverse (a : List (Comp K S N P)) : sizes a.reverse = sizes a := by
  induction a with
  | nil => rfl
  | cons x a ih => simp only [List.reverse_cons, sizes_append, ih, sizes]; omega

/-- The loop of `crawl_components`, backend.py:79-87; the list is `search` from its end. -/
def crawl : List (Comp K S N P) → List (Comp K S N P)
  | [] => []
  | c :: search => c :: crawl (c.children.reverse ++ search)
termination_by search => sizes search
decreasing_by
  simp only [sizes_append, sizes_reverse, sizes, size_eq c]
  omega

/-- `apply_settings`, component.py:170-181. -/
def apply [DecidableEq K] (σ : K → S) (x : K × S) : K → S := fun k => if k = x.1 then x.2 else σ k

/-- `configure_collections`, backend.py:302-304, for one component. -/
def configureOne [DecidableEq K] (σ : K → S) (c : Comp K S N P) : K → S :=
  if c.coll then (c.configure (σ c.id)).foldl apply σ else σ

/-- The result of `setup` as far as settings matter. `calls`: the calls of `configure`, with the settings of the collection at that
moment. -/
structure Result (K S N P : Type) where
  networks : List (K × N)
  procs : List (K × P)
  calls : List (K × S)
  final : K → S

/-- The components in the order in which the callbacks see them: the roots that are collections, backend.py:268-270, 299-306. -/
def visited (roots : List (Comp K S N P)) : List (Comp K S N P) :=
  (roots.filter (·.coll)).flatMap fun c => crawl [c]

/-- The calls of `configure` one after the other: 299-306. -/
def configureAll [DecidableEq K] : List (Comp K S N P) → (K → S) → List (K × S) × (K → S)
  | [], σ => ([], σ)
  | c :: cs, σ =>
    let r := configureAll cs (configureOne σ c)
    (if c.coll then (c.id, σ c.id) :: r.1 else r.1, r.2)

/-- `setup`: first the networks (268-270), then the processes (297, all collections among the components), then `configure`. -/
def setup [DecidableEq K] (roots : List (Comp K S N P)) (σ : K → S) : Result K S N P :=
  let vs := visited roots
  let cs := vs.filter (·.coll)
  let r := configureAll vs σ
  { networks := cs.map fun c => (c.id, c.network (σ c.id))
    procs := cs.map fun c => (c.id, c.procs (σ c.id))
    calls := r.1
    final := r.2 }

end Configure
end Ez
