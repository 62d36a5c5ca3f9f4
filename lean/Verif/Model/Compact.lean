import Verif.Model.Dag

/-!
# Compact graphs (`src/ezmsg/core/graph_util.py:50-180`)

Names are of any type with a parent (`none` for the empty string) and a size which is smaller for the parent, as the
length of a string is.  Sets are iterated in any order (`ord`).
-/

namespace Ez
namespace Compact

/-- Names of components: `_get_parent_node` (graph_util.py:94-95), the empty string being `none`. -/
structure Names (N : Type) where
  parent : N → Option N
  size : N → Nat
  lt : ∀ n p, parent n = some p → size p < size n

variable {N : Type} [DecidableEq N]

/-- Assignment to an entry of `graph_levels`. -/
def put (lv : N → Nat) (n : N) (k : Nat) : N → Nat := fun x => if x = n then k else lv x

/-- `update_level` (:75-84): the node gets at least the level `d`, its parent `d + 1`, and so on.  The loop ends because
names get shorter; `fuel` is the size of the name. -/
def climb (nm : Names N) : Nat → (N → Nat) → N → Nat → N → Nat
  | 0, lv, n, d => put lv n (max (lv n) d)
  | fuel + 1, lv, n, d =>
    match nm.parent n with
    | none => put lv n (max (lv n) d)
    | some p => climb nm fuel (put lv n (max (lv n) d)) p (d + 1)

/-- `update_level` of a node (:80-84). -/
def updateLevel (nm : Names N) (lv : N → Nat) (n : N) : N → Nat := climb nm (nm.size n) lv n 0

/-- `_pipeline_levels` (:50-91). -/
def pipelineLevels (nm : Names N) (g : Graph N) : N → Nat :=
  g.foldl (fun lv e => e.2.foldl (updateLevel nm) (updateLevel nm lv e.1)) (fun _ => 0)

/-- `_validate_connections_are_leaf_nodes` (:164-180); `false` if `LeafNodeException` is raised. -/
def leaves (nm : Names N) (g : Graph N) : Bool :=
  g.all (fun e => (e.1 :: e.2).all (fun n => decide (pipelineLevels nm g n = 0)))

/-- `graph_levels` and `update_node_map` (:125-127, :151). -/
structure St (N : Type) where
  lv : N → Nat
  map : PyDict N N

/-- `get_node_update` (:132-147). -/
def nodeUpdate (nm : Names N) (s : St N) (n : N) : St N × N :=
  match PyDict.get? s.map n with
  | some m => (s, m)
  | none =>
    match nm.parent n with
    | none => ({ s with map := PyDict.set s.map n n }, n)
    | some p =>
      if s.lv p = s.lv n + 1 then ({ s with map := PyDict.set s.map n p }, p)
      else ({ lv := put s.lv n (s.lv n + (s.lv n + 1)), map := PyDict.set s.map n n }, n)

/-- `[get_node_update(conn) for conn in conns]` (:155). -/
def updates (nm : Names N) : St N → List N → St N × List N
  | s, [] => (s, [])
  | s, n :: ns =>
    ((updates nm (nodeUpdate nm s n).1 ns).1, (nodeUpdate nm s n).2 :: (updates nm (nodeUpdate nm s n).1 ns).2)

/-- The body of the loop (:154-157): `temp[source] |= set(targets)`, `temp[source].discard(source)`. -/
def entry (nm : Names N) (ord : List N → List N) (x : St N × Graph N) (e : N × PySet N) : St N × Graph N :=
  ((updates nm (nodeUpdate nm x.1 e.1).1 (ord e.2)).1,
    PyDict.modify (PyDict.setdefault x.2 (nodeUpdate nm x.1 e.1).2 []) (nodeUpdate nm x.1 e.1).2
      (fun old => PySet.discard
        ((updates nm (nodeUpdate nm x.1 e.1).1 (ord e.2)).2.foldl PySet.add old) (nodeUpdate nm x.1 e.1).2))

/-- One level (:151-159). -/
def pass (nm : Names N) (ord : List N → List N) (lv : N → Nat) (g : Graph N) : (N → Nat) × Graph N :=
  ((g.foldl (entry nm ord) (⟨lv, []⟩, [])).1.lv, (g.foldl (entry nm ord) (⟨lv, []⟩, [])).2)

/-- The loop over levels (:149-159). -/
def passes (nm : Names N) (ord : Nat → List N → List N) : Nat → (N → Nat) × Graph N → (N → Nat) × Graph N
  | 0, x => x
  | k + 1, x => pass nm (ord k) (passes nm ord k x).1 (passes nm ord k x).2

/-- `get_compactified_graph` (:107-161), for levels which are not negative; `none` if `LeafNodeException` is raised. -/
def compactify (nm : Names N) (ord : Nat → List N → List N) (g : Graph N) (level : Nat) : Option (Graph N) :=
  if level = 0 ∨ g = [] then some g
  else if leaves nm g then some (passes nm ord level (pipelineLevels nm g, g)).2
  else none

end Compact
end Ez
