import Verif.Model.Dag

/-!
# Drawing graphs (`src/ezmsg/core/graph_util.py:183-272`)

A name is the list of its segments (`node.split(level_separator)`, never empty).  A drawing is a list of lines without
indentation; the two formats write the same lines with different words (`subgraph a [A]` … `end`, `subgraph a {` … `};`).
The identifiers made by `uuid4` are given by a function of the names.
-/

namespace Ez
namespace Draw

variable {S I : Type} [DecidableEq S]

/-- The nested `defaultdict`s (:204-207): an entry is a name (a string) or another dictionary. -/
inductive Kids (S : Type) where
  | nil
  | leaf (s : S) (n : List S) (rest : Kids S)
  | sub (s : S) (k : Kids S) (rest : Kids S)

/-- A dictionary for a path which has no entry yet: missing dictionaries are made by `subgraph[seg]`. -/
def chain (n : List S) : List S → Kids S
  | [] => .nil
  | [s] => .leaf s n .nil
  | s :: t => .sub s (chain n t) .nil

/-- Entering a name (:211-215); `none` if `TypeError` is raised because a string is indexed with a segment.  An entry for
the last segment is replaced. -/
def ins (n : List S) : Kids S → List S → Option (Kids S)
  | _, [] => none
  | .nil, s :: t => some (chain n (s :: t))
  | .leaf s' m rest, [s] => if s' = s then some (.leaf s n rest) else (ins n rest [s]).map (.leaf s' m)
  | .leaf s' m rest, s :: s2 :: t => if s' = s then none else (ins n rest (s :: s2 :: t)).map (.leaf s' m)
  | .sub s' k rest, [s] => if s' = s then some (.leaf s n rest) else (ins n rest [s]).map (.sub s' k)
  | .sub s' k rest, s :: s2 :: t =>
    if s' = s then (ins n k (s2 :: t)).map (fun k' => .sub s' k' rest)
    else (ins n rest (s :: s2 :: t)).map (.sub s' k)

/-- The loop over the nodes (:210-215). -/
def build : Kids S → List (List S) → Option (Kids S)
  | k, [] => some k
  | k, n :: ns => (ins n k n).bind (fun k' => build k' ns)

/-- A line of the drawing: a subgraph begins (with its identifier and label), the subgraph ends, a node, a connection. -/
inductive Line (S I : Type) where
  | begins (id label : S)
  | ends
  | node (id : I) (label : S)
  | conn (a b : I)
  deriving DecidableEq

/-- `graph_structure_string` and `node_string` (:230-267). -/
def structureLines (lower : S → S) (uid : List S → I) : Kids S → List (Line S I)
  | .nil => []
  | .leaf s n rest => .node (uid n) s :: structureLines lower uid rest
  | .sub s k rest =>
    .begins (lower s) s :: (structureLines lower uid k ++ .ends :: structureLines lower uid rest)

/-- `connections` (:209, :217-221); `none` if `KeyError` is raised because a target is not a key. `ord` is `sorted`. -/
def connLines (ord : List (List S) → List (List S)) (uid : List S → I) (keys : List (List S)) :
    Graph (List S) → Option (List (Line S I))
  | [] => some []
  | e :: g =>
    if (ord e.2).all (fun c => decide (c ∈ keys)) then
      (connLines ord uid keys g).map (fun ls => (ord e.2).map (fun c => .conn (uid e.1) (uid c)) ++ ls)
    else none

/-- `graph_string` (:183-272). -/
def graphString (lower : S → S) (ord : List (List S) → List (List S)) (uid : List S → I) (g : Graph (List S)) :
    Option (List (Line S I)) :=
  (build .nil (PyDict.keys g)).bind fun k =>
    (connLines ord uid (PyDict.keys g) g).map fun ls => structureLines lower uid k ++ ls

end Draw
end Ez
