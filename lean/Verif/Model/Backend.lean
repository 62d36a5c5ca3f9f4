import Verif.Model.Py

/-!
# Grouping units into processes and materialising relays (`src/ezmsg/core/backend.py`)

* A component is known by an identity of type `K`; `comp in process_components` compares identities, because
  `Component` defines no `__eq__`.
* A unit carries whether it has the attribute `PROCESS_ATTR` (the `@process` decorator). A collection carries
  its components in order and what its `process_components()` returns.
* The relay units that `setup` adds to collections are units like any other and count as part of the tree.
-/

namespace Ez
namespace Backend
variable {K : Type} [DecidableEq K]

/-- `Unit` and `Collection` (unit.py, collection.py). -/
inductive Comp (K : Type) where
  | unit (id : K) (ownProcess : Bool)
  | coll (id : K) (components : List (Comp K)) (processComponents : List K)

/-- `process_units, units` of backend.py:1006-1007. -/
abbrev Acc (K : Type) := List (List K) × List K

mutual
/-- One turn of the loop of `_collect_processes`, backend.py:1009-1030. -/
def collectOne (procs : List K) : Comp K → Acc K → Acc K
  | .coll i cs ps, (pu, us) =>
    let r := collectAll ps cs ([], [])
    let pu := pu ++ r.1
    if i ∈ procs then
      if 0 < r.2.length then (pu ++ [r.2], us) else (pu, us)
    else
      if 0 < r.2.length then (pu, us ++ r.2) else (pu, us)
  | .unit i own, (pu, us) =>
    if i ∈ procs then (pu ++ [[i]], us)
    else if own then (pu ++ [[i]], us)
    else (pu, us ++ [i])

/-- `_collect_processes`: backend.py:1003-1032. -/
def collectAll (procs : List K) : List (Comp K) → Acc K → Acc K
  | [], acc => acc
  | c :: cs, acc => collectAll procs cs (collectOne procs c acc)
end

/-- `collect_processes` (an iterable of components): backend.py:982-1000. -/
def collectProcesses (comps : List (Comp K)) (procs : List K) : List (List K) :=
  let r := collectAll procs comps ([], [])
  if 0 < r.2.length then [r.2] ++ r.1 else r.1

/-- The process lists `ExecutionContext.setup` ends with; `none` if it returns `None`: backend.py:297, 316-320. -/
def setupProcesses (comps : List (Comp K)) (procs : List K) (forceSingle : Bool) : Option (List (List K)) :=
  let ps := collectProcesses comps procs
  let ps := if forceSingle then [ps.flatten] else ps
  if ps.isEmpty then none else some ps

/-! ## Relays -/
variable {T : Type} [DecidableEq T]

/-- `_RelayBinding`, what of it matters for connections: backend.py:90-98. -/
structure Binding (T : Type) where
  isInput : Bool
  relayIn : T
  relayOut : T

/-- backend.py:274-282: one connection. -/
def rewriteOne (bs : PyDict T (Binding T)) (c : T × T) : T × T :=
  let to := match bs.get? c.2 with
    | some b => if b.isInput then c.2 else b.relayIn
    | none => c.2
  let src := match bs.get? c.1 with
    | some b => if b.isInput then b.relayOut else c.1
    | none => c.1
  (src, to)

/-- backend.py:284-292: the connection between an endpoint and its relay. -/
def boundary (b : T × Binding T) : T × T :=
  if b.2.isInput then (b.1, b.2.relayIn) else (b.2.relayOut, b.1)

/-- The connections after materialising the relays: backend.py:272-295. -/
def rewrite (bs : PyDict T (Binding T)) (conns : List (T × T)) : List (T × T) :=
  if bs.isEmpty then conns else conns.map (rewriteOne bs) ++ bs.map boundary

end Backend
end Ez
