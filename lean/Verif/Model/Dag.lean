import Verif.Model.Py

/-!
# Model of `src/ezmsg/core/dag.py`

Topics have an arbitrary type `T`, owners an arbitrary type `O` (both with decidable equality; the
persistent owner `None` is one of the owners). A `dict` is an association list in insertion order,
a `set` a list. The order in which CPython iterates a `set` is not modelled: theorems about
`_bfs` results are about membership and absence of duplicates only.
-/

namespace Ez

/-- `GraphType`, dag.py:18: `defaultdict[str, set[str]]`. -/
abbrev Graph (T : Type) := PyDict T (PySet T)

namespace Graph
variable {T : Type} [DecidableEq T]

/-- `graph[k]` on a `defaultdict`: creates an empty set under a missing key. -/
def touch (g : Graph T) (k : T) : Graph T := PyDict.setdefault g k []

/-- `graph[k].add(x)` on a `defaultdict`. -/
def addTo (g : Graph T) (k x : T) : Graph T := PyDict.modify (touch g k) k (fun s => s.add x)

/-- dag.py:48-67: outer loop body for one `(from_node, to_nodes)` item. -/
def invStep (inv : Graph T) (p : T × PySet T) : Graph T :=
  p.2.foldl (fun acc t => addTo acc t p.1) (touch inv p.1)

/-- `DAG.invgraph`, dag.py:48-67. -/
def inv (g : Graph T) : Graph T := g.foldl invStep []

/-- `_leaves`, dag.py:194-205. -/
def leaves (g : Graph T) : List T := (g.filter (fun p => p.2.isEmpty)).map (·.1)

/-- All elements occurring in some successor set. -/
def targets (g : Graph T) : List T := g.flatMap (·.2)

/-- `graph.get(k, set())`. -/
def succs (g : Graph T) (k : T) : PySet T :=
  match PyDict.get? g k with | some s => s | none => []

theorem mem_targets_of_succs {g : Graph T} {k t : T} (h : t ∈ succs g k) : t ∈ targets g := by
  unfold succs at h
  split at h
  · rename_i s hs
    unfold PyDict.get? at hs
    rw [Option.map_eq_some_iff] at hs
    obtain ⟨p, hp, rfl⟩ := hs
    exact List.mem_flatMap.2 ⟨p, List.mem_of_find?_eq_some hp, h⟩
  · simp at h

theorem filter_length_lt {l : List T} {c d : List T} (hsub : ∀ x ∈ c, x ∈ d) {t : T} (ht : t ∈ l)
    (hc : t ∉ c) (hd : t ∈ d) :
    (l.filter (fun x => decide (x ∉ d))).length < (l.filter (fun x => decide (x ∉ c))).length := by
  induction l with
  | nil => simp at ht
  | cons a l ih =>
    have hle : ∀ l : List T, (l.filter (fun x => decide (x ∉ d))).length ≤
        (l.filter (fun x => decide (x ∉ c))).length := by
      intro l
      induction l with
      | nil => simp
      | cons b l ih =>
        simp only [List.filter_cons]
        by_cases h1 : b ∈ d
        · by_cases h2 : b ∈ c <;> simp [h1, h2] at ih ⊢ <;> omega
        · have h2 : b ∉ c := fun h => h1 (hsub b h)
          simp [h1, h2] at ih ⊢; omega
    have := hle l
    by_cases hat : a = t
    · subst hat
      simp [hc, hd] at this ⊢
      omega
    · have ht' : t ∈ l := by
        rcases List.mem_cons.1 ht with rfl | h
        · exact absurd rfl hat
        · exact h
      have := ih ht'
      simp only [List.filter_cons]
      by_cases h1 : a ∈ d
      · by_cases h2 : a ∈ c <;> simp [h1, h2] at this ⊢ <;> omega
      · have h2 : a ∉ c := fun h => h1 (hsub a h)
        simp [h1, h2] at this ⊢; omega

/-- `connected.update(queue)`. -/
def updateAll (c : PySet T) (q : List T) : PySet T := q.foldl PySet.add c

theorem mem_updateAll {c : PySet T} {q : List T} {x : T} :
    x ∈ updateAll c q ↔ x ∈ c ∨ x ∈ q := by
  unfold updateAll
  induction q generalizing c with
  | nil => simp
  | cons a q ih =>
    simp only [List.foldl_cons, ih, PySet.mem_add, List.mem_cons]
    grind

theorem updateAll_length {c : PySet T} {q : List T} (h : ∀ x ∈ q, x ∈ c) : updateAll c q = c := by
  unfold updateAll
  induction q with
  | nil => rfl
  | cons a q ih =>
    simp only [List.foldl_cons]
    have : PySet.add c a = c := by simp [PySet.add, h a (by simp)]
    rw [this]
    exact ih (fun x hx => h x (by simp [hx]))

/-- The `while` loop of `_bfs`, dag.py:223-225: pop the head `n`, append its successors that are not
in `connected`, then add the whole queue to `connected`. Lean accepts the definition
only with a proof that the loop terminates (for every graph). -/
def bfsLoop (g : Graph T) (queue : List T) (connected : PySet T) : PySet T :=
  match queue with
  | [] => connected
  | n :: rest =>
    bfsLoop g (rest ++ (succs g n).filter (fun t => decide (t ∉ connected)))
      (updateAll connected (rest ++ (succs g n).filter (fun t => decide (t ∉ connected))))
termination_by (((targets g).filter (fun x => decide (x ∉ connected))).length +
  (queue.filter (fun x => decide (x ∉ connected))).length, queue.length)
decreasing_by
  have hqz : ∀ (c : PySet T) (q : List T),
      (q.filter (fun x => decide (x ∉ updateAll c q))).length = 0 := by
    intro c q
    rw [List.length_eq_zero_iff, List.filter_eq_nil_iff]
    intro a ha
    simp [mem_updateAll, ha]
  have hle : ∀ (l c d : List T), (∀ x ∈ c, x ∈ d) → (l.filter (fun x => decide (x ∉ d))).length ≤
        (l.filter (fun x => decide (x ∉ c))).length := by
    intro l c d hsub
    induction l with
    | nil => simp
    | cons b l ih =>
      simp only [List.filter_cons]
      by_cases h1 : b ∈ d
      · by_cases h2 : b ∈ c <;> simp [h1, h2] at ih ⊢ <;> omega
      · have h2 : b ∉ c := fun h => h1 (hsub b h)
        simp [h1, h2] at ih ⊢; omega
  have hq := hqz connected (rest ++ (succs g n).filter (fun t => decide (t ∉ connected)))
  have hsub : ∀ x ∈ connected, x ∈ updateAll connected
      (rest ++ (succs g n).filter (fun t => decide (t ∉ connected))) := by
    intro x hx; rw [mem_updateAll]; exact Or.inl hx
  rw [hq]
  by_cases hnew : (succs g n).filter (fun t => decide (t ∉ connected)) = []
  · rw [hnew, List.append_nil]
    rw [hnew, List.append_nil] at hsub
    have h1 := hle (targets g) connected _ hsub
    rw [Prod.lex_def]
    rcases Nat.lt_or_eq_of_le (show
        ((targets g).filter (fun x => decide (x ∉ updateAll connected rest))).length + 0 ≤
        ((targets g).filter (fun x => decide (x ∉ connected))).length +
          ((n :: rest).filter (fun x => decide (x ∉ connected))).length by omega) with h | h
    · exact Or.inl h
    · exact Or.inr ⟨h, by simp⟩
  · obtain ⟨t, ht⟩ := List.exists_mem_of_ne_nil _ hnew
    have ht' := List.mem_filter.1 ht
    have hlt := filter_length_lt (l := targets g) hsub (mem_targets_of_succs ht'.1)
      (by simpa using ht'.2) (mem_updateAll.2 (Or.inr (List.mem_append_right _ ht)))
    rw [Prod.lex_def]
    left
    omega

/-- `_bfs`, dag.py:208-226. -/
def bfs (g : Graph T) (node : T) : List T := bfsLoop g [node] []

end Graph

/-- `DAG`, dag.py:23-36. -/
structure DAG (T O : Type) where
  graph : Graph T
  owners : PyDict (T × T) (PySet O)

/-- Result of `add_edge`. -/
inductive AddResult where
  /-- returned `True` / `False` -/
  | returned (topologyChanged : Bool)
  /-- raised `CyclicException` -/
  | cyclic
deriving DecidableEq

namespace DAG
variable {T O : Type} [DecidableEq T] [DecidableEq O]

/-- An empty graph. -/
def init : DAG T O := { graph := [], owners := [] }

/-- dag.py:38-46 -/
def nodes (d : DAG T O) : List T := PyDict.keys d.graph

/-- `add_edge`, dag.py:69-113: the state after the call and what it returned or raised. -/
def addEdge (d : DAG T O) (a b : T) (o : O) : DAG T O × AddResult :=
  if a = b then (d, .cyclic)
  else
    let d1 : DAG T O := { d with owners := d.owners.setdefault (a, b) [] }
    let os := match d1.owners.get? (a, b) with | some s => s | none => []
    if o ∈ os then (d1, .returned false)
    else
      let topologyChanged := os.isEmpty
      if topologyChanged then
        let test := (d1.graph.addTo a b).touch b
        if a ∈ test.bfs a then
          (if os.isEmpty then { d1 with owners := d1.owners.pop (a, b) } else d1, .cyclic)
        else
          ({ graph := (d1.graph.addTo a b).touch b
             owners := d1.owners.modify (a, b) (fun s => s.add o) }, .returned true)
      else
        ({ d1 with owners := d1.owners.modify (a, b) (fun s => s.add o) }, .returned false)

/-- `_prune`, dag.py:185-191. -/
def prune (d : DAG T O) : DAG T O :=
  let lv := d.graph.leaves
  let ilv := d.graph.inv.leaves
  { d with graph := (lv.filter (fun n => decide (n ∈ ilv))).foldl PyDict.pop d.graph }

/-- `remove_edge`, dag.py:115-148. -/
def removeEdge (d : DAG T O) (a b : T) (o : O) : DAG T O × Bool :=
  match d.owners.get? (a, b) with
  | none => (d, false)
  | some os =>
    if o ∉ os then (d, false)
    else
      let d1 : DAG T O := { d with owners := d.owners.modify (a, b) (fun s => s.discard o) }
      if (PySet.discard os o).isEmpty then
        let d2 : DAG T O :=
          { graph := d1.graph.modify a (fun s => s.discard b), owners := d1.owners.pop (a, b) }
        (d2.prune, true)
      else (d1, false)

/-- The loop of `remove_owner`, dag.py:152-155, over the remaining keys of the snapshot. -/
def removeOwnerLoop (o : O) : List (T × T) → DAG T O → PySet (T × T) → DAG T O × PySet (T × T)
  | [], d, acc => (d, acc)
  | e :: es, d, acc =>
    match d.owners.get? e with
    | none => removeOwnerLoop o es d acc
    | some os =>
      if o ∈ os then
        let r := d.removeEdge e.1 e.2 o
        removeOwnerLoop o es r.1 (if r.2 then acc.add e else acc)
      else removeOwnerLoop o es d acc

/-- `remove_owner`, dag.py:150-156. -/
def removeOwner (d : DAG T O) (o : O) : DAG T O × PySet (T × T) :=
  removeOwnerLoop o d.owners.keys d []

/-- `downstream`, dag.py:158-169. -/
def downstream (d : DAG T O) (n : T) : List T := d.graph.bfs n ++ [n]

/-- `upstream`, dag.py:171-183. -/
def upstream (d : DAG T O) (n : T) : List T := d.graph.inv.bfs n ++ [n]

end DAG
end Ez
