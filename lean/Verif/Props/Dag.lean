import Verif.Lemmas.Dag
import Verif.Props.Backpressure

/-!
# C05 - C09: the topic graph

Specification: a history of calls with the information which connects were accepted; an edge is
present when the graph dictionary lists it; paths are those of `Verif/Spec/Path.lean`.
-/

set_option linter.unusedSectionVars false
set_option linter.unusedSimpArgs false

namespace Ez
variable {T O : Type} [DecidableEq T] [DecidableEq O]

/-- A call on a `DAG`. -/
inductive DagCall (T O : Type) where
  | connect (a b : T) (o : O)
  | disconnect (a b : T) (o : O)
  | dropOwner (o : O)

namespace DagCall

/-- The state after one call. -/
def exec (d : DAG T O) : DagCall T O → DAG T O
  | .connect a b o => (d.addEdge a b o).1
  | .disconnect a b o => (d.removeEdge a b o).1
  | .dropOwner o => (d.removeOwner o).1

/-- The call did not raise. -/
def accepted (d : DAG T O) : DagCall T O → Bool
  | .connect a b o => (d.addEdge a b o).2 != .cyclic
  | _ => true

/-- The state after a history of calls on an empty graph, oldest first. -/
def execAll (h : List (DagCall T O)) : DAG T O := h.foldl exec DAG.init

/-- The history annotated with which calls were accepted. -/
def traceFrom (d : DAG T O) : List (DagCall T O) → List (DagCall T O × Bool)
  | [] => []
  | c :: cs => (c, c.accepted d) :: traceFrom (c.exec d) cs

end DagCall

/-- Edge `a → b` is listed in the graph. -/
def Connected (d : DAG T O) (a b : T) : Prop := ∃ s, (a, s) ∈ d.graph ∧ b ∈ s

/-- Specification: `o` connected `a → b` successfully and neither disconnected it nor was dropped
since. -/
def Held (tr : List (DagCall T O × Bool)) (a b : T) (o : O) : Prop :=
  ∃ pre post, tr = pre ++ (DagCall.connect a b o, true) :: post ∧
    ∀ c ∈ post, c.1 ≠ .disconnect a b o ∧ c.1 ≠ .dropOwner o

theorem dag_inv (h : List (DagCall T O)) : (DagCall.execAll h).Inv := by
  induction h using list_snoc_induction with
  | h0 => exact DAG.inv_init
  | hs h c ih =>
    have : DagCall.execAll (h ++ [c]) = c.exec (DagCall.execAll h) := by simp [DagCall.execAll]
    rw [this]
    cases c with
    | connect a b o => exact (DAG.addEdge_spec ih a b o).1
    | disconnect a b o => exact (DAG.removeEdge_spec ih a b o).1
    | dropOwner o => exact (DAG.removeOwner_spec ih o).1

theorem connected_iff_E {d : DAG T O} (h : d.Inv) (a b : T) :
    Connected d a b ↔ Graph.E d.graph a b := by
  rw [Graph.E_iff_get?]
  constructor
  · rintro ⟨s, hs, hb⟩; exact ⟨s, PyDict.get?_of_mem h.gnodup hs, hb⟩
  · rintro ⟨s, hs, hb⟩; exact ⟨s, PyDict.mem_of_get? hs, hb⟩

theorem path_connected {d : DAG T O} (h : d.Inv) {a b : T} :
    Path (Connected d) a b ↔ Path (Graph.E d.graph) a b :=
  Path.congr (fun a b => connected_iff_E h a b)

/-- **C05.** After any history of connects, disconnects and owner removals, no topic reaches
itself. -/
theorem C05_always_acyclic (h : List (DagCall T O)) (x : T) :
    ¬ Path (Connected (DagCall.execAll h)) x x := by
  rw [path_connected (dag_inv h)]
  exact (dag_inv h).acyclic x

/-- Non-vacuity of C05: a history that builds a chain of connections and also tries to close the
loop; the connections are really there. -/
example :
    let d := DagCall.execAll [DagCall.connect 1 2 (0 : Nat), .connect 2 3 0, .connect 3 1 0]
    Connected d 1 2 ∧ Connected d 2 3 := by
  have hinv := dag_inv [DagCall.connect 1 2 (0 : Nat), .connect 2 3 0, .connect 3 1 0]
  simp only [connected_iff_E hinv]
  simp only [DagCall.execAll, List.foldl_cons, List.foldl_nil, DagCall.exec]
  have h0 : (DAG.init : DAG Nat Nat).Inv := DAG.inv_init
  have key : ∀ (d : DAG Nat Nat), d.Inv → ∀ a b x y (o : Nat), Graph.E d.graph x y →
      Graph.E (d.addEdge a b o).1.graph x y := by
    intro d hd a b x y o hE
    obtain ⟨a1, a2, a3, a4⟩ := DAG.addEdge_spec hd a b o
    by_cases hc : (d.addEdge a b o).2 = .cyclic
    · rw [a3 hc]; exact hE
    · rw [DAG.edge_iff_owned a1]
      obtain ⟨p, hp⟩ := (DAG.edge_iff_owned hd x y).1 hE
      exact ⟨p, ((a4 hc).1 x y p).2 (Or.inl hp)⟩
  have i1 := (DAG.addEdge_spec h0 1 2 0).1
  have e1 : Graph.E ((DAG.init : DAG Nat Nat).addEdge 1 2 0).1.graph 1 2 := by
    simp [DAG.addEdge, DAG.init, PyDict.setdefault, PyDict.get?, Graph.addTo, Graph.touch,
      PyDict.modify, PySet.add, Graph.bfs, Graph.bfsLoop, Graph.succs, Graph.updateAll, Graph.E]
  have i2 := (DAG.addEdge_spec i1 2 3 0).1
  have e2 : Graph.E (((DAG.init : DAG Nat Nat).addEdge 1 2 0).1.addEdge 2 3 0).1.graph 2 3 := by
    simp [DAG.addEdge, DAG.init, PyDict.setdefault, PyDict.get?, Graph.addTo, Graph.touch,
      PyDict.modify, PySet.add, Graph.bfs, Graph.bfsLoop, Graph.succs, Graph.updateAll, Graph.E]
  exact ⟨key _ i2 _ _ _ _ _ (key _ i1 _ _ _ _ _ e1), key _ i2 _ _ _ _ _ e2⟩

/-- **C06.** In every reachable state, a connect raises exactly when it would close a loop (or is a
self-loop), and a connect that raises leaves graph and ownership exactly as they were. -/
theorem C06_cycle_refusal_exact_and_atomic (h : List (DagCall T O)) (a b : T) (o : O) :
    (((DagCall.execAll h).addEdge a b o).2 = .cyclic ↔
      a = b ∨ Path (Connected (DagCall.execAll h)) b a) ∧
    (((DagCall.execAll h).addEdge a b o).2 = .cyclic →
      ((DagCall.execAll h).addEdge a b o).1 = DagCall.execAll h) := by
  obtain ⟨_, a2, a3, _⟩ := DAG.addEdge_spec (dag_inv h) a b o
  refine ⟨?_, a3⟩
  rw [a2, path_connected (dag_inv h)]

theorem held_nil (a b : T) (o : O) : ¬ Held ([] : List (DagCall T O × Bool)) a b o := by
  rintro ⟨pre, post, h, _⟩
  simp at h

theorem held_snoc (tr : List (DagCall T O × Bool)) (c : DagCall T O × Bool) (a b : T) (o : O) :
    Held (tr ++ [c]) a b o ↔ c = (.connect a b o, true) ∨
      (Held tr a b o ∧ c.1 ≠ .disconnect a b o ∧ c.1 ≠ .dropOwner o) := by
  constructor
  · rintro ⟨pre, post, he, h1⟩
    rcases List.eq_nil_or_concat post with hp | ⟨post', x, hp⟩
    · subst hp
      have := List.append_inj' he (by simp)
      left; simpa using this.2
    · subst hp
      right
      have he' : tr ++ [c] = (pre ++ (DagCall.connect a b o, true) :: post') ++ [x] := by simp [he]
      obtain ⟨e1, e2⟩ := List.append_inj' he' (by simp)
      have e2 : c = x := by simpa using e2
      subst e2
      exact ⟨⟨pre, post', e1, fun y hy => h1 y (by simp [hy])⟩, h1 c (by simp)⟩
  · rintro (rfl | ⟨⟨pre, post, rfl, h1⟩, h2⟩)
    · exact ⟨tr, [], by simp, by simp⟩
    · refine ⟨pre, post ++ [c], by simp, ?_⟩
      intro y hy
      simp at hy
      rcases hy with hy | rfl
      · exact h1 y hy
      · exact h2

theorem traceFrom_snoc (d : DAG T O) (h : List (DagCall T O)) (c : DagCall T O) :
    DagCall.traceFrom d (h ++ [c]) =
      DagCall.traceFrom d h ++ [(c, c.accepted (h.foldl DagCall.exec d))] := by
  induction h generalizing d with
  | nil => rfl
  | cons a h ih => simp [DagCall.traceFrom, ih]

theorem owns_iff_held (h : List (DagCall T O)) (a b : T) (o : O) :
    (DagCall.execAll h).Owns a b o ↔ Held (DagCall.traceFrom DAG.init h) a b o := by
  induction h using list_snoc_induction generalizing a b o with
  | h0 =>
    constructor
    · rintro ⟨s, hs, _⟩; simp [DagCall.execAll, DAG.init, PyDict.get?] at hs
    · intro h; exact absurd h (held_nil a b o)
  | hs h c ih =>
    have hsn : DagCall.execAll (h ++ [c]) = c.exec (DagCall.execAll h) := by simp [DagCall.execAll]
    have hinv := dag_inv h
    rw [hsn, traceFrom_snoc, held_snoc, ← ih]
    have hfold : h.foldl DagCall.exec DAG.init = DagCall.execAll h := rfl
    rw [hfold]
    cases c with
    | connect x y p =>
      obtain ⟨_, a2, a3, a4⟩ := DAG.addEdge_spec hinv x y p
      simp only [DagCall.exec, DagCall.accepted]
      by_cases hc : ((DagCall.execAll h).addEdge x y p).2 = .cyclic
      · rw [a3 hc]
        simp [hc]
      · rw [(a4 hc).1]
        simp [hc]
        grind
    | disconnect x y p =>
      obtain ⟨_, a2, _, _⟩ := DAG.removeEdge_spec hinv x y p
      simp only [DagCall.exec, DagCall.accepted]
      rw [a2]
      simp
      grind
    | dropOwner p =>
      obtain ⟨_, a2, _⟩ := DAG.removeOwner_spec hinv p
      simp only [DagCall.exec, DagCall.accepted]
      rw [a2]
      simp
      grind

/-- **C07 (ownership).** After any history, the owners recorded for an edge are exactly those who
connected it successfully and neither disconnected it nor were dropped since (so no owner's
action affects another owner's hold), and the edge is present exactly when there is such an owner. -/
theorem C07_edge_present_iff_held (h : List (DagCall T O)) (a b : T) :
    (∀ o, (∃ s, ((a, b), s) ∈ (DagCall.execAll h).owners ∧ o ∈ s) ↔
      Held (DagCall.traceFrom DAG.init h) a b o) ∧
    (Connected (DagCall.execAll h) a b ↔ ∃ o, Held (DagCall.traceFrom DAG.init h) a b o) := by
  have hinv := dag_inv h
  constructor
  · intro o
    rw [← owns_iff_held]
    constructor
    · rintro ⟨s, hs, ho⟩; exact ⟨s, PyDict.get?_of_mem hinv.onodup hs, ho⟩
    · rintro ⟨s, hs, ho⟩; exact ⟨s, PyDict.mem_of_get? hs, ho⟩
  · rw [connected_iff_E hinv, DAG.edge_iff_owned hinv]
    simp only [owns_iff_held]

/-- **C07 (return values).** In every reachable state: connect returns `True` iff it returned
normally and the edge was absent before, and after any normal return the edge is present and no
other edge changed; disconnect returns `True` iff the edge was present before and is absent after, and it
never touches another edge; dropping an owner returns exactly the edges that were present before and
are absent after. -/
theorem C07_return_values (h : List (DagCall T O)) :
    (∀ a b o, ((DagCall.execAll h).addEdge a b o).2 = .returned true ↔
      (((DagCall.execAll h).addEdge a b o).2 ≠ .cyclic ∧ ¬ Connected (DagCall.execAll h) a b)) ∧
    (∀ a b o, ((DagCall.execAll h).addEdge a b o).2 ≠ .cyclic →
      ∀ x y, Connected ((DagCall.execAll h).addEdge a b o).1 x y ↔
        Connected (DagCall.execAll h) x y ∨ (x = a ∧ y = b)) ∧
    (∀ a b o, ((DagCall.execAll h).removeEdge a b o).2 = true ↔
      (Connected (DagCall.execAll h) a b ∧
        ¬ Connected ((DagCall.execAll h).removeEdge a b o).1 a b)) ∧
    (∀ a b o x y, (x, y) ≠ (a, b) →
      (Connected ((DagCall.execAll h).removeEdge a b o).1 x y ↔ Connected (DagCall.execAll h) x y)) ∧
    (∀ o a b, (a, b) ∈ ((DagCall.execAll h).removeOwner o).2 ↔
      (Connected (DagCall.execAll h) a b ∧
        ¬ Connected ((DagCall.execAll h).removeOwner o).1 a b)) := by
  have hinv := dag_inv h
  refine ⟨?_, ?_, ?_, ?_, ?_⟩
  · intro a b o
    obtain ⟨_, _, _, a4⟩ := DAG.addEdge_spec hinv a b o
    rw [connected_iff_E hinv, hinv.edge]
    by_cases hc : ((DagCall.execAll h).addEdge a b o).2 = .cyclic
    · simp [hc]
    · rw [(a4 hc).2]
      simp
  · intro a b o hc x y
    obtain ⟨a1, _, _, a4⟩ := DAG.addEdge_spec hinv a b o
    rw [connected_iff_E hinv, connected_iff_E a1, DAG.edge_iff_owned a1, DAG.edge_iff_owned hinv]
    simp only [(a4 hc).1]
    constructor
    · rintro ⟨p, hp | ⟨h1, h2, _⟩⟩
      · exact Or.inl ⟨p, hp⟩
      · exact Or.inr ⟨h1, h2⟩
    · rintro (⟨p, hp⟩ | ⟨h1, h2⟩)
      · exact ⟨p, Or.inl hp⟩
      · exact ⟨o, Or.inr ⟨h1, h2, rfl⟩⟩
  · intro a b o
    obtain ⟨a1, a2, a3, _⟩ := DAG.removeEdge_spec hinv a b o
    rw [a3, connected_iff_E hinv, connected_iff_E a1, DAG.edge_iff_owned a1,
      DAG.edge_iff_owned hinv]
    simp only [a2]
    constructor
    · rintro ⟨h1, h2⟩
      refine ⟨⟨o, h1⟩, ?_⟩
      rintro ⟨p, hp, hne⟩
      exact hne ⟨trivial, trivial, h2 p hp⟩
    · rintro ⟨⟨p, hp⟩, h2⟩
      have hall : ∀ p, (DagCall.execAll h).Owns a b p → p = o := by
        intro q hq
        apply Classical.byContradiction
        intro hne
        exact h2 ⟨q, hq, fun hh => hne hh.2.2⟩
      have := hall p hp
      subst this
      exact ⟨hp, hall⟩
  · intro a b o x y hne
    obtain ⟨a1, a2, a3, _⟩ := DAG.removeEdge_spec hinv a b o
    rw [connected_iff_E hinv, connected_iff_E a1, DAG.edge_iff_owned a1, DAG.edge_iff_owned hinv]
    simp only [a2]
    constructor
    · rintro ⟨p, hp, _⟩; exact ⟨p, hp⟩
    · rintro ⟨p, hp⟩
      exact ⟨p, hp, fun hh => hne (by rw [hh.1, hh.2.1])⟩
  · intro o a b
    obtain ⟨a1, a2, a3⟩ := DAG.removeOwner_spec hinv o
    rw [a3, connected_iff_E hinv, connected_iff_E a1, DAG.edge_iff_owned a1,
      DAG.edge_iff_owned hinv]
    simp only [a2]
    constructor
    · rintro ⟨h1, h2⟩
      refine ⟨⟨o, h1⟩, ?_⟩
      rintro ⟨p, hp, hne⟩
      exact hne (h2 p hp)
    · rintro ⟨⟨p, hp⟩, h2⟩
      have hall : ∀ p, (DagCall.execAll h).Owns a b p → p = o := by
        intro q hq
        apply Classical.byContradiction
        intro hne
        exact h2 ⟨q, hq, hne⟩
      have := hall p hp
      subst this
      exact ⟨hp, hall⟩

/-- `o` is among the recorded owners of edge `a → b`. -/
def OwnerOf (d : DAG T O) (a b : T) (o : O) : Prop := ∃ s, ((a, b), s) ∈ d.owners ∧ o ∈ s

/-- **C07 (who is affected).** In every reachable state, a connect, disconnect or removal of owner
`o` never changes which edges another owner `p` holds. -/
theorem C07_owner_independence (h : List (DagCall T O)) (a b x y : T) (o p : O) (hne : p ≠ o) :
    (OwnerOf ((DagCall.execAll h).removeEdge a b o).1 x y p ↔ OwnerOf (DagCall.execAll h) x y p) ∧
    (OwnerOf ((DagCall.execAll h).removeOwner o).1 x y p ↔ OwnerOf (DagCall.execAll h) x y p) ∧
    (OwnerOf ((DagCall.execAll h).addEdge a b o).1 x y p ↔ OwnerOf (DagCall.execAll h) x y p) := by
  have e1 : ((DagCall.execAll h).removeEdge a b o).1 =
      DagCall.execAll (h ++ [.disconnect a b o]) := by simp [DagCall.execAll, DagCall.exec]
  have e2 : ((DagCall.execAll h).removeOwner o).1 =
      DagCall.execAll (h ++ [.dropOwner o]) := by simp [DagCall.execAll, DagCall.exec]
  have e3 : ((DagCall.execAll h).addEdge a b o).1 =
      DagCall.execAll (h ++ [.connect a b o]) := by simp [DagCall.execAll, DagCall.exec]
  unfold OwnerOf
  rw [e1, e2, e3]
  simp only [(C07_edge_present_iff_held _ x y).1 p]
  refine ⟨?_, ?_, ?_⟩ <;> rw [traceFrom_snoc, held_snoc] <;> simp <;> grind

/-- Non-vacuity of C06/C07: with `1 → 2` connected under owners 0 and 9, owner 0 may leave and the
edge stays; connecting `2 → 1` is refused; after 9 leaves too, the edge is gone and is reported. -/
example :
    let d := DagCall.execAll [DagCall.connect 1 2 (0 : Nat), .connect 1 2 9]
    (d.addEdge 2 1 9).2 = .cyclic ∧ (d.removeEdge 1 2 0).2 = false ∧
      ((d.removeEdge 1 2 0).1.removeOwner 9).2 = [(1, 2)] := by
  refine ⟨?_, ?_, ?_⟩ <;>
  simp [DagCall.execAll, DagCall.exec, DAG.addEdge, DAG.removeEdge, DAG.removeOwner,
    DAG.removeOwnerLoop, DAG.init, PyDict.setdefault, PyDict.get?, Graph.addTo, Graph.touch,
    PyDict.modify, PySet.add, Graph.bfs, Graph.bfsLoop, Graph.succs, Graph.updateAll,
    PySet.discard, PyDict.keys, PyDict.pop]

/-- **C08.** In every reachable state `downstream(t)` lists exactly the topics reached from `t`
(including `t`), `upstream(t)` exactly those that reach `t`, without repetition; and the two are
dual. The search terminates on every graph (it is a total function). -/
theorem C08_upstream_downstream_exact (h : List (DagCall T O)) (t : T) :
    (∀ x, x ∈ (DagCall.execAll h).downstream t ↔ Reaches (Connected (DagCall.execAll h)) t x) ∧
    (∀ x, x ∈ (DagCall.execAll h).upstream t ↔ Reaches (Connected (DagCall.execAll h)) x t) ∧
    ((DagCall.execAll h).downstream t).Nodup ∧ ((DagCall.execAll h).upstream t).Nodup ∧
    (∀ x, x ∈ (DagCall.execAll h).downstream t ↔ t ∈ (DagCall.execAll h).upstream x) := by
  have hinv := dag_inv h
  generalize DagCall.execAll h = d at hinv
  have hrev : ∀ x y, Path (Graph.E d.graph.inv) x y ↔ Path (Graph.E d.graph) y x := by
    intro x y
    rw [Path.congr (fun a b => Graph.E_inv hinv.gnodup)]
    exact ⟨fun p => p.reverse, fun p => p.reverse⟩
  have hd : ∀ t x, x ∈ d.downstream t ↔ Reaches (Connected d) t x := by
    intro t x
    unfold DAG.downstream Reaches
    rw [List.mem_append, Graph.mem_bfs, path_connected hinv, List.mem_singleton]
    grind
  have hu : ∀ t x, x ∈ d.upstream t ↔ Reaches (Connected d) x t := by
    intro t x
    unfold DAG.upstream Reaches
    rw [List.mem_append, Graph.mem_bfs, path_connected hinv, List.mem_singleton, hrev]
    grind
  refine ⟨hd t, hu t, ?_, ?_, ?_⟩
  · unfold DAG.downstream
    rw [List.nodup_append]
    refine ⟨Graph.nodup_bfs _ _, by simp, ?_⟩
    intro a ha b hb
    simp at hb
    subst hb
    rintro rfl
    rw [Graph.mem_bfs] at ha
    exact hinv.acyclic _ ha
  · unfold DAG.upstream
    rw [List.nodup_append]
    refine ⟨Graph.nodup_bfs _ _, by simp, ?_⟩
    intro a ha b hb
    simp at hb
    subst hb
    rintro rfl
    rw [Graph.mem_bfs, hrev] at ha
    exact hinv.acyclic _ ha
  · intro x
    rw [hd, hu]

/-- Non-vacuity of C08: a diamond 1→2, 1→3, 2→4, 3→4; each topic once. -/
example :
    let d := DagCall.execAll [DagCall.connect 1 2 (), .connect 1 3 (), .connect 2 4 (), .connect 3 4 ()]
    d.downstream 1 = [2, 3, 4, 1] ∧ d.upstream 4 = [2, 3, 1, 4] := by
  refine ⟨?_, ?_⟩ <;>
  simp [DagCall.execAll, DagCall.exec, DAG.addEdge, DAG.downstream, DAG.upstream, DAG.init,
    PyDict.setdefault, PyDict.get?, Graph.addTo, Graph.touch, Graph.inv, Graph.invStep,
    PyDict.modify, PySet.add, Graph.bfs, Graph.bfsLoop, Graph.succs, Graph.updateAll]

/-- **C09.** After any history the listed topics are exactly the endpoints of existing
connections, each once. -/
theorem C09_nodes_are_endpoints (h : List (DagCall T O)) :
    (DagCall.execAll h).nodes.Nodup ∧
    ∀ x, x ∈ (DagCall.execAll h).nodes ↔
      ∃ y, Connected (DagCall.execAll h) x y ∨ Connected (DagCall.execAll h) y x := by
  have hinv := dag_inv h
  refine ⟨hinv.gnodup, ?_⟩
  intro x
  simp only [connected_iff_E hinv]
  constructor
  · intro hx
    rcases hinv.used x hx with ⟨y, hy⟩ | ⟨y, hy⟩
    · exact ⟨y, Or.inl hy⟩
    · exact ⟨y, Or.inr hy⟩
  · rintro ⟨y, hy | hy⟩
    · obtain ⟨s, hs, _⟩ := Graph.E_iff_get?.1 hy
      show x ∈ PyDict.keys _
      rw [PyDict.mem_keys, hs]; rfl
    · exact hinv.closed y x hy

/-- Non-vacuity of C09: after disconnecting `2 → 3` from the chain `1 → 2 → 3`, topic 3 is pruned
and 1, 2 stay. -/
example :
    (DagCall.execAll [DagCall.connect 1 2 (), .connect 2 3 (), .disconnect 2 3 ()]).nodes = [1, 2] := by
  simp [DagCall.execAll, DagCall.exec, DAG.addEdge, DAG.removeEdge, DAG.prune, DAG.nodes, DAG.init,
    PyDict.setdefault, PyDict.get?, Graph.addTo, Graph.touch, Graph.inv, Graph.invStep, Graph.leaves,
    PyDict.modify, PySet.add, PySet.discard, PyDict.pop, PyDict.keys, Graph.bfs, Graph.bfsLoop,
    Graph.succs, Graph.updateAll]

end Ez
