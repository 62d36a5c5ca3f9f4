import Verif.Props.Settings

/-! # C52: topology events -/

set_option linter.unusedSectionVars false
set_option linter.unusedSimpArgs false

namespace Ez
namespace Srv
variable {T I A V : Type} [DecidableEq T] [DecidableEq I] [DecidableEq A]

/-- Adding an edge changes the connections iff it reports that it did. -/
theorem addEdge_change {d : DAG T (Option I)} (h : d.Inv) (a b : T) (o : Option I) (y : T) :
    (∃ x, ¬ (Graph.E d.graph x y ↔ Graph.E (d.addEdge a b o).1.graph x y)) ↔
      y = b ∧ (d.addEdge a b o).2 = .returned true := by
  obtain ⟨a1, _, a3, a4⟩ := DAG.addEdge_spec h a b o
  by_cases hc : (d.addEdge a b o).2 = .cyclic
  · rw [a3 hc, hc]; simp
  · obtain ⟨b1, b2⟩ := a4 hc
    have hE : (d.owners.get? (a, b)).isSome = true ↔ Graph.E d.graph a b := (h.edge a b).symm
    have hE' : ∀ x y, Graph.E (d.addEdge a b o).1.graph x y ↔ Graph.E d.graph x y ∨ (x = a ∧ y = b) := by
      intro x y
      rw [DAG.edge_iff_owned a1, DAG.edge_iff_owned h]
      simp only [b1]
      constructor
      · rintro ⟨p, hp | ⟨h1, h2, _⟩⟩
        · exact Or.inl ⟨p, hp⟩
        · exact Or.inr ⟨h1, h2⟩
      · rintro (⟨p, hp⟩ | ⟨h1, h2⟩)
        · exact ⟨p, Or.inl hp⟩
        · exact ⟨o, Or.inr ⟨h1, h2, rfl⟩⟩
    rw [b2]
    simp only [hE', AddResult.returned.injEq, Bool.not_eq_true', ← Bool.not_eq_true, hE]
    constructor
    · rintro ⟨x, hx⟩
      by_cases h1 : Graph.E d.graph x y
      · simp [h1] at hx
      · simp only [h1, false_or, false_iff, Classical.not_not] at hx
        obtain ⟨rfl, rfl⟩ := hx
        exact ⟨rfl, h1⟩
    · rintro ⟨rfl, h2⟩
      exact ⟨a, by simp [h2]⟩

theorem removeEdge_change {d : DAG T (Option I)} (h : d.Inv) (a b : T) (o : Option I) (y : T) :
    (∃ x, ¬ (Graph.E d.graph x y ↔ Graph.E (d.removeEdge a b o).1.graph x y)) ↔
      y = b ∧ (d.removeEdge a b o).2 = true := by
  obtain ⟨a1, a2, a3, _⟩ := DAG.removeEdge_spec h a b o
  rw [a3]
  simp only [DAG.edge_iff_owned a1, DAG.edge_iff_owned h, a2]
  constructor
  · rintro ⟨x, hx⟩
    by_cases hk : ∃ p, d.Owns x y p ∧ ¬ (x = a ∧ y = b ∧ p = o)
    · refine absurd ⟨fun _ => hk, ?_⟩ hx
      rintro ⟨p, hp, _⟩; exact ⟨p, hp⟩
    · have hown : ∃ p, d.Owns x y p := by
        apply Classical.byContradiction
        intro hno; exact hx ⟨fun h => absurd h hno, fun h => absurd h hk⟩
      have key : ∀ p, d.Owns x y p → x = a ∧ y = b ∧ p = o := by
        intro p hp
        apply Classical.byContradiction
        intro hne; exact hk ⟨p, hp, hne⟩
      obtain ⟨p, hp⟩ := hown
      obtain ⟨rfl, rfl, rfl⟩ := key p hp
      exact ⟨rfl, hp, fun q hq => (key q hq).2.2⟩
  · rintro ⟨rfl, h1, h2⟩
    refine ⟨a, fun hiff => ?_⟩
    obtain ⟨p, hp, hne⟩ := hiff.1 ⟨o, h1⟩
    exact hne ⟨rfl, rfl, h2 p hp⟩

theorem dropEdges_change {sv : Server T I A V} (h : EdgeInv sv) {s : I} {es : PySet (T × T)}
    {md : Option (PyDict A V)} (hs : sessionInfo sv s = some (es, md)) (y : T) :
    (∃ x, ¬ (Graph.E sv.graph.graph x y ↔ Graph.E (dropEdges s es sv []).1.graph.graph x y)) ↔
      y ∈ (dropEdges s es sv []).2 := by
  obtain ⟨a1, a2, _, a4, _⟩ := dropEdges_spec s es sv [] h
  have hes : ∀ a b, (a, b) ∈ es ↔ sv.graph.Owns a b (some s) :=
    h.edges s es md (sessionInfo_some.1 hs)
  rw [a4]
  simp only [DAG.edge_iff_owned a1.graph, DAG.edge_iff_owned h.graph, a2, hes, List.not_mem_nil, false_or]
  constructor
  · rintro ⟨x, hx⟩
    by_cases hk : ∃ p, sv.graph.Owns x y p ∧ ¬ (sv.graph.Owns x y (some s) ∧ p = some s)
    · refine absurd ⟨fun _ => hk, ?_⟩ hx
      rintro ⟨p, hp, _⟩; exact ⟨p, hp⟩
    · have hown : ∃ p, sv.graph.Owns x y p := by
        apply Classical.byContradiction
        intro hno; exact hx ⟨fun h => absurd h hno, fun h => absurd h hk⟩
      have key : ∀ p, sv.graph.Owns x y p → sv.graph.Owns x y (some s) ∧ p = some s := by
        intro p hp
        apply Classical.byContradiction
        intro hne; exact hk ⟨p, hp, hne⟩
      obtain ⟨p, hp⟩ := hown
      exact ⟨x, (key p hp).1, (key p hp).1, fun q hq => (key q hq).2⟩
  · rintro ⟨x, h1, _, h2⟩
    refine ⟨x, fun hiff => ?_⟩
    obtain ⟨p, hp, hne⟩ := hiff.1 ⟨some s, h1⟩
    exact hne ⟨h1, h2 p hp⟩

theorem sameSet_iff (a b : PySet A) : sameSet a b = true ↔ ∀ x, x ∈ a ↔ x ∈ b := by
  simp only [sameSet, Bool.and_eq_true, List.all_eq_true, decide_eq_true_eq]
  constructor
  · rintro ⟨h1, h2⟩ x; exact ⟨h1 x, h2 x⟩
  · intro h; exact ⟨fun x => (h x).1, fun x => (h x).2⟩

/-- The connections into `t` changed between two states. -/
def HeadChanged (sv sv' : Server T I A V) (t : T) : Prop :=
  ∃ x, ¬ (Connected sv.graph x t ↔ Connected sv'.graph x t)

/-- The units of process `p` changed between two states. -/
def UnitsChanged (sv sv' : Server T I A V) (p : I) : Prop := ∃ u, ¬ (OwnsUnit sv p u ↔ OwnsUnit sv' p u)

def TopologyOk (sv sv' : Server T I A V) (act : Act T I A V) (es : List (TopologyEvent T I)) : Prop :=
  es.length ≤ 1 ∧
  (∀ ts o, .graphChanged ts o ∈ es → ∀ t, t ∈ ts ↔ HeadChanged sv sv' t) ∧
  (∀ t, HeadChanged sv sv' t → ∃ ts o, .graphChanged ts o ∈ es) ∧
  (∀ ts o, .graphChanged ts o ∈ es → ∃ t, HeadChanged sv sv' t) ∧
  (∀ p, .processChanged p ∈ es ↔ UnitsChanged sv sv' p ∨ act = .processGone p)

/-- **C52.** A step adds at most one topology event. It adds a `GRAPH_CHANGED` event exactly when some
connection appears or disappears, and the event lists exactly the topics into which connections changed.
It adds a `PROCESS_CHANGED` event exactly for the process whose units changed or that disconnected. -/
theorem C52_topology_events_exact {cfg : Cfg} {h : List (Act T I A V × Reply)} {sv sv' : Server T I A V}
    {act : Act T I A V} {r : Reply} (hr : Run cfg h sv) (hs : step cfg sv act = some (sv', r)) :
    ∃ es, sv'.tlog.hist = sv.tlog.hist ++ es ∧ es.length ≤ 1 ∧
      (∀ ts o, .graphChanged ts o ∈ es → ∀ t, t ∈ ts ↔ HeadChanged sv sv' t) ∧
      (∀ t, HeadChanged sv sv' t → ∃ ts o, .graphChanged ts o ∈ es) ∧
      (∀ ts o, .graphChanged ts o ∈ es → ∃ t, HeadChanged sv sv' t) ∧
      (∀ p, .processChanged p ∈ es ↔ UnitsChanged sv sv' p ∨ act = .processGone p) := by
  have hinv := (run_inv hr).1
  have hinv' := (run_inv (Run.step hr hs)).1
  refine ⟨topologyEvents sv act, ?_, ?_⟩
  · rw [(settings_step hinv (run_setInv hr).nodup hs).2.2.2.1, exec_hist, occurred_tlogOps]
  show TopologyOk sv sv' act (topologyEvents sv act)
  have hconn : ∀ t, HeadChanged sv sv' t ↔
      ∃ x, ¬ (Graph.E sv.graph.graph x t ↔ Graph.E (graphAfter sv act).graph x t) := by
    intro t
    unfold HeadChanged
    simp only [connected_iff_E hinv.graph, connected_iff_E hinv'.graph]
    rw [graph_step hinv hs]
  have hunits : act.concernsUnits = false → ∀ p, ¬ UnitsChanged sv sv' p := by
    rintro ha p ⟨u, hu⟩
    exact hu (processes_unchanged hinv (run_inv hr).2 hs ha p u).symm
  -- a step that changes connections into `ts` only
  have graphCase : ∀ (b : T) (o : Option I) (q : Prop) [Decidable q], act.concernsUnits = false →
      topologyEvents sv act = (if q then [.graphChanged [b] o] else []) →
      (∀ t, HeadChanged sv sv' t ↔ t = b ∧ q) → TopologyOk sv sv' act (topologyEvents sv act) := by
    intro b o q _ ha he hh
    have hp : ∀ p, act ≠ .processGone p := by rintro p rfl; cases ha
    rw [he]
    unfold TopologyOk
    by_cases hq : q
    · simp [hq, hh, hp, hunits ha]
    · simp [hq, hh, hp, hunits ha]
  have nothing : act.concernsUnits = false → topologyEvents sv act = [] → (∀ t, ¬ HeadChanged sv sv' t) →
      TopologyOk sv sv' act (topologyEvents sv act) := by
    intro ha he hh
    have hp : ∀ p, act ≠ .processGone p := by rintro p rfl; cases ha
    rw [he]
    unfold TopologyOk
    simp [hh, hp, hunits ha]
  -- the end of a session
  have clear : ∀ s es md, sessionInfo sv s = some (es, md) → act.concernsUnits = false →
      topologyEvents sv act = (if (dropEdges s es sv []).2.isEmpty then []
        else [.graphChanged (dropEdges s es sv []).2 (some s)]) →
      graphAfter sv act = (dropEdges s es sv []).1.graph →
      TopologyOk sv sv' act (topologyEvents sv act) := by
    intro s es md hes ha he hg
    have hp : ∀ p, act ≠ .processGone p := by rintro p rfl; cases ha
    have hh : ∀ t, HeadChanged sv sv' t ↔ t ∈ (dropEdges s es sv []).2 := by
      intro t; rw [hconn, hg, dropEdges_change hinv hes]
    rw [he]
    unfold TopologyOk
    cases hd : (dropEdges s es sv []).2 with
    | nil => simp [hh, hd, hp, hunits ha]
    | cons x l =>
      rw [hd] at hh
      simp only [List.isEmpty_cons, Bool.false_eq_true, if_false]
      refine ⟨by simp, ?_, ?_, ?_, ?_⟩
      · intro ts o hm t
        simp only [List.mem_singleton, TopologyEvent.graphChanged.injEq] at hm
        rw [hm.1, hh]
      · intro t _; exact ⟨_, _, List.mem_singleton.2 rfl⟩
      · intro _ _ _; exact ⟨x, (hh x).2 (by simp)⟩
      · intro p; simp [hp, hunits ha]
  -- a process sets its units
  have units : ∀ (p : I) (old new : PySet A) (q : Prop) [Decidable q], act ≠ .processGone p → act.concernsUnits = true →
      (∀ p', act ≠ .processGone p') → graphAfter sv act = sv.graph → processInfo sv p = some old →
      topologyEvents sv act = (if q then (if sameSet old new then [] else [.processChanged p]) else []) →
      (∀ i, sv'.clients.get? i = if i = p ∧ q then some (.process new) else sv.clients.get? i) →
      TopologyOk sv sv' act (topologyEvents sv act) := by
    intro p old new q _ _ _ hp hg hold he hcl
    have hh : ∀ t, ¬ HeadChanged sv sv' t := by intro t; rw [hconn, hg]; simp
    have hu : ∀ p', UnitsChanged sv sv' p' ↔ p' = p ∧ q ∧ sameSet old new = false := by
      intro p'
      unfold UnitsChanged
      simp only [ownsUnit_iff hinv.nodup, ownsUnit_iff hinv'.nodup, hcl]
      by_cases hpq : p' = p ∧ q
      · simp only [hpq, and_self, if_true, true_and, processInfo_some.1 hold]
        constructor
        · rintro ⟨u, hu⟩
          cases hss : sameSet old new with
          | false => rfl
          | true =>
            have := (sameSet_iff old new).1 hss u
            simp [this] at hu
        · intro hss
          apply Classical.byContradiction
          intro hno
          have : sameSet old new = true := by
            rw [sameSet_iff]
            intro u
            apply Classical.byContradiction
            intro hu; exact hno ⟨u, by simpa using hu⟩
          rw [hss] at this; cases this
      · simp only [hpq, if_false]
        constructor
        · rintro ⟨u, hu⟩; exact absurd trivial hu
        · rintro ⟨h1, h2, _⟩; exact absurd ⟨h1, h2⟩ hpq
    rw [he]
    unfold TopologyOk
    by_cases hq : q
    · cases hss : sameSet old new with
      | true => simp [hq, hss, hh, hp, hu]
      | false => simp [hq, hss, hh, hp, hu]
    · simp [hq, hh, hp, hu]
  cases act with
  | connect a b => exact graphCase b none _ rfl rfl (fun t => by rw [hconn]; exact addEdge_change hinv.graph a b none t)
  | sessionConnect s a b =>
    exact graphCase b (some s) _ rfl rfl (fun t => by rw [hconn]; exact addEdge_change hinv.graph a b (some s) t)
  | disconnect a b =>
    exact graphCase b none _ rfl rfl (fun t => by rw [hconn]; exact removeEdge_change hinv.graph a b none t)
  | sessionDisconnect s a b =>
    exact graphCase b (some s) _ rfl rfl (fun t => by rw [hconn]; exact removeEdge_change hinv.graph a b (some s) t)
  | sessionClear s =>
    have hs' := hs
    simp only [Srv.step] at hs'
    split at hs'
    · rename_i x hx
      exact clear s x.1 x.2 hx rfl (by simp only [topologyEvents, hx]) (by simp only [graphAfter, hx]; rfl)
    · cases hs'
  | sessionGone s =>
    have hs' := hs
    simp only [Srv.step] at hs'
    split at hs'
    · rename_i x hx
      exact clear s x.1 x.2 hx rfl (by simp only [topologyEvents, hx]) (by simp only [graphAfter, hx]; rfl)
    · cases hs'
  | registerProcess p us =>
    have hs' := hs
    simp only [Srv.step] at hs'
    split at hs'
    · rename_i old hx
      refine units p old (us.foldl PySet.add []) ((conflicts sv p us).isEmpty = true) (by simp) rfl (by simp) rfl hx
        (by simp only [topologyEvents, hx]) ?_
      intro i; rw [clients_step hinv hs]; rfl
    · cases hs'
  | updateOwnership p added removed =>
    have hs' := hs
    simp only [Srv.step] at hs'
    split at hs'
    · rename_i old hx
      refine units p old (removed.foldl PySet.discard (added.foldl PySet.add old))
        ((conflicts sv p added).isEmpty = true) (by simp) rfl (by simp) rfl hx
        (by simp only [topologyEvents, hx]) ?_
      intro i; rw [clients_step hinv hs]; simp only [clientAfter, hx, Option.getD_some]
    · cases hs'
  | processGone p =>
    have hh : ∀ t, ¬ HeadChanged sv sv' t := by intro t; rw [hconn]; simp [graphAfter]
    refine ⟨by simp [topologyEvents], by simp [topologyEvents], fun t ht => absurd ht (hh t),
      by simp [topologyEvents], ?_⟩
    intro q
    simp only [topologyEvents, List.mem_singleton, TopologyEvent.processChanged.injEq, Act.processGone.injEq]
    constructor
    · rintro rfl; exact Or.inr rfl
    · rintro (⟨u, hu⟩ | rfl)
      · apply Classical.byContradiction
        intro hne
        refine hu ?_
        rw [((C29_disconnect_frees_exactly hr hs).1 p rfl q u)]
        simp [hne]
      · rfl
  | _ => exact nothing rfl rfl (fun t => by rw [hconn]; simp [graphAfter])

/-- A connection made twice is announced once; process 2 registers a unit and leaves. -/
example :
    (exec (T := Nat) (I := Nat) (A := Nat) (V := Nat)
      { settingsLimit := 10, topologyLimit := 10, queueSize := 4 }
      [.openSession 1, .openProcess 2, .connect 5 6, .sessionConnect 1 5 6, .registerProcess 2 [10],
        .registerProcess 2 [10], .sessionConnect 1 6 7, .processGone 2, .sessionGone 1]).map (fun x => x.2.tlog.hist) =
    some [.graphChanged [6] none, .processChanged 2, .graphChanged [7] (some 1), .processChanged 2,
      .graphChanged [7] (some 1)] := by
  srv_eval

end Srv
end Ez
