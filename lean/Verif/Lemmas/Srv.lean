import Verif.Lemmas.Dag
import Verif.Lemmas.Py
import Verif.Model.GraphServer

/-! # What the parts of the graph server's handlers do to each part of its state -/

set_option linter.unusedSectionVars false
set_option linter.unusedSimpArgs false

namespace Ez

theorem DAG.mem_downstream {T O : Type} [DecidableEq T] [DecidableEq O] (d : DAG T O) (t x : T) :
    x ∈ d.downstream t ↔ Reaches (Graph.E d.graph) t x := by
  unfold DAG.downstream Reaches
  rw [List.mem_append, Graph.mem_bfs, List.mem_singleton]
  grind

theorem DAG.mem_upstream {T O : Type} [DecidableEq T] [DecidableEq O] {d : DAG T O} (h : d.Inv) (t x : T) :
    x ∈ d.upstream t ↔ Reaches (Graph.E d.graph) x t := by
  have hrev : ∀ x y, Path (Graph.E d.graph.inv) x y ↔ Path (Graph.E d.graph) y x := by
    intro x y
    rw [Path.congr (fun a b => Graph.E_inv h.gnodup)]
    exact ⟨fun p => p.reverse, fun p => p.reverse⟩
  unfold DAG.upstream Reaches
  rw [List.mem_append, Graph.mem_bfs, List.mem_singleton, hrev]
  grind

namespace Srv
variable {T I A V : Type} [DecidableEq T] [DecidableEq I] [DecidableEq A]

/-- Only `graph` and `clients` may differ. -/
structure SameGC (a b : Server T I A V) : Prop where
  settings : b.settings = a.settings
  owned : b.owned = a.owned
  slog : b.slog = a.slog
  tlog : b.tlog = a.tlog
  pending : b.pending = a.pending
  requests : b.requests = a.requests
  jobs : b.jobs = a.jobs
  used : b.used = a.used
  answers : b.answers = a.answers

theorem SameGC.refl (a : Server T I A V) : SameGC a a := ⟨rfl, rfl, rfl, rfl, rfl, rfl, rfl, rfl, rfl⟩

theorem SameGC.trans {a b c : Server T I A V} (h : SameGC a b) (g : SameGC b c) : SameGC a c :=
  ⟨g.settings.trans h.settings, g.owned.trans h.owned, g.slog.trans h.slog, g.tlog.trans h.tlog,
    g.pending.trans h.pending, g.requests.trans h.requests, g.jobs.trans h.jobs, g.used.trans h.used,
    g.answers.trans h.answers⟩

/-- Only `settings`, `owned`, `slog` may differ. -/
structure SameS (a b : Server T I A V) : Prop where
  graph : b.graph = a.graph
  clients : b.clients = a.clients
  tlog : b.tlog = a.tlog
  pending : b.pending = a.pending
  requests : b.requests = a.requests
  jobs : b.jobs = a.jobs
  used : b.used = a.used
  answers : b.answers = a.answers

theorem SameS.refl (a : Server T I A V) : SameS a a := ⟨rfl, rfl, rfl, rfl, rfl, rfl, rfl, rfl⟩

theorem SameS.trans {a b c : Server T I A V} (h : SameS a b) (g : SameS b c) : SameS a c :=
  ⟨g.graph.trans h.graph, g.clients.trans h.clients, g.tlog.trans h.tlog, g.pending.trans h.pending,
    g.requests.trans h.requests, g.jobs.trans h.jobs, g.used.trans h.used, g.answers.trans h.answers⟩

/-! ## startJob, logs -/

section
variable (sv : Server T I A V) (ts : List T)

@[simp] theorem startJob_graph : (startJob sv ts).graph = sv.graph := by cases ts <;> rfl
@[simp] theorem startJob_clients : (startJob sv ts).clients = sv.clients := by cases ts <;> rfl
@[simp] theorem startJob_settings : (startJob sv ts).settings = sv.settings := by cases ts <;> rfl
@[simp] theorem startJob_owned : (startJob sv ts).owned = sv.owned := by cases ts <;> rfl
@[simp] theorem startJob_slog : (startJob sv ts).slog = sv.slog := by cases ts <;> rfl
@[simp] theorem startJob_tlog : (startJob sv ts).tlog = sv.tlog := by cases ts <;> rfl
@[simp] theorem startJob_pending : (startJob sv ts).pending = sv.pending := by cases ts <;> rfl
@[simp] theorem startJob_requests : (startJob sv ts).requests = sv.requests := by cases ts <;> rfl
@[simp] theorem startJob_used : (startJob sv ts).used = sv.used := by cases ts <;> rfl
@[simp] theorem startJob_answers : (startJob sv ts).answers = sv.answers := by cases ts <;> rfl

theorem startJob_jobs : (startJob sv ts).jobs = sv.jobs ++
    (match ts with
      | [] => []
      | t :: ts => [{ subs := downstreamSubs sv t, topics := ts }]) := by
  cases ts <;> simp [startJob]
end

section
variable (cfg : Cfg) (sv : Server T I A V)

@[simp] theorem logTopology_graph (e) : (logTopology cfg sv e).graph = sv.graph := rfl
@[simp] theorem logTopology_clients (e) : (logTopology cfg sv e).clients = sv.clients := rfl
@[simp] theorem logTopology_settings (e) : (logTopology cfg sv e).settings = sv.settings := rfl
@[simp] theorem logTopology_owned (e) : (logTopology cfg sv e).owned = sv.owned := rfl
@[simp] theorem logTopology_slog (e) : (logTopology cfg sv e).slog = sv.slog := rfl
@[simp] theorem logTopology_tlog (e) : (logTopology cfg sv e).tlog =
  sv.tlog.append cfg.topologyLimit cfg.queueSize e := rfl
@[simp] theorem logTopology_pending (e) : (logTopology cfg sv e).pending = sv.pending := rfl
@[simp] theorem logTopology_requests (e) : (logTopology cfg sv e).requests = sv.requests := rfl
@[simp] theorem logTopology_jobs (e) : (logTopology cfg sv e).jobs = sv.jobs := rfl
@[simp] theorem logTopology_used (e) : (logTopology cfg sv e).used = sv.used := rfl
@[simp] theorem logTopology_answers (e) : (logTopology cfg sv e).answers = sv.answers := rfl
@[simp] theorem logSettings_settings (e) : (logSettings cfg sv e).settings = sv.settings := rfl
@[simp] theorem logSettings_owned (e) : (logSettings cfg sv e).owned = sv.owned := rfl
@[simp] theorem logSettings_clients (e) : (logSettings cfg sv e).clients = sv.clients := rfl
@[simp] theorem logSettings_slog (e) : (logSettings cfg sv e).slog =
  sv.slog.append cfg.settingsLimit cfg.queueSize e := rfl
theorem logSettings_same (e) : SameS sv (logSettings cfg sv e) := ⟨rfl, rfl, rfl, rfl, rfl, rfl, rfl, rfl⟩
end

/-! ## sessionInfo, processInfo and the dictionary -/

theorem sessionInfo_some {sv : Server T I A V} {s : I} {x} :
    sessionInfo sv s = some x ↔ sv.clients.get? s = some (.session x.1 x.2) := by
  unfold sessionInfo
  constructor
  · intro h
    split at h
    · cases h; assumption
    · cases h
  · intro h; rw [h]

theorem processInfo_some {sv : Server T I A V} {p : I} {us} :
    processInfo sv p = some us ↔ sv.clients.get? p = some (.process us) := by
  unfold processInfo
  constructor
  · intro h
    split at h
    · cases h; assumption
    · cases h
  · intro h; rw [h]

theorem sessionInfo_congr {a b : Server T I A V} {s : I} (h : b.clients.get? s = a.clients.get? s) :
    sessionInfo b s = sessionInfo a s := by simp only [sessionInfo, h]

theorem processInfo_congr {a b : Server T I A V} {s : I} (h : b.clients.get? s = a.clients.get? s) :
    processInfo b s = processInfo a s := by simp only [processInfo, h]

/-! ## Connecting and disconnecting -/

/-- The session dictionary after the owner `o` changed its set of edges. -/
def withEdges (cl : PyDict I (Client T I A V)) (o : Option I) (f : PySet (T × T) → PySet (T × T)) :
    PyDict I (Client T I A V) :=
  match o with
  | none => cl
  | some s => match cl.get? s with
    | some (.session es md) => cl.set s (.session (f es) md)
    | _ => cl

theorem withEdges_get? (cl : PyDict I (Client T I A V)) (o : Option I) (f) (i : I) :
    (withEdges cl o f).get? i = match cl.get? i with
      | some (.session es md) => some (.session (if o = some i then f es else es) md)
      | x => x := by
  unfold withEdges
  cases o with
  | none =>
    simp only [reduceCtorEq, if_false]
    split <;> simp_all
  | some s =>
    simp only [Option.some.injEq]
    by_cases hi : s = i
    · subst hi
      simp only [if_true]
      split
      · rw [PyDict.get?_set, if_pos rfl]
      · rfl
    · have hi' : ¬ i = s := fun h => hi h.symm
      have : (match cl.get? s with
        | some (.session es md) => cl.set s (.session (f es) md)
        | _ => cl).get? i = cl.get? i := by
        split
        · rw [PyDict.get?_set, if_neg hi']
        · rfl
      rw [this]
      split <;> simp_all

theorem withEdges_nodup {cl : PyDict I (Client T I A V)} {o : Option I} {f} (h : cl.keys.Nodup) :
    (withEdges cl o f).keys.Nodup := by
  unfold withEdges
  cases o with
  | none => exact h
  | some s =>
    simp only
    split
    · exact PyDict.nodup_set h
    · exact h

theorem connectOwner_eq (sv : Server T I A V) (a b : T) (o : Option I) :
    connectOwner sv a b o =
      ({ sv with
          graph := (sv.graph.addEdge a b o).1
          clients := if (sv.graph.addEdge a b o).2 = .cyclic then sv.clients
            else withEdges sv.clients o (fun es => PySet.add es (a, b)) },
        (sv.graph.addEdge a b o).2) := by
  unfold connectOwner
  simp only
  split
  · rename_i h; simp only [h, if_true]
  · rename_i h
    simp only [h, reduceCtorEq, if_false]
    cases o with
    | none => simp [withEdges]
    | some s =>
      unfold sessionInfo withEdges setSession
      simp only
      rcases hg : sv.clients.get? s with _ | (_ | _ | _ | _ | _) <;> simp

theorem disconnectOwner_eq (sv : Server T I A V) (a b : T) (o : Option I) :
    disconnectOwner sv a b o =
      ({ sv with
          graph := (sv.graph.removeEdge a b o).1
          clients := withEdges sv.clients o (fun es => PySet.discard es (a, b)) },
        (sv.graph.removeEdge a b o).2) := by
  unfold disconnectOwner
  cases o with
  | none => simp [withEdges]
  | some s =>
    unfold sessionInfo withEdges setSession
    simp only
    rcases hg : sv.clients.get? s with _ | (_ | _ | _ | _ | _) <;> simp

theorem connectOwner_same (sv : Server T I A V) (a b : T) (o : Option I) :
    SameGC sv (connectOwner sv a b o).1 := by
  rw [connectOwner_eq]; exact ⟨rfl, rfl, rfl, rfl, rfl, rfl, rfl, rfl, rfl⟩

theorem disconnectOwner_same (sv : Server T I A V) (a b : T) (o : Option I) :
    SameGC sv (disconnectOwner sv a b o).1 := by
  rw [disconnectOwner_eq]; exact ⟨rfl, rfl, rfl, rfl, rfl, rfl, rfl, rfl, rfl⟩

theorem connect_eq (cfg : Cfg) (sv : Server T I A V) (a b : T) (o : Option I) :
    connect cfg sv a b o = match (sv.graph.addEdge a b o).2 with
      | .cyclic => ((connectOwner sv a b o).1, .cyclic)
      | .returned true =>
        (startJob (logTopology cfg (connectOwner sv a b o).1 (.graphChanged [b] o)) [b], .complete)
      | .returned false => ((connectOwner sv a b o).1, .complete) := by
  unfold connect
  have h : (connectOwner sv a b o).2 = (sv.graph.addEdge a b o).2 := by rw [connectOwner_eq]
  rw [← h]
  rcases hh : connectOwner sv a b o with ⟨x, _ | y⟩
  · rename_i b; cases b <;> rfl
  · rfl

theorem disconnect_eq (cfg : Cfg) (sv : Server T I A V) (a b : T) (o : Option I) :
    disconnect cfg sv a b o =
      (if (sv.graph.removeEdge a b o).2 then
        startJob (logTopology cfg (disconnectOwner sv a b o).1 (.graphChanged [b] o)) [b]
      else (disconnectOwner sv a b o).1, .complete) := by
  unfold disconnect
  have h : (disconnectOwner sv a b o).2 = (sv.graph.removeEdge a b o).2 := by rw [disconnectOwner_eq]
  rw [← h]
  rcases hh : disconnectOwner sv a b o with ⟨x, y⟩
  cases y <;> rfl

/-! ## Session edges and the graph -/

/-- Session edge sets and graph ownership agree, and every session that owns an edge is connected. -/
structure EdgeInv (sv : Server T I A V) : Prop where
  graph : sv.graph.Inv
  nodup : sv.clients.keys.Nodup
  edges : ∀ s es md, sv.clients.get? s = some (.session es md) →
    ∀ a b, (a, b) ∈ es ↔ sv.graph.Owns a b (some s)
  live : ∀ s a b, sv.graph.Owns a b (some s) → ∃ es md, sv.clients.get? s = some (.session es md)

theorem EdgeInv.connectOwner {sv : Server T I A V} (h : EdgeInv sv) (a b : T) (o : Option I)
    (ho : ∀ s, o = some s → ∃ es md, sv.clients.get? s = some (.session es md)) :
    EdgeInv (connectOwner sv a b o).1 := by
  obtain ⟨a1, a2, a3, a4⟩ := DAG.addEdge_spec h.graph a b o
  rw [connectOwner_eq]
  by_cases hc : (sv.graph.addEdge a b o).2 = .cyclic
  · simp only [hc, if_true, a3 hc]
    exact ⟨h.graph, h.nodup, h.edges, h.live⟩
  · simp only [hc, if_false]
    have hown := (a4 hc).1
    refine ⟨a1, withEdges_nodup h.nodup, ?_, ?_⟩
    · intro s es md hs x y
      rw [withEdges_get?] at hs
      simp only [hown]
      split at hs
      · rename_i es0 md0 hg
        simp only [Option.some.injEq, Client.session.injEq] at hs
        obtain ⟨rfl, rfl⟩ := hs
        have := h.edges s es0 md0 hg x y
        by_cases hos : o = some s
        · subst hos; simp [this]
        · have : ¬ some s = o := fun e => hos e.symm
          simp [hos, this, h.edges s es0 md0 hg x y]
      · rename_i hn; exact absurd hs (hn es md)
    · intro s x y hs
      simp only [hown] at hs
      have hlive : ∃ es md, sv.clients.get? s = some (.session es md) := by
        rcases hs with hs | ⟨_, _, rfl⟩
        · exact h.live s x y hs
        · exact ho s rfl
      obtain ⟨es, md, hg⟩ := hlive
      exact ⟨_, md, by rw [withEdges_get?, hg]⟩

theorem EdgeInv.disconnectOwner {sv : Server T I A V} (h : EdgeInv sv) (a b : T) (o : Option I) :
    EdgeInv (disconnectOwner sv a b o).1 := by
  obtain ⟨a1, hown, _, _⟩ := DAG.removeEdge_spec h.graph a b o
  rw [disconnectOwner_eq]
  refine ⟨a1, withEdges_nodup h.nodup, ?_, ?_⟩
  · intro s es md hs x y
    rw [withEdges_get?] at hs
    simp only [hown]
    split at hs
    · rename_i es0 md0 hg
      simp only [Option.some.injEq, Client.session.injEq] at hs
      obtain ⟨rfl, rfl⟩ := hs
      have := h.edges s es0 md0 hg x y
      by_cases hos : o = some s
      · subst hos; simp [this]
      · have : ¬ some s = o := fun e => hos e.symm
        simp [hos, this, h.edges s es0 md0 hg x y]
    · rename_i hn; exact absurd hs (hn es md)
  · intro s x y hs
    simp only [hown] at hs
    obtain ⟨es, md, hg⟩ := h.live s x y hs.1
    exact ⟨_, md, by rw [withEdges_get?, hg]⟩

theorem EdgeInv.congr {a b : Server T I A V} (h : EdgeInv a) (hg : b.graph = a.graph)
    (hc : b.clients = a.clients) : EdgeInv b := by
  obtain ⟨h1, h2, h3, h4⟩ := h
  exact ⟨hg ▸ h1, hc ▸ h2, by rw [hg, hc]; exact h3, by rw [hg, hc]; exact h4⟩

theorem dropEdges_same (s : I) (es : List (T × T)) (sv : Server T I A V) (acc : PySet T) :
    SameGC sv (dropEdges s es sv acc).1 := by
  induction es generalizing sv acc with
  | nil => exact SameGC.refl _
  | cons e es ih => exact (disconnectOwner_same sv e.1 e.2 (some s)).trans (ih _ _)

/-- The loop that drops a session's edges. -/
theorem dropEdges_spec (s : I) (es : List (T × T)) (sv : Server T I A V) (acc : PySet T) (h : EdgeInv sv) :
    EdgeInv (dropEdges s es sv acc).1 ∧
    (∀ x y p, (dropEdges s es sv acc).1.graph.Owns x y p ↔
      sv.graph.Owns x y p ∧ ¬ ((x, y) ∈ es ∧ p = some s)) ∧
    (∀ i, (dropEdges s es sv acc).1.clients.get? i = match sv.clients.get? i with
      | some (.session es' md) =>
        some (.session (if i = s then es'.filter (fun e => decide (e ∉ es)) else es') md)
      | x => x) ∧
    (∀ t, t ∈ (dropEdges s es sv acc).2 ↔ t ∈ acc ∨ ∃ a, (a, t) ∈ es ∧ sv.graph.Owns a t (some s) ∧
      ∀ p, sv.graph.Owns a t p → p = some s) ∧
    (acc.Nodup → (dropEdges s es sv acc).2.Nodup) := by
  induction es generalizing sv acc with
  | nil =>
    refine ⟨h, by simp [dropEdges], ?_, by simp [dropEdges], by simp [dropEdges]⟩
    intro i
    simp only [dropEdges, List.not_mem_nil, not_false_eq_true, decide_true]
    split
    · rename_i es' md hg
      have : es'.filter (fun _ => true) = es' := by simp
      rw [hg, this]; split <;> rfl
    · rfl
  | cons e es ih =>
    obtain ⟨a1, hown, hres, _⟩ := DAG.removeEdge_spec h.graph e.1 e.2 (some s)
    obtain ⟨i1, i2, i3, i4, i5⟩ := ih (disconnectOwner sv e.1 e.2 (some s)).1
      (if (disconnectOwner sv e.1 e.2 (some s)).2 then PySet.add acc e.2 else acc)
      (h.disconnectOwner e.1 e.2 (some s))
    have hg : (disconnectOwner sv e.1 e.2 (some s)).1.graph =
        (sv.graph.removeEdge e.1 e.2 (some s)).1 := by rw [disconnectOwner_eq]
    have hr : (disconnectOwner sv e.1 e.2 (some s)).2 =
        (sv.graph.removeEdge e.1 e.2 (some s)).2 := by rw [disconnectOwner_eq]
    have hcl : (disconnectOwner sv e.1 e.2 (some s)).1.clients =
        withEdges sv.clients (some s) (fun es => PySet.discard es (e.1, e.2)) := by
      rw [disconnectOwner_eq]
    rw [hg] at i2 i4
    rw [hr] at i1 i2 i3 i4 i5
    rw [hcl] at i3
    unfold dropEdges
    simp only [hr]
    refine ⟨i1, ?_, ?_, ?_, ?_⟩
    · intro x y p
      rw [i2, hown, List.mem_cons]
      have : ((x, y) = e) ↔ (x = e.1 ∧ y = e.2) := by
        constructor
        · rintro rfl; exact ⟨rfl, rfl⟩
        · rintro ⟨rfl, rfl⟩; rfl
      rw [this]
      grind
    · intro i
      rw [i3, withEdges_get?]
      rcases hgi : sv.clients.get? i with _ | c
      · rfl
      · cases c with
        | session es' md =>
          simp only [Option.some.injEq]
          by_cases his : i = s
          · subst his
            simp only [if_true, PySet.discard, List.filter_filter, List.mem_cons, not_or]
            have : es'.filter (fun a => decide (a ∉ es) && decide (a ≠ (e.1, e.2))) =
                es'.filter (fun a => decide (¬ a = e ∧ a ∉ es)) := by
              apply List.filter_congr
              intro x _
              have : (x = (e.1, e.2)) ↔ x = e := by constructor <;> (intro h; rw [h])
              simp [this, Bool.and_comm]
            rw [this]
          · have : ¬ s = i := fun h => his h.symm
            simp [his, this]
        | _ => rfl
    · intro t
      rw [i4]
      simp only [hown, List.mem_cons]
      constructor
      · rintro (h1 | ⟨a, h1, ⟨h2, h3⟩, h4⟩)
        · split at h1
          · rename_i ht
            rw [PySet.mem_add] at h1
            rcases h1 with h1 | rfl
            · exact Or.inl h1
            · exact Or.inr ⟨e.1, Or.inl rfl, hres.1 ht⟩
          · exact Or.inl h1
        · refine Or.inr ⟨a, Or.inr h1, h2, ?_⟩
          intro p hp
          by_cases hpe : p = some s
          · exact hpe
          · exact h4 p ⟨hp, fun hh => hpe hh.2.2⟩
      · rintro (h1 | ⟨a, h1, h2, h3⟩)
        · left; split
          · rw [PySet.mem_add]; exact Or.inl h1
          · exact h1
        · by_cases he : e = (a, t)
          · subst he
            left
            rw [if_pos (hres.2 ⟨h2, h3⟩), PySet.mem_add]; exact Or.inr rfl
          · right
            have h1' : (a, t) ∈ es := by
              rcases h1 with h1 | h1
              · exact absurd h1.symm he
              · exact h1
            refine ⟨a, h1', ⟨h2, ?_⟩, fun p hp => h3 p hp.1⟩
            rintro ⟨rfl, rfl, _⟩; exact he rfl
    · intro hacc
      apply i5
      split
      · exact PySet.nodup_add hacc
      · exact hacc

/-! ## Settings helpers leave the rest alone -/

theorem removeSessionSettings_same (sv : Server T I A V) (s : I) : SameS sv (removeSessionSettings sv s) :=
  ⟨rfl, rfl, rfl, rfl, rfl, rfl, rfl, rfl⟩

theorem foldl_sameS {B : Type} (f : Server T I A V → B → Server T I A V) (hf : ∀ sv b, SameS sv (f sv b))
    (l : List B) (sv : Server T I A V) : SameS sv (l.foldl f sv) := by
  induction l generalizing sv with
  | nil => exact SameS.refl _
  | cons b l ih => exact (hf sv b).trans (ih _)

theorem applyComponent_same (cfg : Cfg) (s : I) (sv : Server T I A V) (c : A × V) :
    SameS sv (applyComponent cfg s sv c) := ⟨rfl, rfl, rfl, rfl, rfl, rfl, rfl, rfl⟩

theorem applyMetadata_same (cfg : Cfg) (sv : Server T I A V) (s : I) (md : PyDict A V) :
    SameS sv (applyMetadata cfg sv s md) :=
  (foldl_sameS _ (applyComponent_same cfg s) md sv).trans ⟨rfl, rfl, rfl, rfl, rfl, rfl, rfl, rfl⟩

theorem restoreSetting_same (cfg : Cfg) (sv : Server T I A V) (a : A) :
    SameS sv (restoreSetting cfg sv a) := by
  unfold restoreSetting
  split
  · exact SameS.refl _
  · split
    · exact ⟨rfl, rfl, rfl, rfl, rfl, rfl, rfl, rfl⟩
    · split
      · exact ⟨rfl, rfl, rfl, rfl, rfl, rfl, rfl, rfl⟩
      · exact ⟨rfl, rfl, rfl, rfl, rfl, rfl, rfl, rfl⟩

theorem removeProcessSettings_same (cfg : Cfg) (sv : Server T I A V) (p : I) :
    SameS sv (removeProcessSettings cfg sv p) := foldl_sameS _ (restoreSetting_same cfg) _ _

/-- Only `pending` and `requests` may differ. -/
structure SameR (a b : Server T I A V) : Prop where
  graph : b.graph = a.graph
  clients : b.clients = a.clients
  settings : b.settings = a.settings
  owned : b.owned = a.owned
  slog : b.slog = a.slog
  tlog : b.tlog = a.tlog
  jobs : b.jobs = a.jobs
  used : b.used = a.used
  answers : b.answers = a.answers

theorem SameR.refl (a : Server T I A V) : SameR a a := ⟨rfl, rfl, rfl, rfl, rfl, rfl, rfl, rfl, rfl⟩

theorem SameR.trans {a b c : Server T I A V} (h : SameR a b) (g : SameR b c) : SameR a c :=
  ⟨g.graph.trans h.graph, g.clients.trans h.clients, g.settings.trans h.settings, g.owned.trans h.owned,
    g.slog.trans h.slog, g.tlog.trans h.tlog, g.jobs.trans h.jobs, g.used.trans h.used,
    g.answers.trans h.answers⟩

/-- The loop of `processGone` over the requests of the process. -/
def failAll (sv : Server T I A V) (rs : List I) : Server T I A V :=
  rs.foldl (fun sv r => setResult { sv with pending := sv.pending.pop r } r .disconnected) sv

theorem failAll_same (rs : List I) (sv : Server T I A V) : SameR sv (failAll sv rs) := by
  induction rs generalizing sv with
  | nil => exact SameR.refl _
  | cons r rs ih =>
    exact SameR.trans (b := setResult { sv with pending := sv.pending.pop r } r .disconnected)
      ⟨rfl, rfl, rfl, rfl, rfl, rfl, rfl, rfl, rfl⟩ (ih _)

/-- `processGone` for a process that is connected. -/
theorem processGone_eq (cfg : Cfg) (sv : Server T I A V) (p : I) {us} (h : processInfo sv p = some us) :
    processGone cfg sv p =
      { logTopology cfg (removeProcessSettings cfg
          (failAll sv ((sv.pending.filter (fun x => decide (x.2 = p))).map (·.1))) p) (.processChanged p) with
        clients := sv.clients.pop p } := by
  unfold processGone
  simp only [h]
  have h1 := failAll_same ((sv.pending.filter (fun x => decide (x.2 = p))).map (·.1)) sv
  have h2 := removeProcessSettings_same cfg
    (failAll sv ((sv.pending.filter (fun x => decide (x.2 = p))).map (·.1))) p
  unfold failAll at *
  simp only [logTopology_clients, h2.clients, h1.clients]

/-- Clearing or dropping a connected session. -/
theorem clearSession_eq (cfg : Cfg) (sv : Server T I A V) (s : I) (gone : Bool) {es md}
    (h : sessionInfo sv s = some (es, md)) (hinv : EdgeInv sv) :
    (clearSession cfg sv s gone).2 = (dropEdges s es sv []).2 ∧
    (clearSession cfg sv s gone).1.graph = (dropEdges s es sv []).1.graph ∧
    (∀ i, (clearSession cfg sv s gone).1.clients.get? i =
      if i = s then (if gone then none else some (.session [] none)) else sv.clients.get? i) ∧
    (clearSession cfg sv s gone).1.clients.keys.Nodup ∧
    (clearSession cfg sv s gone).1.settings = (removeSessionSettings sv s).settings ∧
    (clearSession cfg sv s gone).1.owned = sv.owned.pop s ∧
    (clearSession cfg sv s gone).1.slog = sv.slog ∧
    (clearSession cfg sv s gone).1.tlog = (if (dropEdges s es sv []).2.isEmpty then sv.tlog else
      sv.tlog.append cfg.topologyLimit cfg.queueSize (.graphChanged (dropEdges s es sv []).2 (some s))) ∧
    (clearSession cfg sv s gone).1.pending = sv.pending ∧
    (clearSession cfg sv s gone).1.requests = sv.requests ∧
    (clearSession cfg sv s gone).1.jobs = sv.jobs ∧
    (clearSession cfg sv s gone).1.used = sv.used ∧
    (clearSession cfg sv s gone).1.answers = sv.answers := by
  obtain ⟨d1, _, d3, _, _⟩ := dropEdges_spec s es sv [] hinv
  have hs := dropEdges_same s es sv []
  have hcs : sv.clients.get? s = some (.session es md) := sessionInfo_some.1 h
  have hes : es.filter (fun e => decide (e ∉ es)) = [] := by
    rw [List.filter_eq_nil_iff]; intro e he; simp [he]
  have hds : (dropEdges s es sv []).1.clients.get? s = some (.session [] md) := by
    rw [d3, hcs]; simp only [if_true, hes]
  have hinfo : sessionInfo (removeSessionSettings (dropEdges s es sv []).1 s) s = some ([], md) :=
    sessionInfo_some.2 hds
  have hsett : (removeSessionSettings (dropEdges s es sv []).1 s).settings =
      (removeSessionSettings sv s).settings := by
    simp only [removeSessionSettings, hs.settings, hs.owned]
  have hcl : ∀ i, ((dropEdges s es sv []).1.clients.set s (.session [] none)).get? i =
      if i = s then some (.session [] none) else sv.clients.get? i := by
    intro i
    rw [PyDict.get?_set, d3]
    by_cases hi : i = s
    · simp [hi]
    · simp only [hi, if_false]
      split <;> simp_all
  unfold clearSession
  simp only [h, hinfo, setSession]
  have hfin : ∀ (x : Server T I A V) (b : Bool) e,
      (if b = true then x else logTopology cfg x e).graph = x.graph ∧
      (if b = true then x else logTopology cfg x e).clients = x.clients ∧
      (if b = true then x else logTopology cfg x e).settings = x.settings ∧
      (if b = true then x else logTopology cfg x e).owned = x.owned ∧
      (if b = true then x else logTopology cfg x e).slog = x.slog ∧
      (if b = true then x else logTopology cfg x e).pending = x.pending ∧
      (if b = true then x else logTopology cfg x e).requests = x.requests ∧
      (if b = true then x else logTopology cfg x e).jobs = x.jobs ∧
      (if b = true then x else logTopology cfg x e).used = x.used ∧
      (if b = true then x else logTopology cfg x e).answers = x.answers ∧
      (if b = true then x else logTopology cfg x e).tlog = (if b then x.tlog else
        x.tlog.append cfg.topologyLimit cfg.queueSize e) := by
    intro x b e; cases b <;> simp
  simp only [(hfin _ _ _)]
  cases gone
  · simp only [Bool.false_eq_true, if_false]
    exact ⟨trivial, rfl, hcl, PyDict.nodup_set d1.nodup, hsett, by simp [removeSessionSettings, hs.owned],
      hs.slog, by simp [removeSessionSettings, hs.tlog], hs.pending, hs.requests, hs.jobs, hs.used,
      hs.answers⟩
  · simp only [if_true]
    refine ⟨trivial, rfl, ?_, PyDict.nodup_pop (PyDict.nodup_set d1.nodup), hsett,
      by simp [removeSessionSettings, hs.owned],
      hs.slog, by simp [removeSessionSettings, hs.tlog], hs.pending, hs.requests, hs.jobs, hs.used,
      hs.answers⟩
    intro i
    simp only [removeSessionSettings]
    rw [PyDict.get?_pop]
    by_cases hi : i = s
    · simp [hi]
    · have := hcl i
      simp only [hi, if_false] at this ⊢
      exact this

/-! ## Runs -/

/-- States reached by executing a history of steps (with the replies), oldest first. -/
inductive Run (cfg : Cfg) : List (Act T I A V × Reply) → Server T I A V → Prop where
  | init : Run cfg [] init
  | step {h sv a sv' r} : Run cfg h sv → step cfg sv a = some (sv', r) → Run cfg (h ++ [(a, r)]) sv'

/-- The ids of everything that exists were handed out. -/
structure UsedInv (sv : Server T I A V) : Prop where
  clients : ∀ i c, sv.clients.get? i = some c → i ∈ sv.used
  requests : ∀ r q, sv.requests.get? r = some q → r ∈ sv.used
  ssubs : ∀ i x, sv.slog.subs.get? i = some x → i ∈ sv.used
  tsubs : ∀ i x, sv.tlog.subs.get? i = some x → i ∈ sv.used

end Srv
end Ez
