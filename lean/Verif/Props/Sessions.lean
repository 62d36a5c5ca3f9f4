import Verif.Lemmas.SrvInv
import Verif.Props.Dag

/-!
# C11: sessions and their connections

Specification: a history of requests with the server's replies; a connection is *made* by an owner (a
session, or nobody for persistent connections) if the owner's connect request was completed and since
then the owner neither disconnected it nor (for a session) was cleared or ended.
-/

set_option linter.unusedSectionVars false
set_option linter.unusedSimpArgs false

namespace Ez
namespace Srv
variable {T I A V : Type} [DecidableEq T] [DecidableEq I] [DecidableEq A]

/-- The request by which owner `o` connects `a` to `b`. -/
def connectBy (o : Option I) (a b : T) : Act T I A V :=
  match o with
  | none => .connect a b
  | some s => .sessionConnect s a b

/-- The requests by which owner `o` gives up the connection. -/
def GivesUp (o : Option I) (a b : T) (c : Act T I A V) : Prop :=
  match o with
  | none => c = .disconnect a b
  | some s => c = .sessionDisconnect s a b ∨ c = .sessionClear s ∨ c = .sessionGone s

/-- Specification: the connection is made by `o` after history `h`. -/
def MadeBy (h : List (Act T I A V × Reply)) (a b : T) (o : Option I) : Prop :=
  ∃ pre post, h = pre ++ (connectBy o a b, .complete) :: post ∧ ∀ c ∈ post, ¬ GivesUp o a b c.1

theorem madeBy_nil (a b : T) (o : Option I) : ¬ MadeBy ([] : List (Act T I A V × Reply)) a b o := by
  rintro ⟨pre, post, h, _⟩; simp at h

theorem madeBy_snoc (h : List (Act T I A V × Reply)) (c : Act T I A V × Reply) (a b : T) (o : Option I) :
    MadeBy (h ++ [c]) a b o ↔ c = (connectBy o a b, .complete) ∨
      (MadeBy h a b o ∧ ¬ GivesUp o a b c.1) := by
  constructor
  · rintro ⟨pre, post, he, h1⟩
    rcases List.eq_nil_or_concat post with hp | ⟨post', x, hp⟩
    · subst hp
      have := List.append_inj' he (by simp)
      left; simpa using this.2
    · subst hp
      right
      have he' : h ++ [c] = (pre ++ (connectBy o a b, .complete) :: post') ++ [x] := by simp [he]
      obtain ⟨e1, e2⟩ := List.append_inj' he' (by simp)
      have e2 : c = x := by simpa using e2
      subst e2
      exact ⟨⟨pre, post', e1, fun y hy => h1 y (by simp [hy])⟩, h1 c (by simp)⟩
  · rintro (rfl | ⟨⟨pre, post, rfl, h1⟩, h2⟩)
    · exact ⟨h, [], by simp, by simp⟩
    · refine ⟨pre, post ++ [c], by simp, ?_⟩
      intro y hy
      simp at hy
      rcases hy with hy | rfl
      · exact h1 y hy
      · exact h2

theorem owns_iff_madeBy {cfg : Cfg} {h : List (Act T I A V × Reply)} {sv : Server T I A V}
    (hr : Run cfg h sv) (a b : T) (o : Option I) : sv.graph.Owns a b o ↔ MadeBy h a b o := by
  induction hr with
  | init =>
    constructor
    · rintro ⟨x, hx, _⟩; simp [init, DAG.init, PyDict.get?] at hx
    · intro h; exact absurd h (madeBy_nil a b o)
  | step hr hs ih =>
    rw [owns_step (run_inv hr).1 hs, madeBy_snoc, ← ih]
    rename_i h sv act sv' r
    cases act with
    | connect x y =>
      cases o with
      | none => simp [connectBy, GivesUp]; grind
      | some s => simp [connectBy, GivesUp]
    | sessionConnect t x y =>
      cases o with
      | none => simp [connectBy, GivesUp]
      | some s => simp [connectBy, GivesUp]; grind
    | disconnect x y =>
      cases o with
      | none => simp [connectBy, GivesUp]; grind
      | some s => simp [connectBy, GivesUp]
    | sessionDisconnect t x y =>
      cases o with
      | none => simp [connectBy, GivesUp]
      | some s => simp [connectBy, GivesUp]; grind
    | sessionClear t =>
      cases o with
      | none => simp [connectBy, GivesUp]
      | some s => simp [connectBy, GivesUp]; grind
    | sessionGone t =>
      cases o with
      | none => simp [connectBy, GivesUp]
      | some s => simp [connectBy, GivesUp]; grind
    | _ => cases o <;> simp [connectBy, GivesUp]

theorem ownerOf_iff_owns {sv : Server T I A V} (h : sv.graph.Inv) (a b : T) (o : Option I) :
    OwnerOf sv.graph a b o ↔ sv.graph.Owns a b o := by
  constructor
  · rintro ⟨s, hs, ho⟩; exact ⟨s, PyDict.get?_of_mem h.onodup hs, ho⟩
  · rintro ⟨s, hs, ho⟩; exact ⟨s, PyDict.mem_of_get? hs, ho⟩

/-- **C11 (all histories).** After any history of server steps the recorded owners of a connection are
exactly those who made it and have not given it up, and the connection is present exactly when there is
one; so clearing or ending a session takes away exactly that session's share. -/
theorem C11_connections_are_those_made {cfg : Cfg} {h : List (Act T I A V × Reply)} {sv : Server T I A V}
    (hr : Run cfg h sv) (a b : T) :
    (∀ o, OwnerOf sv.graph a b o ↔ MadeBy h a b o) ∧
    (Connected sv.graph a b ↔ ∃ o, MadeBy h a b o) := by
  have hinv := (run_inv hr).1.graph
  constructor
  · intro o
    rw [ownerOf_iff_owns hinv, owns_iff_madeBy hr]
  · rw [connected_iff_E hinv, DAG.edge_iff_owned hinv]
    simp only [owns_iff_madeBy hr]

/-- **C11 (one step).** Clearing or ending session `s` removes the connections only `s` made, keeps
every connection made by another session or persistently, and changes no other owner's hold. -/
theorem C11_session_end_exact {cfg : Cfg} {h : List (Act T I A V × Reply)} {sv sv' : Server T I A V}
    {r : Reply} (hr : Run cfg h sv) {c : Act T I A V} {s : I} (hc : c = .sessionClear s ∨ c = .sessionGone s)
    (hs : step cfg sv c = some (sv', r)) (a b : T) :
    (Connected sv'.graph a b ↔ ∃ o, o ≠ some s ∧ OwnerOf sv.graph a b o) ∧
    (∀ o, o ≠ some s → (OwnerOf sv'.graph a b o ↔ OwnerOf sv.graph a b o)) ∧
    ¬ OwnerOf sv'.graph a b (some s) := by
  have hinv := (run_inv hr).1
  have hinv' := (run_inv (Run.step hr hs)).1
  have key : ∀ o, sv'.graph.Owns a b o ↔ sv.graph.Owns a b o ∧ o ≠ some s := by
    intro o
    rw [owns_step hinv hs]
    rcases hc with rfl | rfl <;> simp
  refine ⟨?_, ?_, ?_⟩
  · rw [connected_iff_E hinv'.graph, DAG.edge_iff_owned hinv'.graph]
    simp only [key, ownerOf_iff_owns hinv.graph]
    grind
  · intro o ho
    rw [ownerOf_iff_owns hinv'.graph, ownerOf_iff_owns hinv.graph, key]
    simp [ho]
  · rw [ownerOf_iff_owns hinv'.graph, key]
    simp

/-- **C11.** The edges the server lists for a session (as in its snapshot) are exactly the connections
the session made and has not given up; a session that has ended holds nothing. -/
theorem C11_session_lists_its_connections {cfg : Cfg} {h : List (Act T I A V × Reply)}
    {sv : Server T I A V} (hr : Run cfg h sv) :
    (∀ s es md, (s, Client.session es md) ∈ sv.clients → ∀ a b, (a, b) ∈ es ↔ MadeBy h a b (some s)) ∧
    (∀ s a b, MadeBy h a b (some s) → ∃ es md, (s, Client.session es md) ∈ sv.clients) := by
  have hinv := (run_inv hr).1
  constructor
  · intro s es md hm a b
    rw [hinv.edges s es md (PyDict.get?_of_mem hinv.nodup hm), owns_iff_madeBy hr]
  · intro s a b hm
    obtain ⟨es, md, hg⟩ := hinv.live s a b ((owns_iff_madeBy hr a b (some s)).2 hm)
    exact ⟨es, md, PyDict.mem_of_get? hg⟩

/-- Executing a list of steps from the start; `none` if one of them is not possible. -/
def exec (cfg : Cfg) (acts : List (Act T I A V)) :
    Option (List (Act T I A V × Reply) × Server T I A V) :=
  acts.foldl (fun st a => st.bind (fun st =>
    (step cfg st.2 a).map (fun x => (st.1 ++ [(a, x.2)], x.1)))) (some ([], init))

theorem exec_run {cfg : Cfg} {acts : List (Act T I A V)} {h sv} (he : exec cfg acts = some (h, sv)) :
    Run cfg h sv := by
  unfold exec at he
  induction acts using list_snoc_induction generalizing h sv with
  | h0 => cases he; exact Run.init
  | hs acts a ih =>
    rw [List.foldl_append, List.foldl_cons, List.foldl_nil, Option.bind_eq_some_iff] at he
    obtain ⟨⟨h0, sv0⟩, h1, h2⟩ := he
    rw [Option.map_eq_some_iff] at h2
    obtain ⟨⟨sv1, r⟩, h3, h4⟩ := h2
    cases h4
    exact Run.step (ih h1) h3

/-- Evaluates a concrete run of the server. -/
macro "srv_eval" : tactic => `(tactic| simp [exec, step, init, addClient, sessionInfo, processInfo,
  connect, connectOwner, disconnect, setSession, logTopology, logSettings, startJob, downstreamSubs,
  upstreamPubs, subscribers, publishers, prepareUpdate, clearSession, dropEdges, disconnectOwner,
  removeSessionSettings, releaseSetting, applyMetadata, applyComponent, registerSession, collides,
  registerProcess, updateOwnership, updateSettings, conflicts, processOwner, sessionOwner,
  initialSettings, restoreSetting, removeProcessSettings, processGone, setResult, finish, route,
  routeResponse, setUnits, sameSet, Fut.complete, Fut.cancel, settingsSnapshot,
  EventLog.append, EventLog.init, EventLog.trim, EventLog.subscribe, EventLog.offer,
  EventLog.sendNext, EventLog.unsubscribe, queueStreamEvent,
  DAG.addEdge, DAG.removeEdge, DAG.prune, DAG.upstream, DAG.downstream, DAG.init,
  Graph.leaves, Graph.addTo, Graph.touch, Graph.bfs, Graph.bfsLoop, Graph.succs, Graph.updateAll,
  Graph.inv, Graph.invStep,
  PyDict.setdefault, PyDict.get?, PyDict.set, PyDict.modify, PyDict.keys, PyDict.pop, PySet.add,
  PySet.discard])

/-- Two sessions share `1 → 2`, session 5 alone makes `2 → 3`, `3 → 4` is persistent, and a loop is
refused. When session 5 ends, only `2 → 3` disappears. -/
example :
    (exec (T := Nat) (I := Nat) (A := Nat) (V := Nat)
      { settingsLimit := 10, topologyLimit := 10, queueSize := 4 }
      [.openSession 5, .openSession 6, .sessionConnect 5 1 2, .sessionConnect 6 1 2,
        .sessionConnect 5 2 3, .connect 3 4, .sessionConnect 5 4 1, .sessionGone 5]).map
      (fun x => (x.1.map (·.2), x.2.graph.owners, x.2.clients.map (·.1))) =
    some ([.complete, .complete, .complete, .complete, .complete, .complete, .cyclic, .complete],
      [((1, 2), [some 6]), ((3, 4), [none])], [6]) := by
  srv_eval

end Srv
end Ez
