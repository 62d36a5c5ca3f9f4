import Verif.Lemmas.Srv

/-! # One step of the graph server, component by component -/

set_option linter.unusedSectionVars false
set_option linter.unusedSimpArgs false

namespace Ez
namespace Srv
variable {T I A V : Type} [DecidableEq T] [DecidableEq I] [DecidableEq A]

/-- The edges of a session after a connect or disconnect of owner `o`. -/
def editEdges (c : Option (Client T I A V)) (f : PySet (T × T) → PySet (T × T)) : Option (Client T I A V) :=
  match c with
  | some (.session es md) => some (.session (f es) md)
  | x => x

/-- The client `i` after a step. -/
def clientAfter (sv : Server T I A V) (i : I) : Act T I A V → Option (Client T I A V)
  | .subscribe j t => if i = j then some (.sub t [] []) else sv.clients.get? i
  | .publish j t => if i = j then some (.pub t) else sv.clients.get? i
  | .channel j p => match sv.clients.get? p with
    | some (.pub _) => if i = j then some (.chan p) else sv.clients.get? i
    | _ => sv.clients.get? i
  | .openSession j => if i = j then some (.session [] none) else sv.clients.get? i
  | .openProcess j => if i = j then some (.process []) else sv.clients.get? i
  | .gone j => if i = j then none else sv.clients.get? i
  | .sessionConnect s a b =>
    if i = s ∧ (sv.graph.addEdge a b (some s)).2 ≠ .cyclic
    then editEdges (sv.clients.get? i) (fun es => PySet.add es (a, b)) else sv.clients.get? i
  | .sessionDisconnect s a b =>
    if i = s then editEdges (sv.clients.get? i) (fun es => PySet.discard es (a, b)) else sv.clients.get? i
  | .sessionClear s => if i = s then some (.session [] none) else sv.clients.get? i
  | .sessionGone s => if i = s then none else sv.clients.get? i
  | .sessionRegister s md =>
    if i = s ∧ collides sv s md = false then
      (match sv.clients.get? i with | some (.session es _) => some (.session es (some md)) | x => x)
    else sv.clients.get? i
  | .registerProcess p units =>
    if i = p ∧ (conflicts sv p units).isEmpty then some (.process (units.foldl PySet.add []))
    else sv.clients.get? i
  | .updateOwnership p added removed =>
    if i = p ∧ (conflicts sv p added).isEmpty then
      some (.process (removed.foldl PySet.discard (added.foldl PySet.add ((processInfo sv p).getD []))))
    else sv.clients.get? i
  | .processGone p => if i = p then none else sv.clients.get? i
  | .notify j => match sv.jobs[j]? with
    | some { subs := s :: _, topics := _ } =>
      if i = s then (match sv.clients.get? i with
        | some (.sub t w sent) => some (.sub t (w ++ [upstreamPubs sv t]) sent)
        | x => x)
      else sv.clients.get? i
    | _ => sv.clients.get? i
  | .write s j =>
    if i = s then (match sv.clients.get? i with
      | some (.sub t w sent) => match w[j]? with
        | some ids => some (.sub t (w.eraseIdx j) (sent ++ [ids]))
        | none => some (.sub t w sent)
      | x => x)
    else sv.clients.get? i
  | _ => sv.clients.get? i

theorem connect_clients (cfg : Cfg) (sv : Server T I A V) (a b : T) (o : Option I) :
    (connect cfg sv a b o).1.clients = (connectOwner sv a b o).1.clients := by
  rw [connect_eq]
  split <;> simp

theorem disconnect_clients (cfg : Cfg) (sv : Server T I A V) (a b : T) (o : Option I) :
    (disconnect cfg sv a b o).1.clients = (disconnectOwner sv a b o).1.clients := by
  rw [disconnect_eq]
  split <;> simp

theorem setUnits_clients (cfg : Cfg) (sv : Server T I A V) (p : I) (old new : PySet A) :
    (setUnits cfg sv p old new).clients = sv.clients.set p (.process new) := by
  unfold setUnits
  simp only
  split <;> simp

theorem clients_step {cfg : Cfg} {sv : Server T I A V} {a : Act T I A V} {sv' r} (hinv : EdgeInv sv)
    (h : step cfg sv a = some (sv', r)) (i : I) : sv'.clients.get? i = clientAfter sv i a := by
  cases a with
  | subscribe j t =>
    simp only [step] at h; split at h; · cases h
    cases h; simp only [addClient, clientAfter, PyDict.get?_set]
  | publish j t =>
    simp only [step] at h; split at h; · cases h
    cases h; simp only [startJob_clients, addClient, clientAfter, PyDict.get?_set]
  | channel j p =>
    simp only [step] at h; split at h; · cases h
    simp only [clientAfter]
    split at h
    · rename_i t hg; cases h; simp only [hg, addClient, PyDict.get?_set]
    · rename_i hg; cases h
      split
      · rename_i t ht; exact absurd ht (hg t)
      · rfl
  | openSession j =>
    simp only [step] at h; split at h; · cases h
    cases h; simp only [addClient, clientAfter, PyDict.get?_set]
  | openProcess j =>
    simp only [step] at h; split at h; · cases h
    cases h; simp only [addClient, clientAfter, PyDict.get?_set]
  | gone j =>
    simp only [step] at h
    split at h <;> cases h <;> simp only [clientAfter, PyDict.get?_pop]
  | connect x y =>
    simp only [step, Option.some.injEq] at h
    have h1 := congrArg Prod.fst h
    subst h1
    rw [connect_clients, connectOwner_eq]
    simp only [clientAfter, withEdges, ite_self]
  | disconnect x y =>
    simp only [step, Option.some.injEq] at h
    have h1 := congrArg Prod.fst h
    subst h1
    rw [disconnect_clients, disconnectOwner_eq]
    simp only [clientAfter, withEdges]
  | sessionConnect s x y =>
    simp only [step] at h
    split at h
    · simp only [Option.some.injEq] at h
      have h1 := congrArg Prod.fst h
      subst h1
      rw [connect_clients, connectOwner_eq]
      simp only [clientAfter]
      by_cases hc : (sv.graph.addEdge x y (some s)).2 = .cyclic
      · simp [hc]
      · simp only [hc, if_false, ne_eq, not_false_eq_true, and_true, withEdges_get?, editEdges,
          Option.some.injEq]
        by_cases hi : i = s
        · subst hi; simp only [if_true]; rfl
        · have : ¬ s = i := fun e => hi e.symm
          simp only [hi, this, if_false]
          split <;> simp_all
    · cases h
  | sessionDisconnect s x y =>
    simp only [step] at h
    split at h
    · simp only [Option.some.injEq] at h
      have h1 := congrArg Prod.fst h
      subst h1
      rw [disconnect_clients, disconnectOwner_eq]
      simp only [clientAfter, withEdges_get?, editEdges, Option.some.injEq]
      by_cases hi : i = s
      · subst hi; simp only [if_true]; rfl
      · have : ¬ s = i := fun e => hi e.symm
        simp only [hi, this, if_false]
        split <;> simp_all
    · cases h
  | sessionClear s =>
    simp only [step] at h
    split at h
    · rename_i x hx
      cases h
      obtain ⟨_, _, hcl, _⟩ := clearSession_eq cfg sv s false (es := x.1) (md := x.2) hx hinv
      simp only [startJob_clients, hcl, clientAfter, Bool.false_eq_true, if_false]
    · cases h
  | sessionGone s =>
    simp only [step] at h
    split at h
    · rename_i x hx
      cases h
      obtain ⟨_, _, hcl, _⟩ := clearSession_eq cfg sv s true (es := x.1) (md := x.2) hx hinv
      simp only [startJob_clients, hcl, clientAfter, if_true]
    · cases h
  | sessionRegister s md =>
    simp only [step] at h
    split at h
    · rename_i x hx
      split at h
      · simp only [Option.some.injEq] at h
        have h1 := congrArg Prod.fst h
        subst h1
        unfold registerSession
        simp only [hx, clientAfter]
        cases hc : collides sv s md
        · simp only [Bool.false_eq_true, if_false, and_true]
          rw [(applyMetadata_same cfg _ s md).clients]
          simp only [setSession, removeSessionSettings, PyDict.get?_set]
          by_cases hi : i = s
          · subst hi
            rw [sessionInfo_some] at hx
            simp [hx]
          · simp [hi]
        · simp
      · cases h
    · cases h
  | registerProcess p units =>
    simp only [step] at h
    split at h
    · rename_i x hx
      simp only [Option.some.injEq] at h
      have h1 := congrArg Prod.fst h
      subst h1
      unfold registerProcess
      simp only [hx, clientAfter]
      by_cases hc : (conflicts sv p units).isEmpty = true
      · simp only [hc, if_true, setUnits_clients, PyDict.get?_set, and_true]
      · simp only [hc, if_false, and_false, Bool.false_eq_true]
    · cases h
  | updateOwnership p added removed =>
    simp only [step] at h
    split at h
    · rename_i x hx
      simp only [Option.some.injEq] at h
      have h1 := congrArg Prod.fst h
      subst h1
      unfold updateOwnership
      simp only [hx, clientAfter]
      by_cases hc : (conflicts sv p added).isEmpty = true
      · simp only [hc, if_true, setUnits_clients, PyDict.get?_set, and_true, Option.getD_some]
      · simp only [hc, if_false, and_false, Bool.false_eq_true]
    · cases h
  | updateSettings p x v =>
    simp only [step] at h
    split at h
    · rename_i us hx
      simp only [Option.some.injEq] at h
      have h1 := congrArg Prod.fst h
      subst h1
      unfold updateSettings
      simp only [hx, clientAfter]
      split <;> rfl
    · cases h
  | processGone p =>
    simp only [step] at h
    split at h
    · rename_i us hx
      cases h
      rw [processGone_eq cfg sv p hx]
      simp only [clientAfter, PyDict.get?_pop]
    · cases h
  | request q u ok =>
    simp only [step] at h; split at h; · cases h
    cases h
    unfold route
    simp only [clientAfter]
    split
    · rfl
    · split <;> rfl
  | response p q v =>
    simp only [step] at h
    split at h
    · cases h
      unfold routeResponse
      simp only [clientAfter]
      split
      · rfl
      · split <;> rfl
    · cases h
  | timeout q => simp only [step] at h; split at h <;> cases h; rfl
  | resume q => simp only [step] at h; split at h <;> cases h <;> rfl
  | watchSettings j n => simp only [step] at h; split at h <;> cases h; rfl
  | watchTopology j n => simp only [step] at h; split at h <;> cases h; rfl
  | sendSettings j => cases h; rfl
  | sendTopology j => cases h; rfl
  | unwatchSettings j => cases h; rfl
  | unwatchTopology j => cases h; rfl
  | notify j =>
    simp only [step] at h
    split at h
    · rename_i s ss ts hj
      cases h
      simp only [clientAfter, hj, prepareUpdate]
      by_cases hi : i = s
      · subst hi
        simp only [if_true]
        split
        · rename_i hg; rw [PyDict.get?_set, if_pos rfl, hg]
        · rename_i hn
          split
          · rename_i hg; exact absurd hg (hn _ _ _)
          · rfl
      · simp only [hi, if_false]
        split
        · rw [PyDict.get?_set, if_neg hi]
        · rfl
    · rename_i t ts hj
      cases h
      simp only [clientAfter, hj]
    · cases h
  | write s j =>
    simp only [step] at h
    split at h
    · rename_i t w sent hs
      split at h
      · rename_i ids hw
        cases h
        simp only [clientAfter, PyDict.get?_set]
        by_cases hi : i = s
        · subst hi; simp only [if_true, hs, hw]
        · simp only [hi, if_false]
      · cases h
    · cases h

theorem connect_graph (cfg : Cfg) (sv : Server T I A V) (a b : T) (o : Option I) :
    (connect cfg sv a b o).1.graph = (sv.graph.addEdge a b o).1 := by
  rw [connect_eq]
  split <;> simp [connectOwner_eq]

theorem disconnect_graph (cfg : Cfg) (sv : Server T I A V) (a b : T) (o : Option I) :
    (disconnect cfg sv a b o).1.graph = (sv.graph.removeEdge a b o).1 := by
  rw [disconnect_eq]
  split <;> simp [disconnectOwner_eq]

/-- The topic graph after a step. -/
def graphAfter (sv : Server T I A V) : Act T I A V → DAG T (Option I)
  | .connect a b => (sv.graph.addEdge a b none).1
  | .disconnect a b => (sv.graph.removeEdge a b none).1
  | .sessionConnect s a b => (sv.graph.addEdge a b (some s)).1
  | .sessionDisconnect s a b => (sv.graph.removeEdge a b (some s)).1
  | .sessionClear s => (dropEdges s (((sessionInfo sv s).map (·.1)).getD []) sv []).1.graph
  | .sessionGone s => (dropEdges s (((sessionInfo sv s).map (·.1)).getD []) sv []).1.graph
  | _ => sv.graph

theorem setUnits_graph (cfg : Cfg) (sv : Server T I A V) (p : I) (old new : PySet A) :
    (setUnits cfg sv p old new).graph = sv.graph := by
  unfold setUnits
  simp only
  split <;> simp

theorem graph_step {cfg : Cfg} {sv : Server T I A V} {a : Act T I A V} {sv' r} (hinv : EdgeInv sv)
    (h : step cfg sv a = some (sv', r)) : sv'.graph = graphAfter sv a := by
  cases a with
  | subscribe j t => simp only [step] at h; split at h <;> cases h; rfl
  | publish j t => simp only [step] at h; split at h <;> cases h; rfl
  | channel j p =>
    simp only [step] at h; split at h; · cases h
    split at h <;> cases h <;> rfl
  | openSession j => simp only [step] at h; split at h <;> cases h; rfl
  | openProcess j => simp only [step] at h; split at h <;> cases h; rfl
  | gone j => simp only [step] at h; split at h <;> cases h <;> rfl
  | connect x y =>
    simp only [step, Option.some.injEq] at h
    have h1 := congrArg Prod.fst h
    subst h1; rw [connect_graph]; rfl
  | disconnect x y =>
    simp only [step, Option.some.injEq] at h
    have h1 := congrArg Prod.fst h
    subst h1; rw [disconnect_graph]; rfl
  | sessionConnect s x y =>
    simp only [step] at h
    split at h
    · simp only [Option.some.injEq] at h
      have h1 := congrArg Prod.fst h
      subst h1; rw [connect_graph]; rfl
    · cases h
  | sessionDisconnect s x y =>
    simp only [step] at h
    split at h
    · simp only [Option.some.injEq] at h
      have h1 := congrArg Prod.fst h
      subst h1; rw [disconnect_graph]; rfl
    · cases h
  | sessionClear s =>
    simp only [step] at h
    split at h
    · rename_i x hx
      cases h
      obtain ⟨_, hg, _⟩ := clearSession_eq cfg sv s false (es := x.1) (md := x.2) hx hinv
      simp only [startJob_graph, hg, graphAfter, hx, Option.map_some, Option.getD_some]
    · cases h
  | sessionGone s =>
    simp only [step] at h
    split at h
    · rename_i x hx
      cases h
      obtain ⟨_, hg, _⟩ := clearSession_eq cfg sv s true (es := x.1) (md := x.2) hx hinv
      simp only [startJob_graph, hg, graphAfter, hx, Option.map_some, Option.getD_some]
    · cases h
  | sessionRegister s md =>
    simp only [step] at h
    split at h
    · rename_i x hx
      split at h
      · simp only [Option.some.injEq] at h
        have h1 := congrArg Prod.fst h
        subst h1
        unfold registerSession
        simp only [hx]
        split
        · rfl
        · exact (applyMetadata_same cfg _ s md).graph
      · cases h
    · cases h
  | registerProcess p units =>
    simp only [step] at h
    split at h
    · rename_i x hx
      simp only [Option.some.injEq] at h
      have h1 := congrArg Prod.fst h
      subst h1
      unfold registerProcess
      simp only [hx]
      split
      · exact setUnits_graph _ _ _ _ _
      · rfl
    · cases h
  | updateOwnership p added removed =>
    simp only [step] at h
    split at h
    · rename_i x hx
      simp only [Option.some.injEq] at h
      have h1 := congrArg Prod.fst h
      subst h1
      unfold updateOwnership
      simp only [hx]
      split
      · exact setUnits_graph _ _ _ _ _
      · rfl
    · cases h
  | updateSettings p x v =>
    simp only [step] at h
    split at h
    · rename_i us hx
      simp only [Option.some.injEq] at h
      have h1 := congrArg Prod.fst h
      subst h1
      unfold updateSettings
      simp only [hx]
      split <;> rfl
    · cases h
  | processGone p =>
    simp only [step] at h
    split at h
    · rename_i us hx
      cases h
      rw [processGone_eq cfg sv p hx]
      simp only [logTopology_graph, (removeProcessSettings_same cfg _ p).graph, (failAll_same _ sv).graph]
      rfl
    · cases h
  | request q u ok =>
    simp only [step] at h; split at h; · cases h
    cases h
    unfold route
    simp only
    split
    · rfl
    · split <;> rfl
  | response p q v =>
    simp only [step] at h
    split at h
    · cases h
      unfold routeResponse
      simp only
      split
      · rfl
      · split <;> rfl
    · cases h
  | timeout q => simp only [step] at h; split at h <;> cases h; rfl
  | resume q => simp only [step] at h; split at h <;> cases h <;> rfl
  | watchSettings j n => simp only [step] at h; split at h <;> cases h; rfl
  | watchTopology j n => simp only [step] at h; split at h <;> cases h; rfl
  | sendSettings j => cases h; rfl
  | sendTopology j => cases h; rfl
  | unwatchSettings j => cases h; rfl
  | unwatchTopology j => cases h; rfl
  | notify j =>
    simp only [step] at h
    split at h
    · cases h
      simp only [prepareUpdate]
      split <;> rfl
    · cases h; rfl
    · cases h
  | write s j =>
    simp only [step] at h
    split at h
    · split at h <;> cases h; rfl
    · cases h

end Srv
end Ez
