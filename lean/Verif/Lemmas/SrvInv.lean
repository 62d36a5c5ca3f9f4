import Verif.Lemmas.SrvStep

/-! # Invariants of the graph server: edges, ids -/

set_option linter.unusedSectionVars false
set_option linter.unusedSimpArgs false

namespace Ez
namespace Srv
variable {T I A V : Type} [DecidableEq T] [DecidableEq I] [DecidableEq A]

theorem nodup_step {cfg : Cfg} {sv : Server T I A V} {a : Act T I A V} {sv' r} (hinv : EdgeInv sv)
    (h : step cfg sv a = some (sv', r)) : sv'.clients.keys.Nodup := by
  have hn := hinv.nodup
  cases a with
  | subscribe j t => simp only [step] at h; split at h <;> cases h; exact PyDict.nodup_set hn
  | publish j t => simp only [step] at h; split at h <;> cases h; exact PyDict.nodup_set hn
  | channel j p =>
    simp only [step] at h; split at h; · cases h
    split at h <;> cases h
    · exact PyDict.nodup_set hn
    · exact hn
  | openSession j => simp only [step] at h; split at h <;> cases h; exact PyDict.nodup_set hn
  | openProcess j => simp only [step] at h; split at h <;> cases h; exact PyDict.nodup_set hn
  | gone j => simp only [step] at h; split at h <;> cases h <;> exact PyDict.nodup_pop hn
  | connect x y =>
    simp only [step, Option.some.injEq] at h
    have h1 := congrArg Prod.fst h
    subst h1; rw [connect_clients]
    exact (hinv.connectOwner x y none (by simp)).nodup
  | disconnect x y =>
    simp only [step, Option.some.injEq] at h
    have h1 := congrArg Prod.fst h
    subst h1; rw [disconnect_clients]
    exact (hinv.disconnectOwner x y none).nodup
  | sessionConnect s x y =>
    simp only [step] at h
    split at h
    · rename_i q hq
      simp only [Option.some.injEq] at h
      have h1 := congrArg Prod.fst h
      subst h1; rw [connect_clients, connectOwner_eq]
      simp only
      split
      · exact hn
      · exact withEdges_nodup hn
    · cases h
  | sessionDisconnect s x y =>
    simp only [step] at h
    split at h
    · simp only [Option.some.injEq] at h
      have h1 := congrArg Prod.fst h
      subst h1; rw [disconnect_clients]
      exact (hinv.disconnectOwner x y _).nodup
    · cases h
  | sessionClear s =>
    simp only [step] at h
    split at h
    · rename_i x hx
      cases h
      obtain ⟨_, _, _, hn', _⟩ := clearSession_eq cfg sv s false (es := x.1) (md := x.2) hx hinv
      simpa using hn'
    · cases h
  | sessionGone s =>
    simp only [step] at h
    split at h
    · rename_i x hx
      cases h
      obtain ⟨_, _, _, hn', _⟩ := clearSession_eq cfg sv s true (es := x.1) (md := x.2) hx hinv
      simpa using hn'
    · cases h
  | sessionRegister s md =>
    simp only [step] at h
    split at h
    · rename_i x hx
      split at h
      · simp only [Option.some.injEq] at h
        have h1 := congrArg Prod.fst h
        subst h1
        unfold registerSession
        simp only [hx]
        split
        · exact hn
        · rw [(applyMetadata_same cfg _ s md).clients]; exact PyDict.nodup_set hn
      · cases h
    · cases h
  | registerProcess p units =>
    simp only [step] at h
    split at h
    · rename_i x hx
      simp only [Option.some.injEq] at h
      have h1 := congrArg Prod.fst h
      subst h1
      unfold registerProcess
      simp only [hx]
      split
      · rw [setUnits_clients]; exact PyDict.nodup_set hn
      · exact hn
    · cases h
  | updateOwnership p added removed =>
    simp only [step] at h
    split at h
    · rename_i x hx
      simp only [Option.some.injEq] at h
      have h1 := congrArg Prod.fst h
      subst h1
      unfold updateOwnership
      simp only [hx]
      split
      · rw [setUnits_clients]; exact PyDict.nodup_set hn
      · exact hn
    · cases h
  | updateSettings p x v =>
    simp only [step] at h
    split at h
    · rename_i us hx
      simp only [Option.some.injEq] at h
      have h1 := congrArg Prod.fst h
      subst h1
      unfold updateSettings
      simp only [hx]
      split <;> exact hn
    · cases h
  | processGone p =>
    simp only [step] at h
    split at h
    · rename_i us hx
      cases h
      rw [processGone_eq cfg sv p hx]
      exact PyDict.nodup_pop hn
    · cases h
  | request q u ok =>
    simp only [step] at h; split at h; · cases h
    cases h
    unfold route
    simp only
    split
    · exact hn
    · split <;> exact hn
  | response p q v =>
    simp only [step] at h
    split at h
    · cases h
      unfold routeResponse
      simp only
      split
      · exact hn
      · split <;> exact hn
    · cases h
  | timeout q => simp only [step] at h; split at h <;> cases h; exact hn
  | resume q => simp only [step] at h; split at h <;> cases h <;> exact hn
  | watchSettings j n => simp only [step] at h; split at h <;> cases h; exact hn
  | watchTopology j n => simp only [step] at h; split at h <;> cases h; exact hn
  | sendSettings j => cases h; exact hn
  | sendTopology j => cases h; exact hn
  | unwatchSettings j => cases h; exact hn
  | unwatchTopology j => cases h; exact hn
  | notify j =>
    simp only [step] at h
    split at h
    · cases h
      simp only [prepareUpdate]
      split
      · exact PyDict.nodup_set hn
      · exact hn
    · cases h; exact hn
    · cases h
  | write s j =>
    simp only [step] at h
    split at h
    · split at h <;> cases h; exact PyDict.nodup_set hn
    · cases h

/-- Ids used after a step. -/
def usedAfter (sv : Server T I A V) : Act T I A V → List I
  | .subscribe j _ => j :: sv.used
  | .publish j _ => j :: sv.used
  | .channel j p => match sv.clients.get? p with
    | some (.pub _) => j :: sv.used
    | _ => sv.used
  | .openSession j => j :: sv.used
  | .openProcess j => j :: sv.used
  | .request r _ _ => r :: sv.used
  | .watchSettings j _ => j :: sv.used
  | .watchTopology j _ => j :: sv.used
  | _ => sv.used

theorem connect_used (cfg : Cfg) (sv : Server T I A V) (a b : T) (o : Option I) :
    (connect cfg sv a b o).1.used = sv.used := by
  rw [connect_eq]
  split <;> simp [(connectOwner_same sv a b o).used]

theorem disconnect_used (cfg : Cfg) (sv : Server T I A V) (a b : T) (o : Option I) :
    (disconnect cfg sv a b o).1.used = sv.used := by
  rw [disconnect_eq]
  split <;> simp [(disconnectOwner_same sv a b o).used]

theorem used_step {cfg : Cfg} {sv : Server T I A V} {a : Act T I A V} {sv' r} (hinv : EdgeInv sv)
    (h : step cfg sv a = some (sv', r)) : sv'.used = usedAfter sv a := by
  cases a with
  | subscribe j t => simp only [step] at h; split at h <;> cases h; rfl
  | publish j t => simp only [step] at h; split at h <;> cases h; rfl
  | channel j p =>
    simp only [step] at h; split at h; · cases h
    split at h
    · rename_i hg; cases h; simp [usedAfter, hg, addClient]
    · rename_i hg; cases h
      simp only [usedAfter]
  | openSession j => simp only [step] at h; split at h <;> cases h; rfl
  | openProcess j => simp only [step] at h; split at h <;> cases h; rfl
  | gone j => simp only [step] at h; split at h <;> cases h <;> rfl
  | connect x y =>
    simp only [step, Option.some.injEq] at h
    have h1 := congrArg Prod.fst h
    subst h1; rw [connect_used]; rfl
  | disconnect x y =>
    simp only [step, Option.some.injEq] at h
    have h1 := congrArg Prod.fst h
    subst h1; rw [disconnect_used]; rfl
  | sessionConnect s x y =>
    simp only [step] at h
    split at h
    · simp only [Option.some.injEq] at h
      have h1 := congrArg Prod.fst h
      subst h1; rw [connect_used]; rfl
    · cases h
  | sessionDisconnect s x y =>
    simp only [step] at h
    split at h
    · simp only [Option.some.injEq] at h
      have h1 := congrArg Prod.fst h
      subst h1; rw [disconnect_used]; rfl
    · cases h
  | sessionClear s =>
    simp only [step] at h
    split at h
    · rename_i x hx
      cases h
      have := (clearSession_eq cfg sv s false (es := x.1) (md := x.2) hx hinv).2.2.2.2.2.2.2.2.2.2.2.1
      simp only [startJob_used, this, usedAfter]
    · cases h
  | sessionGone s =>
    simp only [step] at h
    split at h
    · rename_i x hx
      cases h
      have := (clearSession_eq cfg sv s true (es := x.1) (md := x.2) hx hinv).2.2.2.2.2.2.2.2.2.2.2.1
      simp only [startJob_used, this, usedAfter]
    · cases h
  | sessionRegister s md =>
    simp only [step] at h
    split at h
    · rename_i x hx
      split at h
      · simp only [Option.some.injEq] at h
        have h1 := congrArg Prod.fst h
        subst h1
        unfold registerSession
        simp only [hx]
        split
        · rfl
        · exact (applyMetadata_same cfg _ s md).used
      · cases h
    · cases h
  | registerProcess p units =>
    simp only [step] at h
    split at h
    · rename_i x hx
      simp only [Option.some.injEq] at h
      have h1 := congrArg Prod.fst h
      subst h1
      unfold registerProcess
      simp only [hx]
      split
      · unfold setUnits; simp only; split <;> rfl
      · rfl
    · cases h
  | updateOwnership p added removed =>
    simp only [step] at h
    split at h
    · rename_i x hx
      simp only [Option.some.injEq] at h
      have h1 := congrArg Prod.fst h
      subst h1
      unfold updateOwnership
      simp only [hx]
      split
      · unfold setUnits; simp only; split <;> rfl
      · rfl
    · cases h
  | updateSettings p x v =>
    simp only [step] at h
    split at h
    · rename_i us hx
      simp only [Option.some.injEq] at h
      have h1 := congrArg Prod.fst h
      subst h1
      unfold updateSettings
      simp only [hx]
      split <;> rfl
    · cases h
  | processGone p =>
    simp only [step] at h
    split at h
    · rename_i us hx
      cases h
      rw [processGone_eq cfg sv p hx]
      simp only [logTopology_used, (removeProcessSettings_same cfg _ p).used, (failAll_same _ sv).used]
      rfl
    · cases h
  | request q u ok =>
    simp only [step] at h; split at h; · cases h
    cases h
    unfold route
    simp only
    split
    · rfl
    · split <;> rfl
  | response p q v =>
    simp only [step] at h
    split at h
    · cases h
      unfold routeResponse
      simp only
      split
      · rfl
      · split <;> rfl
    · cases h
  | timeout q => simp only [step] at h; split at h <;> cases h; rfl
  | resume q => simp only [step] at h; split at h <;> cases h <;> rfl
  | watchSettings j n => simp only [step] at h; split at h <;> cases h; rfl
  | watchTopology j n => simp only [step] at h; split at h <;> cases h; rfl
  | sendSettings j => cases h; rfl
  | sendTopology j => cases h; rfl
  | unwatchSettings j => cases h; rfl
  | unwatchTopology j => cases h; rfl
  | notify j =>
    simp only [step] at h
    split at h
    · cases h
      simp only [prepareUpdate]
      split <;> rfl
    · cases h; rfl
    · cases h
  | write s j =>
    simp only [step] at h
    split at h
    · split at h <;> cases h; rfl
    · cases h

/-- A new id was not used before. -/
theorem fresh_step {cfg : Cfg} {sv : Server T I A V} {a : Act T I A V} {sv' r}
    (h : step cfg sv a = some (sv', r)) (j : I)
    (ha : (∃ t, a = .subscribe j t) ∨ (∃ t, a = .publish j t) ∨ (∃ p, a = .channel j p) ∨
      a = .openSession j ∨ a = .openProcess j ∨ (∃ u ok, a = .request j u ok) ∨
      (∃ n, a = .watchSettings j n) ∨ (∃ n, a = .watchTopology j n)) : j ∉ sv.used := by
  rcases ha with ⟨t, rfl⟩ | ⟨t, rfl⟩ | ⟨p, rfl⟩ | rfl | rfl | ⟨u, ok, rfl⟩ | ⟨n, rfl⟩ | ⟨n, rfl⟩ <;>
  · simp only [step] at h
    split at h
    · cases h
    · assumption

theorem clients_used_step {cfg : Cfg} {sv : Server T I A V} {a : Act T I A V} {sv' r} (hinv : EdgeInv sv)
    (hu : ∀ i c, sv.clients.get? i = some c → i ∈ sv.used)
    (h : step cfg sv a = some (sv', r)) : ∀ i c, sv'.clients.get? i = some c → i ∈ sv'.used := by
  intro i c hc
  rw [clients_step hinv h] at hc
  rw [used_step hinv h]
  have hsome : ∀ {x : Option (Client T I A V)} {f}, editEdges x f = some c → ∃ d, x = some d := by
    intro x f hx
    cases x with
    | none => simp [editEdges] at hx
    | some d => exact ⟨d, rfl⟩
  cases a with
  | subscribe j t =>
    simp only [clientAfter] at hc
    simp only [usedAfter, List.mem_cons]
    split at hc
    · exact Or.inl ‹_›
    · exact Or.inr (hu _ _ hc)
  | publish j t =>
    simp only [clientAfter] at hc
    simp only [usedAfter, List.mem_cons]
    split at hc
    · exact Or.inl ‹_›
    · exact Or.inr (hu _ _ hc)
  | openSession j =>
    simp only [clientAfter] at hc
    simp only [usedAfter, List.mem_cons]
    split at hc
    · exact Or.inl ‹_›
    · exact Or.inr (hu _ _ hc)
  | openProcess j =>
    simp only [clientAfter] at hc
    simp only [usedAfter, List.mem_cons]
    split at hc
    · exact Or.inl ‹_›
    · exact Or.inr (hu _ _ hc)
  | channel j p =>
    simp only [clientAfter] at hc
    simp only [usedAfter]
    have hmem : i ∈ sv.used → i ∈ (match sv.clients.get? p with
        | some (.pub _) => j :: sv.used
        | _ => sv.used) := by
      intro hm
      split
      · exact List.mem_cons_of_mem _ hm
      · exact hm
    split at hc
    · rename_i t ht
      split at hc
      · simp_all
      · exact hmem (hu _ _ hc)
    · exact hmem (hu _ _ hc)
  | gone j =>
    simp only [clientAfter] at hc
    split at hc
    · cases hc
    · exact hu _ _ hc
  | sessionConnect s x y =>
    simp only [clientAfter] at hc
    split at hc
    · obtain ⟨d, hd⟩ := hsome hc; exact hu _ _ hd
    · exact hu _ _ hc
  | sessionDisconnect s x y =>
    simp only [clientAfter] at hc
    split at hc
    · obtain ⟨d, hd⟩ := hsome hc; exact hu _ _ hd
    · exact hu _ _ hc
  | sessionClear s =>
    simp only [clientAfter] at hc
    simp only [step] at h
    split at h
    · rename_i x hx
      split at hc
      · rename_i hi; subst hi; exact hu _ _ (sessionInfo_some.1 hx)
      · exact hu _ _ hc
    · cases h
  | sessionGone s =>
    simp only [clientAfter] at hc
    split at hc
    · cases hc
    · exact hu _ _ hc
  | sessionRegister s md =>
    simp only [clientAfter] at hc
    split at hc
    · split at hc
      · rename_i hg; exact hu _ _ hg
      · exact hu _ _ hc
    · exact hu _ _ hc
  | registerProcess p units =>
    simp only [clientAfter] at hc
    simp only [step] at h
    split at h
    · rename_i x hx
      split at hc
      · rename_i hi; rw [hi.1]; exact hu _ _ (processInfo_some.1 hx)
      · exact hu _ _ hc
    · cases h
  | updateOwnership p added removed =>
    simp only [clientAfter] at hc
    simp only [step] at h
    split at h
    · rename_i x hx
      split at hc
      · rename_i hi; rw [hi.1]; exact hu _ _ (processInfo_some.1 hx)
      · exact hu _ _ hc
    · cases h
  | processGone p =>
    simp only [clientAfter] at hc
    split at hc
    · cases hc
    · exact hu _ _ hc
  | notify j =>
    simp only [clientAfter] at hc
    split at hc
    · split at hc
      · split at hc
        · rename_i hg; exact hu _ _ hg
        · exact hu _ _ hc
      · exact hu _ _ hc
    · exact hu _ _ hc
  | write s j =>
    simp only [clientAfter] at hc
    split at hc
    · split at hc
      · rename_i hg; exact hu _ _ hg
      · exact hu _ _ hc
    · exact hu _ _ hc
  | request q u ok => exact List.mem_cons_of_mem _ (hu _ _ hc)
  | watchSettings q u => exact List.mem_cons_of_mem _ (hu _ _ hc)
  | watchTopology q u => exact List.mem_cons_of_mem _ (hu _ _ hc)
  | _ => exact hu _ _ hc

/-- What a step does to ownership of connections. -/
theorem owns_step {cfg : Cfg} {sv : Server T I A V} {a : Act T I A V} {sv' r} (hinv : EdgeInv sv)
    (h : step cfg sv a = some (sv', r)) (x y : T) (o : Option I) :
    sv'.graph.Owns x y o ↔
      (r = .complete ∧ (match a with
        | .connect a b => x = a ∧ y = b ∧ o = none
        | .sessionConnect s a b => x = a ∧ y = b ∧ o = some s
        | _ => False)) ∨
      (sv.graph.Owns x y o ∧ ¬ (match a with
        | .disconnect a b => x = a ∧ y = b ∧ o = none
        | .sessionDisconnect s a b => x = a ∧ y = b ∧ o = some s
        | .sessionClear s => o = some s
        | .sessionGone s => o = some s
        | _ => False)) := by
  rw [graph_step hinv h]
  have hconn : ∀ (a b : T) (p : Option I), (connect cfg sv a b p) = (sv', r) →
      ((sv.graph.addEdge a b p).1.Owns x y o ↔
        (r = .complete ∧ x = a ∧ y = b ∧ o = p) ∨ (sv.graph.Owns x y o ∧ ¬ False)) := by
    intro a b p hc
    obtain ⟨_, _, a3, a4⟩ := DAG.addEdge_spec hinv.graph a b p
    rw [connect_eq] at hc
    by_cases hcy : (sv.graph.addEdge a b p).2 = .cyclic
    · rw [a3 hcy]
      simp only [hcy] at hc
      cases hc
      simp
    · rw [(a4 hcy).1]
      have : r = .complete := by
        rw [(a4 hcy).2] at hc
        split at hc <;> cases hc <;> simp_all
      simp only [this, true_and, not_false_eq_true, and_true]
      exact Or.comm
  have hdrop : ∀ s e, sessionInfo sv s = some e →
      ((dropEdges s (((sessionInfo sv s).map (·.1)).getD []) sv []).1.graph.Owns x y o ↔
        sv.graph.Owns x y o ∧ ¬ (o = some s)) := by
    intro s e he
    obtain ⟨_, h2, _⟩ := dropEdges_spec s (((sessionInfo sv s).map (·.1)).getD []) sv [] hinv
    rw [h2, he]
    have hed := hinv.edges s e.1 e.2 (sessionInfo_some.1 he) x y
    simp only [Option.map_some, Option.getD_some, hed]
    constructor
    · rintro ⟨h1, h3⟩
      exact ⟨h1, fun ho => h3 ⟨ho ▸ h1, ho⟩⟩
    · rintro ⟨h1, h3⟩
      exact ⟨h1, fun hh => h3 hh.2⟩
  cases a with
  | connect a b => simp only [step, Option.some.injEq] at h; exact hconn a b none h
  | sessionConnect s a b =>
    simp only [step] at h
    split at h
    · simp only [Option.some.injEq] at h; exact hconn a b (some s) h
    · cases h
  | disconnect a b =>
    simp only [graphAfter]
    rw [(DAG.removeEdge_spec hinv.graph a b none).2.1]; simp
  | sessionDisconnect s a b =>
    simp only [graphAfter]
    rw [(DAG.removeEdge_spec hinv.graph a b (some s)).2.1]; simp
  | sessionClear s =>
    simp only [step] at h
    split at h
    · rename_i e he
      simp only [graphAfter, hdrop s e he]; simp
    · cases h
  | sessionGone s =>
    simp only [step] at h
    split at h
    · rename_i e he
      simp only [graphAfter, hdrop s e he]; simp
    · cases h
  | _ => simp [graphAfter]

theorem graphInv_step {cfg : Cfg} {sv : Server T I A V} {a : Act T I A V} {sv' r} (hinv : EdgeInv sv)
    (h : step cfg sv a = some (sv', r)) : sv'.graph.Inv := by
  rw [graph_step hinv h]
  cases a with
  | connect a b => exact (DAG.addEdge_spec hinv.graph a b none).1
  | sessionConnect s a b => exact (DAG.addEdge_spec hinv.graph a b (some s)).1
  | disconnect a b => exact (DAG.removeEdge_spec hinv.graph a b none).1
  | sessionDisconnect s a b => exact (DAG.removeEdge_spec hinv.graph a b (some s)).1
  | sessionClear s => exact (dropEdges_spec s _ sv [] hinv).1.graph
  | sessionGone s => exact (dropEdges_spec s _ sv [] hinv).1.graph
  | _ => exact hinv.graph

/-- A client that is not touched by the step keeps its edges. -/
theorem EdgeInv.step {cfg : Cfg} {sv : Server T I A V} {a : Act T I A V} {sv' r} (hinv : EdgeInv sv)
    (hu : ∀ i c, sv.clients.get? i = some c → i ∈ sv.used)
    (h : step cfg sv a = some (sv', r)) : EdgeInv sv' := by
  refine ⟨graphInv_step hinv h, nodup_step hinv h, ?_, ?_⟩
  · intro s es md hs x y
    rw [owns_step hinv h]
    have hcl := hs
    rw [clients_step hinv h] at hs
    cases a with
    | openSession j =>
      simp only [clientAfter] at hs
      split at hs
      · rename_i hi
        subst hi
        cases hs
        have hf := fresh_step h s (by simp)
        simp only [List.not_mem_nil, false_iff, and_false, not_false_eq_true, and_true, false_or]
        intro ho
        obtain ⟨_, _, hg⟩ := hinv.live s x y ho
        exact hf (hu _ _ hg)
      · simp [hinv.edges s es md hs x y]
    | sessionConnect t u v =>
      simp only [clientAfter] at hs
      have hr : r = .complete ↔ (sv.graph.addEdge u v (some t)).2 ≠ .cyclic := by
        obtain ⟨_, _, _, a4⟩ := DAG.addEdge_spec hinv.graph u v (some t)
        simp only [Srv.step] at h
        split at h
        · simp only [Option.some.injEq, connect_eq] at h
          by_cases hcy : (sv.graph.addEdge u v (some t)).2 = .cyclic
          · simp only [hcy] at h; cases h; simp [hcy]
          · rw [(a4 hcy).2] at h
            simp only [ne_eq, hcy, not_false_eq_true, iff_true]
            split at h <;> cases h <;> simp_all
        · cases h
      split at hs
      · rename_i hc
        obtain ⟨rfl, hc⟩ := hc
        cases hg : sv.clients.get? s with
        | none => rw [hg] at hs; simp [editEdges] at hs
        | some c =>
          rw [hg] at hs
          cases c with
          | session es0 md0 =>
            simp only [editEdges, Option.some.injEq, Client.session.injEq] at hs
            obtain ⟨rfl, rfl⟩ := hs
            simp only [hr.2 hc, PySet.mem_add, hinv.edges s es0 md0 hg x y, Prod.mk.injEq]
            simp [Or.comm]
          | _ => simp [editEdges] at hs
      · rename_i hc
        simp only [hinv.edges s es md hs x y, not_false_eq_true, and_true]
        constructor
        · exact Or.inr
        · rintro (⟨h1, h2, h3, h4⟩ | h1)
          · cases h4
            exact absurd ⟨rfl, hr.1 h1⟩ hc
          · exact h1
    | sessionDisconnect t u v =>
      simp only [clientAfter] at hs
      split at hs
      · rename_i hc
        subst hc
        cases hg : sv.clients.get? s with
        | none => rw [hg] at hs; simp [editEdges] at hs
        | some c =>
          rw [hg] at hs
          cases c with
          | session es0 md0 =>
            simp only [editEdges, Option.some.injEq, Client.session.injEq] at hs
            obtain ⟨rfl, rfl⟩ := hs
            simp only [PySet.mem_discard, hinv.edges s es0 md0 hg x y]
            simp
          | _ => simp [editEdges] at hs
      · rename_i hc
        simp only [hinv.edges s es md hs x y]
        simp [hc]
    | sessionClear t =>
      simp only [clientAfter] at hs
      split at hs
      · rename_i hc
        subst hc
        cases hs
        simp
      · rename_i hc
        simp only [hinv.edges s es md hs x y]
        simp [hc]
    | sessionGone t =>
      simp only [clientAfter] at hs
      split at hs
      · cases hs
      · rename_i hc
        simp only [hinv.edges s es md hs x y]
        simp [hc]
    | sessionRegister t md' =>
      simp only [clientAfter] at hs
      split at hs
      · rename_i hc
        split at hs
        · rename_i es0 md0 hg
          cases hs
          simp [hinv.edges s es md0 hg x y]
        · simp [hinv.edges s es md hs x y]
      · simp [hinv.edges s es md hs x y]
    | disconnect u v => simp [hinv.edges s es md hs x y]
    | connect u v => simp [hinv.edges s es md hs x y]
    | subscribe j t =>
      simp only [clientAfter] at hs
      split at hs
      · cases hs
      · simp [hinv.edges s es md hs x y]
    | publish j t =>
      simp only [clientAfter] at hs
      split at hs
      · cases hs
      · simp [hinv.edges s es md hs x y]
    | channel j p =>
      simp only [clientAfter] at hs
      split at hs
      · split at hs
        · cases hs
        · simp [hinv.edges s es md hs x y]
      · simp [hinv.edges s es md hs x y]
    | openProcess j =>
      simp only [clientAfter] at hs
      split at hs
      · cases hs
      · simp [hinv.edges s es md hs x y]
    | gone j =>
      simp only [clientAfter] at hs
      split at hs
      · cases hs
      · simp [hinv.edges s es md hs x y]
    | registerProcess p us =>
      simp only [clientAfter] at hs
      split at hs
      · cases hs
      · simp [hinv.edges s es md hs x y]
    | updateOwnership p us ws =>
      simp only [clientAfter] at hs
      split at hs
      · cases hs
      · simp [hinv.edges s es md hs x y]
    | processGone p =>
      simp only [clientAfter] at hs
      split at hs
      · cases hs
      · simp [hinv.edges s es md hs x y]
    | notify j =>
      simp only [clientAfter] at hs
      split at hs
      · split at hs
        · split at hs
          · cases hs
          · simp [hinv.edges s es md hs x y]
        · simp [hinv.edges s es md hs x y]
      · simp [hinv.edges s es md hs x y]
    | write q j =>
      simp only [clientAfter] at hs
      split at hs
      · split at hs
        · split at hs <;> cases hs
        · simp [hinv.edges s es md hs x y]
      · simp [hinv.edges s es md hs x y]
    | _ => simp only [clientAfter] at hs; simp [hinv.edges s es md hs x y]
  · intro s x y ho
    rw [owns_step hinv h] at ho
    rw [clients_step hinv h]
    have hold : sv.graph.Owns x y (some s) →
        ∃ es md, sv.clients.get? s = some (.session es md) := hinv.live s x y
    cases a with
    | sessionConnect t u v =>
      simp only [Srv.step] at h
      split at h
      · rename_i e he
        have : ∃ es md, sv.clients.get? s = some (.session es md) := by
          rcases ho with ⟨_, _, _, hh⟩ | ⟨hh, _⟩
          · cases hh; exact ⟨_, _, sessionInfo_some.1 he⟩
          · exact hold hh
        obtain ⟨es, md, hg⟩ := this
        simp only [clientAfter, hg, editEdges]
        split <;> exact ⟨_, _, rfl⟩
      · cases h
    | connect u v =>
      simp only [reduceCtorEq, and_false, false_or, not_false_eq_true, and_true] at ho
      exact hold ho
    | disconnect u v => exact hold (by simpa using ho)
    | sessionDisconnect t u v =>
      simp only [and_false, false_or] at ho
      obtain ⟨es, md, hg⟩ := hold ho.1
      simp only [clientAfter, hg, editEdges]
      split <;> exact ⟨_, _, rfl⟩
    | sessionClear t =>
      simp only [and_false, false_or, Option.some.injEq] at ho
      obtain ⟨es, md, hg⟩ := hold ho.1
      simp only [clientAfter, ho.2, if_false]
      exact ⟨_, _, hg⟩
    | sessionGone t =>
      simp only [and_false, false_or, Option.some.injEq] at ho
      obtain ⟨es, md, hg⟩ := hold ho.1
      simp only [clientAfter, ho.2, if_false]
      exact ⟨_, _, hg⟩
    | openSession j =>
      simp only [and_false, false_or, not_false_eq_true, and_true] at ho
      obtain ⟨es, md, hg⟩ := hold ho
      simp only [clientAfter]
      split
      · exact ⟨_, _, rfl⟩
      · exact ⟨_, _, hg⟩
    | sessionRegister t md' =>
      simp only [and_false, false_or, not_false_eq_true, and_true] at ho
      obtain ⟨es, md, hg⟩ := hold ho
      simp only [clientAfter, hg]
      split <;> exact ⟨_, _, rfl⟩
    | subscribe j t =>
      simp only [and_false, false_or, not_false_eq_true, and_true] at ho
      obtain ⟨es, md, hg⟩ := hold ho
      have := fresh_step h j (by simp)
      have hne : s ≠ j := fun e => this (e ▸ hu _ _ hg)
      simp only [clientAfter, hne, if_false]; exact ⟨_, _, hg⟩
    | publish j t =>
      simp only [and_false, false_or, not_false_eq_true, and_true] at ho
      obtain ⟨es, md, hg⟩ := hold ho
      have := fresh_step h j (by simp)
      have hne : s ≠ j := fun e => this (e ▸ hu _ _ hg)
      simp only [clientAfter, hne, if_false]; exact ⟨_, _, hg⟩
    | channel j p =>
      simp only [and_false, false_or, not_false_eq_true, and_true] at ho
      obtain ⟨es, md, hg⟩ := hold ho
      have := fresh_step h j (by simp)
      have hne : s ≠ j := fun e => this (e ▸ hu _ _ hg)
      simp only [clientAfter, hne, if_false]
      split <;> exact ⟨_, _, hg⟩
    | openProcess j =>
      simp only [and_false, false_or, not_false_eq_true, and_true] at ho
      obtain ⟨es, md, hg⟩ := hold ho
      have := fresh_step h j (by simp)
      have hne : s ≠ j := fun e => this (e ▸ hu _ _ hg)
      simp only [clientAfter, hne, if_false]; exact ⟨_, _, hg⟩
    | gone j =>
      simp only [and_false, false_or, not_false_eq_true, and_true] at ho
      obtain ⟨es, md, hg⟩ := hold ho
      have hne : s ≠ j := by
        rintro rfl
        simp only [Srv.step, hg] at h
        cases h
      simp only [clientAfter, hne, if_false]; exact ⟨_, _, hg⟩
    | registerProcess p us =>
      simp only [and_false, false_or, not_false_eq_true, and_true] at ho
      obtain ⟨es, md, hg⟩ := hold ho
      have hne : s ≠ p := by
        rintro rfl
        simp only [Srv.step, processInfo, hg] at h
        cases h
      simp only [clientAfter, hne, false_and, if_false]; exact ⟨_, _, hg⟩
    | updateOwnership p us ws =>
      simp only [and_false, false_or, not_false_eq_true, and_true] at ho
      obtain ⟨es, md, hg⟩ := hold ho
      have hne : s ≠ p := by
        rintro rfl
        simp only [Srv.step, processInfo, hg] at h
        cases h
      simp only [clientAfter, hne, false_and, if_false]; exact ⟨_, _, hg⟩
    | processGone p =>
      simp only [and_false, false_or, not_false_eq_true, and_true] at ho
      obtain ⟨es, md, hg⟩ := hold ho
      have hne : s ≠ p := by
        rintro rfl
        simp only [Srv.step, processInfo, hg] at h
        cases h
      simp only [clientAfter, hne, if_false]; exact ⟨_, _, hg⟩
    | notify j =>
      simp only [and_false, false_or, not_false_eq_true, and_true] at ho
      obtain ⟨es, md, hg⟩ := hold ho
      simp only [clientAfter, hg]
      split
      · split <;> exact ⟨_, _, rfl⟩
      · exact ⟨_, _, rfl⟩
    | write q j =>
      simp only [and_false, false_or, not_false_eq_true, and_true] at ho
      obtain ⟨es, md, hg⟩ := hold ho
      simp only [clientAfter, hg]
      split <;> exact ⟨_, _, rfl⟩
    | _ =>
      simp only [and_false, false_or, not_false_eq_true, and_true] at ho
      exact hold ho

theorem edgeInv_init : EdgeInv (init : Server T I A V) := by
  refine ⟨DAG.inv_init, by simp [init, PyDict.keys], ?_, ?_⟩
  · intro s es md h; simp [init, PyDict.get?] at h
  · rintro s a b ⟨x, h, _⟩; simp [init, DAG.init, PyDict.get?] at h

/-- What holds in every reachable state. -/
theorem run_inv {cfg : Cfg} {h : List (Act T I A V × Reply)} {sv : Server T I A V} (hr : Run cfg h sv) :
    EdgeInv sv ∧ ∀ i c, sv.clients.get? i = some c → i ∈ sv.used := by
  induction hr with
  | init => exact ⟨edgeInv_init, by intro i c hc; simp [init, PyDict.get?] at hc⟩
  | step _ hs ih => exact ⟨ih.1.step ih.2 hs, clients_used_step ih.1 ih.2 hs⟩

end Srv
end Ez
