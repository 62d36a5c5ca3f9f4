import Verif.Lemmas.SrvInv

/-! # The notification loops of the graph server, step by step -/

set_option linter.unusedSectionVars false
set_option linter.unusedSimpArgs false

namespace Ez
namespace Srv
variable {T I A V : Type} [DecidableEq T] [DecidableEq I] [DecidableEq A]

/-- The loop started for the topics `ts`. -/
def jobFor (sv : Server T I A V) : List T → List (Job T I)
  | [] => []
  | t :: ts => [{ subs := downstreamSubs sv t, topics := ts }]

theorem jobFor_congr {a b : Server T I A V} (hg : b.graph = a.graph) (hc : b.clients = a.clients) (ts : List T) :
    jobFor b ts = jobFor a ts := by
  cases ts with
  | nil => rfl
  | cons t ts => simp only [jobFor, downstreamSubs, subscribers, hg, hc]

theorem startJob_jobFor (sv : Server T I A V) (ts : List T) :
    (startJob sv ts).jobs = sv.jobs ++ jobFor (startJob sv ts) ts := by
  rw [jobFor_congr (startJob_graph sv ts) (startJob_clients sv ts)]
  cases ts <;> simp [startJob, jobFor]

/-- The topics whose subscribers a step has to notify. -/
def heads (sv : Server T I A V) : Act T I A V → List T
  | .publish _ t => [t]
  | .connect a b => if (sv.graph.addEdge a b none).2 = .returned true then [b] else []
  | .disconnect a b => if (sv.graph.removeEdge a b none).2 then [b] else []
  | .sessionConnect s a b => if (sv.graph.addEdge a b (some s)).2 = .returned true then [b] else []
  | .sessionDisconnect s a b => if (sv.graph.removeEdge a b (some s)).2 then [b] else []
  | .sessionClear s => (dropEdges s (((sessionInfo sv s).map (·.1)).getD []) sv []).2
  | .sessionGone s => (dropEdges s (((sessionInfo sv s).map (·.1)).getD []) sv []).2
  | _ => []

/-- The loops after a step. -/
def jobsAfter (sv sv' : Server T I A V) (a : Act T I A V) : List (Job T I) :=
  match a with
  | .subscribe j _ => sv.jobs ++ [{ subs := [j], topics := [] }]
  | .notify j => match sv.jobs[j]? with
    | some { subs := _ :: ss, topics := ts } => sv.jobs.set j { subs := ss, topics := ts }
    | some { subs := [], topics := t :: ts } => sv.jobs.set j { subs := downstreamSubs sv t, topics := ts }
    | _ => sv.jobs
  | .publish i t => sv.jobs ++ jobFor sv' (heads sv (.publish i t))
  | .connect a b => sv.jobs ++ jobFor sv' (heads sv (.connect a b))
  | .disconnect a b => sv.jobs ++ jobFor sv' (heads sv (.disconnect a b))
  | .sessionConnect s a b => sv.jobs ++ jobFor sv' (heads sv (.sessionConnect s a b))
  | .sessionDisconnect s a b => sv.jobs ++ jobFor sv' (heads sv (.sessionDisconnect s a b))
  | .sessionClear s => sv.jobs ++ jobFor sv' (heads sv (.sessionClear s))
  | .sessionGone s => sv.jobs ++ jobFor sv' (heads sv (.sessionGone s))
  | _ => sv.jobs

theorem connect_jobs (cfg : Cfg) (sv : Server T I A V) (a b : T) (o : Option I) :
    (connect cfg sv a b o).1.jobs = sv.jobs ++ jobFor (connect cfg sv a b o).1
      (if (sv.graph.addEdge a b o).2 = .returned true then [b] else []) := by
  rw [connect_eq]
  rcases hh : (sv.graph.addEdge a b o).2 with x | _
  · cases x
    · simp [(connectOwner_same sv a b o).jobs, jobFor]
    · simp only [if_true]
      rw [startJob_jobFor]
      simp [(connectOwner_same sv a b o).jobs]
  · simp [(connectOwner_same sv a b o).jobs, jobFor]

theorem disconnect_jobs (cfg : Cfg) (sv : Server T I A V) (a b : T) (o : Option I) :
    (disconnect cfg sv a b o).1.jobs = sv.jobs ++ jobFor (disconnect cfg sv a b o).1
      (if (sv.graph.removeEdge a b o).2 then [b] else []) := by
  rw [disconnect_eq]
  rcases hh : (sv.graph.removeEdge a b o).2
  · simp [(disconnectOwner_same sv a b o).jobs, jobFor]
  · simp only [if_true]
    rw [startJob_jobFor]
    simp [(disconnectOwner_same sv a b o).jobs]

theorem jobs_step {cfg : Cfg} {sv : Server T I A V} {a : Act T I A V} {sv' r} (hinv : EdgeInv sv)
    (h : step cfg sv a = some (sv', r)) : sv'.jobs = jobsAfter sv sv' a := by
  cases a with
  | subscribe j t => simp only [step] at h; split at h <;> cases h; rfl
  | publish j t =>
    simp only [step] at h; split at h <;> cases h
    rw [startJob_jobFor]; rfl
  | channel j p =>
    simp only [step] at h; split at h; · cases h
    split at h
    · rename_i hg; cases h; simp [jobsAfter, addClient]
    · rename_i hg; cases h
      simp only [jobsAfter]
  | openSession j => simp only [step] at h; split at h <;> cases h; rfl
  | openProcess j => simp only [step] at h; split at h <;> cases h; rfl
  | gone j => simp only [step] at h; split at h <;> cases h <;> rfl
  | connect x y =>
    simp only [step, Option.some.injEq] at h
    have h1 := congrArg Prod.fst h
    subst h1; exact connect_jobs _ _ _ _ _
  | disconnect x y =>
    simp only [step, Option.some.injEq] at h
    have h1 := congrArg Prod.fst h
    subst h1; exact disconnect_jobs _ _ _ _ _
  | sessionConnect s x y =>
    simp only [step] at h
    split at h
    · simp only [Option.some.injEq] at h
      have h1 := congrArg Prod.fst h
      subst h1; exact connect_jobs _ _ _ _ _
    · cases h
  | sessionDisconnect s x y =>
    simp only [step] at h
    split at h
    · simp only [Option.some.injEq] at h
      have h1 := congrArg Prod.fst h
      subst h1; exact disconnect_jobs _ _ _ _ _
    · cases h
  | sessionClear s =>
    simp only [step] at h
    split at h
    · rename_i x hx
      cases h
      have hc := clearSession_eq cfg sv s false (es := x.1) (md := x.2) hx hinv
      have hj := hc.2.2.2.2.2.2.2.2.2.2.1
      rw [startJob_jobFor, hj]
      simp only [jobsAfter, heads, hc.1, hx, Option.map_some, Option.getD_some]
    · cases h
  | sessionGone s =>
    simp only [step] at h
    split at h
    · rename_i x hx
      cases h
      have hc := clearSession_eq cfg sv s true (es := x.1) (md := x.2) hx hinv
      have hj := hc.2.2.2.2.2.2.2.2.2.2.1
      rw [startJob_jobFor, hj]
      simp only [jobsAfter, heads, hc.1, hx, Option.map_some, Option.getD_some]
    · cases h
  | sessionRegister s md =>
    simp only [step] at h
    split at h
    · rename_i x hx
      split at h
      · simp only [Option.some.injEq] at h
        have h1 := congrArg Prod.fst h
        subst h1
        unfold registerSession
        simp only [hx]
        split
        · rfl
        · exact (applyMetadata_same cfg _ s md).jobs
      · cases h
    · cases h
  | registerProcess p units =>
    simp only [step] at h
    split at h
    · rename_i x hx
      simp only [Option.some.injEq] at h
      have h1 := congrArg Prod.fst h
      subst h1
      unfold registerProcess
      simp only [hx]
      split
      · unfold setUnits; simp only; split <;> rfl
      · rfl
    · cases h
  | updateOwnership p added removed =>
    simp only [step] at h
    split at h
    · rename_i x hx
      simp only [Option.some.injEq] at h
      have h1 := congrArg Prod.fst h
      subst h1
      unfold updateOwnership
      simp only [hx]
      split
      · unfold setUnits; simp only; split <;> rfl
      · rfl
    · cases h
  | updateSettings p x v =>
    simp only [step] at h
    split at h
    · rename_i us hx
      simp only [Option.some.injEq] at h
      have h1 := congrArg Prod.fst h
      subst h1
      unfold updateSettings
      simp only [hx]
      split <;> rfl
    · cases h
  | processGone p =>
    simp only [step] at h
    split at h
    · rename_i us hx
      cases h
      rw [processGone_eq cfg sv p hx]
      simp only [logTopology_jobs, (removeProcessSettings_same cfg _ p).jobs, (failAll_same _ sv).jobs]
      rfl
    · cases h
  | request q u ok =>
    simp only [step] at h; split at h; · cases h
    cases h
    unfold route
    simp only
    split
    · rfl
    · split <;> rfl
  | response p q v =>
    simp only [step] at h
    split at h
    · cases h
      unfold routeResponse
      simp only
      split
      · rfl
      · split <;> rfl
    · cases h
  | timeout q => simp only [step] at h; split at h <;> cases h; rfl
  | resume q => simp only [step] at h; split at h <;> cases h <;> rfl
  | watchSettings j n => simp only [step] at h; split at h <;> cases h; rfl
  | watchTopology j n => simp only [step] at h; split at h <;> cases h; rfl
  | sendSettings j => cases h; rfl
  | sendTopology j => cases h; rfl
  | unwatchSettings j => cases h; rfl
  | unwatchTopology j => cases h; rfl
  | notify j =>
    simp only [step] at h
    split at h
    · rename_i hj
      cases h
      simp only [jobsAfter, hj, prepareUpdate]
      split <;> rfl
    · rename_i hj
      cases h; simp only [jobsAfter, hj]
    · cases h
  | write s j =>
    simp only [step] at h
    split at h
    · split at h <;> cases h; rfl
    · cases h

end Srv
end Ez
