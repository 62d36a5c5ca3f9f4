import Verif.Lemmas.SrvJobs
import Verif.Props.Sessions

/-!
# C10: which publishers a subscriber is told about

Specification: publishers, subscribers and connections are read from the history of requests. The server is *settled* when
no notification loop is running and no update waits to be written. The updates written to a subscriber are its `sent`
list, oldest first.
-/

set_option linter.unusedSectionVars false
set_option linter.unusedSimpArgs false

namespace Ez
namespace Srv
variable {T I A V : Type} [DecidableEq T] [DecidableEq I] [DecidableEq A]

/-- Specification: publisher `i` of topic `u` was created and has not left. -/
def LivePub (h : List (Act T I A V × Reply)) (i : I) (u : T) : Prop :=
  (∃ r, (.publish i u, r) ∈ h) ∧ ∀ r, (.gone i, r) ∉ h

/-- Specification: subscriber `i` of topic `u` was created and has not left. -/
def LiveSub (h : List (Act T I A V × Reply)) (i : I) (u : T) : Prop :=
  (∃ r, (.subscribe i u, r) ∈ h) ∧ ∀ r, (.gone i, r) ∉ h

/-- Specification: `a` is connected to `b` by somebody. -/
def Linked (h : List (Act T I A V × Reply)) (a b : T) : Prop := ∃ o, MadeBy h a b o

/-- Updates are written in the order in which they were prepared. -/
def InOrder (h : List (Act T I A V × Reply)) : Prop := ∀ s j r, (.write s j, r) ∈ h → j = 0

/-- No loop is running and no update waits. -/
def Settled (sv : Server T I A V) : Prop :=
  (∀ j ∈ sv.jobs, j.subs = [] ∧ j.topics = []) ∧
  ∀ s t w sent, sv.clients.get? s = some (.sub t w sent) → w = []

/-- The last update written to subscriber `s`. -/
def lastUpdate (sv : Server T I A V) (s : I) : Option (List I) :=
  match sv.clients.get? s with
  | some (.sub _ _ sent) => sent.getLast?
  | _ => none

/-! ## Reachability when edges change -/

/-- If every edge in which `E` and `F` differ ends in `D`, then either something in `D` reaches `t` afterwards, or the same
topics reach `t` before and after. -/
theorem reaches_of_heads {E F : T → T → Prop} {D : List T} (hd : ∀ x y, ¬ (E x y ↔ F x y) → y ∈ D) (t : T)
    (hn : ¬ ∃ d ∈ D, Reaches F d t) (u : T) : Reaches E u t ↔ Reaches F u t := by
  have hE : ∀ x y, Reaches F y t → (E x y ↔ F x y) := by
    intro x y hr
    apply Classical.byContradiction
    intro hc
    exact hn ⟨y, hd x y hc, hr⟩
  constructor
  · rintro (rfl | p)
    · exact Or.inl rfl
    · induction p with
      | single e => exact Or.inr (.single ((hE _ _ (Or.inl rfl)).1 e))
      | cons e p ih =>
        have hr := ih hn hE
        have e' := (hE _ _ hr).1 e
        rcases hr with rfl | q
        · exact Or.inr (.single e')
        · exact Or.inr (.cons e' q)
  · rintro (rfl | p)
    · exact Or.inl rfl
    · induction p with
      | single e => exact Or.inr (.single ((hE _ _ (Or.inl rfl)).2 e))
      | cons e p ih =>
        have hr := ih hn hE
        have e' := (hE _ _ (Or.inr p)).2 e
        rcases hr with rfl | q
        · exact Or.inr (.single e')
        · exact Or.inr (.cons e' q)

/-- Every edge a step adds or removes ends in one of the topics it notifies. -/
theorem heads_cover {cfg : Cfg} {sv : Server T I A V} {a : Act T I A V} {sv' r} (hinv : EdgeInv sv)
    (h : step cfg sv a = some (sv', r)) (x y : T)
    (hne : ¬ (Graph.E sv.graph.graph x y ↔ Graph.E sv'.graph.graph x y)) : y ∈ heads sv a := by
  have hadd : ∀ a b o, ¬ (Graph.E sv.graph.graph x y ↔ Graph.E (sv.graph.addEdge a b o).1.graph x y) →
      y ∈ (if (sv.graph.addEdge a b o).2 = .returned true then [b] else []) := by
    intro a b o hne
    obtain ⟨a1, _, a3, a4⟩ := DAG.addEdge_spec hinv.graph a b o
    by_cases hcy : (sv.graph.addEdge a b o).2 = .cyclic
    · rw [a3 hcy] at hne; simp at hne
    · rw [DAG.edge_iff_owned a1, DAG.edge_iff_owned hinv.graph] at hne
      simp only [(a4 hcy).1] at hne
      have hxy : x = a ∧ y = b := by
        apply Classical.byContradiction
        intro hc
        apply hne
        constructor
        · rintro ⟨p, hp⟩; exact ⟨p, Or.inl hp⟩
        · rintro ⟨p, hp | ⟨h1, h2, _⟩⟩
          · exact ⟨p, hp⟩
          · exact absurd ⟨h1, h2⟩ hc
      obtain ⟨rfl, rfl⟩ := hxy
      have hnone : ¬ (sv.graph.owners.get? (x, y)).isSome := by
        intro hs
        apply hne
        have := (DAG.edge_iff_owned hinv.graph x y).1 ((hinv.graph.edge x y).2 hs)
        constructor
        · rintro ⟨p, hp⟩; exact ⟨p, Or.inl hp⟩
        · intro _; exact this
      rw [(a4 hcy).2]
      simp [hnone]
  have hdel : ∀ a b o, ¬ (Graph.E sv.graph.graph x y ↔ Graph.E (sv.graph.removeEdge a b o).1.graph x y) →
      y ∈ (if (sv.graph.removeEdge a b o).2 then [b] else []) := by
    intro a b o hne
    obtain ⟨a1, hown, hres, _⟩ := DAG.removeEdge_spec hinv.graph a b o
    rw [DAG.edge_iff_owned a1, DAG.edge_iff_owned hinv.graph] at hne
    simp only [hown] at hne
    have hex : (∃ p, sv.graph.Owns x y p) ∧ ¬ ∃ p, sv.graph.Owns x y p ∧ ¬ (x = a ∧ y = b ∧ p = o) := by
      grind
    obtain ⟨⟨p, hp⟩, hno⟩ := hex
    have hpo : ∀ q, sv.graph.Owns x y q → x = a ∧ y = b ∧ q = o := by
      intro q hq
      apply Classical.byContradiction
      intro hc; exact hno ⟨q, hq, hc⟩
    obtain ⟨rfl, rfl, rfl⟩ := hpo p hp
    rw [hres.2 ⟨hp, fun q hq => (hpo q hq).2.2⟩]
    simp
  have hdrop : ∀ s e, sessionInfo sv s = some e →
      ¬ (Graph.E sv.graph.graph x y ↔
        Graph.E (dropEdges s (((sessionInfo sv s).map (·.1)).getD []) sv []).1.graph.graph x y) →
      y ∈ (dropEdges s (((sessionInfo sv s).map (·.1)).getD []) sv []).2 := by
    intro s e he hne
    obtain ⟨d1, d2, _, d4, _⟩ := dropEdges_spec s (((sessionInfo sv s).map (·.1)).getD []) sv [] hinv
    rw [DAG.edge_iff_owned d1.graph, DAG.edge_iff_owned hinv.graph] at hne
    simp only [d2] at hne
    rw [d4]
    simp only [he, Option.map_some, Option.getD_some] at hne ⊢
    have hex : (∃ p, sv.graph.Owns x y p) ∧ ¬ ∃ p, sv.graph.Owns x y p ∧ ¬ ((x, y) ∈ e.1 ∧ p = some s) := by
      grind
    obtain ⟨⟨p, hp⟩, hno⟩ := hex
    have hpo : ∀ q, sv.graph.Owns x y q → (x, y) ∈ e.1 ∧ q = some s := by
      intro q hq
      apply Classical.byContradiction
      intro hc; exact hno ⟨q, hq, hc⟩
    obtain ⟨h1, rfl⟩ := hpo p hp
    exact Or.inr ⟨x, h1, hp, fun q hq => (hpo q hq).2⟩
  rw [graph_step hinv h] at hne
  cases a with
  | connect a b => exact hadd a b none hne
  | disconnect a b => exact hdel a b none hne
  | sessionConnect s a b => exact hadd a b (some s) hne
  | sessionDisconnect s a b => exact hdel a b (some s) hne
  | sessionClear s =>
    simp only [step] at h
    split at h
    · rename_i e he; exact hdrop s e he hne
    · cases h
  | sessionGone s =>
    simp only [step] at h
    split at h
    · rename_i e he; exact hdrop s e he hne
    · cases h
  | _ => simp [graphAfter] at hne

/-! ## Lists of clients -/

theorem mem_upstreamPubs {sv : Server T I A V} (hinv : EdgeInv sv) (t : T) (i : I) :
    i ∈ upstreamPubs sv t ↔ ∃ u, sv.clients.get? i = some (.pub u) ∧ Reaches (Graph.E sv.graph.graph) u t := by
  simp only [upstreamPubs, publishers, List.mem_map, List.mem_filter, List.mem_filterMap, decide_eq_true_eq,
    DAG.mem_upstream hinv.graph]
  constructor
  · rintro ⟨⟨j, u⟩, ⟨⟨⟨k, c⟩, hc, he⟩, hr⟩, rfl⟩
    have hg := PyDict.get?_of_mem hinv.nodup hc
    cases c <;> simp at he
    obtain ⟨rfl, rfl⟩ := he
    exact ⟨_, hg, hr⟩
  · rintro ⟨u, hg, hr⟩
    exact ⟨(i, u), ⟨⟨(i, .pub u), PyDict.mem_of_get? hg, rfl⟩, hr⟩, rfl⟩

theorem mem_downstreamSubs {sv : Server T I A V} (hinv : EdgeInv sv) (t : T) (s : I) :
    s ∈ downstreamSubs sv t ↔
      ∃ u w sent, sv.clients.get? s = some (.sub u w sent) ∧ Reaches (Graph.E sv.graph.graph) t u := by
  simp only [downstreamSubs, subscribers, List.mem_map, List.mem_filter, List.mem_filterMap, decide_eq_true_eq,
    DAG.mem_downstream]
  constructor
  · rintro ⟨⟨j, u⟩, ⟨⟨⟨k, c⟩, hc, he⟩, hr⟩, rfl⟩
    have hg := PyDict.get?_of_mem hinv.nodup hc
    cases c <;> simp at he
    obtain ⟨rfl, rfl⟩ := he
    exact ⟨_, _, _, hg, hr⟩
  · rintro ⟨u, w, sent, hg, hr⟩
    exact ⟨(s, u), ⟨⟨(s, .sub u w sent), PyDict.mem_of_get? hg, rfl⟩, hr⟩, rfl⟩

/-! ## The invariant -/

/-- Some loop will still prepare an update for subscriber `s` of topic `t`. -/
def Due (sv : Server T I A V) (s : I) (t : T) : Prop :=
  ∃ j ∈ sv.jobs, s ∈ j.subs ∨ ∃ u ∈ j.topics, Reaches (Graph.E sv.graph.graph) u t

/-- Among the connected publishers, `ids` lists exactly those upstream of `t`. -/
def Fresh (sv : Server T I A V) (t : T) (ids : List I) : Prop :=
  ∀ i u, sv.clients.get? i = some (.pub u) → (i ∈ ids ↔ Reaches (Graph.E sv.graph.graph) u t)

structure RInv (sv : Server T I A V) : Prop where
  routed : ∀ s t w sent, sv.clients.get? s = some (.sub t w sent) →
    Due sv s t ∨ ∃ ids, (sent ++ w).getLast? = some ids ∧ Fresh sv t ids
  known : ∀ s t w sent, sv.clients.get? s = some (.sub t w sent) → ∀ ids ∈ sent ++ w, ∀ i ∈ ids,
    i ∈ sv.used ∧ ∀ c, sv.clients.get? i = some c → ∃ u, c = .pub u

/-- Where a publisher comes from. -/
theorem pub_back {cfg : Cfg} {sv : Server T I A V} {a : Act T I A V} {sv' r} (hinv : EdgeInv sv)
    (h : step cfg sv a = some (sv', r)) {i : I} {u : T} (hc : sv'.clients.get? i = some (.pub u)) :
    a = .publish i u ∨ sv.clients.get? i = some (.pub u) := by
  rw [clients_step hinv h] at hc
  cases a <;> simp only [clientAfter, editEdges] at hc <;> grind

/-- A client known to be a publisher or gone stays so. -/
theorem pub_only {cfg : Cfg} {sv : Server T I A V} {a : Act T I A V} {sv' r} (hinv : EdgeInv sv)
    (h : step cfg sv a = some (sv', r)) {i : I} (hu : i ∈ sv.used)
    (hk : ∀ c, sv.clients.get? i = some c → ∃ u, c = .pub u) :
    ∀ c, sv'.clients.get? i = some c → ∃ u, c = .pub u := by
  intro c hc
  have hf := fresh_step h i
  have hps : ∀ e, sessionInfo sv i ≠ some e := by
    intro e he; obtain ⟨u, hu⟩ := hk _ (sessionInfo_some.1 he); cases hu
  have hpp : ∀ e, processInfo sv i ≠ some e := by
    intro e he; obtain ⟨u, hu⟩ := hk _ (processInfo_some.1 he); cases hu
  rw [clients_step hinv h] at hc
  cases a with
  | sessionClear s => simp only [step] at h; simp only [clientAfter] at hc; grind
  | sessionRegister s md => simp only [clientAfter] at hc; grind
  | registerProcess p us => simp only [step] at h; simp only [clientAfter] at hc; grind
  | updateOwnership p us vs => simp only [step] at h; simp only [clientAfter] at hc; grind
  | _ => simp only [clientAfter, editEdges] at hc; grind

/-- Where a subscriber and its updates come from. -/
theorem sub_back {cfg : Cfg} {sv : Server T I A V} {a : Act T I A V} {sv' r} (hinv : EdgeInv sv)
    (h : step cfg sv a = some (sv', r)) (ho : ∀ s j, a = .write s j → j = 0) {s : I} {t : T} {w' sent' : List (List I)}
    (hc : sv'.clients.get? s = some (.sub t w' sent')) :
    (a = .subscribe s t ∧ w' = [] ∧ sent' = []) ∨
    ∃ w sent, sv.clients.get? s = some (.sub t w sent) ∧
      ((sent' ++ w' = sent ++ w ∧
          ∀ j ss ts, a = .notify j → sv.jobs[j]? ≠ some { subs := s :: ss, topics := ts }) ∨
        ∃ j ss ts, a = .notify j ∧ sv.jobs[j]? = some { subs := s :: ss, topics := ts } ∧
          sent' ++ w' = (sent ++ w) ++ [upstreamPubs sv t]) := by
  rw [clients_step hinv h] at hc
  cases a with
  | write q j =>
    obtain rfl := ho q j rfl
    simp only [clientAfter] at hc
    right
    split at hc
    · split at hc
      · rename_i t0 w0 sent0 hg
        cases w0 with
        | nil => simp at hc; obtain ⟨rfl, rfl, rfl⟩ := hc; exact ⟨_, _, hg, Or.inl ⟨rfl, by simp⟩⟩
        | cons x w0 =>
          simp at hc; obtain ⟨rfl, rfl, rfl⟩ := hc
          exact ⟨_, _, hg, Or.inl ⟨by simp, by simp⟩⟩
      · exact ⟨_, _, hc, Or.inl ⟨rfl, by simp⟩⟩
    · exact ⟨_, _, hc, Or.inl ⟨rfl, by simp⟩⟩
  | notify j =>
    simp only [clientAfter] at hc
    right
    split at hc
    · rename_i s0 ss ts hj
      split at hc
      · rename_i hs0
        subst hs0
        split at hc
        · rename_i t0 w0 sent0 hg
          simp only [Option.some.injEq, Client.sub.injEq] at hc
          obtain ⟨rfl, rfl, rfl⟩ := hc
          exact ⟨_, _, hg, Or.inr ⟨j, ss, ts, rfl, hj, by simp⟩⟩
        · rename_i hno; exact absurd hc (hno _ _ _)
      · refine ⟨_, _, hc, Or.inl ⟨rfl, ?_⟩⟩
        intro j' ss' ts' he; cases he; grind
    · refine ⟨_, _, hc, Or.inl ⟨rfl, ?_⟩⟩
      intro j' ss' ts' he; cases he; grind
  | _ => simp only [clientAfter, editEdges] at hc; grind

theorem jobs_other {cfg : Cfg} {sv : Server T I A V} {a : Act T I A V} {sv' r} (hinv : EdgeInv sv)
    (h : step cfg sv a = some (sv', r)) (h1 : ∀ i t, a ≠ .subscribe i t) (h2 : ∀ j, a ≠ .notify j) :
    sv'.jobs = sv.jobs ++ jobFor sv' (heads sv a) := by
  rw [jobs_step hinv h]
  cases a with
  | subscribe i t => exact absurd rfl (h1 i t)
  | notify j => exact absurd rfl (h2 j)
  | publish => rfl
  | connect => rfl
  | disconnect => rfl
  | sessionConnect => rfl
  | sessionDisconnect => rfl
  | sessionClear => rfl
  | sessionGone => rfl
  | _ => simp [jobsAfter, heads, jobFor]

theorem due_new {sv : Server T I A V} (hinv : EdgeInv sv) {js : List (Job T I)} {D : List T}
    (hj : sv.jobs = js ++ jobFor sv D) {d s t w sent} (hd : d ∈ D) (hr : Reaches (Graph.E sv.graph.graph) d t)
    (hs : sv.clients.get? s = some (.sub t w sent)) : Due sv s t := by
  cases D with
  | nil => cases hd
  | cons b D =>
    refine ⟨{ subs := downstreamSubs sv b, topics := D }, by rw [hj]; simp [jobFor], ?_⟩
    rcases List.mem_cons.1 hd with rfl | hd
    · exact Or.inl ((mem_downstreamSubs hinv d s).2 ⟨t, w, sent, hs, hr⟩)
    · exact Or.inr ⟨d, hd, hr⟩

theorem mem_set_self {α : Type} {l : List α} {j : Nat} {y z : α} (h : l[j]? = some y) : z ∈ l.set j z := by
  obtain ⟨hj, _⟩ := List.getElem?_eq_some_iff.1 h
  exact List.mem_set hj z

theorem mem_set_or {α : Type} {l : List α} {j : Nat} {x y z : α} (hx : x ∈ l) (h : l[j]? = some y) :
    x = y ∨ x ∈ l.set j z := by
  obtain ⟨k, hk⟩ := List.mem_iff_getElem?.1 hx
  by_cases e : j = k
  · subst e; rw [h] at hk; left; exact (Option.some.inj hk).symm
  · right; exact List.mem_iff_getElem?.2 ⟨k, by rw [List.getElem?_set_ne e]; exact hk⟩

theorem RInv.step {cfg : Cfg} {sv : Server T I A V} {a : Act T I A V} {sv' r} (hinv : EdgeInv sv) (hinv' : EdgeInv sv')
    (huc : ∀ i c, sv.clients.get? i = some c → i ∈ sv.used) (hi : RInv sv) (h : step cfg sv a = some (sv', r)) (ho : ∀ s j, a = .write s j → j = 0) : RInv sv' := by
  have hused : ∀ i, i ∈ sv.used → i ∈ sv'.used := by
    intro i hu
    rw [used_step hinv h]
    cases a <;> simp only [usedAfter] <;> grind
  refine ⟨?_, ?_⟩
  · intro s t w' sent' hs
    -- topics reaching `t`
    have hcov := reaches_of_heads (fun x y hne => heads_cover hinv h x y hne) t
    have hfresh : (¬ ∃ d ∈ heads sv a, Reaches (Graph.E sv'.graph.graph) d t) → ∀ ids,
        (∀ i ∈ ids, i ∈ sv.used) → Fresh sv t ids → Fresh sv' t ids := by
      intro hn ids hids hf i u hu
      rcases pub_back hinv h hu with rfl | hu0
      · have hni : i ∉ ids := fun hm => fresh_step h i (Or.inr (Or.inl ⟨u, rfl⟩)) (hids i hm)
        simp only [hni, false_iff]
        intro hr
        exact hn ⟨u, by simp [heads], hr⟩
      · rw [hf i u hu0, hcov hn]
    by_cases hsub : ∃ i u, a = .subscribe i u
    · obtain ⟨i, u, rfl⟩ := hsub
      have hj := jobs_step hinv h
      simp only [jobsAfter] at hj
      rcases sub_back hinv h ho hs with ⟨he, _, _⟩ | ⟨w, sent, hs0, ⟨he, hnj⟩ | ⟨_, _, _, he, _⟩⟩
      · cases he
        exact Or.inl ⟨_, by rw [hj]; exact List.mem_append_right _ (List.mem_singleton.2 rfl), Or.inl (by simp)⟩
      · have hn : ¬ ∃ d ∈ heads sv (.subscribe i u : Act T I A V), Reaches (Graph.E sv'.graph.graph) d t := by
          simp [heads]
        rcases hi.routed s t w sent hs0 with ⟨jb, hjb, hd⟩ | ⟨ids, hl, hf⟩
        · refine Or.inl ⟨jb, by rw [hj]; exact List.mem_append_left _ hjb, ?_⟩
          simp only [← hcov hn]; exact hd
        · refine Or.inr ⟨ids, by rw [he]; exact hl, ?_⟩
          exact hfresh hn ids (fun i hi' => (hi.known s t w sent hs0 ids (List.mem_of_getLast? hl) i hi').1) hf
      · cases he
    · by_cases hnot : ∃ j, a = .notify j
      · obtain ⟨j, rfl⟩ := hnot
        have hn : ¬ ∃ d ∈ heads sv (.notify j : Act T I A V), Reaches (Graph.E sv'.graph.graph) d t := by
          simp [heads]
        have hj := jobs_step hinv h
        simp only [jobsAfter] at hj
        rcases sub_back hinv h ho hs with ⟨he, _, _⟩ | ⟨w, sent, hs0, ⟨he, hnj⟩ | ⟨j', ss, ts, he, hjj, hw⟩⟩
        · cases he
        · rcases hi.routed s t w sent hs0 with ⟨jb, hjb, hd⟩ | ⟨ids, hl, hf⟩
          · rcases hq : sv.jobs[j]? with _ | ⟨subs, topics⟩
            · simp [Srv.step, hq] at h
            · have hset : ∀ z, jb = { subs := subs, topics := topics } ∨ jb ∈ sv.jobs.set j z := by
                intro z; exact mem_set_or hjb hq
              left
              cases subs with
              | cons s0 ss =>
                simp only [hq] at hj
                rcases hset { subs := ss, topics := topics } with rfl | hjb'
                · refine ⟨_, by rw [hj]; exact mem_set_self hq, ?_⟩
                  simp only [← hcov hn]
                  rcases hd with hd | hd
                  · rcases List.mem_cons.1 hd with rfl | hd
                    · exact absurd hq (hnj j ss topics rfl)
                    · exact Or.inl hd
                  · exact Or.inr hd
                · refine ⟨jb, by rw [hj]; exact hjb', ?_⟩
                  simp only [← hcov hn]; exact hd
              | nil =>
                cases topics with
                | nil => simp [Srv.step, hq] at h
                | cons u us =>
                  simp only [hq] at hj
                  rcases hset { subs := downstreamSubs sv u, topics := us } with rfl | hjb'
                  · refine ⟨_, by rw [hj]; exact mem_set_self hq, ?_⟩
                    simp only [← hcov hn]
                    rcases hd with hd | ⟨x, hx, hr⟩
                    · cases hd
                    · rcases List.mem_cons.1 hx with rfl | hx
                      · exact Or.inl ((mem_downstreamSubs hinv x s).2 ⟨t, w, sent, hs0, hr⟩)
                      · exact Or.inr ⟨x, hx, hr⟩
                  · refine ⟨jb, by rw [hj]; exact hjb', ?_⟩
                    simp only [← hcov hn]; exact hd
          · refine Or.inr ⟨ids, by rw [he]; exact hl, ?_⟩
            exact hfresh hn ids (fun i hi' => (hi.known s t w sent hs0 ids (List.mem_of_getLast? hl) i hi').1) hf
        · cases he
          refine Or.inr ⟨upstreamPubs sv t, by rw [hw]; simp, ?_⟩
          refine hfresh hn _ ?_ ?_
          · intro i hi'
            obtain ⟨u, hu, _⟩ := (mem_upstreamPubs hinv t i).1 hi'
            exact huc i _ hu
          · intro i u hu
            rw [mem_upstreamPubs hinv]
            constructor
            · rintro ⟨u', hu', hr⟩
              rw [hu] at hu'; cases hu'; exact hr
            · intro hr; exact ⟨u, hu, hr⟩
      · have hj := jobs_other hinv h (fun i t e => hsub ⟨i, t, e⟩) (fun j e => hnot ⟨j, e⟩)
        rcases sub_back hinv h ho hs with ⟨he, _, _⟩ | ⟨w, sent, hs0, ⟨he, hnj⟩ | ⟨j', _, _, he, _⟩⟩
        · exact absurd ⟨_, _, he⟩ hsub
        · by_cases hn : ∃ d ∈ heads sv a, Reaches (Graph.E sv'.graph.graph) d t
          · obtain ⟨d, hd, hr⟩ := hn
            exact Or.inl (due_new hinv' hj hd hr hs)
          · rcases hi.routed s t w sent hs0 with ⟨jb, hjb, hd⟩ | ⟨ids, hl, hf⟩
            · refine Or.inl ⟨jb, by rw [hj]; exact List.mem_append_left _ hjb, ?_⟩
              simp only [← hcov hn]; exact hd
            · refine Or.inr ⟨ids, by rw [he]; exact hl, ?_⟩
              exact hfresh hn ids (fun i hi' => (hi.known s t w sent hs0 ids (List.mem_of_getLast? hl) i hi').1) hf
        · exact absurd ⟨_, he⟩ hnot
  · intro s t w' sent' hs ids hm i hmi
    rcases sub_back hinv h ho hs with ⟨_, rfl, rfl⟩ | ⟨w, sent, hs0, he⟩
    · simp at hm
    · have hk : i ∈ sv.used ∧ ∀ c, sv.clients.get? i = some c → ∃ u, c = .pub u := by
        rcases he with ⟨he, _⟩ | ⟨_, _, _, _, _, he⟩
        · rw [he] at hm; exact hi.known s t w sent hs0 ids hm i hmi
        · rw [he] at hm
          rcases List.mem_append.1 hm with hm | hm
          · exact hi.known s t w sent hs0 ids hm i hmi
          · simp only [List.mem_singleton] at hm
            subst hm
            obtain ⟨u, hu, _⟩ := (mem_upstreamPubs hinv t i).1 hmi
            refine ⟨huc i _ hu, ?_⟩
            intro c hc; rw [hu] at hc; cases hc; exact ⟨u, rfl⟩
      exact ⟨hused i hk.1, pub_only hinv h hk.1 hk.2⟩

theorem run_rinv {cfg : Cfg} {h : List (Act T I A V × Reply)} {sv : Server T I A V} (hr : Run cfg h sv)
    (ho : InOrder h) : RInv sv := by
  induction hr with
  | init => exact ⟨by intro s t w sent hs; simp [init, PyDict.get?] at hs,
      by intro s t w sent hs; simp [init, PyDict.get?] at hs⟩
  | step hr hs ih =>
    refine RInv.step (run_inv hr).1 (run_inv (Run.step hr hs)).1 (run_inv hr).2
      (ih (fun s j r hm => ho s j r (List.mem_append_left _ hm))) hs ?_
    rintro s j rfl
    exact ho s j _ (List.mem_append_right _ (List.mem_singleton.2 rfl))

/-! ## Clients and the history -/

/-- An id that occurs as a new or departing client was handed out. -/
theorem seen_used {cfg : Cfg} {h : List (Act T I A V × Reply)} {sv : Server T I A V} (hr : Run cfg h sv) (i : I) :
    (∀ u r, (.publish i u, r) ∈ h → i ∈ sv.used) ∧ (∀ u r, (.subscribe i u, r) ∈ h → i ∈ sv.used) ∧
    (∀ r, (.gone i, r) ∈ h → i ∈ sv.used) := by
  induction hr with
  | init => simp
  | step hr hs ih =>
    rename_i h sv a sv' r
    have hu : ∀ j, j ∈ sv.used → j ∈ sv'.used := by
      intro j hj
      rw [used_step (run_inv hr).1 hs]
      cases a <;> simp only [usedAfter] <;> grind
    refine ⟨?_, ?_, ?_⟩
    · intro u q hm
      rcases List.mem_append.1 hm with hm | hm
      · exact hu i (ih.1 u q hm)
      · simp only [List.mem_singleton, Prod.mk.injEq] at hm
        obtain ⟨rfl, rfl⟩ := hm
        rw [used_step (run_inv hr).1 hs]; simp [usedAfter]
    · intro u q hm
      rcases List.mem_append.1 hm with hm | hm
      · exact hu i (ih.2.1 u q hm)
      · simp only [List.mem_singleton, Prod.mk.injEq] at hm
        obtain ⟨rfl, rfl⟩ := hm
        rw [used_step (run_inv hr).1 hs]; simp [usedAfter]
    · intro q hm
      rcases List.mem_append.1 hm with hm | hm
      · exact hu i (ih.2.2 q hm)
      · simp only [List.mem_singleton, Prod.mk.injEq] at hm
        obtain ⟨rfl, rfl⟩ := hm
        refine hu i ?_
        rcases hg : sv.clients.get? i with _ | c
        · simp [step, hg] at hs
        · exact (run_inv hr).2 i c hg

theorem pub_step {cfg : Cfg} {sv : Server T I A V} {a : Act T I A V} {sv' r} (hinv : EdgeInv sv)
    (huc : ∀ i c, sv.clients.get? i = some c → i ∈ sv.used)
    (h : step cfg sv a = some (sv', r)) (i : I) (u : T) :
    sv'.clients.get? i = some (.pub u) ↔ a = .publish i u ∨ (sv.clients.get? i = some (.pub u) ∧ a ≠ .gone i) := by
  constructor
  · intro hc
    rcases pub_back hinv h hc with rfl | h0
    · exact Or.inl rfl
    · refine Or.inr ⟨h0, ?_⟩
      rintro rfl
      rw [clients_step hinv h] at hc
      simp [clientAfter] at hc
  · rintro (rfl | ⟨h0, hn⟩)
    · rw [clients_step hinv h]; simp [clientAfter]
    · have hf := fresh_step h i
      have hu := huc i _ h0
      have hps : ∀ e, sessionInfo sv i ≠ some e := by
        intro e he; have := sessionInfo_some.1 he; rw [h0] at this; cases this
      have hpp : ∀ e, processInfo sv i ≠ some e := by
        intro e he; have := processInfo_some.1 he; rw [h0] at this; cases this
      rw [clients_step hinv h]
      cases a with
      | sessionClear s => simp only [step] at h; simp only [clientAfter]; grind
      | sessionGone s => simp only [step] at h; simp only [clientAfter]; grind
      | registerProcess p us => simp only [step] at h; simp only [clientAfter]; grind
      | updateOwnership p us vs => simp only [step] at h; simp only [clientAfter]; grind
      | processGone p => simp only [step] at h; simp only [clientAfter]; grind
      | _ => simp only [clientAfter, editEdges]; grind

theorem sub_step {cfg : Cfg} {sv : Server T I A V} {a : Act T I A V} {sv' r} (hinv : EdgeInv sv)
    (huc : ∀ i c, sv.clients.get? i = some c → i ∈ sv.used)
    (h : step cfg sv a = some (sv', r)) (i : I) (u : T) :
    (∃ w sent, sv'.clients.get? i = some (.sub u w sent)) ↔
      a = .subscribe i u ∨ ((∃ w sent, sv.clients.get? i = some (.sub u w sent)) ∧ a ≠ .gone i) := by
  constructor
  · rintro ⟨w, sent, hc⟩
    rw [clients_step hinv h] at hc
    cases a <;> simp only [clientAfter, editEdges] at hc <;> grind
  · rintro (rfl | ⟨⟨w, sent, h0⟩, hn⟩)
    · rw [clients_step hinv h]; simp [clientAfter]
    · have hf := fresh_step h i
      have hu := huc i _ h0
      have hps : ∀ e, sessionInfo sv i ≠ some e := by
        intro e he; have := sessionInfo_some.1 he; rw [h0] at this; cases this
      have hpp : ∀ e, processInfo sv i ≠ some e := by
        intro e he; have := processInfo_some.1 he; rw [h0] at this; cases this
      rw [clients_step hinv h]
      cases a with
      | sessionClear s => simp only [step] at h; simp only [clientAfter]; grind
      | sessionGone s => simp only [step] at h; simp only [clientAfter]; grind
      | registerProcess p us => simp only [step] at h; simp only [clientAfter]; grind
      | updateOwnership p us vs => simp only [step] at h; simp only [clientAfter]; grind
      | processGone p => simp only [step] at h; simp only [clientAfter]; grind
      | _ => simp only [clientAfter, editEdges]; grind

theorem livePub_iff {cfg : Cfg} {h : List (Act T I A V × Reply)} {sv : Server T I A V} (hr : Run cfg h sv) (i : I)
    (u : T) : sv.clients.get? i = some (.pub u) ↔ LivePub h i u := by
  induction hr with
  | init => simp [init, PyDict.get?, LivePub]
  | step hr hs ih =>
    rename_i h sv a sv' r
    rw [pub_step (run_inv hr).1 (run_inv hr).2 hs, ih]
    have hg := (seen_used hr i).2.2
    have hf := fresh_step hs i
    simp only [LivePub, List.mem_append, List.mem_singleton, Prod.mk.injEq]
    grind

theorem liveSub_iff {cfg : Cfg} {h : List (Act T I A V × Reply)} {sv : Server T I A V} (hr : Run cfg h sv) (i : I)
    (u : T) : (∃ w sent, sv.clients.get? i = some (.sub u w sent)) ↔ LiveSub h i u := by
  induction hr with
  | init => simp [init, PyDict.get?, LiveSub]
  | step hr hs ih =>
    rename_i h sv a sv' r
    rw [sub_step (run_inv hr).1 (run_inv hr).2 hs, ih]
    have hg := (seen_used hr i).2.2
    have hf := fresh_step hs i
    simp only [LiveSub, List.mem_append, List.mem_singleton, Prod.mk.injEq]
    grind

/-- Whatever is listed in an update was created as a publisher. -/
theorem listed_published {cfg : Cfg} {h : List (Act T I A V × Reply)} {sv : Server T I A V} (hr : Run cfg h sv)
    (ho : InOrder h) {s t w sent} (hs : sv.clients.get? s = some (.sub t w sent)) {ids : List I}
    (hm : ids ∈ sent ++ w) {i : I} (hi : i ∈ ids) : ∃ u r, (.publish i u, r) ∈ h := by
  induction hr generalizing s t w sent with
  | init => simp [init, PyDict.get?] at hs
  | step hr hst ih =>
    rename_i h sv a sv' r
    have ho' : InOrder h := fun s j r hm => ho s j r (List.mem_append_left _ hm)
    have hw : ∀ s j, a = .write s j → j = 0 := by
      rintro s j rfl
      exact ho s j _ (List.mem_append_right _ (List.mem_singleton.2 rfl))
    have hold : ∀ {u q}, (.publish i u, q) ∈ h → ∃ u r', (.publish i u, r') ∈ h ++ [(a, r)] :=
      fun hh => ⟨_, _, List.mem_append_left _ hh⟩
    rcases sub_back (run_inv hr).1 hst hw hs with ⟨_, rfl, rfl⟩ | ⟨w0, sent0, hs0, ⟨he, _⟩ | ⟨_, _, _, _, _, he⟩⟩
    · simp at hm
    · rw [he] at hm
      obtain ⟨u, q, hh⟩ := ih ho' hs0 hm
      exact hold hh
    · rw [he] at hm
      rcases List.mem_append.1 hm with hm | hm
      · obtain ⟨u, q, hh⟩ := ih ho' hs0 hm
        exact hold hh
      · simp only [List.mem_singleton] at hm
        subst hm
        obtain ⟨u, hu, _⟩ := (mem_upstreamPubs (run_inv hr).1 t i).1 hi
        obtain ⟨⟨q, hh⟩, _⟩ := (livePub_iff hr i u).1 hu
        exact hold hh

theorem linked_iff {cfg : Cfg} {h : List (Act T I A V × Reply)} {sv : Server T I A V} (hr : Run cfg h sv) (a b : T) :
    Graph.E sv.graph.graph a b ↔ Linked h a b := by
  rw [DAG.edge_iff_owned (run_inv hr).1.graph]
  simp only [owns_iff_madeBy hr]
  rfl

theorem reaches_linked {cfg : Cfg} {h : List (Act T I A V × Reply)} {sv : Server T I A V} (hr : Run cfg h sv) (a b : T) :
    Reaches (Graph.E sv.graph.graph) a b ↔ Reaches (Linked h) a b := by
  unfold Reaches
  rw [Path.congr (linked_iff hr)]

/-! ## The property -/

/-- **C10 (partial).** After any history of requests, once the server has settled, every connected subscriber has been
sent an update, and of the connected publishers the last one lists exactly those whose topic equals the subscriber's or
reaches it through connections. Anything else in it is a publisher that has left. Missing: updates written in another
order than they were prepared (`C10_negation_overtaken`), and publishers that left stay listed
(`C10_negation_departed`). -/
theorem C10_routing_partial {cfg : Cfg} {h : List (Act T I A V × Reply)} {sv : Server T I A V} (hr : Run cfg h sv)
    (ho : InOrder h) (hq : Settled sv) {s : I} {t : T} (hs : LiveSub h s t) :
    ∃ ids, lastUpdate sv s = some ids ∧
      (∀ i u, LivePub h i u → (i ∈ ids ↔ Reaches (Linked h) u t)) ∧
      (∀ i ∈ ids, (∃ u, LivePub h i u) ∨ ((∃ u r, (.publish i u, r) ∈ h) ∧ ∃ r, (.gone i, r) ∈ h)) := by
  obtain ⟨w, sent, hc⟩ := (liveSub_iff hr s t).2 hs
  have hw := hq.2 s t w sent hc
  subst hw
  rcases (run_rinv hr ho).routed s t [] sent hc with ⟨j, hj, hd⟩ | ⟨ids, hl, hf⟩
  · obtain ⟨h1, h2⟩ := hq.1 j hj
    rw [h1, h2] at hd
    simp at hd
  · rw [List.append_nil] at hl
    refine ⟨ids, by simp [lastUpdate, hc, hl], ?_, ?_⟩
    · intro i u hu
      rw [hf i u ((livePub_iff hr i u).2 hu), reaches_linked hr]
    · intro i hi
      obtain ⟨u, r, hp⟩ := listed_published hr ho hc (by rw [List.append_nil]; exact List.mem_of_getLast? hl) hi
      by_cases hg : ∃ r, (.gone i, r) ∈ h
      · exact Or.inr ⟨⟨u, r, hp⟩, hg⟩
      · exact Or.inl ⟨u, ⟨r, hp⟩, fun r hr => hg ⟨r, hr⟩⟩

/-- **C10 (partial).** If no publisher has left, the last update lists exactly the publishers upstream of the subscriber's
topic. -/
theorem C10_exact_partial {cfg : Cfg} {h : List (Act T I A V × Reply)} {sv : Server T I A V} (hr : Run cfg h sv)
    (ho : InOrder h) (hq : Settled sv) (hp : ∀ i u r r', (.publish i u, r) ∈ h → (.gone i, r') ∉ h)
    {s : I} {t : T} (hs : LiveSub h s t) :
    ∃ ids, lastUpdate sv s = some ids ∧ ∀ i, i ∈ ids ↔ ∃ u, LivePub h i u ∧ Reaches (Linked h) u t := by
  obtain ⟨ids, h1, h2, h3⟩ := C10_routing_partial hr ho hq hs
  refine ⟨ids, h1, ?_⟩
  intro i
  constructor
  · intro hi
    rcases h3 i hi with ⟨u, hu⟩ | ⟨⟨u, r, hm⟩, r', hg⟩
    · exact ⟨u, hu, (h2 i u hu).1 hi⟩
    · exact absurd hg (hp i u r r' hm)
  · rintro ⟨u, hu, hr'⟩
    exact (h2 i u hu).2 hr'

/-! ## The server settles -/

/-- `n` steps of notification loops and writes. -/
inductive Notifying (cfg : Cfg) : Server T I A V → Nat → Server T I A V → Prop
  | zero (sv) : Notifying cfg sv 0 sv
  | notify {sv n sv1 sv2 j r} : Notifying cfg sv n sv1 → step cfg sv1 (.notify j) = some (sv2, r) →
      Notifying cfg sv (n + 1) sv2
  | write {sv n sv1 sv2 s j r} : Notifying cfg sv n sv1 → step cfg sv1 (.write s j) = some (sv2, r) →
      Notifying cfg sv (n + 1) sv2

/-- Updates waiting for one client. -/
def waitingOf : Client T I A V → Nat
  | .sub _ w _ => w.length
  | _ => 0

def waitSum (d : List (I × Client T I A V)) : Nat := (d.map (fun x => waitingOf x.2)).sum

def jobCost (n : Nat) (j : Job T I) : Nat := 2 * j.subs.length + (2 * n + 1) * j.topics.length

def jobSum (n : Nat) (l : List (Job T I)) : Nat := (l.map (jobCost n)).sum

/-- A bound on the steps left. -/
def cost (sv : Server T I A V) : Nat := jobSum sv.clients.length sv.jobs + waitSum sv.clients

theorem waitSum_modify_not {d : List (I × Client T I A V)} {k : I} (h : k ∉ d.map (·.1)) (c : Client T I A V) :
    PyDict.modify d k (fun _ => c) = d := by
  unfold PyDict.modify
  conv => rhs; rw [← List.map_id d]
  apply List.map_congr_left
  intro p hp
  have : p.1 ≠ k := fun e => h (e ▸ List.mem_map_of_mem hp)
  simp [this]

theorem waitSum_modify {d : List (I × Client T I A V)} {k : I} {c c' : Client T I A V} (hn : (d.map (·.1)).Nodup)
    (h : PyDict.get? d k = some c) :
    waitSum (PyDict.modify d k (fun _ => c')) + waitingOf c = waitSum d + waitingOf c' := by
  induction d with
  | nil => simp [PyDict.get?] at h
  | cons p d ih =>
    simp only [List.map_cons, List.nodup_cons] at hn
    rw [PyDict.get?_cons] at h
    by_cases hp : p.1 = k
    · simp only [hp, if_true, Option.some.injEq] at h
      have hd : PyDict.modify d k (fun _ => c') = d := waitSum_modify_not (by rw [← hp]; exact hn.1) c'
      have : PyDict.modify (p :: d) k (fun _ => c') = (p.1, c') :: PyDict.modify d k (fun _ => c') := by
        simp [PyDict.modify, hp]
      rw [this, hd]
      simp only [waitSum, List.map_cons, List.sum_cons, h]
      omega
    · simp only [hp, if_false] at h
      have : PyDict.modify (p :: d) k (fun _ => c') = p :: PyDict.modify d k (fun _ => c') := by
        simp [PyDict.modify, hp]
      rw [this]
      have := ih hn.2 h
      simp only [waitSum, List.map_cons, List.sum_cons] at this ⊢
      omega

theorem set_some {d : PyDict I (Client T I A V)} {k : I} {c c' : Client T I A V} (h : d.get? k = some c) :
    d.set k c' = PyDict.modify d k (fun _ => c') := by
  simp [PyDict.set, h]

theorem jobSum_set {n : Nat} {l : List (Job T I)} {j : Nat} {x y : Job T I} (h : l[j]? = some x) :
    jobSum n (l.set j y) + jobCost n x = jobSum n l + jobCost n y := by
  induction l generalizing j with
  | nil => simp at h
  | cons z l ih =>
    cases j with
    | zero =>
      simp only [List.getElem?_cons_zero, Option.some.injEq] at h
      subst h
      simp only [List.set_cons_zero, jobSum, List.map_cons, List.sum_cons]; omega
    | succ j =>
      simp only [List.getElem?_cons_succ] at h
      have := ih h
      simp only [List.set_cons_succ, jobSum, List.map_cons, List.sum_cons] at this ⊢; omega

theorem downstreamSubs_length (sv : Server T I A V) (t : T) : (downstreamSubs sv t).length ≤ sv.clients.length := by
  simp only [downstreamSubs, subscribers, List.length_map]
  exact Nat.le_trans (List.length_filter_le _ _) (List.length_filterMap_le _ _)

theorem cost_step {cfg : Cfg} {sv : Server T I A V} {a : Act T I A V} {sv' r} (hinv : EdgeInv sv)
    (h : step cfg sv a = some (sv', r)) (ha : (∃ j, a = .notify j) ∨ ∃ s j, a = .write s j) : cost sv' < cost sv := by
  rcases ha with ⟨j, rfl⟩ | ⟨s, j, rfl⟩
  · simp only [step] at h
    split at h
    · rename_i s ss ts hj
      cases h
      have hjs := jobSum_set (n := sv.clients.length) (y := { subs := ss, topics := ts }) hj
      simp only [jobCost, List.length_cons] at hjs
      unfold prepareUpdate
      split
      · rename_i t w sent hg
        simp only [cost]
        rw [set_some hg]
        have := waitSum_modify (c' := .sub t (w ++ [upstreamPubs sv t]) sent) hinv.nodup hg
        simp only [waitingOf, List.length_append, List.length_cons, List.length_nil] at this
        have hlen : (PyDict.modify sv.clients s (fun _ => .sub t (w ++ [upstreamPubs sv t]) sent)).length =
            sv.clients.length := by simp [PyDict.modify]
        rw [hlen]
        omega
      · simp only [cost]; omega
    · rename_i t ts hj
      cases h
      have hjs := jobSum_set (n := sv.clients.length) (y := { subs := downstreamSubs sv t, topics := ts }) hj
      have hd := downstreamSubs_length sv t
      simp only [jobCost, List.length_cons, List.length_nil, Nat.mul_add, Nat.mul_one] at hjs
      simp only [cost]
      omega
    · cases h
  · simp only [step] at h
    split at h
    · rename_i t w sent hg
      split at h
      · rename_i ids hj
        cases h
        simp only [cost]
        rw [set_some hg]
        have := waitSum_modify (c' := .sub t (w.eraseIdx j) (sent ++ [ids])) hinv.nodup hg
        obtain ⟨hj', _⟩ := List.getElem?_eq_some_iff.1 hj
        simp only [waitingOf, List.length_eraseIdx, hj', if_true] at this
        have hlen : (PyDict.modify sv.clients s (fun _ => .sub t (w.eraseIdx j) (sent ++ [ids]))).length =
            sv.clients.length := by simp [PyDict.modify]
        rw [hlen]
        omega
      · cases h
    · cases h

/-- **C10 (settling).** In every reachable state the notification loops and writes alone end after a bounded number of
steps, and as long as the server is not settled one of them can go on, writing updates in order. -/
theorem C10_settles {cfg : Cfg} {h : List (Act T I A V × Reply)} {sv : Server T I A V} (hr : Run cfg h sv) :
    (∃ k, ∀ n sv', Notifying cfg sv n sv' → n ≤ k) ∧
    (¬ Settled sv → ∃ sv' r, (∃ j, step cfg sv (.notify j) = some (sv', r)) ∨ ∃ s, step cfg sv (.write s 0) = some (sv', r)) := by
  constructor
  · refine ⟨cost sv, ?_⟩
    intro n sv' hn
    have : EdgeInv sv' ∧ (∀ i c, sv'.clients.get? i = some c → i ∈ sv'.used) ∧ n + cost sv' ≤ cost sv := by
      induction hn with
      | zero => exact ⟨(run_inv hr).1, (run_inv hr).2, by omega⟩
      | notify _ hs ih =>
        obtain ⟨h1, h2, h3⟩ := ih
        have := cost_step h1 hs (Or.inl ⟨_, rfl⟩)
        exact ⟨h1.step h2 hs, clients_used_step h1 h2 hs, by omega⟩
      | write _ hs ih =>
        obtain ⟨h1, h2, h3⟩ := ih
        have := cost_step h1 hs (Or.inr ⟨_, _, rfl⟩)
        exact ⟨h1.step h2 hs, clients_used_step h1 h2 hs, by omega⟩
    omega
  · intro hns
    by_cases hj : ∀ j ∈ sv.jobs, j.subs = [] ∧ j.topics = []
    · have : ∃ s t w sent, sv.clients.get? s = some (.sub t w sent) ∧ w ≠ [] := by
        apply Classical.byContradiction
        intro hc
        refine hns ⟨hj, ?_⟩
        intro s t w sent hg
        apply Classical.byContradiction
        intro hw
        exact hc ⟨s, t, w, sent, hg, hw⟩
      obtain ⟨s, t, w, sent, hg, hw⟩ := this
      cases w with
      | nil => exact absurd rfl hw
      | cons x w => exact ⟨_, _, Or.inr ⟨s, by simp [step, hg]; exact ⟨rfl, rfl⟩⟩⟩
    · have : ∃ j ∈ sv.jobs, ¬ (j.subs = [] ∧ j.topics = []) := by
        apply Classical.byContradiction
        intro hc
        apply hj
        intro j hm
        apply Classical.byContradiction
        intro hx; exact hc ⟨j, hm, hx⟩
      obtain ⟨⟨subs, topics⟩, hm, hx⟩ := this
      obtain ⟨k, hk⟩ := List.mem_iff_getElem?.1 hm
      cases subs with
      | cons a l => exact ⟨_, _, Or.inl ⟨k, by simp [step, hk]; exact ⟨rfl, rfl⟩⟩⟩
      | nil =>
        cases topics with
        | nil => simp at hx
        | cons a l => exact ⟨_, _, Or.inl ⟨k, by simp [step, hk]; exact ⟨rfl, rfl⟩⟩⟩

/-! ## Where it fails, and examples -/

/-- **C10 fails: departed publishers.** When a publisher leaves, no update is sent: the server is settled and the
subscriber's last update still lists it. -/
theorem C10_negation_departed :
    ∃ (h : List (Act Nat Nat Nat Nat × Reply)) (sv : Server Nat Nat Nat Nat),
      Run { settingsLimit := 10, topologyLimit := 10, queueSize := 4 } h sv ∧ InOrder h ∧ Settled sv ∧
      LiveSub h 2 10 ∧ lastUpdate sv 2 = some [1] ∧ ¬ ∃ u, LivePub h 1 u := by
  have he : (exec (T := Nat) (I := Nat) (A := Nat) (V := Nat)
      { settingsLimit := 10, topologyLimit := 10, queueSize := 4 }
      [.publish 1 10, .subscribe 2 10, .notify 1, .write 2 0, .gone 1]).map (fun x => (x.1, x.2.jobs, x.2.clients)) =
    some ([(.publish 1 10, .complete), (.subscribe 2 10, .complete), (.notify 1, .complete), (.write 2 0, .complete),
      (.gone 1, .complete)], [{ subs := [], topics := [] }, { subs := [], topics := [] }],
      [(2, .sub 10 [] [[1]])]) := by srv_eval
  obtain ⟨⟨h, sv⟩, h1, h2⟩ := Option.map_eq_some_iff.1 he
  simp only [Prod.mk.injEq] at h2
  obtain ⟨rfl, h3, h4⟩ := h2
  refine ⟨_, sv, exec_run h1, ?_, ⟨?_, ?_⟩, ?_, ?_, ?_⟩
  · simp only [InOrder]
    intro s j r hm
    simp at hm
    exact hm.1.2
  · rw [h3]; simp
  · intro s t w sent hg
    rw [h4] at hg
    simp [PyDict.get?] at hg
    grind
  · simp [LiveSub]
  · simp [lastUpdate, h4, PyDict.get?]
  · simp [LivePub]

/-- **C10 fails: an update overtaken by a later one.** Session 5 ends; its loop prepares an update without publisher 1 and
waits. Meanwhile the connection is made again and the update listing publisher 1 is written first. The older one is
written last: the server is settled, but the subscriber is told about no publisher although 1 is upstream. -/
theorem C10_negation_overtaken :
    ∃ (h : List (Act Nat Nat Nat Nat × Reply)) (sv : Server Nat Nat Nat Nat),
      Run { settingsLimit := 10, topologyLimit := 10, queueSize := 4 } h sv ∧ Settled sv ∧
      LiveSub h 2 20 ∧ LivePub h 1 10 ∧ Linked h 10 20 ∧ lastUpdate sv 2 = some [] := by
  have he : (exec (T := Nat) (I := Nat) (A := Nat) (V := Nat)
      { settingsLimit := 10, topologyLimit := 10, queueSize := 4 }
      [.openSession 5, .sessionConnect 5 10 20, .publish 1 10, .subscribe 2 20, .notify 2, .write 2 0, .sessionGone 5,
        .notify 3, .connect 10 20, .notify 4, .write 2 1, .write 2 0]).map (fun x => (x.1, x.2.jobs, x.2.clients)) =
    some ([(.openSession 5, .complete), (.sessionConnect 5 10 20, .complete), (.publish 1 10, .complete),
        (.subscribe 2 20, .complete), (.notify 2, .complete), (.write 2 0, .complete), (.sessionGone 5, .complete),
        (.notify 3, .complete), (.connect 10 20, .complete), (.notify 4, .complete), (.write 2 1, .complete),
        (.write 2 0, .complete)], List.replicate 5 { subs := [], topics := [] },
      [(1, .pub 10), (2, .sub 20 [] [[1], [1], []])]) := by srv_eval
  obtain ⟨⟨h, sv⟩, h1, h2⟩ := Option.map_eq_some_iff.1 he
  simp only [Prod.mk.injEq] at h2
  obtain ⟨rfl, h3, h4⟩ := h2
  refine ⟨_, sv, exec_run h1, ⟨?_, ?_⟩, ?_, ?_, ?_, ?_⟩
  · rw [h3]; simp
  · intro s t w sent hg
    rw [h4] at hg
    simp only [PyDict.get?_cons, PyDict.get?_nil] at hg
    split at hg
    · cases hg
    · split at hg
      · cases hg; rfl
      · cases hg
  · simp [LiveSub]
  · simp [LivePub]
  · exact ⟨none, [(.openSession 5, .complete), (.sessionConnect 5 10 20, .complete), (.publish 1 10, .complete),
        (.subscribe 2 20, .complete), (.notify 2, .complete), (.write 2 0, .complete), (.sessionGone 5, .complete),
        (.notify 3, .complete)], [(.notify 4, .complete), (.write 2 1, .complete),
        (.write 2 0, .complete)], rfl, by simp [GivesUp]⟩
  · simp [lastUpdate, h4, PyDict.get?]

/-- Publishers 1 at topic 10 and 3 at topic 30; 10 → 20 → 40 by a session, 30 → 40 persistent; subscriber 2 of topic 40
and subscriber 4 of topic 20. The session ends: 2 is told about 3 only, 4 about nobody. -/
example :
    (exec (T := Nat) (I := Nat) (A := Nat) (V := Nat)
      { settingsLimit := 10, topologyLimit := 10, queueSize := 4 }
      [.openSession 5, .sessionConnect 5 10 20, .sessionConnect 5 20 40, .publish 1 10, .subscribe 2 40, .notify 3,
        .write 2 0, .publish 3 30, .connect 30 40, .notify 5, .write 2 0, .subscribe 4 20, .notify 6, .write 4 0,
        .sessionGone 5, .notify 7, .notify 7, .notify 7, .write 2 0, .write 4 0]).map
      (fun x => (x.2.jobs.all (fun j => j.subs.isEmpty && j.topics.isEmpty),
        x.2.clients.map (fun c => match c.2 with | .sub _ w sent => (c.1, w, sent) | _ => (c.1, [], [])))) =
    some (true, [(1, [], []), (2, [], [[1], [1, 3], [3]]), (3, [], []), (4, [], [[1], []])]) := by
  srv_eval

end Srv
end Ez
