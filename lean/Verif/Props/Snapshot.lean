import Verif.Model.Snapshot
import Verif.Props.SettingsSteps

/-!
# C91: a snapshot shows the graph, the sessions and the processes as they are
-/

set_option linter.unusedSectionVars false
set_option linter.unusedSimpArgs false

namespace Ez
namespace Srv
variable {T I A V : Type} [DecidableEq T] [DecidableEq I] [DecidableEq A]

/-! ## Specification -/

/-- The session was opened and has not ended. -/
def SessionOpen (h : List (Act T I A V × Reply)) (s : I) : Prop :=
  ∃ pre post, h = pre ++ (.openSession s, .complete) :: post ∧ ∀ c ∈ post, c.1 ≠ .sessionGone s

/-- The process connected and has not left. -/
def ProcessOpen (h : List (Act T I A V × Reply)) (p : I) : Prop :=
  ∃ pre post, h = pre ++ (.openProcess p, .complete) :: post ∧ ∀ c ∈ post, c.1 ≠ .processGone p

/-- The process has claimed the unit and not given it up: its last registration named it and no later update removed it, or an
update added it and neither the same update nor a later one removed it, nor did a later registration leave it out. -/
def Claimed (h : List (Act T I A V × Reply)) (p : I) (u : A) : Prop :=
  h.foldl (fun m c => match c with
    | (.registerProcess p' us, .complete) => if p' = p then u ∈ us else m
    | (.updateOwnership p' added removed, .complete) => if p' = p then (m ∨ u ∈ added) ∧ u ∉ removed else m
    | (.processGone p', _) => if p' = p then False else m
    | _ => m) False

/-! ## Lemmas -/

/-- `open` then not `close`, after one more entry. -/
theorem open_snoc {E : Type} (o : E) (bad : E → Prop) (hob : ¬ bad o) (h : List E) (c : E) :
    (∃ pre post, h ++ [c] = pre ++ o :: post ∧ ∀ x ∈ post, ¬ bad x) ↔
      c = o ∨ ((∃ pre post, h = pre ++ o :: post ∧ ∀ x ∈ post, ¬ bad x) ∧ ¬ bad c) := by
  constructor
  · rintro ⟨pre, post, he, h1⟩
    rcases List.eq_nil_or_concat post with hp | ⟨post', x, hp⟩
    · subst hp
      have := List.append_inj' he (by simp)
      left; simpa using this.2
    · subst hp
      right
      have he' : h ++ [c] = (pre ++ o :: post') ++ [x] := by simp [he]
      obtain ⟨e1, e2⟩ := List.append_inj' he' (by simp)
      have e2 : c = x := by simpa using e2
      subst e2
      exact ⟨⟨pre, post', e1, fun y hy => h1 y (by simp [hy])⟩, h1 c (by simp)⟩
  · rintro (rfl | ⟨⟨pre, post, rfl, h1⟩, h2⟩)
    · exact ⟨h, [], by simp, by simp⟩
    · refine ⟨pre, post ++ [c], by simp, ?_⟩
      intro y hy
      simp at hy
      rcases hy with hy | rfl
      · exact h1 y hy
      · exact h2

theorem sessionOpen_snoc (h : List (Act T I A V × Reply)) (c : Act T I A V × Reply) (s : I) :
    SessionOpen (h ++ [c]) s ↔ c = (.openSession s, .complete) ∨ (SessionOpen h s ∧ c.1 ≠ .sessionGone s) :=
  open_snoc (E := Act T I A V × Reply) (.openSession s, .complete) (fun c => c.1 = .sessionGone s) (fun h => by cases h) h c

theorem processOpen_snoc (h : List (Act T I A V × Reply)) (c : Act T I A V × Reply) (p : I) :
    ProcessOpen (h ++ [c]) p ↔ c = (.openProcess p, .complete) ∨ (ProcessOpen h p ∧ c.1 ≠ .processGone p) :=
  open_snoc (E := Act T I A V × Reply) (.openProcess p, .complete) (fun c => c.1 = .processGone p) (fun h => by cases h) h c

/-- A client is a session. -/
def IsSession : Option (Client T I A V) → Prop
  | some (.session _ _) => True
  | _ => False

/-- A client is a process. -/
def IsProcess : Option (Client T I A V) → Prop
  | some (.process _) => True
  | _ => False

theorem isSession_iff {c : Option (Client T I A V)} : IsSession c ↔ ∃ es md, c = some (.session es md) := by
  cases c with
  | none => simp [IsSession]
  | some c => cases c <;> simp [IsSession]

theorem isProcess_iff {c : Option (Client T I A V)} : IsProcess c ↔ ∃ us, c = some (.process us) := by
  cases c with
  | none => simp [IsProcess]
  | some c => cases c <;> simp [IsProcess]

theorem kind_step {cfg : Cfg} {sv sv' : Server T I A V} {act : Act T I A V} {r : Reply} (hinv : EdgeInv sv)
    (hu : ∀ i c, sv.clients.get? i = some c → i ∈ sv.used) (h : step cfg sv act = some (sv', r)) (s : I) :
    (IsSession (sv'.clients.get? s) ↔ (act, r) = (.openSession s, .complete) ∨
      (IsSession (sv.clients.get? s) ∧ act ≠ .sessionGone s)) ∧
    (IsProcess (sv'.clients.get? s) ↔ (act, r) = (.openProcess s, .complete) ∨
      (IsProcess (sv.clients.get? s) ∧ act ≠ .processGone s)) := by
  have hc := clients_step hinv h s
  have hfresh : ∀ {j : I}, j ∉ sv.used → sv.clients.get? j = none := by
    intro j hj
    cases hj' : sv.clients.get? j with
    | none => rfl
    | some c => exact absurd (hu _ _ hj') hj
  rw [hc]
  cases act with
  | subscribe j t =>
    have := hfresh (fresh_step h j (by simp))
    simp only [clientAfter]
    split <;> simp_all [IsSession, IsProcess]
  | publish j t =>
    have := hfresh (fresh_step h j (by simp))
    simp only [clientAfter]
    split <;> simp_all [IsSession, IsProcess]
  | channel j q =>
    have := hfresh (fresh_step h j (by simp))
    simp only [clientAfter]
    split
    · split <;> simp_all [IsSession, IsProcess]
    · simp
  | openSession j =>
    have := hfresh (fresh_step h j (by simp))
    simp only [step] at h
    split at h
    · cases h
    · cases h
      simp only [clientAfter]
      by_cases e : s = j
      · subst e; simp [IsSession, IsProcess, this]
      · simp [e, Ne.symm e]
  | openProcess j =>
    have := hfresh (fresh_step h j (by simp))
    simp only [step] at h
    split at h
    · cases h
    · cases h
      simp only [clientAfter]
      by_cases e : s = j
      · subst e; simp [IsSession, IsProcess, this]
      · simp [e, Ne.symm e]
  | gone j =>
    simp only [clientAfter]
    split
    · rename_i hs; subst hs
      simp only [step] at h
      split at h
      · rename_i h1; simp [h1, IsSession, IsProcess]
      · rename_i h1; simp [h1, IsSession, IsProcess]
      · rename_i h1; simp [h1, IsSession, IsProcess]
      · cases h
    · simp
  | sessionConnect s' x y =>
    simp only [clientAfter]
    split
    · unfold editEdges
      split
      · rename_i h1; simp [h1, IsSession, IsProcess]
      · simp
    · simp
  | sessionDisconnect s' x y =>
    simp only [clientAfter]
    split
    · unfold editEdges
      split
      · rename_i h1; simp [h1, IsSession, IsProcess]
      · simp
    · simp
  | sessionClear s' =>
    simp only [step] at h
    split at h
    · rename_i x hx
      have hx := sessionInfo_some.1 hx
      simp only [clientAfter]
      split
      · rename_i e; subst e; simp [hx, IsSession, IsProcess]
      · simp
    · cases h
  | sessionGone s' =>
    simp only [step] at h
    split at h
    · rename_i x hx
      have hx := sessionInfo_some.1 hx
      simp only [clientAfter]
      split
      · rename_i e; subst e; simp [hx, IsSession, IsProcess]
      · rename_i e; simp [Ne.symm e]
    · cases h
  | sessionRegister s' md =>
    simp only [clientAfter]
    split
    · split
      · rename_i h1; simp [h1, IsSession, IsProcess]
      · simp
    · simp
  | registerProcess p units =>
    simp only [step] at h
    split at h
    · rename_i x hx
      have hx := processInfo_some.1 hx
      simp only [clientAfter]
      split
      · rename_i e; rw [e.1]; simp [hx, IsSession, IsProcess]
      · simp
    · cases h
  | updateOwnership p added removed =>
    simp only [step] at h
    split at h
    · rename_i x hx
      have hx := processInfo_some.1 hx
      simp only [clientAfter]
      split
      · rename_i e; rw [e.1]; simp [hx, IsSession, IsProcess]
      · simp
    · cases h
  | processGone p =>
    simp only [step] at h
    split at h
    · rename_i x hx
      have hx := processInfo_some.1 hx
      simp only [clientAfter]
      split
      · rename_i e; subst e; simp [hx, IsSession, IsProcess]
      · rename_i e; simp [Ne.symm e]
    · cases h
  | notify j =>
    simp only [clientAfter]
    split
    · split
      · split
        · rename_i h1; simp [h1, IsSession, IsProcess]
        · simp
      · simp
    · simp
  | write s' j =>
    simp only [clientAfter]
    split
    · split
      · rename_i h1
        split <;> simp [h1, IsSession, IsProcess]
      · simp
    · simp
  | _ => simp [clientAfter]

theorem run_kind {cfg : Cfg} {h : List (Act T I A V × Reply)} {sv : Server T I A V} (hr : Run cfg h sv) (s : I) :
    (IsSession (sv.clients.get? s) ↔ SessionOpen h s) ∧ (IsProcess (sv.clients.get? s) ↔ ProcessOpen h s) := by
  induction hr with
  | init =>
    refine ⟨⟨(fun h => by cases h), fun h => ?_⟩, ⟨(fun h => by cases h), fun h => ?_⟩⟩ <;>
      (obtain ⟨p, q, h, _⟩ := h; simp at h)
  | step hr hs ih =>
    obtain ⟨k1, k2⟩ := kind_step (run_inv hr).1 (run_inv hr).2 hs s
    rw [k1, k2, sessionOpen_snoc, processOpen_snoc, ih.1, ih.2]
    exact ⟨Iff.rfl, Iff.rfl⟩

theorem claimed_snoc (h : List (Act T I A V × Reply)) (c : Act T I A V × Reply) (p : I) (u : A) :
    Claimed (h ++ [c]) p u = (match c with
    | (.registerProcess p' us, .complete) => if p' = p then u ∈ us else Claimed h p u
    | (.updateOwnership p' added removed, .complete) => if p' = p then (Claimed h p u ∨ u ∈ added) ∧ u ∉ removed else Claimed h p u
    | (.processGone p', _) => if p' = p then False else Claimed h p u
    | _ => Claimed h p u) := by
  unfold Claimed
  rw [List.foldl_append]
  rfl

theorem run_claimed {cfg : Cfg} {h : List (Act T I A V × Reply)} {sv : Server T I A V} (hr : Run cfg h sv) (p : I) (u : A) :
    OwnsUnit sv p u ↔ Claimed h p u := by
  induction hr with
  | init => exact ⟨fun h => by obtain ⟨us, h, _⟩ := h; simp [init] at h, fun h => by cases h⟩
  | @step h sv act sv' r hr hs ih =>
    rw [claimed_snoc]
    have c29 := C29_claims_exact (sv' := sv') (r := r) hr
    have c29' := C29_disconnect_frees_exactly hr hs
    cases act with
    | registerProcess q us =>
      obtain ⟨a1, a2⟩ := (c29 q).1 us hs
      by_cases hq : ∃ x ∈ us, ∃ q', q' ≠ q ∧ OwnsUnit sv q' x
      · obtain ⟨rfl, rfl⟩ := a1 hq
        exact ih
      · obtain ⟨rfl, a3⟩ := a2 (by
          intro x hx q' ho
          exact Decidable.byContradiction fun hne => hq ⟨x, hx, q', hne, ho⟩)
        rw [a3]
        by_cases e : p = q
        · subst e; simp
        · simp [e, Ne.symm e, ih]
    | updateOwnership q add rem =>
      obtain ⟨a1, a2⟩ := (c29 q).2 add rem hs
      by_cases hq : ∃ x ∈ add, ∃ q', q' ≠ q ∧ OwnsUnit sv q' x
      · obtain ⟨rfl, rfl⟩ := a1 hq
        exact ih
      · obtain ⟨rfl, a3⟩ := a2 (by
          intro x hx q' ho
          exact Decidable.byContradiction fun hne => hq ⟨x, hx, q', hne, ho⟩)
        rw [a3]
        by_cases e : p = q
        · subst e; simp [ih]
        · simp [e, Ne.symm e, ih]
    | processGone q =>
      rw [c29'.1 q rfl]
      by_cases e : p = q
      · subst e; simp
      · simp [e, Ne.symm e, ih]
    | _ => exact (c29'.2 rfl p u).trans ih

theorem mem_sessions {le : Orders T I A} {sv : Server T I A V} {s : I} {es : List (T × T)} {md : Option (PyDict A V)} :
    (s, es, md) ∈ (snapshot le sv).sessions ↔ ∃ es', (s, .session es' md) ∈ sv.clients ∧ es = es'.mergeSort le.edge := by
  simp only [snapshot, List.mem_map, List.mem_mergeSort, List.mem_filterMap]
  constructor
  · rintro ⟨⟨s', es', md'⟩, ⟨⟨i, c⟩, hc, h1⟩, h2⟩
    cases c with
    | session e m => cases h1; cases h2; exact ⟨_, hc, rfl⟩
    | _ => cases h1
  · rintro ⟨es', h, rfl⟩
    exact ⟨(s, es', md), ⟨_, h, rfl⟩, rfl⟩

theorem mem_processes {le : Orders T I A} {sv : Server T I A V} {p : I} {us : List A} :
    (p, us) ∈ (snapshot le sv).processes ↔ ∃ us', (p, .process us') ∈ sv.clients ∧ us = us'.mergeSort le.unit := by
  simp only [snapshot, List.mem_map, List.mem_mergeSort, List.mem_filterMap]
  constructor
  · rintro ⟨⟨s', us'⟩, ⟨⟨i, c⟩, hc, h1⟩, h2⟩
    cases c with
    | process e => cases h1; cases h2; exact ⟨_, hc, rfl⟩
    | _ => cases h1
  · rintro ⟨us', h, rfl⟩
    exact ⟨(p, us'), ⟨_, h, rfl⟩, rfl⟩

theorem filterMap_keys_nodup {W : Type} (f : I × Client T I A V → Option (I × W)) (hf : ∀ c w, f c = some w → w.1 = c.1) :
    ∀ (l : List (I × Client T I A V)), (l.map (·.1)).Nodup → ((l.filterMap f).map (·.1)).Nodup := by
  intro l
  induction l with
  | nil => simp
  | cons c l ih =>
    intro h
    simp only [List.map_cons, List.nodup_cons] at h
    rw [List.filterMap_cons]
    split
    · exact ih h.2
    · rename_i w hw
      simp only [List.map_cons, List.nodup_cons]
      refine ⟨?_, ih h.2⟩
      intro hm
      obtain ⟨w', hw', e⟩ := List.mem_map.1 hm
      obtain ⟨c', hc', e'⟩ := List.mem_filterMap.1 hw'
      apply h.1
      rw [← hf _ _ hw, ← e, hf _ _ e']
      exact List.mem_map_of_mem hc'

/-! ## Theorems -/

/-- C91: the graph of a snapshot has exactly the connections that somebody has made and not given up, and as topics exactly
their ends, each once. -/
theorem C91_graph {cfg : Cfg} {h : List (Act T I A V × Reply)} {sv : Server T I A V} (hr : Run cfg h sv) (le : Orders T I A) :
    (∀ a b, (∃ bs, (a, bs) ∈ (snapshot le sv).graph ∧ b ∈ bs) ↔ ∃ o, MadeBy h a b o) ∧
    (∀ a, (∃ bs, (a, bs) ∈ (snapshot le sv).graph) ↔ ∃ b o, MadeBy h a b o ∨ MadeBy h b a o) ∧
    ((snapshot le sv).graph.map (·.1)).Nodup := by
  have hinv := (run_inv hr).1.graph
  have h1 : ∀ a b, (∃ bs, (a, bs) ∈ (snapshot le sv).graph ∧ b ∈ bs) ↔ ∃ o, MadeBy h a b o := by
    intro a b
    rw [← (C11_connections_are_those_made hr a b).2]
    simp only [snapshot, Connected, List.mem_map]
    constructor
    · rintro ⟨bs, ⟨⟨x, s⟩, hs, e⟩, hb⟩
      cases e
      exact ⟨s, hs, List.mem_mergeSort.1 hb⟩
    · rintro ⟨s, hs, hb⟩
      exact ⟨_, ⟨_, hs, rfl⟩, List.mem_mergeSort.2 hb⟩
  have keys : (snapshot le sv).graph.map (·.1) = PyDict.keys sv.graph.graph := by simp [snapshot, PyDict.keys, Function.comp_def]
  have hE : ∀ a b, Graph.E sv.graph.graph a b ↔ ∃ o, MadeBy h a b o := by
    intro a b
    rw [← (C11_connections_are_those_made hr a b).2, connected_iff_E hinv]
  refine ⟨h1, ?_, by rw [keys]; exact hinv.gnodup⟩
  intro a
  have hk : (∃ bs, (a, bs) ∈ (snapshot le sv).graph) ↔ a ∈ PyDict.keys sv.graph.graph := by
    rw [← keys, List.mem_map]
    constructor
    · rintro ⟨bs, h⟩; exact ⟨_, h, rfl⟩
    · rintro ⟨⟨x, bs⟩, h, rfl⟩; exact ⟨bs, h⟩
  rw [hk]
  constructor
  · intro ha
    rcases hinv.used a ha with ⟨b, hb⟩ | ⟨b, hb⟩
    · obtain ⟨o, ho⟩ := (hE a b).1 hb; exact ⟨b, o, .inl ho⟩
    · obtain ⟨o, ho⟩ := (hE b a).1 hb; exact ⟨b, o, .inr ho⟩
  · rintro ⟨b, o, ho | ho⟩
    · have he := (hE a b).2 ⟨o, ho⟩
      obtain ⟨s, hs, _⟩ := Graph.E_iff_get?.1 he
      exact List.mem_map_of_mem (PyDict.mem_of_get? hs)
    · exact hinv.closed b a ((hE b a).2 ⟨o, ho⟩)

/-- C91: the owners that a snapshot lists for a connection are exactly those that have made it and not given it up; connections
without an owner are not listed. -/
theorem C91_owners {cfg : Cfg} {h : List (Act T I A V × Reply)} {sv : Server T I A V} (hr : Run cfg h sv) (le : Orders T I A) :
    (∀ a b o, (∃ os, ((a, b), os) ∈ (snapshot le sv).owners ∧ o ∈ os) ↔ MadeBy h a b o) ∧
    (∀ a b os, ((a, b), os) ∈ (snapshot le sv).owners → os ≠ []) ∧
    ((snapshot le sv).owners.map (·.1)).Nodup := by
  have hinv := (run_inv hr).1.graph
  have hm : ∀ e os, (e, os) ∈ (snapshot le sv).owners ↔ ∃ s, (e, s) ∈ sv.graph.owners ∧ os = s.mergeSort le.owner := by
    intro e os
    simp only [snapshot, List.mem_map, List.mem_mergeSort]
    constructor
    · rintro ⟨⟨x, s⟩, hs, e⟩; cases e; exact ⟨s, hs, rfl⟩
    · rintro ⟨s, hs, rfl⟩; exact ⟨_, hs, rfl⟩
  refine ⟨?_, ?_, ?_⟩
  · intro a b o
    rw [← (C11_connections_are_those_made hr a b).1 o]
    constructor
    · rintro ⟨os, h1, h2⟩
      obtain ⟨s, hs, rfl⟩ := (hm _ _).1 h1
      exact ⟨s, hs, List.mem_mergeSort.1 h2⟩
    · rintro ⟨s, hs, ho⟩
      exact ⟨_, (hm _ _).2 ⟨s, hs, rfl⟩, List.mem_mergeSort.2 ho⟩
  · intro a b os h1 e
    obtain ⟨s, hs, rfl⟩ := (hm _ _).1 h1
    have := hinv.nonempty _ _ (PyDict.get?_of_mem hinv.onodup hs)
    apply this
    have hl := List.length_mergeSort (le := le.owner) s
    rw [e] at hl
    exact List.length_eq_zero_iff.1 hl.symm
  · have hp := (List.mergeSort_perm sv.graph.owners (fun x y => le.edge x.1 y.1)).map (·.1)
    have : (snapshot le sv).owners.map (·.1) = (sv.graph.owners.mergeSort fun x y => le.edge x.1 y.1).map (·.1) := by
      simp [snapshot, Function.comp_def]
    rw [this]
    exact hp.nodup_iff.2 hinv.onodup

/-- C91: the sessions of a snapshot are exactly those that were opened and have not ended, each once, with exactly the
connections that it made and has not given up, and the metadata that it registered last. -/
theorem C91_sessions {cfg : Cfg} {h : List (Act T I A V × Reply)} {sv : Server T I A V} (hr : Run cfg h sv) (le : Orders T I A) :
    (∀ s, (∃ es md, (s, es, md) ∈ (snapshot le sv).sessions) ↔ SessionOpen h s) ∧
    (∀ s es md, (s, es, md) ∈ (snapshot le sv).sessions →
      (∀ a b, (a, b) ∈ es ↔ MadeBy h a b (some s)) ∧ md = metadataOf h s) ∧
    ((snapshot le sv).sessions.map (·.1)).Nodup := by
  have hinv := (run_inv hr).1
  refine ⟨?_, ?_, ?_⟩
  · intro s
    rw [← (run_kind hr s).1, isSession_iff]
    constructor
    · rintro ⟨es, md, hm⟩
      obtain ⟨es', h1, _⟩ := mem_sessions.1 hm
      exact ⟨es', md, PyDict.get?_of_mem hinv.nodup h1⟩
    · rintro ⟨es, md, hg⟩
      exact ⟨_, md, mem_sessions.2 ⟨es, PyDict.mem_of_get? hg, rfl⟩⟩
  · intro s es md hm
    obtain ⟨es', h1, rfl⟩ := mem_sessions.1 hm
    refine ⟨fun a b => ?_, ?_⟩
    · rw [List.mem_mergeSort]
      exact (C11_session_lists_its_connections hr).1 s es' md h1 a b
    · rw [(run_setInv hr).mdEq s]
      unfold mdOf
      rw [PyDict.get?_of_mem hinv.nodup h1]
      rfl
  · have : (snapshot le sv).sessions.map (·.1) = ((sv.clients.filterMap sessionEntry).mergeSort fun x y => le.id x.1 y.1).map (·.1) := by
      simp [snapshot, Function.comp_def]
    rw [this]
    refine ((List.mergeSort_perm _ _).map _).nodup_iff.2 (filterMap_keys_nodup _ ?_ _ hinv.nodup)
    rintro ⟨i, c⟩ w hw
    cases c with
    | session e m => cases hw; rfl
    | _ => cases hw

/-- C91: the processes of a snapshot are exactly those that connected and have not left, each once, with exactly the units that
they have claimed and not given up. -/
theorem C91_processes {cfg : Cfg} {h : List (Act T I A V × Reply)} {sv : Server T I A V} (hr : Run cfg h sv) (le : Orders T I A) :
    (∀ p, (∃ us, (p, us) ∈ (snapshot le sv).processes) ↔ ProcessOpen h p) ∧
    (∀ p us, (p, us) ∈ (snapshot le sv).processes → ∀ u, u ∈ us ↔ Claimed h p u) ∧
    ((snapshot le sv).processes.map (·.1)).Nodup := by
  have hinv := (run_inv hr).1
  refine ⟨?_, ?_, ?_⟩
  · intro s
    rw [← (run_kind hr s).2, isProcess_iff]
    constructor
    · rintro ⟨us, hm⟩
      obtain ⟨us', h1, _⟩ := mem_processes.1 hm
      exact ⟨us', PyDict.get?_of_mem hinv.nodup h1⟩
    · rintro ⟨us, hg⟩
      exact ⟨_, mem_processes.2 ⟨us, PyDict.mem_of_get? hg, rfl⟩⟩
  · intro p us hm u
    obtain ⟨us', h1, rfl⟩ := mem_processes.1 hm
    rw [List.mem_mergeSort, ← run_claimed hr p u]
    constructor
    · exact fun h => ⟨us', h1, h⟩
    · rintro ⟨us2, h2, h3⟩
      have := PyDict.get?_of_mem hinv.nodup h1
      rw [PyDict.get?_of_mem hinv.nodup h2] at this
      cases this
      exact h3
  · have : (snapshot le sv).processes.map (·.1) = ((sv.clients.filterMap processEntry).mergeSort fun x y => le.id x.1 y.1).map (·.1) := by
      simp [snapshot, Function.comp_def]
    rw [this]
    refine ((List.mergeSort_perm _ _).map _).nodup_iff.2 (filterMap_keys_nodup _ ?_ _ hinv.nodup)
    rintro ⟨i, c⟩ w hw
    cases c with
    | process e => cases hw; rfl
    | _ => cases hw

/-- C91: connections with their owners, connections of sessions, topics, units, sessions and processes are listed in order: connections by
the topic they come from and then by the topic they go to, connections of nobody first among the owners. -/
theorem C91_sorted {sv : Server T I A V} (le : Orders T I A)
    (ht : ∀ a b c, le.topic a b = true → le.topic b c = true → le.topic a c = true) (ht' : ∀ a b, (le.topic a b || le.topic b a) = true)
    (hu : ∀ a b c, le.unit a b = true → le.unit b c = true → le.unit a c = true) (hu' : ∀ a b, (le.unit a b || le.unit b a) = true)
    (hi : ∀ a b c, le.id a b = true → le.id b c = true → le.id a c = true) (hi' : ∀ a b, (le.id a b || le.id b a) = true)
    (hta : ∀ a b, le.topic a b = true → le.topic b a = true → a = b) :
    ((snapshot le sv).owners.map (·.1)).Pairwise (fun x y => le.topic x.1 y.1 = true ∧ (x.1 = y.1 → le.topic x.2 y.2 = true)) ∧
    (∀ e os, (e, os) ∈ (snapshot le sv).owners →
      os.Pairwise fun x y => x = none ∨ ∃ i j, x = some i ∧ y = some j ∧ le.id i j = true) ∧
    (∀ s es md, (s, es, md) ∈ (snapshot le sv).sessions →
      es.Pairwise fun x y => le.topic x.1 y.1 = true ∧ (x.1 = y.1 → le.topic x.2 y.2 = true)) ∧
    (∀ a bs, (a, bs) ∈ (snapshot le sv).graph → bs.Pairwise fun x y => le.topic x y = true) ∧
    (∀ p us, (p, us) ∈ (snapshot le sv).processes → us.Pairwise fun x y => le.unit x y = true) ∧
    ((snapshot le sv).sessions.map (·.1)).Pairwise (fun x y => le.id x y = true) ∧
    ((snapshot le sv).processes.map (·.1)).Pairwise (fun x y => le.id x y = true) := by
  have het : ∀ a b c, le.edge a b = true → le.edge b c = true → le.edge a c = true := by
    rintro ⟨a, a'⟩ ⟨b, b'⟩ ⟨c, c'⟩ h1 h2
    simp only [Orders.edge] at h1 h2 ⊢
    have := ht a b c
    have := ht a' b' c'
    have := hta a b
    grind
  have hett : ∀ a b, (le.edge a b || le.edge b a) = true := by
    rintro ⟨a, a'⟩ ⟨b, b'⟩
    simp only [Orders.edge]
    have := ht' a b
    have := ht' a' b'
    grind
  have hem : ∀ x y : T × T, le.edge x y = true → le.topic x.1 y.1 = true ∧ (x.1 = y.1 → le.topic x.2 y.2 = true) := by
    rintro ⟨a, a'⟩ ⟨b, b'⟩ h1
    simp only [Orders.edge] at h1 ⊢
    have := ht' a a
    grind
  refine ⟨?_, ?_, ?_, ?_, ?_, ?_, ?_⟩
  · have : (snapshot le sv).owners.map (·.1) = (sv.graph.owners.mergeSort fun x y => le.edge x.1 y.1).map (·.1) := by
      simp [snapshot, Function.comp_def]
    rw [this, List.pairwise_map]
    exact (List.pairwise_mergeSort (fun a b c => het a.1 b.1 c.1) (fun a b => hett a.1 b.1) _).imp fun h => hem _ _ h
  · intro a os h
    simp only [snapshot, List.mem_map] at h
    obtain ⟨x, _, e⟩ := h
    cases e
    refine (List.pairwise_mergeSort ?_ ?_ _).imp ?_
    · rintro (_ | a) (_ | b) (_ | c) h1 h2 <;> simp only [Orders.owner, Bool.false_eq_true] at h1 h2 ⊢
      exact hi _ _ _ h1 h2
    · rintro (_ | a) (_ | b) <;> simp [Orders.owner]
      simpa using hi' a b
    · rintro (_ | a) (_ | b) h1 <;> simp_all [Orders.owner]
  · intro s es md h
    simp only [snapshot, List.mem_map] at h
    obtain ⟨x, _, e⟩ := h
    cases e
    exact (List.pairwise_mergeSort het hett _).imp fun h => hem _ _ h
  · intro a bs h
    simp only [snapshot, List.mem_map] at h
    obtain ⟨x, _, e⟩ := h
    cases e
    exact List.pairwise_mergeSort ht ht' _
  · intro p us h
    obtain ⟨us', _, rfl⟩ := mem_processes.1 h
    exact List.pairwise_mergeSort hu hu' _
  · have : (snapshot le sv).sessions.map (·.1) = ((sv.clients.filterMap sessionEntry).mergeSort fun x y => le.id x.1 y.1).map (·.1) := by
      simp [snapshot, Function.comp_def]
    rw [this, List.pairwise_map]
    exact List.pairwise_mergeSort (fun a b c => hi a.1 b.1 c.1) (fun a b => hi' a.1 b.1) _
  · have : (snapshot le sv).processes.map (·.1) = ((sv.clients.filterMap processEntry).mergeSort fun x y => le.id x.1 y.1).map (·.1) := by
      simp [snapshot, Function.comp_def]
    rw [this, List.pairwise_map]
    exact List.pairwise_mergeSort (fun a b c => hi a.1 b.1 c.1) (fun a b => hi' a.1 b.1) _

/-! ## Examples -/

/-- Two sessions, a process with two units, connections of a session and of nobody. -/
def snapActs : List (Act Nat Nat Nat Nat) :=
  [.openSession 1, .openSession 2, .openProcess 3, .sessionConnect 1 10 20, .connect 10 20, .sessionConnect 2 20 30,
    .sessionRegister 1 [(5, 7)], .registerProcess 3 [6, 5], .sessionGone 2]

/-- Numbers by size. -/
def snapOrders : Orders Nat Nat Nat := ⟨fun a b => decide (a ≤ b), fun a b => decide (a ≤ b), fun a b => decide (a ≤ b)⟩

/-- Non-vacuity of C91: the snapshot after these steps. -/
theorem snap_example : ∃ h sv, Run ⟨100, 100, 10⟩ h sv ∧
    (snapshot snapOrders sv).graph = [(10, [20]), (20, [])] ∧
    (snapshot snapOrders sv).owners = [((10, 20), [none, some 1])] ∧
    (snapshot snapOrders sv).sessions = [(1, [(10, 20)], some [(5, 7)])] ∧
    (snapshot snapOrders sv).processes = [(3, [5, 6])] := by
  have key : (exec ⟨100, 100, 10⟩ snapActs).map (fun x => (x.2.graph.graph, x.2.graph.owners, x.2.clients)) =
      some ([(10, [20]), (20, [])], [((10, 20), [some 1, none])],
        [(1, .session [(10, 20)] (some [(5, 7)])), (3, .process [6, 5])]) := by
    unfold snapActs
    srv_eval
  rw [Option.map_eq_some_iff] at key
  obtain ⟨⟨h, sv⟩, he, k⟩ := key
  obtain ⟨k1, k2, k3⟩ := (by simpa using k : _ ∧ _ ∧ _)
  refine ⟨h, sv, exec_run he, ?_, ?_, ?_, ?_⟩
  · simp only [snapshot, k1]; decide +kernel
  · simp [snapshot, k2, List.mergeSort, List.MergeSort.Internal.splitInTwo, List.merge, Orders.owner]
  · simp only [snapshot, k3]; decide +kernel
  · have e : sv.clients.filterMap processEntry = [(3, [6, 5])] := by rw [k3]; rfl
    simp [snapshot, e, List.mergeSort, List.MergeSort.Internal.splitInTwo, List.merge, snapOrders]

end Srv
end Ez
