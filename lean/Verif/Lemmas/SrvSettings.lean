import Verif.Lemmas.SrvInv
import Verif.Props.EventLog

/-! # The settings table, the settings log and the topology log, step by step -/

set_option linter.unusedSectionVars false
set_option linter.unusedSimpArgs false

namespace Ez
namespace Srv
variable {T I A V : Type} [DecidableEq T] [DecidableEq I] [DecidableEq A]

/-- Appending several events. -/
def appendAll {E : Type} (limit maxsize : Int) (l : EventLog I E) (es : List E) : EventLog I E :=
  es.foldl (fun l e => l.append limit maxsize e) l

/-- A setting after the session `s` gave it up. -/
def released (s : I) (x : SettingsState I V) : Option (SettingsState I V) :=
  if x.metadataSession ≠ some s then some x
  else if x.sourceProcess = none then none
  else some { x with metadataSession := none }

theorem releaseSetting_get? (s : I) (st : PyDict A (SettingsState I V)) (b a : A) :
    (releaseSetting s st b).get? a = if a = b then (st.get? a).bind (released s) else st.get? a := by
  unfold releaseSetting
  cases hb : st.get? b with
  | none => by_cases h : a = b <;> simp [h, hb]
  | some x =>
    simp only
    by_cases h1 : x.metadataSession ≠ some s
    · rw [if_pos h1]
      by_cases h : a = b
      · simp only [h, if_true, hb, Option.bind_some, released, if_pos h1]
      · simp [h]
    · rw [if_neg h1]
      by_cases h2 : x.sourceProcess = none
      · rw [if_pos h2, PyDict.get?_pop]
        by_cases h : a = b
        · simp only [h, if_true, hb, Option.bind_some, released, if_neg h1, if_pos h2]
        · simp [h]
      · rw [if_neg h2, PyDict.get?_modify]
        by_cases h : a = b
        · simp only [h, if_true, hb, Option.bind_some, released, if_neg h1, if_neg h2, Option.map_some]
        · simp [h]

theorem released_idem (s : I) (x : Option (SettingsState I V)) :
    (x.bind (released s)).bind (released s) = x.bind (released s) := by
  cases x with
  | none => rfl
  | some x =>
    simp only [Option.bind_some, released]
    by_cases h1 : x.metadataSession = some s
    · by_cases h2 : x.sourceProcess = none
      · simp [h1, h2]
      · simp [h1, h2, released]
    · simp [h1, released]

theorem releaseAll_get? (s : I) (l : List A) (st : PyDict A (SettingsState I V)) (a : A) :
    (l.foldl (releaseSetting s) st).get? a =
      if a ∈ l then (st.get? a).bind (released s) else st.get? a := by
  induction l generalizing st with
  | nil => simp
  | cons b l ih =>
    rw [List.foldl_cons, ih, releaseSetting_get?]
    by_cases h1 : a ∈ l <;> by_cases h2 : a = b <;> simp [h1, h2, released_idem]

theorem removeSession_get? (sv : Server T I A V) (s : I) (a : A) :
    (removeSessionSettings sv s).settings.get? a =
      if a ∈ (sv.owned.get? s).getD [] then (sv.settings.get? a).bind (released s)
      else sv.settings.get? a := releaseAll_get? s _ _ a

/-- The setting of a component after its session registered the initial value `v`. -/
def applied (s : I) (v : V) : Option (SettingsState I V) → SettingsState I V
  | some x => if x.sourceProcess ≠ none then { x with metadataSession := some s }
    else { value := v, metadataSession := some s, sourceProcess := none }
  | none => { value := v, metadataSession := some s, sourceProcess := none }

/-- The event of a registered component. -/
def initialEvent (s : I) (c : A × V) : SettingsEvent I A V :=
  { kind := .initial, address := c.1, value := c.2, session := some s, process := none }

theorem applyComponent_get? (cfg : Cfg) (s : I) (sv : Server T I A V) (c : A × V) (a : A) :
    (applyComponent cfg s sv c).settings.get? a =
      if a = c.1 then some (applied s c.2 (sv.settings.get? a)) else sv.settings.get? a := by
  unfold applyComponent applied
  simp only [logSettings_settings]
  by_cases h : a = c.1
  · subst h
    cases hx : sv.settings.get? c.1 with
    | none => simp [PyDict.get?_set]
    | some x =>
      simp only
      split <;> simp [PyDict.get?_set, *]
  · cases hx : sv.settings.get? c.1 with
    | none => simp [PyDict.get?_set, h]
    | some x =>
      simp only
      split <;> simp [PyDict.get?_set, h]

theorem applyAll_settings (cfg : Cfg) (s : I) (md : PyDict A V) (sv : Server T I A V) (hn : md.keys.Nodup)
    (a : A) : (md.foldl (applyComponent cfg s) sv).settings.get? a =
      match PyDict.get? md a with
      | none => sv.settings.get? a
      | some v => some (applied s v (sv.settings.get? a)) := by
  induction md generalizing sv with
  | nil => rfl
  | cons c md ih =>
    have hn' : (c.1 :: PyDict.keys md).Nodup := hn
    rw [List.nodup_cons] at hn'
    rw [List.foldl_cons, ih _ hn'.2, applyComponent_get?, PyDict.get?_cons]
    by_cases h : c.1 = a
    · subst h
      have : PyDict.get? md c.1 = none := PyDict.get?_eq_none.2 hn'.1
      simp [this]
    · simp [h, Ne.symm h]

theorem applyAll_slog (cfg : Cfg) (s : I) (md : PyDict A V) (sv : Server T I A V) :
    (md.foldl (applyComponent cfg s) sv).slog =
      appendAll cfg.settingsLimit cfg.queueSize sv.slog (md.map (initialEvent s)) := by
  induction md generalizing sv with
  | nil => rfl
  | cons c md ih => rw [List.foldl_cons, ih]; rfl

theorem applyAll_owned (cfg : Cfg) (s : I) (md : PyDict A V) (sv : Server T I A V) :
    (md.foldl (applyComponent cfg s) sv).owned = sv.owned := by
  induction md generalizing sv with
  | nil => rfl
  | cons c md ih => rw [List.foldl_cons, ih]; rfl

theorem mem_addKeys (md : PyDict A V) (acc : PySet A) (a : A) :
    a ∈ md.foldl (fun acc c => PySet.add acc c.1) acc ↔ a ∈ acc ∨ (PyDict.get? md a).isSome := by
  induction md generalizing acc with
  | nil => simp [PyDict.get?_nil]
  | cons c md ih =>
    rw [List.foldl_cons, ih, PySet.mem_add, PyDict.get?_cons]
    by_cases h : c.1 = a
    · simp [h]
    · simp [h, Ne.symm h]

/-- What becomes of a setting reported by a process when the process is gone: the initial value of the
session, if there is one. -/
def restored (sv : Server T I A V) (a : A) (x : SettingsState I V) : Option (I × V) :=
  match x.metadataSession with
  | none => none
  | some s => (initialSettings sv s a).map (fun v => (s, v))

def restoredState (sv : Server T I A V) (a : A) (x : SettingsState I V) : Option (SettingsState I V) :=
  (restored sv a x).map (fun y => { x with value := y.2, sourceProcess := none })

/-- The event of restoring the setting `a`. -/
def restoreEvent (sv : Server T I A V) (a : A) : Option (SettingsEvent I A V) :=
  ((sv.settings.get? a).bind (restored sv a)).map (fun y =>
    { kind := .updated, address := a, value := y.2, session := some y.1, process := none })

theorem restoreSetting_get? (cfg : Cfg) (sv : Server T I A V) (b a : A) :
    (restoreSetting cfg sv b).settings.get? a =
      if a = b then (sv.settings.get? a).bind (restoredState sv a) else sv.settings.get? a := by
  unfold restoreSetting
  cases hb : sv.settings.get? b with
  | none => by_cases h : a = b <;> simp [h, hb]
  | some x =>
    simp only
    cases hm : x.metadataSession with
    | none =>
      simp only [PyDict.get?_pop]
      by_cases h : a = b
      · subst h; simp [hb, restoredState, restored, hm]
      · simp [h]
    | some s =>
      simp only
      cases hi : initialSettings sv s b with
      | none =>
        simp only [PyDict.get?_pop]
        by_cases h : a = b
        · subst h; simp [hb, restoredState, restored, hm, hi]
        · simp [h]
      | some v =>
        simp only [logSettings_settings, PyDict.get?_set]
        by_cases h : a = b
        · subst h; simp [hb, restoredState, restored, hm, hi]
        · simp [h]

theorem restoreSetting_slog (cfg : Cfg) (sv : Server T I A V) (b : A) :
    (restoreSetting cfg sv b).slog =
      appendAll cfg.settingsLimit cfg.queueSize sv.slog (restoreEvent sv b).toList := by
  unfold restoreSetting restoreEvent restored
  cases hb : sv.settings.get? b with
  | none => rfl
  | some x =>
    simp only
    cases hm : x.metadataSession with
    | none => simp [appendAll, hm]
    | some s =>
      simp only
      cases hi : initialSettings sv s b with
      | none => simp [appendAll, hm, hi]
      | some v => simp [appendAll, hm, hi]

theorem initialSettings_congr {a b : Server T I A V} (h : b.clients = a.clients) (s : I) (c : A) :
    initialSettings b s c = initialSettings a s c := by
  unfold initialSettings sessionInfo; rw [h]

theorem restored_congr {a b : Server T I A V} (h : b.clients = a.clients) (c : A) (x : SettingsState I V) :
    restored b c x = restored a c x := by
  unfold restored
  cases x.metadataSession with
  | none => rfl
  | some s => simp only [initialSettings_congr h]

theorem restoreAll (cfg : Cfg) (l : List A) (sv : Server T I A V) (hn : l.Nodup) :
    (∀ a, (l.foldl (restoreSetting cfg) sv).settings.get? a =
      if a ∈ l then (sv.settings.get? a).bind (restoredState sv a) else sv.settings.get? a) ∧
    (l.foldl (restoreSetting cfg) sv).slog =
      appendAll cfg.settingsLimit cfg.queueSize sv.slog (l.filterMap (restoreEvent sv)) ∧
    (l.foldl (restoreSetting cfg) sv).owned = sv.owned := by
  induction l generalizing sv with
  | nil => exact ⟨fun a => by simp, rfl, rfl⟩
  | cons b l ih =>
    rw [List.nodup_cons] at hn
    obtain ⟨h1, h2, h3⟩ := ih (restoreSetting cfg sv b) hn.2
    have hcl : (restoreSetting cfg sv b).clients = sv.clients := (restoreSetting_same cfg sv b).clients
    refine ⟨?_, ?_, ?_⟩
    · intro a
      rw [List.foldl_cons, h1, restoreSetting_get?]
      have hr : restoredState (restoreSetting cfg sv b) a = restoredState sv a := by
        funext x; unfold restoredState; rw [restored_congr hcl]
      rw [hr]
      by_cases ha : a = b
      · subst ha; simp [hn.1]
      · simp [ha]
    · rw [List.foldl_cons, h2, restoreSetting_slog]
      have : l.filterMap (restoreEvent (restoreSetting cfg sv b)) = l.filterMap (restoreEvent sv) := by
        have hc : ∀ a ∈ l, restoreEvent (restoreSetting cfg sv b) a = restoreEvent sv a := by
          intro a ha
          have hab : a ≠ b := by rintro rfl; exact hn.1 ha
          have hr : restored (restoreSetting cfg sv b) a = restored sv a := by
            funext x; exact restored_congr hcl a x
          unfold restoreEvent
          rw [restoreSetting_get?, if_neg hab, hr]
        clear h1 h2 h3 ih hn
        induction l with
        | nil => rfl
        | cons c l ih =>
          rw [List.filterMap_cons, List.filterMap_cons, hc c (by simp),
            ih (fun a ha => hc a (by simp [ha]))]
      rw [this, List.filterMap_cons]
      unfold appendAll
      cases restoreEvent sv b <;> simp
    · rw [List.foldl_cons, h3]
      unfold restoreSetting
      split
      · rfl
      · split
        · rfl
        · split <;> rfl

/-- The addresses whose setting was reported by `p`. -/
def reportedBy (sv : Server T I A V) (p : I) : List A :=
  (sv.settings.filter (fun x => decide (x.2.sourceProcess = some p))).map (·.1)

/-- The settings events of a step. -/
def settingsEvents (sv : Server T I A V) : Act T I A V → List (SettingsEvent I A V)
  | .sessionRegister s md => if collides sv s md then [] else md.map (initialEvent s)
  | .updateSettings p a v => match processInfo sv p with
    | some us => if a ∈ us then
        let ms := match sessionOwner sv a with
          | some s => some s
          | none => match sv.settings.get? a with
            | some x => x.metadataSession
            | none => none
        [{ kind := .updated, address := a, value := v, session := ms, process := some p }]
      else []
    | none => []
  | .processGone p => (reportedBy sv p).filterMap (restoreEvent sv)
  | _ => []

/-- What a step does to the settings log. -/
def slogOps (sv : Server T I A V) : Act T I A V → List (LogOp I (SettingsEvent I A V))
  | .watchSettings i n => [.subscribe i n]
  | .sendSettings i => [.send i]
  | .unwatchSettings i => [.unsubscribe i]
  | a => (settingsEvents sv a).map .append

/-- The topology event of a step. -/
def topologyEvents (sv : Server T I A V) : Act T I A V → List (TopologyEvent T I)
  | .connect a b => if (sv.graph.addEdge a b none).2 = .returned true then [.graphChanged [b] none] else []
  | .sessionConnect s a b =>
    if (sv.graph.addEdge a b (some s)).2 = .returned true then [.graphChanged [b] (some s)] else []
  | .disconnect a b => if (sv.graph.removeEdge a b none).2 then [.graphChanged [b] none] else []
  | .sessionDisconnect s a b =>
    if (sv.graph.removeEdge a b (some s)).2 then [.graphChanged [b] (some s)] else []
  | .sessionClear s => match sessionInfo sv s with
    | some (es, _) => if (dropEdges s es sv []).2.isEmpty then []
      else [.graphChanged (dropEdges s es sv []).2 (some s)]
    | none => []
  | .sessionGone s => match sessionInfo sv s with
    | some (es, _) => if (dropEdges s es sv []).2.isEmpty then []
      else [.graphChanged (dropEdges s es sv []).2 (some s)]
    | none => []
  | .registerProcess p units => match processInfo sv p with
    | some old => if (conflicts sv p units).isEmpty then
        (if sameSet old (units.foldl PySet.add []) then [] else [.processChanged p]) else []
    | none => []
  | .updateOwnership p added removed => match processInfo sv p with
    | some old => if (conflicts sv p added).isEmpty then
        (if sameSet old (removed.foldl PySet.discard (added.foldl PySet.add old)) then []
          else [.processChanged p]) else []
    | none => []
  | .processGone p => [.processChanged p]
  | _ => []

/-- What a step does to the topology log. -/
def tlogOps (sv : Server T I A V) : Act T I A V → List (LogOp I (TopologyEvent T I))
  | .watchTopology i n => [.subscribe i n]
  | .sendTopology i => [.send i]
  | .unwatchTopology i => [.unsubscribe i]
  | a => (topologyEvents sv a).map .append

/-- The setting `a` after a step. -/
def settingAfter (sv : Server T I A V) (a : A) : Act T I A V → Option (SettingsState I V)
  | .sessionClear s => (removeSessionSettings sv s).settings.get? a
  | .sessionGone s => (removeSessionSettings sv s).settings.get? a
  | .sessionRegister s md =>
    if collides sv s md then sv.settings.get? a
    else match PyDict.get? md a with
      | none => (removeSessionSettings sv s).settings.get? a
      | some v => some (applied s v ((removeSessionSettings sv s).settings.get? a))
  | .updateSettings p b v => match processInfo sv p with
    | some us => if a = b ∧ b ∈ us then
        some { value := v
               metadataSession := match sessionOwner sv b with
                | some s => some s
                | none => match sv.settings.get? b with
                  | some x => x.metadataSession
                  | none => none
               sourceProcess := some p }
      else sv.settings.get? a
    | none => sv.settings.get? a
  | .processGone p =>
    if a ∈ reportedBy sv p then (sv.settings.get? a).bind (restoredState sv a) else sv.settings.get? a
  | _ => sv.settings.get? a

/-- The components of session `s` after a step. -/
def ownedAfter (sv : Server T I A V) (s : I) : Act T I A V → Option (PySet A)
  | .sessionClear s' => if s = s' then none else sv.owned.get? s
  | .sessionGone s' => if s = s' then none else sv.owned.get? s
  | .sessionRegister s' md =>
    if s = s' ∧ collides sv s' md = false then some (md.foldl (fun acc c => PySet.add acc c.1) [])
    else sv.owned.get? s
  | _ => sv.owned.get? s

theorem connect_logs (cfg : Cfg) (sv : Server T I A V) (a b : T) (o : Option I) :
    (connect cfg sv a b o).1.settings = sv.settings ∧ (connect cfg sv a b o).1.owned = sv.owned ∧
    (connect cfg sv a b o).1.slog = sv.slog ∧
    (connect cfg sv a b o).1.tlog = appendAll cfg.topologyLimit cfg.queueSize sv.tlog
      (if (sv.graph.addEdge a b o).2 = .returned true then [.graphChanged [b] o] else []) := by
  have h := connectOwner_same sv a b o
  rw [connect_eq]
  split <;> rename_i hc <;> simp [hc, h.settings, h.owned, h.slog, h.tlog, appendAll]

theorem disconnect_logs (cfg : Cfg) (sv : Server T I A V) (a b : T) (o : Option I) :
    (disconnect cfg sv a b o).1.settings = sv.settings ∧ (disconnect cfg sv a b o).1.owned = sv.owned ∧
    (disconnect cfg sv a b o).1.slog = sv.slog ∧
    (disconnect cfg sv a b o).1.tlog = appendAll cfg.topologyLimit cfg.queueSize sv.tlog
      (if (sv.graph.removeEdge a b o).2 then [.graphChanged [b] o] else []) := by
  have h := disconnectOwner_same sv a b o
  rw [disconnect_eq]
  cases hc : (sv.graph.removeEdge a b o).2 <;> simp [hc, h.settings, h.owned, h.slog, h.tlog, appendAll]

theorem setUnits_logs (cfg : Cfg) (sv : Server T I A V) (p : I) (old new : PySet A) :
    (setUnits cfg sv p old new).settings = sv.settings ∧ (setUnits cfg sv p old new).owned = sv.owned ∧
    (setUnits cfg sv p old new).slog = sv.slog ∧
    (setUnits cfg sv p old new).tlog = appendAll cfg.topologyLimit cfg.queueSize sv.tlog
      (if sameSet old new then [] else [.processChanged p]) := by
  unfold setUnits
  simp only
  cases hc : sameSet old new <;> simp [hc, appendAll]

theorem execAll_append {E : Type} (limit n : Int) (l : EventLog I E) (es : List E) :
    (es.map LogOp.append).foldl (LogOp.exec limit n) l = appendAll limit n l es := by
  unfold appendAll
  rw [List.foldl_map]
  rfl

theorem reportedBy_nodup {sv : Server T I A V} (h : sv.settings.keys.Nodup) (p : I) :
    (reportedBy sv p).Nodup := by
  unfold reportedBy
  exact List.Nodup.sublist (List.Sublist.map _ List.filter_sublist) h

theorem mem_reportedBy {sv : Server T I A V} (h : sv.settings.keys.Nodup) (p : I) (a : A) :
    a ∈ reportedBy sv p ↔ ∃ x, sv.settings.get? a = some x ∧ x.sourceProcess = some p := by
  unfold reportedBy
  simp only [List.mem_map, List.mem_filter, decide_eq_true_eq]
  constructor
  · rintro ⟨⟨b, x⟩, ⟨h1, h2⟩, rfl⟩
    exact ⟨x, PyDict.get?_of_mem h h1, h2⟩
  · rintro ⟨x, h1, h2⟩
    exact ⟨(a, x), ⟨PyDict.mem_of_get? h1, h2⟩, rfl⟩

theorem releaseAll_nodup (s : I) (l : List A) (st : PyDict A (SettingsState I V)) (h : st.keys.Nodup) :
    (l.foldl (releaseSetting s) st).keys.Nodup := by
  induction l generalizing st with
  | nil => exact h
  | cons b l ih =>
    refine ih _ ?_
    unfold releaseSetting
    split
    · exact h
    · split
      · exact h
      · split
        · exact PyDict.nodup_pop h
        · rw [PyDict.keys_modify]; exact h

theorem applyAll_nodup (cfg : Cfg) (s : I) (md : List (A × V)) (sv : Server T I A V) (h : sv.settings.keys.Nodup) :
    (md.foldl (applyComponent cfg s) sv).settings.keys.Nodup := by
  induction md generalizing sv with
  | nil => exact h
  | cons c md ih =>
    refine ih _ ?_
    unfold applyComponent
    simp only [logSettings_settings]
    split
    · split <;> exact PyDict.nodup_set h
    · exact PyDict.nodup_set h

theorem restoreAll_nodup (cfg : Cfg) (l : List A) (sv : Server T I A V) (h : sv.settings.keys.Nodup) :
    (l.foldl (restoreSetting cfg) sv).settings.keys.Nodup := by
  induction l generalizing sv with
  | nil => exact h
  | cons b l ih =>
    refine ih _ ?_
    unfold restoreSetting
    split
    · exact h
    · split
      · exact PyDict.nodup_pop h
      · split
        · exact PyDict.nodup_pop h
        · exact PyDict.nodup_set h

/-- The settings table, the components of sessions and both logs after a step. -/
theorem settings_step {cfg : Cfg} {sv : Server T I A V} {act : Act T I A V} {sv' r} (hinv : EdgeInv sv)
    (hn : sv.settings.keys.Nodup) (h : step cfg sv act = some (sv', r)) :
    (∀ a, sv'.settings.get? a = settingAfter sv a act) ∧
    (∀ s, sv'.owned.get? s = ownedAfter sv s act) ∧
    sv'.slog = (slogOps sv act).foldl (LogOp.exec cfg.settingsLimit cfg.queueSize) sv.slog ∧
    sv'.tlog = (tlogOps sv act).foldl (LogOp.exec cfg.topologyLimit cfg.queueSize) sv.tlog ∧
    sv'.settings.keys.Nodup := by
  cases act with
  | subscribe j t =>
    simp only [step] at h; split at h <;> cases h; exact ⟨fun _ => rfl, fun _ => rfl, rfl, rfl, hn⟩
  | publish j t =>
    simp only [step] at h; split at h <;> cases h; exact ⟨fun _ => rfl, fun _ => rfl, rfl, rfl, hn⟩
  | channel j p =>
    simp only [step] at h; split at h; · cases h
    split at h <;> cases h <;> exact ⟨fun _ => rfl, fun _ => rfl, rfl, rfl, hn⟩
  | openSession j =>
    simp only [step] at h; split at h <;> cases h; exact ⟨fun _ => rfl, fun _ => rfl, rfl, rfl, hn⟩
  | openProcess j =>
    simp only [step] at h; split at h <;> cases h; exact ⟨fun _ => rfl, fun _ => rfl, rfl, rfl, hn⟩
  | gone j =>
    simp only [step] at h; split at h <;> cases h <;> exact ⟨fun _ => rfl, fun _ => rfl, rfl, rfl, hn⟩
  | connect x y =>
    simp only [step, Option.some.injEq] at h
    have h1 := congrArg Prod.fst h
    subst h1
    obtain ⟨e1, e2, e3, e4⟩ := connect_logs cfg sv x y none
    refine ⟨fun a => by rw [e1]; rfl, fun s => by rw [e2]; rfl, e3, ?_, by rw [e1]; exact hn⟩
    rw [e4]; exact (execAll_append _ _ _ _).symm
  | disconnect x y =>
    simp only [step, Option.some.injEq] at h
    have h1 := congrArg Prod.fst h
    subst h1
    obtain ⟨e1, e2, e3, e4⟩ := disconnect_logs cfg sv x y none
    refine ⟨fun a => by rw [e1]; rfl, fun s => by rw [e2]; rfl, e3, ?_, by rw [e1]; exact hn⟩
    rw [e4]; exact (execAll_append _ _ _ _).symm
  | sessionConnect s x y =>
    simp only [step] at h
    split at h
    · simp only [Option.some.injEq] at h
      have h1 := congrArg Prod.fst h
      subst h1
      obtain ⟨e1, e2, e3, e4⟩ := connect_logs cfg sv x y (some s)
      refine ⟨fun a => by rw [e1]; rfl, fun s => by rw [e2]; rfl, e3, ?_, by rw [e1]; exact hn⟩
      rw [e4]; exact (execAll_append _ _ _ _).symm
    · cases h
  | sessionDisconnect s x y =>
    simp only [step] at h
    split at h
    · simp only [Option.some.injEq] at h
      have h1 := congrArg Prod.fst h
      subst h1
      obtain ⟨e1, e2, e3, e4⟩ := disconnect_logs cfg sv x y (some s)
      refine ⟨fun a => by rw [e1]; rfl, fun s => by rw [e2]; rfl, e3, ?_, by rw [e1]; exact hn⟩
      rw [e4]; exact (execAll_append _ _ _ _).symm
    · cases h
  | sessionClear s =>
    simp only [step] at h
    split at h
    · rename_i x hx
      cases h
      obtain ⟨_, _, _, _, e1, e2, e3, e4, _⟩ :=
        clearSession_eq cfg sv s false (es := x.1) (md := x.2) hx hinv
      refine ⟨fun a => by simp only [startJob_settings, e1]; rfl, fun s' => ?_, ?_, ?_,
        by simp only [startJob_settings, e1]; exact releaseAll_nodup _ _ _ hn⟩
      · simp only [startJob_owned, e2, PyDict.get?_pop, ownedAfter]
      · simp only [startJob_slog, e3]; rfl
      · simp only [startJob_tlog, e4, tlogOps, topologyEvents, hx]
        split <;> rfl
    · cases h
  | sessionGone s =>
    simp only [step] at h
    split at h
    · rename_i x hx
      cases h
      obtain ⟨_, _, _, _, e1, e2, e3, e4, _⟩ :=
        clearSession_eq cfg sv s true (es := x.1) (md := x.2) hx hinv
      refine ⟨fun a => by simp only [startJob_settings, e1]; rfl, fun s' => ?_, ?_, ?_,
        by simp only [startJob_settings, e1]; exact releaseAll_nodup _ _ _ hn⟩
      · simp only [startJob_owned, e2, PyDict.get?_pop, ownedAfter]
      · simp only [startJob_slog, e3]; rfl
      · simp only [startJob_tlog, e4, tlogOps, topologyEvents, hx]
        split <;> rfl
    · cases h
  | sessionRegister s md =>
    simp only [step] at h
    split at h
    · rename_i x hx
      split at h
      · rename_i hmd
        simp only [Option.some.injEq] at h
        have h1 := congrArg Prod.fst h
        subst h1
        unfold registerSession
        simp only [hx]
        cases hc : collides sv s md with
        | true =>
          simp only [if_true]
          refine ⟨fun a => by simp [settingAfter, hc], fun s' => by simp [ownedAfter, hc], ?_, rfl, hn⟩
          simp [slogOps, settingsEvents, hc]
        | false =>
          simp only [Bool.false_eq_true, if_false]
          refine ⟨fun a => ?_, fun s' => ?_, ?_, ?_, applyAll_nodup _ _ _ _ (releaseAll_nodup _ _ _ hn)⟩
          · simp only [applyMetadata, settingAfter, hc, Bool.false_eq_true, if_false]
            rw [applyAll_settings cfg s md _ hmd a]
            rfl
          · simp only [applyMetadata, applyAll_owned, ownedAfter, hc, and_true, PyDict.get?_set]
            by_cases hs : s' = s
            · simp [hs]
            · simp [hs, setSession, removeSessionSettings, PyDict.get?_pop]
          · simp only [applyMetadata, applyAll_slog, slogOps, settingsEvents, hc, Bool.false_eq_true,
              if_false, execAll_append]
            rfl
          · rw [(applyMetadata_same cfg _ s md).tlog]; rfl
      · cases h
    · cases h
  | registerProcess p units =>
    simp only [step] at h
    split at h
    · rename_i x hx
      simp only [Option.some.injEq] at h
      have h1 := congrArg Prod.fst h
      subst h1
      unfold registerProcess
      simp only [hx]
      cases hc : (conflicts sv p units).isEmpty with
      | true =>
        obtain ⟨e1, e2, e3, e4⟩ := setUnits_logs cfg sv p x (units.foldl PySet.add [])
        refine ⟨fun a => by simp [e1, settingAfter], fun s => by simp [e2, ownedAfter],
          by simp [e3, slogOps, settingsEvents], ?_, by simp [e1, hn]⟩
        simp only [if_true, e4, tlogOps, topologyEvents, hx, hc, execAll_append]
      | false =>
        refine ⟨fun a => by simp [settingAfter], fun s => by simp [ownedAfter],
          by simp [slogOps, settingsEvents], by simp [tlogOps, topologyEvents, hx, hc], by simp [hn]⟩
    · cases h
  | updateOwnership p added removed =>
    simp only [step] at h
    split at h
    · rename_i x hx
      simp only [Option.some.injEq] at h
      have h1 := congrArg Prod.fst h
      subst h1
      unfold updateOwnership
      simp only [hx]
      cases hc : (conflicts sv p added).isEmpty with
      | true =>
        obtain ⟨e1, e2, e3, e4⟩ := setUnits_logs cfg sv p x
          (removed.foldl PySet.discard (added.foldl PySet.add x))
        refine ⟨fun a => by simp [e1, settingAfter], fun s => by simp [e2, ownedAfter],
          by simp [e3, slogOps, settingsEvents], ?_, by simp [e1, hn]⟩
        simp only [if_true, e4, tlogOps, topologyEvents, hx, hc, execAll_append]
      | false =>
        refine ⟨fun a => by simp [settingAfter], fun s => by simp [ownedAfter],
          by simp [slogOps, settingsEvents], by simp [tlogOps, topologyEvents, hx, hc], by simp [hn]⟩
    · cases h
  | updateSettings p x v =>
    simp only [step] at h
    split at h
    · rename_i us hx
      simp only [Option.some.injEq] at h
      have h1 := congrArg Prod.fst h
      subst h1
      unfold updateSettings
      simp only [hx]
      by_cases hm : x ∈ us
      · simp only [hm, not_true_eq_false, if_false]
        refine ⟨fun a => ?_, fun s => rfl, ?_, rfl, PyDict.nodup_set hn⟩
        · simp only [logSettings_settings, PyDict.get?_set, settingAfter, hx, hm, and_true]; rfl
        · simp [slogOps, settingsEvents, hx, hm, LogOp.exec]; rfl
      · simp only [hm, not_false_eq_true, if_true]
        exact ⟨fun a => by simp [settingAfter, hx, hm], fun s => rfl,
          by simp [slogOps, settingsEvents, hx, hm], rfl, hn⟩
    · cases h
  | processGone p =>
    simp only [step] at h
    split at h
    · rename_i us hus
      cases h
      have hs2 := failAll_same ((sv.pending.filter (fun x => decide (x.2 = p))).map (·.1)) sv
      have hr : reportedBy (failAll sv ((sv.pending.filter (fun x => decide (x.2 = p))).map (·.1))) p =
          reportedBy sv p := by unfold reportedBy; rw [hs2.settings]
      obtain ⟨h1, h2, h3⟩ := restoreAll cfg (reportedBy sv p)
        (failAll sv ((sv.pending.filter (fun x => decide (x.2 = p))).map (·.1))) (reportedBy_nodup hn p)
      have hg : processGone cfg sv p = _ := processGone_eq cfg sv p hus
      have hrs : ∀ a, restored (failAll sv ((sv.pending.filter (fun x => decide (x.2 = p))).map (·.1))) a =
          restored sv a := fun a => by funext x; exact restored_congr hs2.clients a x
      rw [hg]
      refine ⟨fun a => ?_, fun s => ?_, ?_, ?_, restoreAll_nodup _ _ _ (by rw [hs2.settings]; exact hn)⟩
      · simp only [logTopology_settings, removeProcessSettings]
        have := h1 a
        rw [← hr] at this
        unfold reportedBy at this
        rw [this, settingAfter]
        unfold reportedBy restoredState
        rw [hs2.settings, hrs]
      · simp only [logTopology_owned, removeProcessSettings]
        rw [← hr] at h3
        unfold reportedBy at h3
        rw [h3, hs2.owned]
        rfl
      · simp only [logTopology_slog, removeProcessSettings]
        rw [← hr] at h2
        unfold reportedBy at h2
        rw [h2, hs2.slog]
        simp only [slogOps, settingsEvents, execAll_append]
        have he : restoreEvent (failAll sv ((sv.pending.filter (fun x => decide (x.2 = p))).map (·.1))) =
            restoreEvent sv := by funext a; unfold restoreEvent; rw [hs2.settings, hrs]
        rw [he]
        unfold reportedBy
        rw [hs2.settings]
      · simp only [logTopology_tlog, (removeProcessSettings_same cfg _ p).tlog, hs2.tlog]
        rfl
    · cases h
  | request q u ok =>
    simp only [step] at h; split at h <;> cases h
    unfold route
    simp only
    split
    · exact ⟨fun _ => rfl, fun _ => rfl, rfl, rfl, hn⟩
    · split <;> exact ⟨fun _ => rfl, fun _ => rfl, rfl, rfl, hn⟩
  | response p q v =>
    simp only [step] at h; split at h <;> cases h
    unfold routeResponse
    split
    · exact ⟨fun _ => rfl, fun _ => rfl, rfl, rfl, hn⟩
    · simp only
      split <;> exact ⟨fun _ => rfl, fun _ => rfl, rfl, rfl, hn⟩
  | timeout q =>
    simp only [step] at h; split at h <;> cases h; exact ⟨fun _ => rfl, fun _ => rfl, rfl, rfl, hn⟩
  | resume q =>
    simp only [step] at h; split at h <;> cases h <;> exact ⟨fun _ => rfl, fun _ => rfl, rfl, rfl, hn⟩
  | watchSettings j n =>
    simp only [step] at h; split at h <;> cases h; exact ⟨fun _ => rfl, fun _ => rfl, rfl, rfl, hn⟩
  | watchTopology j n =>
    simp only [step] at h; split at h <;> cases h; exact ⟨fun _ => rfl, fun _ => rfl, rfl, rfl, hn⟩
  | sendSettings j => cases h; exact ⟨fun _ => rfl, fun _ => rfl, rfl, rfl, hn⟩
  | sendTopology j => cases h; exact ⟨fun _ => rfl, fun _ => rfl, rfl, rfl, hn⟩
  | unwatchSettings j => cases h; exact ⟨fun _ => rfl, fun _ => rfl, rfl, rfl, hn⟩
  | unwatchTopology j => cases h; exact ⟨fun _ => rfl, fun _ => rfl, rfl, rfl, hn⟩
  | notify j =>
    simp only [step] at h
    split at h
    · cases h
      simp only [prepareUpdate]
      split <;> exact ⟨fun _ => rfl, fun _ => rfl, rfl, rfl, hn⟩
    · cases h; exact ⟨fun _ => rfl, fun _ => rfl, rfl, rfl, hn⟩
    · cases h
  | write s j =>
    simp only [step] at h
    split at h
    · split at h <;> cases h; exact ⟨fun _ => rfl, fun _ => rfl, rfl, rfl, hn⟩
    · cases h

end Srv
end Ez
