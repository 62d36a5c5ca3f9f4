import Verif.Props.Settings

/-!
# C51: which registrations and reports are accepted, and whom the events name
-/

set_option linter.unusedSectionVars false
set_option linter.unusedSimpArgs false

namespace Ez
namespace Srv
variable {T I A V : Type} [DecidableEq T] [DecidableEq I] [DecidableEq A]

theorem collides_true {sv : Server T I A V} (hn : sv.clients.keys.Nodup) {s : I} {md : PyDict A V}
    (hmd : md.keys.Nodup) (h : collides sv s md = true) :
    ∃ a s' md', s' ≠ s ∧ mdOf sv s' = some md' ∧ (PyDict.get? md' a).isSome ∧ (PyDict.get? md a).isSome := by
  unfold collides at h
  rw [List.any_eq_true] at h
  obtain ⟨⟨i, c⟩, hc, h⟩ := h
  cases c with
  | session es m =>
    cases m with
    | none => cases h
    | some m =>
      simp only [Bool.and_eq_true, decide_eq_true_eq, List.any_eq_true] at h
      obtain ⟨hne, ⟨a, v⟩, hv, ha⟩ := h
      refine ⟨a, i, m, hne, ?_, ha, ?_⟩
      · unfold mdOf; rw [PyDict.get?_of_mem hn hc]; rfl
      · rw [PyDict.get?_of_mem hmd hv]; rfl
  | _ => cases h

/-- **C51 (registrations).** A session's metadata is refused exactly when another session has registered
one of its components; a refusal changes nothing. -/
theorem C51_registration_refused_iff {cfg : Cfg} {h : List (Act T I A V × Reply)} {sv sv' : Server T I A V}
    (hr : Run cfg h sv) {s : I} {md : PyDict A V} {r : Reply}
    (hs : step cfg sv (.sessionRegister s md) = some (sv', r)) :
    (r = .complete ∨ r = .error ∧ sv' = sv) ∧
    (r = .error ↔ ∃ a s' md', s' ≠ s ∧ metadataOf h s' = some md' ∧ (PyDict.get? md' a).isSome ∧
      (PyDict.get? md a).isSome) := by
  have hi := run_setInv hr
  simp only [Srv.step] at hs
  split at hs
  · rename_i x hx
    split at hs
    · rename_i hn0
      simp only [Option.some.injEq, registerSession, hx] at hs
      simp only [hi.mdEq]
      cases hcol : collides sv s md with
      | true =>
        rw [hcol] at hs; cases hs
        exact ⟨Or.inr ⟨rfl, rfl⟩, fun _ => collides_true (run_inv hr).1.nodup hn0 hcol, fun _ => rfl⟩
      | false =>
        rw [hcol] at hs; cases hs
        refine ⟨Or.inl rfl, (fun e => by cases e), ?_⟩
        rintro ⟨a, s', md', hne, h1, h2, h3⟩
        exact absurd (collides_false hcol h1 h2 h3) hne
    · cases hs
  · cases hs

/-- **C51 (reports).** A process's report of a component's settings is accepted exactly when the process
owns the component; a refusal changes nothing. -/
theorem C51_report_accepted_iff {cfg : Cfg} {h : List (Act T I A V × Reply)} {sv sv' : Server T I A V}
    (hr : Run cfg h sv) {p : I} {a : A} {v : V} {r : Reply}
    (hs : step cfg sv (.updateSettings p a v) = some (sv', r)) :
    (r = .complete ∨ r = .error ∧ sv' = sv) ∧ (r = .complete ↔ OwnsUnit sv p a) := by
  have hinv := (run_inv hr).1
  simp only [Srv.step] at hs
  split at hs
  · rename_i us hus
    simp only [Option.some.injEq, updateSettings, hus] at hs
    rw [ownsUnit_iff hinv.nodup, processInfo_some.1 hus]
    split at hs
    · rename_i hb
      cases hs
      refine ⟨Or.inr ⟨rfl, rfl⟩, (fun e => by cases e), ?_⟩
      rintro ⟨us', h1, h2⟩; cases h1; exact absurd h2 hb
    · rename_i hb
      cases hs
      exact ⟨Or.inl rfl, fun _ => ⟨us, rfl, Decidable.byContradiction hb⟩, fun _ => rfl⟩
  · cases hs

/-- **C51 (events).** A settings event names a session exactly when, after the step that caused the event,
that session has the component in its registered metadata. -/
theorem C51_events_name_the_session {cfg : Cfg} {h : List (Act T I A V × Reply)} {sv sv' : Server T I A V}
    {act : Act T I A V} {r : Reply} (hr : Run cfg h sv) (hs : step cfg sv act = some (sv', r)) :
    ∃ es, sv'.slog.hist = sv.slog.hist ++ es ∧ ∀ e ∈ es, ∀ s, e.session = some s ↔
      ∃ md, metadataOf (h ++ [(act, r)]) s = some md ∧ (PyDict.get? md e.address).isSome := by
  have hi := run_setInv hr
  have hi' := run_setInv (Run.step hr hs)
  obtain ⟨_, _, e3, _, _⟩ := settings_step (run_inv hr).1 hi.nodup hs
  refine ⟨settingsEvents sv act, by rw [e3, exec_hist, occurred_slogOps], ?_⟩
  intro e he s
  cases act with
  | sessionRegister t md =>
    simp only [settingsEvents] at he
    cases hcol : collides sv t md with
    | true => rw [hcol] at he; cases he
    | false =>
      rw [hcol] at he
      obtain ⟨⟨a, v⟩, hm, rfl⟩ := List.mem_map.1 he
      simp only [initialEvent]
      simp only [Srv.step] at hs
      split at hs
      · rename_i x hx
        split at hs
        · rename_i hn0
          simp only [Option.some.injEq, registerSession, hx, hcol] at hs
          cases hs
          have h1 : metadataOf (h ++ [(Act.sessionRegister t md, Reply.complete)]) t = some md := by
            rw [metadataOf_snoc]; simp
          have h2 : (PyDict.get? md a).isSome := by rw [PyDict.get?_of_mem hn0 hm]; rfl
          constructor
          · intro e; cases e; exact ⟨md, h1, h2⟩
          · rintro ⟨m, h3, h4⟩
            rw [hi'.mdEq] at h1 h3
            rw [hi'.core.uniq s t m md a h3 h1 h4 h2]
        · cases hs
      · cases hs
  | updateSettings p a v =>
    rw [metadataOf_snoc]
    simp only [settingsEvents] at he
    split at he
    · split at he
      · obtain rfl := List.mem_singleton.1 he
        simp only
        simp only [hi.mdEq]
        cases ho : sessionOwner sv a with
        | some t =>
          obtain ⟨m, hm, hg⟩ := sessionOwner_some (run_inv hr).1.nodup ho
          simp only
          constructor
          · intro e; cases e; exact ⟨m, hm, hg⟩
          · rintro ⟨m', hm', hg'⟩; rw [hi.core.uniq t s m m' a hm hm' hg hg']
        | none =>
          simp only
          constructor
          · intro e
            cases hx : sv.settings.get? a with
            | none => rw [hx] at e; cases e
            | some x => rw [hx] at e; exact (hi.core.ms a x s hx).1 e
          · rintro ⟨m, hm, hg⟩
            rw [sessionOwner_none ho s m hm] at hg; cases hg
      · cases he
    · cases he
  | processGone p =>
    rw [metadataOf_snoc]
    simp only [settingsEvents] at he
    obtain ⟨a, ha, h1⟩ := List.mem_filterMap.1 he
    unfold restoreEvent at h1
    obtain ⟨⟨t, w⟩, h2, rfl⟩ := Option.map_eq_some_iff.1 h1
    obtain ⟨x, hx, h3⟩ := Option.bind_eq_some_iff.1 h2
    have hms : x.metadataSession = some t := by
      unfold restored at h3
      cases hm : x.metadataSession with
      | none => rw [hm] at h3; cases h3
      | some t' =>
        rw [hm] at h3
        simp only [Option.bind_some] at h3
        obtain ⟨y, _, h5⟩ := Option.map_eq_some_iff.1 h3
        cases h5; rfl
    simp only [hi.mdEq]
    rw [← (hi.core.ms a x s hx), hms]
  | _ => cases he

/-- Session 6 is refused component 10 while session 5 has it; a report by process 1, which does not own 11, is
refused; the accepted report's event names session 5. -/
example :
    (exec (T := Nat) (I := Nat) (A := Nat) (V := Nat)
      { settingsLimit := 10, topologyLimit := 10, queueSize := 4 }
      [.openSession 5, .openSession 6, .sessionRegister 5 [(10, 1)], .sessionRegister 6 [(11, 2), (10, 3)],
        .openProcess 1, .registerProcess 1 [10], .updateSettings 1 11 7, .updateSettings 1 10 8]).map
      (fun x => (x.1.map (·.2), x.2.slog.hist.map (fun e => (e.address, e.value, e.session)))) =
    some ([.complete, .complete, .complete, .error, .complete, .complete, .error, .complete],
      [(10, 1, some 5), (10, 8, some 5)]) := by
  srv_eval

end Srv
end Ez
