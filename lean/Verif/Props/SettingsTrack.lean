import Verif.Model.SettingsTrack

/-!
# C58: the settings a process tracks for a unit

Patches are applied to the tracked settings, so these should be the ones the unit has.
-/

set_option linter.unusedSectionVars false
set_option linter.unusedSimpArgs false

namespace Ez
namespace Track
variable {V : Type}

theorem run_append (as bs : List (Act V)) (s : St V) :
    run (as ++ bs) s = (run as s).bind (run bs) := by
  induction as generalizing s with
  | nil => rfl
  | cons a as ih =>
    simp only [List.cons_append, run]
    cases step a s with
    | none => rfl
    | some s' => exact ih s'

/-- An invariant of all steps from states where `G` allows the action holds after every run of such steps. -/
theorem run_invariant {I : List (Act V) → St V → Prop} {G : Act V → St V → Prop} {s0 : St V} (h0 : I [] s0)
    (hstep : ∀ as a s s', I as s → G a s → step a s = some s' → I (as ++ [a]) s')
    (as : List (Act V)) {s : St V} (hr : run as s0 = some s)
    (hG : ∀ pre a post t, as = pre ++ a :: post → run pre s0 = some t → G a t) : I as s := by
  have key : ∀ (bs cs : List (Act V)) (t : St V), as = cs ++ bs → run cs s0 = some t → I cs t → run bs t = some s →
      I as s := by
    intro bs
    induction bs with
    | nil => intro cs t he _ hi hb; cases hb; simpa [he] using hi
    | cons b bs ih =>
      intro cs t he hc hi hb
      simp only [run] at hb
      cases hs : step b t with
      | none => simp [hs] at hb
      | some t' =>
        simp only [hs] at hb
        refine ih (cs ++ [b]) t' (by simp [he]) ?_ (hstep _ _ _ _ hi (hG cs b bs t he hc) hs) hb
        rw [run_append, hc]; simp [run, hs]
  exact key as [] s0 (by simp) rfl h0 hr

/-- C58: the graph server is told exactly what the unit was given, in order. -/
theorem C58_reports_exact (as : List (Act V)) (v0 : V) (s : St V) (hr : run as (init v0) = some s) :
    s.reported = s.given := by
  refine run_invariant (I := fun _ s => s.reported = s.given) (G := fun _ _ => True) rfl ?_ as hr (fun _ _ _ _ _ _ => trivial)
  intro _ a s s' hi _ hs
  cases a <;> simp only [step] at hs
  · cases hs; exact hi
  · split at hs
    · split at hs <;> cases hs <;> exact hi
    · cases hs
  · split at hs <;> cases hs; exact hi
  · split at hs <;> cases hs; exact hi
  · split at hs <;> cases hs
    simp [hi]

/-- Specification: the requests made. -/
def requests : List (Act V) → Nat
  | [] => 0
  | .request _ :: as => requests as + 1
  | _ :: as => requests as

theorem requests_append (as bs : List (Act V)) : requests (as ++ bs) = requests as + requests bs := by
  induction as with
  | nil => simp [requests]
  | cons a as ih => cases a <;> simp [requests, ih]; omega

/-- Specification: settings sent for the request under way. -/
def underway (s : St V) : List V := match s.handler with | .sent p => [p] | _ => []

/-- C58: every request gets one reply, the one under way excepted, and the settings told in the successful replies were all
put before the unit, in that order: they are among the messages it was given or that wait for it. -/
theorem C58_replies (as : List (Act V)) (v0 : V) (s : St V) (hr : run as (init v0) = some s) :
    (s.replies.length + (match s.handler with | .idle => 0 | _ => 1) = requests as) ∧
    (s.replies.filterMap id ++ underway s).Sublist (s.given ++ s.queue) := by
  refine run_invariant (I := fun as s => (s.replies.length + (match s.handler with | .idle => 0 | _ => 1) = requests as) ∧
    (s.replies.filterMap id ++ underway s).Sublist (s.given ++ s.queue)) (G := fun _ _ => True) ?_ ?_ as hr
    (fun _ _ _ _ _ _ => trivial)
  · simp [init, requests, underway]
  · intro as a s s' ⟨h1, h2⟩ _ hs
    cases a <;> simp only [step] at hs <;> rw [requests_append]
    · cases hs
      refine ⟨by simpa [requests] using h1, ?_⟩
      rename_i w
      have h3 : (s.given ++ s.queue).Sublist (s.given ++ (s.queue ++ [w])) := by
        rw [← List.append_assoc]; exact List.sublist_append_left _ _
      exact h2.trans h3
    · split at hs
      · rename_i hidle
        rw [hidle] at h1
        have hu : underway s = [] := by simp [underway, hidle]
        rw [hu] at h2
        split at hs <;> cases hs
        · refine ⟨by simp [requests, hidle] at h1 ⊢; omega, ?_⟩
          simpa [underway, hidle] using h2
        · refine ⟨by simp [requests] at h1 ⊢; omega, ?_⟩
          simpa [underway] using h2
      · cases hs
    · split at hs <;> cases hs
      rename_i p hp
      rw [hp] at h1
      refine ⟨by simpa [requests] using h1, ?_⟩
      have hu : underway s = [] := by simp [underway, hp]
      rw [hu, List.append_nil] at h2
      simp only [underway, ← List.append_assoc]
      exact List.Sublist.append h2 (List.Sublist.refl _)
    · split at hs <;> cases hs
      rename_i p hp
      rw [hp] at h1
      refine ⟨by simpa [requests] using h1, ?_⟩
      simpa [underway, hp, List.filterMap_append] using h2
    · split at hs <;> cases hs
      rename_i m q hq
      refine ⟨by simpa [requests] using h1, ?_⟩
      simpa [underway, hq] using h2

/-- All waiting messages can be received, in order, whatever the handler is doing. -/
theorem run_receive (q : List V) (s : St V) (hq : s.queue = q) :
    ∃ s', run (List.replicate q.length .receive) s = some s' ∧ s'.queue = [] ∧ s'.given = s.given ++ q ∧
      s'.handler = s.handler ∧ s'.replies = s.replies := by
  induction q generalizing s with
  | nil => exact ⟨s, rfl, hq, by simp, rfl, rfl⟩
  | cons m q ih =>
    obtain ⟨s', h1, h2, h3, h4, h5⟩ := ih
      { s with queue := q, current := m, reported := s.reported ++ [m], given := s.given ++ [m] } rfl
    exact ⟨s', by simpa [List.replicate_succ, run, step, hq] using h1, h2, by simpa using h3, h4, h5⟩

/-- C58: nothing gets stuck. Wherever a run has got to, the request under way can be finished and all waiting messages be
received, after which every request has its reply, the unit was given every message, the settings of the request under way
among them, and the next request, whatever it asks for, is taken. A settings message of another publisher can always arrive. -/
theorem C58_goes_on (as : List (Act V)) (v0 : V) (s : St V) (hr : run as (init v0) = some s) :
    (∃ more s', (∀ a ∈ more, a = .send ∨ a = .finish ∨ a = .receive) ∧ run (as ++ more) (init v0) = some s' ∧
      s'.replies.length = requests as ∧ s'.queue = [] ∧
      s'.given = s.given ++ s.queue ++ (match s.handler with | .sending p => [p] | _ => []) ∧
      ∀ f, ∃ s'', run (as ++ more ++ [.request f]) (init v0) = some s'') ∧
    ∀ v, ∃ s', run (as ++ [.external v]) (init v0) = some s' ∧ s'.queue = s.queue ++ [v] := by
  refine ⟨?_, fun v => ⟨_, by rw [run_append, hr]; rfl, rfl⟩⟩
  have key : ∃ more s1, (∀ a ∈ more, a = .send ∨ a = .finish ∨ a = .receive) ∧ run more s = some s1 ∧ s1.handler = .idle ∧
      s1.given = s.given ∧ s1.queue = s.queue ++ (match s.handler with | .sending p => [p] | _ => []) ∧
      requests more = 0 := by
    cases hh : s.handler with
    | idle => exact ⟨[], s, by simp, rfl, hh, rfl, by simp, rfl⟩
    | sending p => exact ⟨[.send, .finish],
        { s with handler := .idle, current := p, queue := s.queue ++ [p], replies := s.replies ++ [some p] }, by simp,
        by simp [run, step, hh], rfl, rfl, rfl, rfl⟩
    | sent p => exact ⟨[.finish], { s with handler := .idle, current := p, replies := s.replies ++ [some p] }, by simp,
        by simp [run, step, hh], rfl, rfl, by simp, rfl⟩
  obtain ⟨m1, s1, ha1, hr1, hi1, hg1, hq1, hn1⟩ := key
  obtain ⟨s2, hr2, hq2, hg2, hh2, hp2⟩ := run_receive s1.queue s1 rfl
  have hrun : run (as ++ (m1 ++ List.replicate s1.queue.length .receive)) (init v0) = some s2 := by
    simp [run_append, hr, hr1, hr2]
  have hrep : requests (List.replicate s1.queue.length (.receive : Act V)) = 0 := by
    generalize s1.queue.length = n
    induction n with
    | zero => rfl
    | succ n ih => simpa [List.replicate_succ, requests] using ih
  refine ⟨m1 ++ List.replicate s1.queue.length .receive, s2, ?_, hrun, ?_, hq2, by rw [hg2, hg1, hq1, List.append_assoc], ?_⟩
  · intro a ha
    rcases List.mem_append.1 ha with ha | ha
    · exact ha1 a ha
    · exact Or.inr (Or.inr (List.eq_of_mem_replicate ha))
  · have := (C58_replies _ v0 s2 hrun).1
    rw [hh2, hi1] at this
    simpa [requests_append, hn1, hrep] using this
  · intro f
    rw [run_append, hrun]
    simp only [Option.bind_some, run, step, hh2, hi1]
    cases f s2.current <;> exact ⟨_, rfl⟩

/-- A patch under way, with a message of another publisher waiting: the unit gets both and the request its reply. -/
example : ∃ s : St Nat, run [.external 7, .request (fun v => some (v + 1))] (init 3) = some s ∧ s.handler = .sending 4 ∧
    ∃ s', run [.send, .finish, .receive, .receive] s = some s' ∧ s'.given = [7, 4] ∧ s'.replies = [some 4] :=
  ⟨_, rfl, rfl, _, rfl, rfl, rfl⟩

/-- No message of another publisher enters the queue between the moment a patch is sent and the moment it is recorded. -/
def Quiet : Act V → St V → Prop
  | .external _, s => ∀ p, s.handler ≠ .sent p
  | _, _ => True

/-- C58 (partial): if no other settings message arrives between a patch being sent and being recorded, then whenever
no message is waiting the tracked settings are the last ones the unit was given. Missing: runs in which one does, see `C58_negation_stale`. -/
theorem C58_tracked_partial (as : List (Act V)) (v0 : V) (s : St V) (hr : run as (init v0) = some s)
    (hq : ∀ pre a post t, as = pre ++ a :: post → run pre (init v0) = some t → Quiet a t)
    (hqueue : s.queue = []) : s.current = unitSettings v0 s := by
  have key : (s.queue = [] → s.current = unitSettings v0 s) ∧
      ∀ p, s.handler = .sent p → (s.queue = [] → unitSettings v0 s = p) ∧ (s.queue ≠ [] → s.queue.getLast? = some p) := by
    refine run_invariant (I := fun _ s => (s.queue = [] → s.current = unitSettings v0 s) ∧
      ∀ p, s.handler = .sent p → (s.queue = [] → unitSettings v0 s = p) ∧ (s.queue ≠ [] → s.queue.getLast? = some p))
      (G := Quiet) ?_ ?_ as hr hq
    · simp [init, unitSettings]
    · intro _ a s s' ⟨h1, h2⟩ hG hs
      cases a <;> simp only [step] at hs
      · cases hs
        refine ⟨by simp, ?_⟩
        intro p hp
        exact absurd hp (hG p)
      · split at hs
        · rename_i hidle
          split at hs <;> cases hs
          · exact ⟨h1, by simp [hidle]⟩
          · exact ⟨h1, by simp⟩
        · cases hs
      · split at hs <;> cases hs
        simp
      · split at hs <;> cases hs
        rename_i p hp
        refine ⟨?_, by simp⟩
        intro hq
        exact ((h2 p hp).1 hq).symm
      · split at hs <;> cases hs
        rename_i m q hq
        refine ⟨by simp [unitSettings], ?_⟩
        intro p hp
        have := (h2 p hp).2 (by simp [hq])
        rw [hq] at this
        refine ⟨?_, ?_⟩
        · intro hq'; simp only at hq'; subst hq'; simpa [unitSettings] using this
        · intro hq'; simp only at hq' ⊢; rwa [List.getLast?_cons_of_ne_nil hq'] at this
  exact key.1 hqueue

/-- Specification: what the settings should be when everything was processed: messages replace them, patches change them. -/
def expected (v : V) : List (Act V) → V
  | [] => v
  | .external w :: as => expected w as
  | .request f :: as => expected ((f v).getD v) as
  | _ :: as => expected v as

theorem expected_append (v : V) (as bs : List (Act V)) : expected v (as ++ bs) = expected (expected v as) bs := by
  induction as generalizing v with
  | nil => rfl
  | cons a as ih => cases a <;> simp [expected, ih]

/-- Requests come when all messages were received, and messages of other publishers when no request is under way. -/
def Calm : Act V → St V → Prop
  | .request _, s => s.queue = []
  | .external _, s => s.handler = .idle
  | _, _ => True

/-- C58 (partial): if requests come only when all messages were received, and messages of other publishers only when no
request is under way, then at rest the unit has, and the process tracks, the result of applying all messages and patches in
order. Missing: other runs, see `C58_negation_lost`. -/
theorem C58_patches_apply_partial (as : List (Act V)) (v0 : V) (s : St V) (hr : run as (init v0) = some s)
    (hq : ∀ pre a post t, as = pre ++ a :: post → run pre (init v0) = some t → Calm a t)
    (hqueue : s.queue = []) (hidle : s.handler = .idle) :
    unitSettings v0 s = expected v0 as ∧ s.current = expected v0 as := by
  have key : (match s.handler with
      | .idle => (s.queue.getLast?.getD (unitSettings v0 s) = expected v0 as) ∧
          (s.queue = [] → s.current = unitSettings v0 s)
      | .sending p => s.queue = [] ∧ p = expected v0 as
      | .sent p => p = expected v0 as ∧ (s.queue = [p] ∨ s.queue = [] ∧ unitSettings v0 s = p)) := by
    refine run_invariant (I := fun as s => (match s.handler with
      | .idle => (s.queue.getLast?.getD (unitSettings v0 s) = expected v0 as) ∧
          (s.queue = [] → s.current = unitSettings v0 s)
      | .sending p => s.queue = [] ∧ p = expected v0 as
      | .sent p => p = expected v0 as ∧ (s.queue = [p] ∨ s.queue = [] ∧ unitSettings v0 s = p)))
      (G := Calm) ?_ ?_ as hr hq
    · simp [init, unitSettings, expected]
    · intro as a s s' h hG hs
      cases a <;> simp only [step] at hs <;> simp only [expected_append, expected]
      · cases hs
        simp only [Calm] at hG
        simp [hG]
      · simp only [Calm] at hG
        split at hs
        · rename_i hidle
          simp only [hidle, hG, List.getLast?_nil, Option.getD_none, forall_const] at h
          split at hs <;> cases hs <;> rename_i hf
          · rw [← h.1, ← h.2, hf]
            simp [hidle, hG, h.2]
            exact ⟨rfl, rfl⟩
          · rw [← h.1, ← h.2, hf]
            simp [hG]
        · cases hs
      · split at hs <;> cases hs
        rename_i p hp
        simp only [hp] at h
        simp [h.1, h.2]
      · split at hs <;> cases hs
        rename_i p hp
        simp only [hp] at h
        obtain ⟨h1, h2 | ⟨h2, h3⟩⟩ := h
        · simp [h2, h1]
        · simp [h2]
          exact ⟨h3.trans h1, h3.symm⟩
      · split at hs <;> cases hs
        rename_i m q hq
        cases hh : s.handler with
        | idle =>
          simp only [hh, hq] at h ⊢
          refine ⟨?_, by simp [unitSettings]⟩
          rw [← h.1]
          cases q with
          | nil => simp [unitSettings]
          | cons x q => simp [unitSettings, List.getLast?_cons_cons]; rfl
        | sending p => simp only [hh, hq] at h; simp at h
        | sent p =>
          simp only [hh, hq] at h ⊢
          obtain ⟨h1, h2 | ⟨h2, h3⟩⟩ := h
          · cases h2
            exact ⟨h1, Or.inr ⟨rfl, by simp [unitSettings]⟩⟩
          · cases h2
  simp only [hidle, hqueue, List.getLast?_nil, Option.getD_none, forall_const] at key
  exact ⟨key.1, key.2.trans key.1⟩

namespace TrackExample

/-- Settings with two fields; a request to set the second one. -/
def setSecond (n : Nat) : Act (Nat × Nat) := .request (fun v => some (v.1, n))

/-- Meets the hypotheses of `C58_tracked_partial` and `C58_patches_apply_partial`: a message, a patch received before it is
recorded, a second patch received after, a refused request. -/
def good : List (Act (Nat × Nat)) :=
  [.external (1, 1), .receive, setSecond 7, .send, .receive, .finish, setSecond 8, .send, .finish, .receive,
   .request (fun _ => none)]

example : ∃ s, run good (init (0, 0)) = some s ∧ s.queue = [] ∧ s.handler = .idle ∧ s.current = (1, 8) ∧
    unitSettings (0, 0) s = (1, 8) ∧ expected (0, 0) good = (1, 8) ∧ s.reported = [(1, 1), (1, 7), (1, 8)] ∧
    s.replies = [some (1, 7), some (1, 8), none] :=
  ⟨_, rfl, rfl, rfl, rfl, rfl, rfl, rfl, rfl⟩

example : ∀ pre a post t, good = pre ++ a :: post → run pre (init (0, 0)) = some t → Quiet a t ∧ Calm a t := by
  intro pre a post t hg hr
  have hlen : pre.length < 11 := by
    have := congrArg List.length hg
    simp [good] at this; omega
  have hpre : pre = good.take pre.length := by rw [hg]; simp
  have ha : some a = good[pre.length]? := by rw [hg]; simp
  rw [hpre] at hr
  generalize pre.length = n at *
  match n, hlen with
  | 0, _ | 1, _ | 2, _ | 3, _ | 4, _ | 5, _ | 6, _ | 7, _ | 8, _ | 9, _ | 10, _ =>
    simp [good, setSecond, run, step, init] at ha hr
    subst ha; subst hr
    simp [Quiet, Calm]

/-- C58 fails: a patch is sent and received, another publisher's settings follow and are received as well, and only then
`broadcast` returns to the handler, which records the patch over them. The unit has `(5, 5)`, the graph server was told so,
the process tracks `(0, 7)`; the next patch of the second field silently resets the first. -/
theorem C58_negation_stale : ∃ s s', run [setSecond 7, .send, .external (5, 5), .receive, .receive, .finish] (init (0, 0)) =
      some s ∧ s.queue = [] ∧ s.handler = .idle ∧ unitSettings (0, 0) s = (5, 5) ∧ s.reported.getLast? = some (5, 5) ∧
      s.current = (0, 7) ∧
    run [setSecond 9, .send, .finish, .receive] s = some s' ∧ unitSettings (0, 0) s' = (0, 9) :=
  ⟨_, _, rfl, rfl, rfl, rfl, rfl, rfl, rfl, rfl⟩

/-- C58 fails also when the tracked settings are right: a patch computed while another publisher's settings are waiting in
the queue is received after them and undoes them. -/
theorem C58_negation_lost : ∃ s, run [.external (5, 5), setSecond 7, .send, .finish, .receive, .receive] (init (0, 0)) =
      some s ∧ s.queue = [] ∧ s.handler = .idle ∧ unitSettings (0, 0) s = (0, 7) ∧ s.current = (0, 7) ∧
    expected (0, 0) [.external (5, 5), setSecond 7, .send, .finish, .receive, .receive] = (5, 7) :=
  ⟨_, rfl, rfl, rfl, rfl, rfl, rfl⟩

end TrackExample

end Track
end Ez
