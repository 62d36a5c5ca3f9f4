import Verif.Props.Snapshot

/-!
# C93: `profiling_snapshot_all` has an entry for each process that answers

Specification: the processes that are connected (`ProcessOpen`) and the units they own (`Claimed`), from the history of requests; `reply n p` is what
process `p` sends back if the `n`-th request is routed to it.
-/

set_option linter.unusedSectionVars false
set_option linter.unusedSimpArgs false

namespace Ez
namespace Srv
variable {T I A V W : Type} [DecidableEq T] [DecidableEq I] [DecidableEq A]

/-! ## Specification -/

/-- Until the last request is routed, the units stay with the processes that own them at first. -/
def OwnersStay (sv : Server T I A V) (at' : Nat → Server T I A V) : Prop :=
  ∀ n p u, OwnsUnit sv p u → OwnsUnit (at' n) p u

/-! ## Lemmas -/

theorem profileAll_mem (at' : Nat → Server T I A V) (reply : Nat → I → Option W) : ∀ (ps : List (I × List A)) (n : Nat) (out : PyDict I W)
    (p : I) (w : W), PyDict.get? (profileAll at' reply ps n out) p = some w →
    PyDict.get? out p = some w ∨ ∃ m us u q, (p, us) ∈ ps ∧ us.head? = some u ∧ processOwner (at' m) u = some q ∧ reply m q = some w := by
  intro ps
  induction ps with
  | nil => intro n out p w h; exact .inl h
  | cons x ps ih =>
    intro n out p w h
    obtain ⟨p', us⟩ := x
    cases us with
    | nil =>
      rcases ih n out p w h with h | ⟨m, us, u, q, h1, h2⟩
      · exact .inl h
      · exact .inr ⟨m, us, u, q, List.mem_cons_of_mem _ h1, h2⟩
    | cons u us =>
      simp only [profileAll] at h
      cases hb : (processOwner (at' n) u).bind (reply n) with
      | none =>
        rw [hb] at h
        rcases ih _ out p w h with h | ⟨m, us, u, q, h1, h2⟩
        · exact .inl h
        · exact .inr ⟨m, us, u, q, List.mem_cons_of_mem _ h1, h2⟩
      | some v =>
        rw [hb] at h
        rcases ih _ _ p w h with h | ⟨m, us, u, q, h1, h2⟩
        · by_cases e : p = p'
          · subst e
            rw [PyDict.get?_set, if_pos rfl] at h
            cases h
            rw [Option.bind_eq_some_iff] at hb
            obtain ⟨q, h1, h2⟩ := hb
            exact .inr ⟨n, u :: us, u, q, by simp, rfl, h1, h2⟩
          · rw [PyDict.get?_set, if_neg e] at h
            exact .inl h
        · exact .inr ⟨m, us, u, q, List.mem_cons_of_mem _ h1, h2⟩

theorem profileAll_keep (at' : Nat → Server T I A V) (reply : Nat → I → Option W) : ∀ (ps : List (I × List A)) (n : Nat) (out : PyDict I W)
    (p : I), (PyDict.get? out p).isSome → (PyDict.get? (profileAll at' reply ps n out) p).isSome := by
  intro ps
  induction ps with
  | nil => intro n out p h; exact h
  | cons x ps ih =>
    intro n out p h
    obtain ⟨p', us⟩ := x
    cases us with
    | nil => exact ih n out p h
    | cons u us =>
      simp only [profileAll]
      split
      · apply ih
        by_cases e : p = p'
        · subst e; rw [PyDict.get?_set, if_pos rfl]; rfl
        · rw [PyDict.get?_set, if_neg e]; exact h
      · exact ih _ out p h

theorem profileAll_has (at' : Nat → Server T I A V) (reply : Nat → I → Option W) (p : I) (u : A) (us : List A)
    (h : ∀ n, ∃ q, processOwner (at' n) u = some q ∧ (reply n q).isSome) :
    ∀ (ps : List (I × List A)) (n : Nat) (out : PyDict I W), (p, u :: us) ∈ ps →
    (PyDict.get? (profileAll at' reply ps n out) p).isSome := by
  intro ps
  induction ps with
  | nil => intro n out hm; cases hm
  | cons x ps ih =>
    intro n out hm
    rcases List.mem_cons.1 hm with e | hm'
    · subst e
      simp only [profileAll]
      obtain ⟨q, h1, h2⟩ := h n
      obtain ⟨w, hw⟩ := Option.isSome_iff_exists.1 h2
      rw [h1, Option.bind_some, hw]
      apply profileAll_keep
      rw [PyDict.get?_set, if_pos rfl]
      rfl
    · obtain ⟨p', us'⟩ := x
      cases us' with
      | nil => exact ih n out hm'
      | cons u' us' =>
        simp only [profileAll]
        split
        · exact ih _ _ hm'
        · exact ih _ _ hm'

theorem owner_of {cfg : Cfg} {h : List (Act T I A V × Reply)} {sv : Server T I A V} (hr : Run cfg h sv) {p : I} {u : A}
    (ho : OwnsUnit sv p u) : processOwner sv u = some p := by
  cases hp : processOwner sv u with
  | none => exact absurd ho (processOwner_none hp p)
  | some q => rw [C29_at_most_one_owner hr p q u ho (processOwner_some hp)]

/-! ## Theorems -/

/-- C93: whatever happens meanwhile, every entry is that of a process connected at first that owned a unit then, and its content was sent by the process that
owned that unit when the request was routed. -/
theorem C93_entries {cfg : Cfg} {h : List (Act T I A V × Reply)} {sv : Server T I A V} (hr : Run cfg h sv) (le : Orders T I A)
    (at' : Nat → Server T I A V) (reply : Nat → I → Option W) {p : I} {w : W}
    (he : PyDict.get? (profileAll at' reply (snapshot le sv).processes 0 []) p = some w) :
    ProcessOpen h p ∧ ∃ n u q, Claimed h p u ∧ OwnsUnit (at' n) q u ∧ reply n q = some w := by
  rcases profileAll_mem at' reply _ _ _ _ _ he with h0 | ⟨m, us, u, q, h1, h2, h3, h4⟩
  · cases h0
  · refine ⟨((C91_processes hr le).1 p).1 ⟨us, h1⟩, m, u, q, ?_, processOwner_some h3, h4⟩
    exact ((C91_processes hr le).2.1 p us h1 u).1 (List.mem_of_mem_head? h2)

/-- C93, partial: as long as units do not change hands, each entry was sent by its own process, and each process that owns a unit and answers
has an entry. Missing: processes without units (`C93_no_units`) and units that change hands (`C93_other_process`). -/
theorem C93_own_partial {cfg : Cfg} {h : List (Act T I A V × Reply)} {sv : Server T I A V} (hr : Run cfg h sv) (le : Orders T I A)
    (at' : Nat → Server T I A V) (hat : ∀ n, ∃ h', Run cfg h' (at' n)) (hst : OwnersStay sv at') (reply : Nat → I → Option W) (p : I) :
    (∀ w, PyDict.get? (profileAll at' reply (snapshot le sv).processes 0 []) p = some w → ∃ n, reply n p = some w) ∧
    (ProcessOpen h p → (∃ u, Claimed h p u) → (∀ n, (reply n p).isSome) →
      (PyDict.get? (profileAll at' reply (snapshot le sv).processes 0 []) p).isSome) := by
  constructor
  · intro w he
    rcases profileAll_mem at' reply _ _ _ _ _ he with h0 | ⟨m, us, u, q, h1, h2, h3, h4⟩
    · cases h0
    · have hc : Claimed h p u := ((C91_processes hr le).2.1 p us h1 u).1 (List.mem_of_mem_head? h2)
      have ho := hst m p u ((run_claimed hr p u).2 hc)
      obtain ⟨h', hr'⟩ := hat m
      rw [owner_of hr' ho] at h3
      cases h3
      exact ⟨m, h4⟩
  · rintro hp ⟨u, hc⟩ hrep
    obtain ⟨us, hus⟩ := ((C91_processes hr le).1 p).2 hp
    have hu := ((C91_processes hr le).2.1 p us hus u).2 hc
    cases us with
    | nil => cases hu
    | cons v us =>
      have hv := ((C91_processes hr le).2.1 p _ hus v).1 (by simp)
      refine profileAll_has at' reply p v us (fun n => ?_) _ 0 [] hus
      obtain ⟨h', hr'⟩ := hat n
      exact ⟨p, owner_of hr' (hst n p v ((run_claimed hr p v).2 hv)), hrep n⟩

/-- C93 is violated: a process without units has no entry, even if it would answer. -/
theorem C93_no_units {cfg : Cfg} {h : List (Act T I A V × Reply)} {sv : Server T I A V} (hr : Run cfg h sv) (le : Orders T I A)
    (at' : Nat → Server T I A V) (reply : Nat → I → Option W) (p : I) (hp : ∀ u, ¬ Claimed h p u) :
    PyDict.get? (profileAll at' reply (snapshot le sv).processes 0 []) p = none := by
  cases hg : PyDict.get? (profileAll at' reply (snapshot le sv).processes 0 []) p with
  | none => rfl
  | some w =>
    obtain ⟨_, n, u, q, hc, _⟩ := C93_entries hr le at' reply hg
    exact absurd hc (hp u)

/-! ## Examples -/

/-- Two processes with a unit each. -/
def profActs : List (Act Nat Nat Nat Nat) := [.openProcess 1, .openProcess 2, .registerProcess 1 [5], .registerProcess 2 [6]]

/-- Then the first gives its unit to the second. -/
def profMore : List (Act Nat Nat Nat Nat) := profActs ++ [.updateOwnership 1 [] [5], .updateOwnership 2 [5] []]

theorem prof_start : ∃ (sv : Server Nat Nat Nat Nat), Run ⟨100, 100, 10⟩ (profActs.map (·, .complete)) sv ∧
    sv.clients = [(1, .process [5]), (2, .process [6])] := by
  have key : (exec ⟨100, 100, 10⟩ profActs).map (fun x => (x.1, x.2.clients)) =
      some (profActs.map (·, .complete), [(1, .process [5]), (2, .process [6])]) := by
    unfold profActs
    srv_eval
  rw [Option.map_eq_some_iff] at key
  obtain ⟨⟨h, sv⟩, he, k⟩ := key
  obtain ⟨e, k⟩ := Prod.mk.injEq _ _ _ _ ▸ k
  have hr := exec_run he
  rw [show h = _ from e] at hr
  exact ⟨sv, hr, k⟩

theorem prof_later : ∃ (sv : Server Nat Nat Nat Nat), Run ⟨100, 100, 10⟩ (profMore.map (·, .complete)) sv ∧
    sv.clients = [(1, .process []), (2, .process [6, 5])] := by
  have key : (exec ⟨100, 100, 10⟩ profMore).map (fun x => (x.1, x.2.clients)) =
      some (profMore.map (·, .complete), [(1, .process []), (2, .process [6, 5])]) := by
    unfold profMore profActs
    srv_eval
  rw [Option.map_eq_some_iff] at key
  obtain ⟨⟨h, sv⟩, he, k⟩ := key
  obtain ⟨e, k⟩ := Prod.mk.injEq _ _ _ _ ▸ k
  have hr := exec_run he
  rw [show h = _ from e] at hr
  exact ⟨sv, hr, k⟩

theorem prof_processes {sv : Server Nat Nat Nat Nat} (k : sv.clients = [(1, .process [5]), (2, .process [6])]) :
    (snapshot snapOrders sv).processes = [(1, [5]), (2, [6])] := by
  have e : sv.clients.filterMap processEntry = [(1, [5]), (2, [6])] := by rw [k]; rfl
  simp [snapshot, e, List.mergeSort, List.MergeSort.Internal.splitInTwo, List.merge, snapOrders]

/-- Non-vacuity of `C93_own_partial`: each process answers with ten times its id. -/
theorem prof_example : ∃ (h : List (Act Nat Nat Nat Nat × Reply)) (sv : Server Nat Nat Nat Nat), Run ⟨100, 100, 10⟩ h sv ∧ OwnersStay sv (fun _ => sv) ∧
    profileAll (fun _ => sv) (fun _ p => some (10 * p)) (snapshot snapOrders sv).processes 0 [] = [(1, 10), (2, 20)] := by
  obtain ⟨sv, hr, k⟩ := prof_start
  refine ⟨_, sv, hr, fun _ _ _ h => h, ?_⟩
  rw [prof_processes k]
  simp [profileAll, processOwner, k]
  rfl

/-- C93 is violated: if its unit goes to another process after the snapshot, the entry of a process is what the other process sent. -/
theorem C93_other_process : ∃ (h more : List (Act Nat Nat Nat Nat × Reply)) (sv sv' : Server Nat Nat Nat Nat),
    Run ⟨100, 100, 10⟩ h sv ∧ Run ⟨100, 100, 10⟩ (h ++ more) sv' ∧ ProcessOpen (h ++ more) 1 ∧
    profileAll (fun _ => sv') (fun _ p => some (10 * p)) (snapshot snapOrders sv).processes 0 [] = [(1, 20), (2, 20)] := by
  obtain ⟨sv, hr, k⟩ := prof_start
  obtain ⟨sv', hr', k'⟩ := prof_later
  refine ⟨_, ([.updateOwnership 1 [] [5], .updateOwnership 2 [5] []] : List (Act Nat Nat Nat Nat)).map (·, .complete), sv, sv', hr,
    by simpa [profMore] using hr', ⟨[], _, rfl, by simp⟩, ?_⟩
  rw [prof_processes k]
  simp [profileAll, processOwner, k']
  rfl

end Srv
end Ez
