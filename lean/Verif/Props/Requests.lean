import Verif.Props.Processes

/-!
# C30: requests routed to processes

Specification: a request is answered when the call that routed it returns (`answers`). An answer is
justified by the history: by who owned the unit when the request was made, and by what happened since.
-/

set_option linter.unusedSectionVars false
set_option linter.unusedSimpArgs false

namespace Ez
namespace Srv
variable {T I A V : Type} [DecidableEq T] [DecidableEq I] [DecidableEq A]

/-- Steps that concern routed requests. -/
def Act.concernsRequests : Act T I A V → Bool
  | .request _ _ _ => true
  | .response _ _ _ => true
  | .timeout _ => true
  | .resume _ => true
  | .processGone _ => true
  | _ => false

theorem connect_req (cfg : Cfg) (sv : Server T I A V) (a b : T) (o : Option I) :
    (connect cfg sv a b o).1.pending = sv.pending ∧ (connect cfg sv a b o).1.requests = sv.requests ∧
    (connect cfg sv a b o).1.answers = sv.answers := by
  have h := connectOwner_same sv a b o
  rw [connect_eq]
  split <;> simp [h.pending, h.requests, h.answers]

theorem disconnect_req (cfg : Cfg) (sv : Server T I A V) (a b : T) (o : Option I) :
    (disconnect cfg sv a b o).1.pending = sv.pending ∧
    (disconnect cfg sv a b o).1.requests = sv.requests ∧
    (disconnect cfg sv a b o).1.answers = sv.answers := by
  have h := disconnectOwner_same sv a b o
  rw [disconnect_eq]
  split <;> simp [h.pending, h.requests, h.answers]

theorem requests_unchanged {cfg : Cfg} {sv : Server T I A V} {a : Act T I A V} {sv' r} (hinv : EdgeInv sv)
    (h : step cfg sv a = some (sv', r)) (ha : a.concernsRequests = false) :
    sv'.pending = sv.pending ∧ sv'.requests = sv.requests ∧ sv'.answers = sv.answers := by
  cases a with
  | request => cases ha
  | response => cases ha
  | timeout => cases ha
  | resume => cases ha
  | processGone => cases ha
  | subscribe j t => simp only [step] at h; split at h <;> cases h; exact ⟨rfl, rfl, rfl⟩
  | publish j t => simp only [step] at h; split at h <;> cases h; exact ⟨rfl, rfl, rfl⟩
  | channel j p =>
    simp only [step] at h; split at h; · cases h
    split at h <;> cases h <;> exact ⟨rfl, rfl, rfl⟩
  | openSession j => simp only [step] at h; split at h <;> cases h; exact ⟨rfl, rfl, rfl⟩
  | openProcess j => simp only [step] at h; split at h <;> cases h; exact ⟨rfl, rfl, rfl⟩
  | gone j => simp only [step] at h; split at h <;> cases h <;> exact ⟨rfl, rfl, rfl⟩
  | connect x y =>
    simp only [step, Option.some.injEq] at h
    have h1 := congrArg Prod.fst h
    subst h1; exact connect_req _ _ _ _ _
  | disconnect x y =>
    simp only [step, Option.some.injEq] at h
    have h1 := congrArg Prod.fst h
    subst h1; exact disconnect_req _ _ _ _ _
  | sessionConnect s x y =>
    simp only [step] at h
    split at h
    · simp only [Option.some.injEq] at h
      have h1 := congrArg Prod.fst h
      subst h1; exact connect_req _ _ _ _ _
    · cases h
  | sessionDisconnect s x y =>
    simp only [step] at h
    split at h
    · simp only [Option.some.injEq] at h
      have h1 := congrArg Prod.fst h
      subst h1; exact disconnect_req _ _ _ _ _
    · cases h
  | sessionClear s =>
    simp only [step] at h
    split at h
    · rename_i x hx
      cases h
      obtain ⟨_, _, _, _, _, _, _, _, h1, h2, _, _, h3⟩ :=
        clearSession_eq cfg sv s false (es := x.1) (md := x.2) hx hinv
      simp [h1, h2, h3]
    · cases h
  | sessionGone s =>
    simp only [step] at h
    split at h
    · rename_i x hx
      cases h
      obtain ⟨_, _, _, _, _, _, _, _, h1, h2, _, _, h3⟩ :=
        clearSession_eq cfg sv s true (es := x.1) (md := x.2) hx hinv
      simp [h1, h2, h3]
    · cases h
  | sessionRegister s md =>
    simp only [step] at h
    split at h
    · rename_i x hx
      split at h
      · simp only [Option.some.injEq] at h
        have h1 := congrArg Prod.fst h
        subst h1
        unfold registerSession
        simp only [hx]
        split
        · exact ⟨rfl, rfl, rfl⟩
        · have hs := applyMetadata_same cfg (setSession (removeSessionSettings sv s) s x.1 (some md)) s md
          exact ⟨hs.pending, hs.requests, hs.answers⟩
      · cases h
    · cases h
  | registerProcess p units =>
    simp only [step] at h
    split at h
    · rename_i x hx
      simp only [Option.some.injEq] at h
      have h1 := congrArg Prod.fst h
      subst h1
      unfold registerProcess
      simp only [hx]
      split
      · unfold setUnits; simp only; split <;> exact ⟨rfl, rfl, rfl⟩
      · exact ⟨rfl, rfl, rfl⟩
    · cases h
  | updateOwnership p added removed =>
    simp only [step] at h
    split at h
    · rename_i x hx
      simp only [Option.some.injEq] at h
      have h1 := congrArg Prod.fst h
      subst h1
      unfold updateOwnership
      simp only [hx]
      split
      · unfold setUnits; simp only; split <;> exact ⟨rfl, rfl, rfl⟩
      · exact ⟨rfl, rfl, rfl⟩
    · cases h
  | updateSettings p x v =>
    simp only [step] at h
    split at h
    · rename_i us hx
      simp only [Option.some.injEq] at h
      have h1 := congrArg Prod.fst h
      subst h1
      unfold updateSettings
      simp only [hx]
      split <;> exact ⟨rfl, rfl, rfl⟩
    · cases h
  | watchSettings j n => simp only [step] at h; split at h <;> cases h; exact ⟨rfl, rfl, rfl⟩
  | watchTopology j n => simp only [step] at h; split at h <;> cases h; exact ⟨rfl, rfl, rfl⟩
  | sendSettings j => cases h; exact ⟨rfl, rfl, rfl⟩
  | sendTopology j => cases h; exact ⟨rfl, rfl, rfl⟩
  | unwatchSettings j => cases h; exact ⟨rfl, rfl, rfl⟩
  | unwatchTopology j => cases h; exact ⟨rfl, rfl, rfl⟩
  | notify j =>
    simp only [step] at h
    split at h
    · cases h
      simp only [prepareUpdate]
      split <;> exact ⟨rfl, rfl, rfl⟩
    · cases h; exact ⟨rfl, rfl, rfl⟩
    · cases h
  | write s j =>
    simp only [step] at h
    split at h
    · split at h <;> cases h; exact ⟨rfl, rfl, rfl⟩
    · cases h

/-- `failAll`, request by request. -/
theorem failAll_get? (rs : List I) (sv : Server T I A V) (r : I) :
    (failAll sv rs).pending.get? r = (if r ∈ rs then none else sv.pending.get? r) ∧
    (failAll sv rs).requests.get? r = (if r ∈ rs then
      (sv.requests.get? r).map (fun q => { q with fut := q.fut.complete .disconnected })
      else sv.requests.get? r) := by
  have hidem : ∀ f : Fut I V, (f.complete .disconnected).complete .disconnected = f.complete .disconnected := by
    intro f; cases f <;> rfl
  induction rs generalizing sv with
  | nil => simp [failAll]
  | cons x rs ih =>
    have := ih (setResult { sv with pending := sv.pending.pop x } x .disconnected)
    unfold failAll at this ⊢
    rw [List.foldl_cons]
    refine ⟨?_, ?_⟩
    · rw [this.1]
      simp only [setResult, PyDict.get?_pop, List.mem_cons]
      by_cases h1 : r ∈ rs <;> by_cases h2 : r = x <;> simp [h1, h2]
    · rw [this.2]
      simp only [setResult, PyDict.get?_modify, List.mem_cons]
      by_cases h1 : r ∈ rs <;> by_cases h2 : r = x <;>
        simp [h1, h2, Option.map_map, Function.comp_def, hidem]

theorem failAll_nodup (rs : List I) (sv : Server T I A V) (h : sv.pending.keys.Nodup) :
    (failAll sv rs).pending.keys.Nodup := by
  induction rs generalizing sv with
  | nil => exact h
  | cons x rs ih =>
    exact ih (setResult { sv with pending := sv.pending.pop x } x .disconnected) (PyDict.nodup_pop h)

/-- Specification: since request `r` was sent to `p`, nobody answered it and `p` did not disconnect. -/
def Untouched (r p : I) (post : List (Act T I A V × Reply)) : Prop :=
  ∀ c ∈ post, (∀ q v, c.1 ≠ .response q r v) ∧ c.1 ≠ .processGone p

/-- Specification: answer `x` to request `r` is justified by the history `h`. The request was made when
the server was in state `sv0`; what happened since is `post`. The first response to the request, or the
end of its process if that comes first, decides. -/
def Justified (cfg : Cfg) (h : List (Act T I A V × Reply)) (r : I) (x : Response I V) : Prop :=
  ∃ pre u ok post sv0, h = pre ++ (.request r u ok, .complete) :: post ∧ Run cfg pre sv0 ∧
    match x with
    | .unroutable => ∀ p, ¬ OwnsUnit sv0 p u
    | .writeFailed => ok = false ∧ ∃ p, OwnsUnit sv0 p u
    | .answer p v => ok = true ∧ OwnsUnit sv0 p u ∧
        ∃ l l', post = l ++ (.response p r v, .complete) :: l' ∧ Untouched r p l
    | .disconnected => ok = true ∧ ∃ p, OwnsUnit sv0 p u ∧
        ∃ l l', post = l ++ (.processGone p, .complete) :: l' ∧ Untouched r p l
    | .timeout => ok = true ∧ (∃ p, OwnsUnit sv0 p u) ∧ (.timeout r, .complete) ∈ post
    | .invalid => ok = true ∧ ∃ p q v, OwnsUnit sv0 p u ∧ q ≠ p ∧
        ∃ l l', post = l ++ (.response q r v, .complete) :: l' ∧ Untouched r p l

/-- Request `r` was sent to process `p`. -/
def SentTo (cfg : Cfg) (h : List (Act T I A V × Reply)) (r p : I) : Prop :=
  ∃ pre u post sv0, h = pre ++ (.request r u true, .complete) :: post ∧ Run cfg pre sv0 ∧ OwnsUnit sv0 p u

/-- Request `r` was sent to process `p` and not answered since. -/
def OpenAt (cfg : Cfg) (h : List (Act T I A V × Reply)) (r p : I) : Prop :=
  ∃ pre u post sv0, h = pre ++ (.request r u true, .complete) :: post ∧ Run cfg pre sv0 ∧ OwnsUnit sv0 p u ∧
    Untouched r p post

/-- Request `r` was sent to process `p`, and `a` happened since. -/
def SentToThen (cfg : Cfg) (h : List (Act T I A V × Reply)) (r p : I) (a : Act T I A V) : Prop :=
  ∃ pre u post sv0, h = pre ++ (.request r u true, .complete) :: post ∧ Run cfg pre sv0 ∧ OwnsUnit sv0 p u ∧
    (a, .complete) ∈ post

theorem OpenAt.mono {cfg : Cfg} {h : List (Act T I A V × Reply)} {r p : I} {a : Act T I A V} {x : Reply}
    (hs : OpenAt cfg h r p) (ha : (∀ q v, a ≠ .response q r v) ∧ a ≠ .processGone p) :
    OpenAt cfg (h ++ [(a, x)]) r p := by
  obtain ⟨pre, u, post, sv0, rfl, h1, h2, h3⟩ := hs
  refine ⟨pre, u, post ++ [(a, x)], sv0, by simp, h1, h2, ?_⟩
  intro c hc
  rcases List.mem_append.1 hc with hc | hc
  · exact h3 c hc
  · simp only [List.mem_singleton] at hc
    subst hc; exact ha

theorem OpenAt.sent {cfg : Cfg} {h : List (Act T I A V × Reply)} {r p : I} (hs : OpenAt cfg h r p) :
    SentTo cfg h r p := by
  obtain ⟨pre, u, post, sv0, h0, h1, h2, _⟩ := hs
  exact ⟨pre, u, post, sv0, h0, h1, h2⟩

theorem SentTo.mono {cfg : Cfg} {h : List (Act T I A V × Reply)} {r p : I} (c) (hs : SentTo cfg h r p) :
    SentTo cfg (h ++ [c]) r p := by
  obtain ⟨pre, u, post, sv0, rfl, h1, h2⟩ := hs
  exact ⟨pre, u, post ++ [c], sv0, by simp, h1, h2⟩

theorem SentTo.andThen {cfg : Cfg} {h : List (Act T I A V × Reply)} {r p : I} {a : Act T I A V}
    (hs : SentTo cfg h r p) : SentToThen cfg (h ++ [(a, .complete)]) r p a := by
  obtain ⟨pre, u, post, sv0, rfl, h1, h2⟩ := hs
  exact ⟨pre, u, post ++ [(a, .complete)], sv0, by simp, h1, h2, by simp⟩

theorem SentToThen.mono {cfg : Cfg} {h : List (Act T I A V × Reply)} {r p : I} {a} (c)
    (hs : SentToThen cfg h r p a) : SentToThen cfg (h ++ [c]) r p a := by
  obtain ⟨pre, u, post, sv0, rfl, h1, h2, h3⟩ := hs
  exact ⟨pre, u, post ++ [c], sv0, by simp, h1, h2, by simp [h3]⟩

theorem Justified.mono {cfg : Cfg} {h : List (Act T I A V × Reply)} {r : I} {x} (c)
    (hs : Justified cfg h r x) : Justified cfg (h ++ [c]) r x := by
  obtain ⟨pre, u, ok, post, sv0, rfl, h1, h2⟩ := hs
  refine ⟨pre, u, ok, post ++ [c], sv0, by simp, h1, ?_⟩
  cases x with
  | unroutable => exact h2
  | writeFailed => exact h2
  | answer p v =>
    obtain ⟨h2, h3, l, l', rfl, h4⟩ := h2
    exact ⟨h2, h3, l, l' ++ [c], by simp, h4⟩
  | disconnected =>
    obtain ⟨h2, p, h3, l, l', rfl, h4⟩ := h2
    exact ⟨h2, p, h3, l, l' ++ [c], by simp, h4⟩
  | timeout => exact ⟨h2.1, h2.2.1, by simp [h2.2.2]⟩
  | invalid =>
    obtain ⟨h2, p, q, v, h3, h4, l, l', rfl, h5⟩ := h2
    exact ⟨h2, p, q, v, h3, h4, l, l' ++ [c], by simp, h5⟩

/-- Invariant of routed requests. -/
structure ReqInv (cfg : Cfg) (h : List (Act T I A V × Reply)) (sv : Server T I A V) : Prop where
  pnodup : sv.pending.keys.Nodup
  /-- a pending request waits for a connected process and is not finished -/
  pend : ∀ r p, sv.pending.get? r = some p → OpenAt cfg h r p ∧ (∃ us, sv.clients.get? p = some (.process us)) ∧
    ∃ q, sv.requests.get? r = some q ∧
      ((q.fut = .waiting ∧ q.task = .waiting) ∨ (q.fut = .cancelled ∧ q.task = .timedOut))
  /-- a request that waits is pending, so somebody will complete it -/
  wait : ∀ r q, sv.requests.get? r = some q → q.fut = .waiting → q.task = .waiting → ∃ p, sv.pending.get? r = some p
  live : ∀ r q, sv.requests.get? r = some q → q.fut = .cancelled → q.task ≠ .waiting
  busy : ∀ r q, sv.requests.get? r = some q → q.fut = .waiting → q.task ≠ .timedOut
  result : ∀ r q x, sv.requests.get? r = some q → q.fut = .result x → Justified cfg h r x
  /-- a request somebody waits for was sent -/
  sent : ∀ r q, sv.requests.get? r = some q → q.task = .waiting → ∃ p, SentTo cfg h r p
  timed : ∀ r q, sv.requests.get? r = some q → q.task = .timedOut → ∃ p, SentToThen cfg h r p (.timeout r)
  finished : ∀ r x, (r, x) ∈ sv.answers ↔ ∃ q, sv.requests.get? r = some q ∧ q.task = .finished x
  anodup : (sv.answers.map (·.1)).Nodup
  just : ∀ r x, (r, x) ∈ sv.answers → Justified cfg h r x
  used : ∀ r q, sv.requests.get? r = some q → r ∈ sv.used

theorem reqInv_init (cfg : Cfg) : ReqInv cfg [] (init : Server T I A V) := by
  refine ⟨by simp [init, PyDict.keys], ?_, ?_, ?_, ?_, ?_, ?_, ?_, ?_, by simp [init], ?_, ?_⟩ <;>
    intros <;> simp_all [init, PyDict.get?]

theorem usedAfter_mono {sv : Server T I A V} {a : Act T I A V} {i : I} (h : i ∈ sv.used) : i ∈ usedAfter sv a := by
  unfold usedAfter
  split <;> first | exact List.mem_cons_of_mem _ h | exact h | (split <;> first | exact List.mem_cons_of_mem _ h | exact h)

/-- A connected process stays connected until it disconnects. -/
theorem process_stays {cfg : Cfg} {sv sv' : Server T I A V} {a : Act T I A V} {r : Reply}
    (hinv : EdgeInv sv) (hu : ∀ i c, sv.clients.get? i = some c → i ∈ sv.used)
    (hs : step cfg sv a = some (sv', r)) (p : I) (ha : a ≠ .processGone p)
    (hp : ∃ us, sv.clients.get? p = some (.process us)) : ∃ us, sv'.clients.get? p = some (.process us) := by
  obtain ⟨us, hp⟩ := hp
  rw [clients_step hinv hs]
  have hfresh : ∀ {c : Client T I A V} {j : I}, j ∉ sv.used →
      ∃ us, (if p = j then some c else sv.clients.get? p) = some (.process us) := by
    intro c j hj
    have : p ≠ j := fun e => hj (e ▸ hu _ _ hp)
    exact ⟨us, by simp [this, hp]⟩
  cases a with
  | subscribe j t => exact hfresh (fresh_step hs j (by simp))
  | publish j t => exact hfresh (fresh_step hs j (by simp))
  | openSession j => exact hfresh (fresh_step hs j (by simp))
  | openProcess j => exact hfresh (fresh_step hs j (by simp))
  | channel j q =>
    simp only [clientAfter]
    split
    · exact hfresh (fresh_step hs j (by simp))
    · exact ⟨us, hp⟩
  | gone j =>
    have : p ≠ j := by rintro rfl; simp [step, hp] at hs
    exact ⟨us, by simp [clientAfter, this, hp]⟩
  | sessionConnect s x y => simp only [clientAfter, hp, editEdges]; split <;> exact ⟨us, rfl⟩
  | sessionDisconnect s x y => simp only [clientAfter, hp, editEdges]; split <;> exact ⟨us, rfl⟩
  | sessionClear s =>
    have : p ≠ s := by rintro rfl; simp [step, sessionInfo, hp] at hs
    exact ⟨us, by simp [clientAfter, this, hp]⟩
  | sessionGone s =>
    have : p ≠ s := by rintro rfl; simp [step, sessionInfo, hp] at hs
    exact ⟨us, by simp [clientAfter, this, hp]⟩
  | sessionRegister s md => simp only [clientAfter, hp]; split <;> exact ⟨us, rfl⟩
  | registerProcess q units => simp only [clientAfter, hp]; split <;> exact ⟨_, rfl⟩
  | updateOwnership q x y => simp only [clientAfter, hp]; split <;> exact ⟨_, rfl⟩
  | processGone q =>
    have : p ≠ q := by rintro rfl; exact ha rfl
    exact ⟨us, by simp [clientAfter, this, hp]⟩
  | notify j =>
    simp only [clientAfter, hp]
    split
    · split <;> exact ⟨us, rfl⟩
    · exact ⟨us, rfl⟩
  | write s j => simp only [clientAfter, hp]; split <;> exact ⟨us, rfl⟩
  | _ => exact ⟨us, hp⟩

theorem ReqInv.step {cfg : Cfg} {h : List (Act T I A V × Reply)} {sv sv' : Server T I A V} {a : Act T I A V}
    {r : Reply} (hr : Run cfg h sv) (hi : ReqInv cfg h sv) (hs : step cfg sv a = some (sv', r)) :
    ReqInv cfg (h ++ [(a, r)]) sv' := by
  have hinv := (run_inv hr).1
  have hu := (run_inv hr).2
  have husd : ∀ i, i ∈ sv.used → i ∈ sv'.used := by
    intro i hm; rw [used_step hinv hs]; exact usedAfter_mono hm
  by_cases ha : a.concernsRequests = false
  · obtain ⟨e1, e2, e3⟩ := requests_unchanged hinv hs ha
    have hng : ∀ p, a ≠ .processGone p := by rintro p rfl; cases ha
    constructor
    · rw [e1]; exact hi.pnodup
    · intro x p hp
      rw [e1] at hp
      obtain ⟨h1, h2, h3⟩ := hi.pend x p hp
      rw [e2]
      exact ⟨h1.mono ⟨fun q v e => by subst e; exact absurd ha (by simp [Act.concernsRequests]), hng p⟩,
        process_stays hinv hu hs p (hng p) h2, h3⟩
    · rw [e1, e2]; exact hi.wait
    · rw [e2]; exact hi.live
    · rw [e2]; exact hi.busy
    · intro x q y hq hf; rw [e2] at hq; exact (hi.result x q y hq hf).mono _
    · intro x q hq ht; rw [e2] at hq
      obtain ⟨p, hp⟩ := hi.sent x q hq ht
      exact ⟨p, hp.mono _⟩
    · intro x q hq ht; rw [e2] at hq
      obtain ⟨p, hp⟩ := hi.timed x q hq ht
      exact ⟨p, hp.mono _⟩
    · rw [e2, e3]; exact hi.finished
    · rw [e3]; exact hi.anodup
    · intro x y hx; rw [e3] at hx; exact (hi.just x y hx).mono _
    · intro x q hq; rw [e2] at hq; exact husd _ (hi.used x q hq)
  · cases a with
    | request q u ok =>
      have hf := fresh_step hs q (by simp)
      have hnr : sv.requests.get? q = none := by
        cases hq : sv.requests.get? q with
        | none => rfl
        | some x => exact absurd (hi.used _ _ hq) hf
      have hnp : sv.pending.get? q = none := by
        cases hq : sv.pending.get? q with
        | none => rfl
        | some x =>
          obtain ⟨_, _, y, hy, _⟩ := hi.pend _ _ hq
          rw [hnr] at hy; cases hy
      have hna : ∀ x, (q, x) ∉ sv.answers := by
        intro x hx
        obtain ⟨y, hy, _⟩ := (hi.finished q x).1 hx
        rw [hnr] at hy; cases hy
      have hr' : r = .complete := by
        simp only [Srv.step] at hs; split at hs <;> cases hs; rfl
      subst hr'
      have hsv' : sv' = route sv q u ok := by
        simp only [Srv.step] at hs; split at hs <;> cases hs; rfl
      have howner : processOwner { sv with
          requests := sv.requests.set q { fut := .waiting, task := .waiting }, used := q :: sv.used } u =
          processOwner sv u := rfl
      -- the three ways it can go
      have hcl : sv'.clients = sv.clients := by
        rw [hsv']; unfold route; simp only; split
        · rfl
        · split <;> rfl
      have done : ∀ x : Response I V, Justified cfg (h ++ [(Act.request q u ok, .complete)]) q x →
          (sv'.pending = sv.pending ∧
            (∀ y, sv'.requests.get? y = if y = q then some { fut := .waiting, task := .finished x }
              else sv.requests.get? y) ∧ sv'.answers = sv.answers ++ [(q, x)]) →
          ReqInv cfg (h ++ [(Act.request q u ok, .complete)]) sv' := by
        rintro x hj ⟨e1, e2, e3⟩
        constructor
        · rw [e1]; exact hi.pnodup
        · intro y p hp
          rw [e1] at hp
          have hyq : y ≠ q := by rintro rfl; rw [hnp] at hp; cases hp
          obtain ⟨h1, h2, h3⟩ := hi.pend y p hp
          rw [e2, if_neg hyq, hcl]
          exact ⟨h1.mono ⟨by simp, by simp⟩, h2, h3⟩
        · intro y z hz hf ht
          rw [e2] at hz; rw [e1]
          split at hz
          · cases hz; cases ht
          · exact hi.wait y z hz hf ht
        · intro y z hz hf
          rw [e2] at hz
          split at hz
          · cases hz; cases hf
          · exact hi.live y z hz hf
        · intro y z hz hf
          rw [e2] at hz
          split at hz
          · cases hz; simp
          · exact hi.busy y z hz hf
        · intro y z w hz hf
          rw [e2] at hz
          split at hz
          · cases hz; cases hf
          · exact (hi.result y z w hz hf).mono _
        · intro y z hz ht
          rw [e2] at hz
          split at hz
          · cases hz; cases ht
          · obtain ⟨p, hp⟩ := hi.sent y z hz ht
            exact ⟨p, hp.mono _⟩
        · intro y z hz ht
          rw [e2] at hz
          split at hz
          · cases hz; cases ht
          · obtain ⟨p, hp⟩ := hi.timed y z hz ht
            exact ⟨p, hp.mono _⟩
        · intro y z
          rw [e3, e2, List.mem_append, List.mem_singleton, Prod.mk.injEq]
          by_cases hy : y = q
          · subst hy
            simp only [if_true, true_and, Option.some.injEq, exists_eq_left', hna, false_or]
            constructor
            · rintro rfl; rfl
            · intro h; cases h; rfl
          · simp [hy, hi.finished y z]
        · rw [e3, List.map_append, List.nodup_append]
          refine ⟨hi.anodup, by simp, ?_⟩
          intro y hy b hb e
          simp at hb
          obtain ⟨⟨w, z⟩, hz, hw⟩ := List.mem_map.1 hy
          simp only at hw
          rw [hw, e, hb] at hz
          exact hna z hz
        · intro y z hz
          rw [e3, List.mem_append, List.mem_singleton, Prod.mk.injEq] at hz
          rcases hz with hz | ⟨rfl, rfl⟩
          · exact (hi.just y z hz).mono _
          · exact hj
        · intro y z hz
          rw [e2] at hz
          split at hz
          · rename_i hy; rw [hy, used_step hinv hs]; simp [usedAfter]
          · exact husd _ (hi.used y z hz)
      have hset : ∀ x : Response I V, ∀ y,
          ((sv.requests.set q { fut := .waiting, task := .waiting }).modify q
            (fun q => { q with task := .finished x })).get? y =
          if y = q then some { fut := .waiting, task := .finished x } else sv.requests.get? y := by
        intro x y
        rw [PyDict.get?_modify, PyDict.get?_set]
        by_cases hy : y = q <;> simp [hy]
      cases ho : processOwner sv u with
      | none =>
        refine done .unroutable ⟨h, u, ok, [], sv, by simp, hr, processOwner_none ho⟩ ?_
        rw [hsv']; unfold route; simp only [howner, ho, finish]
        exact ⟨trivial, hset .unroutable, trivial⟩
      | some p =>
        have hown := processOwner_some ho
        cases ok with
        | false =>
          refine done .writeFailed ⟨h, u, false, [], sv, by simp, hr, rfl, p, hown⟩ ?_
          rw [hsv']; unfold route; simp only [howner, ho, finish, Bool.false_eq_true, if_false]
          exact ⟨trivial, hset .writeFailed, trivial⟩
        | true =>
          have e1 : sv'.pending = sv.pending.set q p := by
            rw [hsv']; unfold route; simp only [howner, ho, if_true]
          have e2 : ∀ y, sv'.requests.get? y = if y = q then some { fut := .waiting, task := .waiting }
              else sv.requests.get? y := by
            intro y
            rw [hsv']; unfold route; simp only [howner, ho, if_true, PyDict.get?_set]
          have e3 : sv'.answers = sv.answers := by
            rw [hsv']; unfold route; simp only [howner, ho, if_true]
          have hlive : ∃ us, sv.clients.get? p = some (.process us) := by
            obtain ⟨us, h1, _⟩ := (ownsUnit_iff hinv.nodup).1 hown
            exact ⟨us, h1⟩
          constructor
          · rw [e1]; exact PyDict.nodup_set hi.pnodup
          · intro y p' hp
            rw [e1, PyDict.get?_set] at hp
            rw [e2, hcl]
            split at hp
            · rename_i hy; subst hy; cases hp
              refine ⟨⟨h, u, [], sv, by simp, hr, hown, by simp [Untouched]⟩, hlive, _, if_pos rfl, Or.inl ⟨rfl, rfl⟩⟩
            · rename_i hy
              obtain ⟨h1, h2, h3⟩ := hi.pend y p' hp
              rw [if_neg hy]
              exact ⟨h1.mono ⟨by simp, by simp⟩, h2, h3⟩
          · intro y z hz hf ht
            rw [e2] at hz; rw [e1, PyDict.get?_set]
            split at hz
            · rename_i hy; exact ⟨p, if_pos hy⟩
            · rename_i hy; rw [if_neg hy]; exact hi.wait y z hz hf ht
          · intro y z hz hf
            rw [e2] at hz
            split at hz
            · cases hz; cases hf
            · exact hi.live y z hz hf
          · intro y z hz hf
            rw [e2] at hz
            split at hz
            · cases hz; simp
            · exact hi.busy y z hz hf
          · intro y z w hz hf
            rw [e2] at hz
            split at hz
            · cases hz; cases hf
            · exact (hi.result y z w hz hf).mono _
          · intro y z hz ht
            rw [e2] at hz
            split at hz
            · rename_i hy; subst hy
              exact ⟨p, h, u, [], sv, by simp, hr, hown⟩
            · obtain ⟨p, hp⟩ := hi.sent y z hz ht
              exact ⟨p, hp.mono _⟩
          · intro y z hz ht
            rw [e2] at hz
            split at hz
            · cases hz; cases ht
            · obtain ⟨p, hp⟩ := hi.timed y z hz ht
              exact ⟨p, hp.mono _⟩
          · intro y z
            rw [e3, e2]
            by_cases hy : y = q
            · subst hy
              simp [hna]
            · simp [hy, hi.finished y z]
          · rw [e3]; exact hi.anodup
          · intro y z hz
            rw [e3] at hz
            exact (hi.just y z hz).mono _
          · intro y z hz
            rw [e2] at hz
            split at hz
            · rename_i hy; rw [hy, used_step hinv hs]; simp [usedAfter]
            · exact husd _ (hi.used y z hz)
    | response p q v =>
      have hr' : r = .complete ∧ sv' = routeResponse sv p q v := by
        simp only [Srv.step] at hs; split at hs <;> cases hs; exact ⟨rfl, rfl⟩
      obtain ⟨rfl, hsv'⟩ := hr'
      have hcl : sv'.clients = sv.clients := by
        rw [hsv']; unfold routeResponse; split
        · rfl
        · simp only; split <;> rfl
      have he3 : sv'.answers = sv.answers := by
        rw [hsv']; unfold routeResponse; split
        · rfl
        · simp only; split <;> rfl
      cases hp : sv.pending.get? q with
      | none =>
        have : sv' = sv := by rw [hsv']; unfold routeResponse; rw [hp]
        subst this
        constructor
        · exact hi.pnodup
        · intro y p' hy
          obtain ⟨h1, h2, h3⟩ := hi.pend y p' hy
          have hyq : q ≠ y := by rintro rfl; rw [hp] at hy; cases hy
          exact ⟨h1.mono ⟨by simp [hyq], by simp⟩, h2, h3⟩
        · exact hi.wait
        · exact hi.live
        · exact hi.busy
        · intro y z w hz hf; exact (hi.result y z w hz hf).mono _
        · intro y z hz ht
          obtain ⟨p', hp'⟩ := hi.sent y z hz ht
          exact ⟨p', hp'.mono _⟩
        · intro y z hz ht
          obtain ⟨p', hp'⟩ := hi.timed y z hz ht
          exact ⟨p', hp'.mono _⟩
        · exact hi.finished
        · exact hi.anodup
        · intro y z hz; exact (hi.just y z hz).mono _
        · exact hi.used
      | some owner =>
        obtain ⟨hsent, hlive, q0, hq0, hst⟩ := hi.pend q owner hp
        -- the response it is completed with
        have hx : ∃ x : Response I V, Justified cfg (h ++ [(Act.response p q v, .complete)]) q x ∧
            sv'.pending = sv.pending.pop q ∧
            (∀ y, sv'.requests.get? y = if y = q then some { q0 with fut := q0.fut.complete x }
              else sv.requests.get? y) := by
          obtain ⟨pre, u, post, sv0, rfl, h1, h2, h2'⟩ := hsent
          by_cases ho : owner = p
          · subst ho
            refine ⟨.answer owner v, ⟨pre, u, true, post ++ [(Act.response owner q v, .complete)], sv0,
              by simp, h1, rfl, h2, post, [], by simp, h2'⟩, ?_, ?_⟩
            · rw [hsv']; unfold routeResponse; simp [hp, setResult]
            · intro y
              rw [hsv']; unfold routeResponse
              simp only [hp, ne_eq, not_true_eq_false, if_false, setResult, PyDict.get?_modify]
              by_cases hy : y = q
              · subst hy; simp [hq0]
              · simp [hy]
          · refine ⟨.invalid, ⟨pre, u, true, post ++ [(Act.response p q v, .complete)], sv0,
              by simp, h1, rfl, owner, p, v, h2, fun e => ho e.symm, post, [], by simp, h2'⟩, ?_, ?_⟩
            · rw [hsv']; unfold routeResponse; simp [hp, ho, setResult]
            · intro y
              rw [hsv']; unfold routeResponse
              simp only [hp, ne_eq, ho, not_false_eq_true, if_true, setResult, PyDict.get?_modify]
              by_cases hy : y = q
              · subst hy; simp [hq0]
              · simp [hy]
        obtain ⟨x, hj, e1, e2⟩ := hx
        have hfw : q0.fut.complete x ≠ .waiting := by
          rcases hst with ⟨hf, _⟩ | ⟨hf, _⟩ <;> simp [hf, Fut.complete]
        constructor
        · rw [e1]; exact PyDict.nodup_pop hi.pnodup
        · intro y p' hy
          rw [e1, PyDict.get?_pop] at hy
          split at hy
          · cases hy
          · rename_i hyq
            obtain ⟨h1, h2, h3⟩ := hi.pend y p' hy
            rw [e2, if_neg hyq, hcl]
            exact ⟨h1.mono ⟨by simp [Ne.symm hyq], by simp⟩, h2, h3⟩
        · intro y z hz hf ht
          rw [e2] at hz; rw [e1, PyDict.get?_pop]
          split at hz
          · cases hz; exact absurd hf hfw
          · rename_i hyq; rw [if_neg hyq]; exact hi.wait y z hz hf ht
        · intro y z hz hf
          rw [e2] at hz
          split at hz
          · cases hz
            rcases hst with ⟨hf', _⟩ | ⟨hf', ht'⟩
            · simp [hf', Fut.complete] at hf
            · simp [ht']
          · exact hi.live y z hz hf
        · intro y z hz hf
          rw [e2] at hz
          split at hz
          · cases hz; exact absurd hf hfw
          · exact hi.busy y z hz hf
        · intro y z w hz hf
          rw [e2] at hz
          split at hz
          · rename_i hyq
            cases hz
            subst hyq
            rcases hst with ⟨hf', _⟩ | ⟨hf', _⟩
            · simp only [hf', Fut.complete, Fut.result.injEq] at hf
              subst hf; exact hj
            · simp [hf', Fut.complete] at hf
          · exact (hi.result y z w hz hf).mono _
        · intro y z hz ht
          rw [e2] at hz
          split at hz
          · rename_i hyq
            cases hz
            subst hyq
            obtain ⟨p', hp'⟩ := hi.sent y q0 hq0 ht
            exact ⟨p', hp'.mono _⟩
          · obtain ⟨p', hp'⟩ := hi.sent y z hz ht
            exact ⟨p', hp'.mono _⟩
        · intro y z hz ht
          rw [e2] at hz
          split at hz
          · rename_i hyq
            cases hz
            subst hyq
            obtain ⟨p', hp'⟩ := hi.timed y q0 hq0 ht
            exact ⟨p', hp'.mono _⟩
          · obtain ⟨p', hp'⟩ := hi.timed y z hz ht
            exact ⟨p', hp'.mono _⟩
        · intro y z
          rw [he3, e2, hi.finished]
          by_cases hyq : y = q
          · subst hyq; simp [hq0]
          · simp [hyq]
        · rw [he3]; exact hi.anodup
        · intro y z hz; rw [he3] at hz; exact (hi.just y z hz).mono _
        · intro y z hz
          rw [e2] at hz
          split at hz
          · rename_i hyq; subst hyq; exact husd _ (hi.used _ _ hq0)
          · exact husd _ (hi.used y z hz)
    | timeout q =>
      simp only [Srv.step] at hs
      split at hs
      · rename_i f hq0
        cases hs
        have e2 : ∀ y, (sv.requests.set q { fut := f.cancel, task := .timedOut }).get? y =
            if y = q then some { fut := f.cancel, task := .timedOut } else sv.requests.get? y :=
          fun y => PyDict.get?_set _ _ _ _
        have hfw : f.cancel ≠ .waiting := by cases f <;> simp [Fut.cancel]
        obtain ⟨p0, hsent⟩ := hi.sent q _ hq0 rfl
        constructor
        · exact hi.pnodup
        · intro y p' hy
          obtain ⟨h1, h2, q1, h3, h4⟩ := hi.pend y p' hy
          refine ⟨h1.mono ⟨by simp, by simp⟩, h2, ?_⟩
          by_cases hyq : y = q
          · subst hyq
            rw [hq0] at h3; cases h3
            refine ⟨_, by rw [e2, if_pos rfl], Or.inr ⟨?_, rfl⟩⟩
            rcases h4 with ⟨h4, _⟩ | ⟨_, h4⟩
            · simp only at h4; simp [h4, Fut.cancel]
            · cases h4
          · exact ⟨q1, by rw [e2, if_neg hyq]; exact h3, h4⟩
        · intro y z hz hf ht
          rw [e2] at hz
          split at hz
          · cases hz; cases ht
          · exact hi.wait y z hz hf ht
        · intro y z hz hf
          rw [e2] at hz
          split at hz
          · cases hz; simp
          · exact hi.live y z hz hf
        · intro y z hz hf
          rw [e2] at hz
          split at hz
          · cases hz; exact absurd hf hfw
          · exact hi.busy y z hz hf
        · intro y z w hz hf
          rw [e2] at hz
          split at hz
          · rename_i hyq
            cases hz
            subst hyq
            refine (hi.result y _ w hq0 ?_).mono _
            cases f <;> simp_all [Fut.cancel]
          · exact (hi.result y z w hz hf).mono _
        · intro y z hz ht
          rw [e2] at hz
          split at hz
          · cases hz; cases ht
          · obtain ⟨p', hp'⟩ := hi.sent y z hz ht
            exact ⟨p', hp'.mono _⟩
        · intro y z hz ht
          rw [e2] at hz
          split at hz
          · rename_i hyq
            subst hyq
            exact ⟨p0, hsent.andThen⟩
          · obtain ⟨p', hp'⟩ := hi.timed y z hz ht
            exact ⟨p', hp'.mono _⟩
        · intro y z
          rw [e2]
          refine (hi.finished y z).trans ?_
          by_cases hyq : y = q
          · subst hyq; simp [hq0]
          · simp [hyq]
        · exact hi.anodup
        · intro y z hz; exact (hi.just y z hz).mono _
        · intro y z hz
          rw [e2] at hz
          split at hz
          · rename_i hyq; subst hyq; exact husd _ (hi.used _ _ hq0)
          · exact husd _ (hi.used y z hz)
      · cases hs
    | resume q =>
      -- either way the call returns `x`, and nobody waits for the request any more
      have key : r = .complete ∧ ∃ (q0 : Req I V) (x : Response I V), sv.requests.get? q = some q0 ∧
          (∀ y, q0.task ≠ .finished y) ∧ Justified cfg (h ++ [(Act.resume q, .complete)]) q x ∧
          sv'.clients = sv.clients ∧ sv'.pending.keys.Nodup ∧
          (∀ y, sv'.pending.get? y = if y = q then none else sv.pending.get? y) ∧
          (∀ y, sv'.requests.get? y = if y = q then some { q0 with task := .finished x }
            else sv.requests.get? y) ∧ sv'.answers = sv.answers ++ [(q, x)] := by
        simp only [Srv.step] at hs
        split at hs
        · rename_i x hq0
          cases hs
          have hnp : sv.pending.get? q = none := by
            cases hp : sv.pending.get? q with
            | none => rfl
            | some p =>
              obtain ⟨_, _, q1, h3, h4⟩ := hi.pend q p hp
              rw [hq0] at h3; cases h3
              rcases h4 with ⟨h4, _⟩ | ⟨h4, _⟩ <;> cases h4
          refine ⟨rfl, _, x, hq0, by simp, (hi.result q _ x hq0 rfl).mono _, rfl, hi.pnodup, ?_, ?_, rfl⟩
          · intro y
            by_cases hy : y = q
            · subst hy; simp [finish, hnp]
            · simp [finish, hy]
          · intro y
            simp only [finish, PyDict.get?_modify]
            by_cases hy : y = q
            · subst hy; simp [hq0]
            · simp [hy]
        · rename_i f hq0
          cases hs
          obtain ⟨p, pre, u, post, sv0, h1, h2, h3, h4⟩ := hi.timed q _ hq0 rfl
          refine ⟨rfl, _, .timeout, hq0, by simp, ?_, rfl, PyDict.nodup_pop hi.pnodup, ?_, ?_, rfl⟩
          · exact Justified.mono _ ⟨pre, u, true, post, sv0, h1, h2, rfl, ⟨p, h3⟩, h4⟩
          · intro y
            simp only [finish, PyDict.get?_pop]
          · intro y
            simp only [finish, PyDict.get?_modify]
            by_cases hy : y = q
            · subst hy; simp [hq0]
            · simp [hy]
        · cases hs
      obtain ⟨rfl, q0, x, hq0, hnf, hj, hcl, hnd, e1, e2, e3⟩ := key
      have hna : ∀ x, (q, x) ∉ sv.answers := by
        intro y hy
        obtain ⟨z, hz, ht⟩ := (hi.finished q y).1 hy
        rw [hq0] at hz; cases hz
        exact hnf y ht
      constructor
      · exact hnd
      · intro y p hp
        rw [e1] at hp
        split at hp
        · cases hp
        · rename_i hy
          obtain ⟨h1, h2, h3⟩ := hi.pend y p hp
          rw [e2, if_neg hy, hcl]
          exact ⟨h1.mono ⟨by simp, by simp⟩, h2, h3⟩
      · intro y z hz hf ht
        rw [e2] at hz; rw [e1]
        split at hz
        · cases hz; cases ht
        · rename_i hy; rw [if_neg hy]; exact hi.wait y z hz hf ht
      · intro y z hz hf
        rw [e2] at hz
        split at hz
        · cases hz; simp
        · exact hi.live y z hz hf
      · intro y z hz hf
        rw [e2] at hz
        split at hz
        · cases hz; simp
        · exact hi.busy y z hz hf
      · intro y z w hz hf
        rw [e2] at hz
        split at hz
        · rename_i hy; subst hy
          cases hz; exact (hi.result _ q0 w hq0 hf).mono _
        · exact (hi.result y z w hz hf).mono _
      · intro y z hz ht
        rw [e2] at hz
        split at hz
        · cases hz; cases ht
        · obtain ⟨p', hp'⟩ := hi.sent y z hz ht
          exact ⟨p', hp'.mono _⟩
      · intro y z hz ht
        rw [e2] at hz
        split at hz
        · cases hz; cases ht
        · obtain ⟨p', hp'⟩ := hi.timed y z hz ht
          exact ⟨p', hp'.mono _⟩
      · intro y z
        rw [e3, e2, List.mem_append, List.mem_singleton, Prod.mk.injEq]
        by_cases hy : y = q
        · subst hy
          simp only [if_true, true_and, Option.some.injEq, exists_eq_left', hna, false_or]
          constructor
          · rintro rfl; rfl
          · intro h; cases h; rfl
        · simp [hy, hi.finished y z]
      · rw [e3, List.map_append, List.nodup_append]
        refine ⟨hi.anodup, by simp, ?_⟩
        intro y hy b hb e
        simp at hb
        obtain ⟨⟨w, z⟩, hz, hw⟩ := List.mem_map.1 hy
        simp only at hw
        rw [hw, e, hb] at hz
        exact hna z hz
      · intro y z hz
        rw [e3, List.mem_append, List.mem_singleton, Prod.mk.injEq] at hz
        rcases hz with hz | ⟨rfl, rfl⟩
        · exact (hi.just y z hz).mono _
        · exact hj
      · intro y z hz
        rw [e2] at hz
        split at hz
        · rename_i hy; subst hy; exact husd _ (hi.used _ _ hq0)
        · exact husd _ (hi.used y z hz)
    | processGone p =>
      simp only [Srv.step] at hs
      split at hs
      · rename_i us hus
        cases hs
        have hmem : ∀ y, y ∈ (sv.pending.filter (fun x => decide (x.2 = p))).map (·.1) ↔
            sv.pending.get? y = some p := by
          intro y
          simp only [List.mem_map, List.mem_filter, decide_eq_true_eq]
          constructor
          · rintro ⟨⟨a, b⟩, ⟨h1, rfl⟩, rfl⟩
            exact PyDict.get?_of_mem hi.pnodup h1
          · intro h1
            exact ⟨(y, p), ⟨PyDict.mem_of_get? h1, rfl⟩, rfl⟩
        have hs1 := removeProcessSettings_same cfg
          (failAll sv ((sv.pending.filter (fun x => decide (x.2 = p))).map (·.1))) p
        have hs2 := failAll_same ((sv.pending.filter (fun x => decide (x.2 = p))).map (·.1)) sv
        have hg := failAll_get? ((sv.pending.filter (fun x => decide (x.2 = p))).map (·.1)) sv
        have e1 : ∀ y, (processGone cfg sv p).pending.get? y =
            if sv.pending.get? y = some p then none else sv.pending.get? y := by
          intro y
          rw [processGone_eq cfg sv p hus]
          simp only [logTopology_pending, hs1.pending, (hg y).1, hmem]
        have e2 : ∀ y, (processGone cfg sv p).requests.get? y =
            if sv.pending.get? y = some p then
              (sv.requests.get? y).map (fun q => { q with fut := q.fut.complete .disconnected })
            else sv.requests.get? y := by
          intro y
          rw [processGone_eq cfg sv p hus]
          simp only [logTopology_requests, hs1.requests, (hg y).2, hmem]
        have e3 : (processGone cfg sv p).answers = sv.answers := by
          rw [processGone_eq cfg sv p hus]
          simp only [logTopology_answers, hs1.answers, hs2.answers]
        have hnd : (processGone cfg sv p).pending.keys.Nodup := by
          rw [processGone_eq cfg sv p hus]
          simp only [logTopology_pending, hs1.pending]
          exact failAll_nodup _ _ hi.pnodup
        have hcl : ∀ y, (processGone cfg sv p).clients.get? y =
            if y = p then none else sv.clients.get? y := by
          intro y
          rw [processGone_eq cfg sv p hus]
          exact PyDict.get?_pop _ _ _
        -- what became of a request
        have e2' : ∀ y z, (processGone cfg sv p).requests.get? y = some z →
            ∃ z0, sv.requests.get? y = some z0 ∧ z.task = z0.task ∧
              ((sv.pending.get? y = some p ∧ z.fut = z0.fut.complete .disconnected) ∨
               (sv.pending.get? y ≠ some p ∧ z.fut = z0.fut)) := by
          intro y z hz
          rw [e2] at hz
          split at hz
          · rename_i hp
            obtain ⟨z0, hz0, rfl⟩ := Option.map_eq_some_iff.1 hz
            exact ⟨z0, hz0, rfl, Or.inl ⟨hp, rfl⟩⟩
          · rename_i hp
            exact ⟨z, hz, rfl, Or.inr ⟨hp, rfl⟩⟩
        have hcomp : ∀ {f g : Fut I V} {x : Response I V}, g = f.complete x → g ≠ .waiting := by
          intro f g x hg; cases f <;> simp [hg, Fut.complete]
        constructor
        · exact hnd
        · intro y p' hp
          rw [e1] at hp
          split at hp
          · cases hp
          · rename_i hy
            obtain ⟨h1, h2, h3⟩ := hi.pend y p' hp
            have : p' ≠ p := by rintro rfl; exact hy hp
            rw [e2, if_neg hy, hcl, if_neg this]
            exact ⟨h1.mono ⟨by simp, by simp [Ne.symm this]⟩, h2, h3⟩
        · intro y z hz hf ht
          obtain ⟨z0, hz0, htk, ⟨hp, hfu⟩ | ⟨hp, hfu⟩⟩ := e2' y z hz
          · exact absurd hf (hcomp hfu)
          · rw [e1, if_neg hp]
            exact hi.wait y z0 hz0 (hfu ▸ hf) (htk ▸ ht)
        · intro y z hz hf
          obtain ⟨z0, hz0, htk, ⟨hp, hfu⟩ | ⟨hp, hfu⟩⟩ := e2' y z hz
          · rw [htk]
            refine hi.live y z0 hz0 ?_
            rw [hf] at hfu
            cases hz' : z0.fut <;> simp [hz', Fut.complete] at hfu ⊢
          · rw [htk]; exact hi.live y z0 hz0 (hfu ▸ hf)
        · intro y z hz hf
          obtain ⟨z0, hz0, htk, ⟨hp, hfu⟩ | ⟨hp, hfu⟩⟩ := e2' y z hz
          · exact absurd hf (hcomp hfu)
          · rw [htk]; exact hi.busy y z0 hz0 (hfu ▸ hf)
        · intro y z w hz hf
          obtain ⟨z0, hz0, htk, ⟨hp, hfu⟩ | ⟨hp, hfu⟩⟩ := e2' y z hz
          · obtain ⟨⟨pre, u, post, sv0, h1, h2, h3, h3'⟩, _, q1, h4, h5⟩ := hi.pend y p hp
            rw [hz0] at h4; cases h4
            rw [hf] at hfu
            rcases h5 with ⟨h5, _⟩ | ⟨h5, _⟩
            · simp only [h5, Fut.complete, Fut.result.injEq] at hfu
              subst hfu
              exact ⟨pre, u, true, post ++ [(Act.processGone p, .complete)], sv0, by simp [h1], h2, rfl,
                p, h3, post, [], by simp, h3'⟩
            · simp [h5, Fut.complete] at hfu
          · exact (hi.result y z0 w hz0 (hfu ▸ hf)).mono _
        · intro y z hz ht
          obtain ⟨z0, hz0, htk, _⟩ := e2' y z hz
          obtain ⟨p', hp'⟩ := hi.sent y z0 hz0 (htk ▸ ht)
          exact ⟨p', hp'.mono _⟩
        · intro y z hz ht
          obtain ⟨z0, hz0, htk, _⟩ := e2' y z hz
          obtain ⟨p', hp'⟩ := hi.timed y z0 hz0 (htk ▸ ht)
          exact ⟨p', hp'.mono _⟩
        · intro y z
          rw [e3, e2, hi.finished]
          split
          · cases hq : sv.requests.get? y <;> simp
          · rfl
        · rw [e3]; exact hi.anodup
        · intro y z hz; rw [e3] at hz; exact (hi.just y z hz).mono _
        · intro y z hz
          obtain ⟨z0, hz0, _⟩ := e2' y z hz
          exact husd _ (hi.used y z0 hz0)
      · cases hs
    | _ => exact absurd rfl ha

theorem run_reqInv {cfg : Cfg} {h : List (Act T I A V × Reply)} {sv : Server T I A V} (hr : Run cfg h sv) :
    ReqInv cfg h sv := by
  induction hr with
  | init => exact reqInv_init cfg
  | step hr hs ih => exact ih.step hr hs

/-- A request that was made is not forgotten. -/
theorem requests_issued {cfg : Cfg} {h : List (Act T I A V × Reply)} {sv : Server T I A V} (hr : Run cfg h sv)
    {r : I} {u : A} {ok : Bool} {x : Reply} (hm : (Act.request r u ok, x) ∈ h) :
    ∃ q, sv.requests.get? r = some q := by
  have modSome : ∀ {d : PyDict I (Req I V)} {r k : I} {f : Req I V → Req I V},
      (∃ q, d.get? r = some q) → ∃ q, (d.modify k f).get? r = some q := by
    rintro d r k f ⟨q, hq⟩
    rw [PyDict.get?_modify, hq]
    split <;> exact ⟨_, rfl⟩
  have setSome : ∀ {d : PyDict I (Req I V)} {r k : I} {v : Req I V},
      (r = k ∨ ∃ q, d.get? r = some q) → ∃ q, (d.set k v).get? r = some q := by
    rintro d r k v hq
    rw [PyDict.get?_set]
    split
    · exact ⟨_, rfl⟩
    · rename_i hne
      exact hq.resolve_left hne
  induction hr with
  | init => simp at hm
  | @step h sv a y sv' hr hs ih =>
    have hinv := (run_inv hr).1
    rw [List.mem_append, List.mem_singleton, Prod.mk.injEq] at hm
    rcases hm with hm | ⟨rfl, rfl⟩
    · have ih := ih hm
      by_cases ha : a.concernsRequests = false
      · rw [(requests_unchanged hinv hs ha).2.1]; exact ih
      · cases a with
        | request q u ok =>
          simp only [Srv.step] at hs; split at hs <;> cases hs
          unfold route
          simp only
          split
          · simp only [finish, setResult]; exact modSome (setSome (Or.inr ih))
          · split
            · exact setSome (Or.inr ih)
            · simp only [finish, setResult]; exact modSome (setSome (Or.inr ih))
        | response p q v =>
          simp only [Srv.step] at hs; split at hs <;> cases hs
          unfold routeResponse
          split
          · exact ih
          · simp only
            split <;> (simp only [finish, setResult]; exact modSome ih)
        | timeout q =>
          simp only [Srv.step] at hs; split at hs <;> cases hs
          exact setSome (Or.inr ih)
        | resume q =>
          simp only [Srv.step] at hs
          split at hs <;> cases hs <;> (simp only [finish, setResult]; exact modSome ih)
        | processGone p =>
          simp only [Srv.step] at hs
          split at hs
          · rename_i us hus
            cases hs
            rw [processGone_eq cfg sv p hus]
            simp only [logTopology_requests]
            rw [(removeProcessSettings_same cfg _ p).requests, (failAll_get? _ sv r).2]
            obtain ⟨q, hq⟩ := ih
            rw [hq]
            split <;> exact ⟨_, rfl⟩
          · cases hs
        | _ => exact absurd rfl ha
    · simp only [Srv.step] at hs; split at hs <;> cases hs
      unfold route
      simp only
      split
      · simp only [finish, setResult]; exact modSome (setSome (Or.inl rfl))
      · split
        · exact setSome (Or.inl rfl)
        · simp only [finish, setResult]; exact modSome (setSome (Or.inl rfl))

/-- **C30 (at most once).** No request is answered twice. -/
theorem C30_answered_at_most_once {cfg : Cfg} {h : List (Act T I A V × Reply)} {sv : Server T I A V}
    (hr : Run cfg h sv) : (sv.answers.map (·.1)).Nodup := (run_reqInv hr).anodup

/-- **C30 (by whom), partial.** Every answer given is justified: the request was routed to the process
that owned the unit at that moment, and the answer is that process's response (the first response anyone
sent to this request), or a timeout, or that process disconnecting before any response, or an immediate
refusal (nobody owns the unit; the request could not be written).
Missing: the property rules out `invalid`, by which a response of a foreign process completes the
request; see `C30_foreign_response_completes`. -/
theorem C30_answers_justified_partial {cfg : Cfg} {h : List (Act T I A V × Reply)} {sv : Server T I A V}
    (hr : Run cfg h sv) (r : I) (x : Response I V) (hx : (r, x) ∈ sv.answers) : Justified cfg h r x :=
  (run_reqInv hr).just r x hx

/-- **C30 without forged responses.** If processes respond only to requests sent to them, no request is
answered otherwise than by its process, a timeout, its process disconnecting, or a refusal. -/
theorem C30_no_forgery_no_invalid {cfg : Cfg} {h : List (Act T I A V × Reply)} {sv : Server T I A V}
    (hr : Run cfg h sv)
    (honest : ∀ pre r u post sv0 p q v, h = pre ++ (.request r u true, .complete) :: post → Run cfg pre sv0 →
      OwnsUnit sv0 p u → (.response q r v, .complete) ∈ post → q = p)
    (r : I) : (r, Response.invalid) ∉ sv.answers := by
  intro hx
  obtain ⟨pre, u, ok, post, sv0, h1, h2, rfl, p, q, v, h3, h4, l, l', h5, _⟩ :=
    (run_reqInv hr).just r _ hx
  exact h4 (honest pre r u post sv0 p q v h1 h2 h3 (by rw [h5]; simp))

/-- **C30 (at least once).** A request that was made has been answered, or its answer is there and will be
given when its caller goes on, or it waits for a process that is still connected and has not responded;
a waiting request can always time out, and is then answered. -/
theorem C30_never_left_hanging {cfg : Cfg} {h : List (Act T I A V × Reply)} {sv : Server T I A V}
    (hr : Run cfg h sv) {r : I} {u : A} {ok : Bool} {y : Reply} (hm : (Act.request r u ok, y) ∈ h) :
    (∃ x, (r, x) ∈ sv.answers) ∨
    (∃ sv' x, step cfg sv (.resume r) = some (sv', .complete) ∧ (r, x) ∈ sv'.answers) ∨
    (∃ p us, (p, Client.process us) ∈ sv.clients ∧ OpenAt cfg h r p ∧
      ∃ sv' sv'', step cfg sv (.timeout r) = some (sv', .complete) ∧
        step cfg sv' (.resume r) = some (sv'', .complete) ∧ (r, Response.timeout) ∈ sv''.answers) := by
  have hi := run_reqInv hr
  obtain ⟨⟨f, t⟩, hq⟩ := requests_issued hr hm
  cases t with
  | finished x => exact Or.inl ⟨x, (hi.finished r x).2 ⟨_, hq, rfl⟩⟩
  | timedOut =>
    refine Or.inr (Or.inl ⟨_, .timeout, by simp only [Srv.step, hq]; rfl, ?_⟩)
    simp [finish]
  | waiting =>
    cases f with
    | result x =>
      refine Or.inr (Or.inl ⟨_, x, by simp only [Srv.step, hq]; rfl, ?_⟩)
      simp [finish]
    | cancelled => exact absurd rfl (hi.live r _ hq rfl)
    | waiting =>
      obtain ⟨p, hp⟩ := hi.wait r _ hq rfl rfl
      obtain ⟨h1, ⟨us, h2⟩, _⟩ := hi.pend r p hp
      refine Or.inr (Or.inr ⟨p, us, PyDict.mem_of_get? h2, h1,
        { sv with requests := sv.requests.set r { fut := .cancelled, task := .timedOut } },
        finish { sv with
          requests := sv.requests.set r { fut := .cancelled, task := .timedOut }
          pending := sv.pending.pop r } r .timeout, ?_, ?_, ?_⟩)
      · simp only [Srv.step, hq]; rfl
      · simp only [Srv.step, PyDict.get?_set, if_true]
      · simp [finish]

/-- **C30 (late and unknown responses).** A response to a request that was never made, or was already
answered, changes nothing at all, whoever sends it. -/
theorem C30_late_or_unknown_ignored {cfg : Cfg} {h : List (Act T I A V × Reply)} {sv sv' : Server T I A V}
    (hr : Run cfg h sv) {p r : I} {v : V} {y : Reply}
    (hold : (∀ u ok, (Act.request r u ok, Reply.complete) ∉ h) ∨ ∃ x, (r, x) ∈ sv.answers)
    (hs : step cfg sv (.response p r v) = some (sv', y)) : sv' = sv := by
  have hi := run_reqInv hr
  have hp : sv.pending.get? r = none := by
    cases hp : sv.pending.get? r with
    | none => rfl
    | some p =>
      obtain ⟨⟨pre, u, post, sv0, h1, _⟩, _, q, hq, hst⟩ := hi.pend r p hp
      rcases hold with hold | ⟨x, hx⟩
      · exact absurd (by rw [h1]; simp) (hold u true)
      · obtain ⟨q', hq', ht⟩ := (hi.finished r x).1 hx
        rw [hq] at hq'; cases hq'
        rcases hst with ⟨_, h⟩ | ⟨_, h⟩ <;> rw [h] at ht <;> cases ht
  simp only [Srv.step] at hs
  split at hs
  · cases hs; unfold routeResponse; rw [hp]
  · cases hs

/-- **C30 fails for forged responses.** A response of process 2 to a request sent to process 1 completes
the request; the answer process 1 then gives is dropped. -/
theorem C30_foreign_response_completes :
    ∃ (h : List (Act Nat Nat Nat Nat × Reply)) (sv : Server Nat Nat Nat Nat),
      Run { settingsLimit := 10, topologyLimit := 10, queueSize := 4 } h sv ∧
      h.map (·.1) = [.openProcess 1, .openProcess 2, .registerProcess 1 [10], .request 7 10 true,
        .response 2 7 0, .response 1 7 5, .resume 7] ∧
      sv.answers = [(7, .invalid)] := by
  have he : ((exec (T := Nat) (I := Nat) (A := Nat) (V := Nat)
      { settingsLimit := 10, topologyLimit := 10, queueSize := 4 }
      [.openProcess 1, .openProcess 2, .registerProcess 1 [10], .request 7 10 true,
        .response 2 7 0, .response 1 7 5, .resume 7]).map (fun x => (x.1.map (·.1), x.2.answers))) =
      some ([.openProcess 1, .openProcess 2, .registerProcess 1 [10], .request 7 10 true,
        .response 2 7 0, .response 1 7 5, .resume 7], [(7, .invalid)]) := by
    srv_eval
  obtain ⟨⟨h, sv⟩, h1, h2⟩ := Option.map_eq_some_iff.1 he
  simp only [Prod.mk.injEq] at h2
  exact ⟨h, sv, exec_run h1, h2.1, h2.2⟩

/-- Four requests: answered by the process although a second response follows, timed out although the
response comes late, answered by the disconnect, and refused. -/
example :
    (exec (T := Nat) (I := Nat) (A := Nat) (V := Nat)
      { settingsLimit := 10, topologyLimit := 10, queueSize := 4 }
      [.openProcess 1, .registerProcess 1 [10], .request 7 10 true, .response 1 7 5, .response 1 7 6,
        .resume 7, .request 8 10 true, .timeout 8, .response 1 8 5, .resume 8, .request 9 10 true,
        .processGone 1, .resume 9, .request 6 10 true]).map (fun x => x.2.answers) =
    some [(7, .answer 1 5), (8, .timeout), (9, .disconnected), (6, .unroutable)] := by
  srv_eval

end Srv
end Ez
