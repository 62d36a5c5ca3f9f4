import Verif.Model.RouteRequest

/-!
# C94: a process answers every request routed to it, in order

The specification says for each operation what the response is, and compares the sequence of responses with the sequence of requests.
-/

set_option linter.unusedSectionVars false
set_option linter.unusedSimpArgs false

namespace Ez
namespace Route
variable {R P U : Type} [DecidableEq R] [DecidableEq P]

/-! ## Specification -/

/-- The operation asked for, given as member of the enumeration or by its name. -/
inductive Asks : OpArg → Op → Prop where
  | member (o : Op) : Asks (.member o) o
  | ping : Asks (.str "PING") .ping
  | stats : Asks (.str "GET_PROCESS_STATS") .stats
  | snapshot : Asks (.str "GET_PROFILING_SNAPSHOT") .snapshot
  | setTrace : Asks (.str "SET_PROFILING_TRACE") .setTrace
  | traceBatch : Asks (.str "GET_PROFILING_TRACE_BATCH") .traceBatch
  | updateField : Asks (.str "UPDATE_SETTING_FIELD") .updateField

/-- The process answers these itself. -/
def BuiltIn (q : Request R) : Prop := ∃ o, Asks q.op o ∧ o ≠ .updateField

/-- A response which says that the request failed, and why. -/
def Refused (st : St R P U) (q : Request R) (c : Code) (r : Response R P U) : Prop :=
  r = ⟨q.id, false, none, some c, some st.me⟩

/-- What the handler returned, if that is a response. -/
def Handled.result : Handled R P U → Option (Response R P U)
  | .response r => some r
  | .coroutine r => some r
  | _ => none

/-- The requests among what arrives. -/
def requests : List (Item R) → List (Request R)
  | [] => []
  | .request q :: is => q :: requests is
  | _ :: is => requests is

/-- The acknowledgements among what arrives. -/
def acks : List (Item R) → List Bool
  | [] => []
  | .ack b :: is => b :: acks is
  | _ :: is => acks is

/-- The responses that were written. -/
def answers (es : List (Ev R P U)) : List (Response R P U) :=
  es.filterMap fun | .answer r => some r | .ack _ => none

/-- The acknowledgements that were passed on. -/
def passed (es : List (Ev R P U)) : List Bool :=
  es.filterMap fun | .ack b => some b | .answer _ => none

/-- The handler does not end the task with this request: it is not cancelled and what it returns can be pickled. -/
def Sound (f : Request R → Handled R P U) (q : Request R) : Prop :=
  f q ≠ .cancelled ∧ ∀ r, (f q).result = some r → r.payload ≠ some (.custom false)

/-! ## Lemmas -/

theorem asks_iff (a : OpArg) (o : Op) : Asks a o ↔ a.resolve = some o := by
  constructor
  · intro h
    cases h <;> first | rfl | decide
  · intro h
    cases a with
    | member o' => cases h; exact .member _
    | other => cases h
    | str s =>
      simp only [OpArg.resolve, Op.ofString] at h
      repeat (split at h; (rename_i e; subst e; cases h; constructor))
      cases h

theorem builtIn_iff (q : Request R) : BuiltIn q ↔ q.op.resolve ≠ none ∧ q.op.resolve ≠ some .updateField := by
  unfold BuiltIn
  simp only [asks_iff]
  cases q.op.resolve <;> simp

theorem handle_handler {st : St R P U} {q : Request R} (h : ¬ BuiltIn q) : (handle st q) = (st,
    match st.handler with
    | none => some (refuse st q .handlerNotConfigured)
    | some f =>
      match f q with
      | .raises => some (refuse st q .handlerError)
      | .cancelled => none
      | .response r => some (check st q (some r))
      | .coroutine r => some (check st q (some r))
      | .object => some (check st q none)
      | .coroutineObject => some (check st q none)
      | .future _ => some (check st q none)) := by
  rw [builtIn_iff] at h
  unfold handle
  cases ho : q.op.resolve with
  | none =>
    simp only
    cases st.handler with
    | none => rfl
    | some f => simp only; cases f q <;> rfl
  | some o =>
    have : o = .updateField := by
      cases o <;> simp_all
    subst this
    simp only
    cases st.handler with
    | none => rfl
    | some f => simp only; cases f q <;> rfl

/-! ## Theorems: one request -/

/-- C94: what a process answers itself, whether the operation is given as member or by name. -/
theorem C94_built_in (st : St R P U) (q : Request R) :
    (Asks q.op .ping → (handle st q).2 = some ⟨q.id, true, some (.ping st.me), none, some st.me⟩) ∧
    (Asks q.op .stats → (handle st q).2 = some ⟨q.id, true, some (.stats st.me st.units), none, some st.me⟩) ∧
    (Asks q.op .snapshot → (handle st q).2 = some ⟨q.id, true, some .snapshot, none, some st.me⟩) ∧
    (Asks q.op .setTrace → ∀ on, q.payload = some (.control on) → (handle st q).2 = some ⟨q.id, true, none, none, some st.me⟩ ∧
      (handle st q).1.tracing = on ∧ (handle st q).1.pushing = on) ∧
    (Asks q.op .setTrace → (∀ on, q.payload ≠ some (.control on)) → (∃ r, (handle st q).2 = some r ∧ Refused st q .invalidResponse r) ∧
      (handle st q).1 = st) ∧
    (Asks q.op .traceBatch → ∃ n, 1 ≤ n ∧ (handle st q).2 = some ⟨q.id, true, some (.batch n), none, some st.me⟩ ∧
      (∀ m, q.payload = some (.int m) → 1 ≤ m → n = m) ∧ ((∀ m, q.payload ≠ some (.int m)) → n = 1000)) := by
  simp only [asks_iff]
  refine ⟨?_, ?_, ?_, ?_, ?_, ?_⟩
  · intro h; simp [handle, h]
  · intro h; simp [handle, h]
  · intro h; simp [handle, h]
  · intro h on hp; simp [handle, h, hp]
  · intro h hp
    have e : handle st q = (st, some (refuse st q .invalidResponse)) := by
      unfold handle
      rw [h]
      simp only
    rw [e]
    exact ⟨⟨_, rfl, rfl⟩, rfl⟩
  · intro h
    refine ⟨match q.payload with | some (.int n) => max 1 n | _ => 1000, ?_, ?_, ?_, ?_⟩
    · split <;> omega
    · simp only [handle, h]
      cases hp : q.payload with
      | none => rfl
      | some l => cases l <;> rfl
    · intro m hm h1; rw [hm]; simp only; omega
    · intro hp
      split
      · rename_i n e; exact absurd e (hp n)
      · rfl

/-- C94: other requests go to the handler. Its response is passed on, with the id of the process if it has none; what is no response to
this request, and exceptions, become refusals; so does everything if there is no handler. -/
theorem C94_handler (st : St R P U) (q : Request R) (hq : ¬ BuiltIn q) :
    (st.handler = none → ∃ r, (handle st q).2 = some r ∧ Refused st q .handlerNotConfigured r) ∧
    ∀ f, st.handler = some f →
      (f q = .raises → ∃ r, (handle st q).2 = some r ∧ Refused st q .handlerError r) ∧
      (∀ r, (f q).result = some r → r.id = q.id →
        (handle st q).2 = some { r with process := some (r.process.getD st.me) }) ∧
      (∀ r, (f q).result = some r → r.id ≠ q.id → ∃ r, (handle st q).2 = some r ∧ Refused st q .invalidResponse r) ∧
      (f q ≠ .raises → f q ≠ .cancelled → (f q).result = none → ∃ r, (handle st q).2 = some r ∧ Refused st q .invalidResponse r) := by
  rw [handle_handler hq]
  constructor
  · intro h; simp [h, Refused, refuse]
  · intro f hf
    simp only [hf]
    refine ⟨?_, ?_, ?_, ?_⟩
    · intro h; simp [h, Refused, refuse]
    · intro r hr hid
      have e : (check st q (some r)) = { r with process := some (r.process.getD st.me) } := by
        obtain ⟨i, o, p, c, pr⟩ := r
        cases hid
        cases pr <;> simp [check]
      cases h : f q <;> rw [h] at hr <;> simp only [Handled.result, Option.some.injEq, reduceCtorEq] at hr
      · subst hr; simp [e]
      · subst hr; simp [e]
    · intro r hr hid
      have e : (check st q (some r)) = refuse st q .invalidResponse := by
        simp [check, hid, refuse]
      cases h : f q <;> rw [h] at hr <;> simp only [Handled.result, Option.some.injEq, reduceCtorEq] at hr
      · subst hr; exact ⟨_, rfl, e⟩
      · subst hr; exact ⟨_, rfl, e⟩
    · intro h1 h2 h3
      cases h : f q <;> rw [h] at h1 h2 h3 <;> simp only [Handled.result, reduceCtorEq, ne_eq, not_true] at h1 h2 h3 <;>
        exact ⟨_, rfl, rfl⟩

/-- C94: a response is always one to the request, and says which process it comes from; that is the process itself, unless the handler
named another. -/
theorem C94_response {st : St R P U} {q : Request R} {r : Response R P U} (h : (handle st q).2 = some r) :
    r.id = q.id ∧ ∃ p, r.process = some p ∧
      (p = st.me ∨ ¬ BuiltIn q ∧ ∃ f r', st.handler = some f ∧ (f q).result = some r' ∧ r'.process = some p) := by
  by_cases hq : BuiltIn q
  · have hb := (builtIn_iff q).1 hq
    unfold handle at h
    split at h
    · cases h; exact ⟨rfl, _, rfl, .inl rfl⟩
    · cases h; exact ⟨rfl, _, rfl, .inl rfl⟩
    · cases h; exact ⟨rfl, _, rfl, .inl rfl⟩
    · split at h <;> cases h <;> exact ⟨rfl, _, rfl, .inl rfl⟩
    · cases h; exact ⟨rfl, _, rfl, .inl rfl⟩
    · rename_i h1 h2 h3 h4 h5
      exfalso
      cases ho : q.op.resolve with
      | none => exact hb.1 ho
      | some o => cases o <;> simp_all
  · obtain ⟨h0, hf⟩ := C94_handler st q hq
    cases hh : st.handler with
    | none =>
      obtain ⟨r', h1, h2⟩ := h0 hh
      rw [h] at h1; cases h1
      rw [h2]
      exact ⟨rfl, _, rfl, .inl rfl⟩
    | some f =>
      obtain ⟨g1, g2, g3, g4⟩ := hf f hh
      have refused : ∀ c, (∃ r, (handle st q).2 = some r ∧ Refused st q c r) → r.id = q.id ∧ ∃ p, r.process = some p ∧
          (p = st.me ∨ ¬ BuiltIn q ∧ ∃ f' r', some f = some f' ∧ (f' q).result = some r' ∧ r'.process = some p) := by
        rintro c ⟨r', h1, h2⟩
        rw [h] at h1; cases h1
        rw [h2]
        exact ⟨rfl, _, rfl, .inl rfl⟩
      cases hr : (f q).result with
      | some r' =>
        by_cases hid : r'.id = q.id
        · have := g2 r' hr hid
          rw [h] at this
          cases this
          refine ⟨hid, _, rfl, ?_⟩
          cases hp : r'.process with
          | none => exact .inl rfl
          | some p => exact .inr ⟨hq, f, r', rfl, hr, hp⟩
        · exact refused _ (g3 r' hr hid)
      | none =>
        by_cases h1 : f q = .raises
        · exact refused _ (g1 h1)
        · by_cases h2 : f q = .cancelled
          · rw [handle_handler hq] at h
            simp [hh, h2] at h
          · exact refused _ (g4 h1 h2 hr)

/-! ## Theorems: all requests -/

/-- C94: whatever arrives and whatever the handler does, the responses that are written are, one for each, responses to the first requests, in
order; and the acknowledgements that are passed on are the first that arrived. -/
theorem C94_in_order (st : St R P U) (is : List (Item R)) :
    (answers (ioLoop st is).1).map (·.id) <+: (requests is).map (·.id) ∧ passed (ioLoop st is).1 <+: acks is := by
  induction is generalizing st with
  | nil => exact ⟨List.prefix_rfl, List.prefix_rfl⟩
  | cons i is ih =>
    cases i with
    | ack b =>
      obtain ⟨h1, h2⟩ := ih st
      exact ⟨h1, (List.prefix_cons_inj b).2 h2⟩
    | unknown => exact ih st
    | unreadable => exact ih st
    | request q =>
      simp only [ioLoop, requests, acks]
      cases h : (handle st q).2 with
      | none => simp [answers, passed]
      | some r =>
        simp only
        by_cases hp : picklable r = true
        · rw [if_pos hp]
          obtain ⟨h1, h2⟩ := ih (handle st q).1
          refine ⟨?_, h2⟩
          show (r :: answers _).map (·.id) <+: _
          rw [List.map_cons, List.map_cons, (C94_response h).1]
          exact (List.prefix_cons_inj _).2 h1
        · rw [if_neg hp]; simp [answers, passed]

theorem handle_only {st st' : St R P U} (hm : st'.me = st.me) (hu : st'.units = st.units) (hh : st'.handler = st.handler) (q : Request R) :
    (handle st' q).2 = (handle st q).2 := by
  have hc : ∀ r, check st' q r = check st q r := by intro r; unfold check refuse; rw [hm]
  have hr : ∀ c, refuse st' q c = refuse st q c := by intro c; unfold refuse; rw [hm]
  have hH : ∀ o : Option (Request R → Handled R P U), (match (generalizing := false) o with
      | none => ((st', some (refuse st q .handlerNotConfigured)) : St R P U × Option (Response R P U))
      | some f =>
        match f q with
        | .raises => (st', some (refuse st q .handlerError))
        | .cancelled => (st', none)
        | .response r => (st', some (check st q (some r)))
        | .coroutine r => (st', some (check st q (some r)))
        | .object => (st', some (check st q none))
        | .coroutineObject => (st', some (check st q none))
        | .future _ => (st', some (check st q none))).2 = (match (generalizing := false) o with
      | none => ((st, some (refuse st q .handlerNotConfigured)) : St R P U × Option (Response R P U))
      | some f =>
        match f q with
        | .raises => (st, some (refuse st q .handlerError))
        | .cancelled => (st, none)
        | .response r => (st, some (check st q (some r)))
        | .coroutine r => (st, some (check st q (some r)))
        | .object => (st, some (check st q none))
        | .coroutineObject => (st, some (check st q none))
        | .future _ => (st, some (check st q none))).2 := by
    intro o
    cases o with
    | none => rfl
    | some f => simp only; cases f q <;> rfl
  unfold handle
  rw [hh]
  simp only [hc, hr, hm, hu]
  cases q.op.resolve with
  | none => exact hH _
  | some o =>
    cases o with
    | updateField => exact hH _
    | setTrace => simp only; cases q.payload with
      | none => rfl
      | some l => cases l <;> rfl
    | _ => rfl

/-- C94: and what is written for a request is what `C94_built_in` and `C94_handler` say about it, whatever was asked before. -/
theorem C94_each (st : St R P U) (is : List (Item R)) :
    (answers (ioLoop st is).1).map some <+: (requests is).map (fun q => (handle st q).2) := by
  induction is generalizing st with
  | nil => exact List.prefix_rfl
  | cons i is ih =>
    cases i with
    | ack b => exact ih st
    | unknown => exact ih st
    | unreadable => exact ih st
    | request q =>
      simp only [ioLoop, requests]
      cases h : (handle st q).2 with
      | none => simp [answers]
      | some r =>
        simp only
        by_cases hp : picklable r = true
        · rw [if_pos hp]
          have h1 := ih (handle st q).1
          have e : (fun q' => (handle (handle st q).1 q').2) = fun q' => (handle st q').2 := by
            funext q'
            obtain ⟨a, b, c⟩ : (handle st q).1.me = st.me ∧ (handle st q).1.units = st.units ∧ (handle st q).1.handler = st.handler := by
              unfold handle
              repeat (first | split | exact ⟨rfl, rfl, rfl⟩)
            exact handle_only a b c q'
          rw [e] at h1
          show some r :: (answers _).map some <+: _
          rw [List.map_cons, h]
          exact (List.prefix_cons_inj _).2 h1
        · rw [if_neg hp]; simp [answers]

theorem handle_handler_same (st : St R P U) (q : Request R) :
    (handle st q).1.handler = st.handler ∧ (handle st q).1.me = st.me := by
  unfold handle
  repeat (first | split | exact ⟨rfl, rfl⟩)

theorem custom_of {st : St R P U} {q : Request R} {r : Response R P U} {b : Bool} (h : (handle st q).2 = some r)
    (hb : r.payload = some (.custom b)) : ¬ BuiltIn q ∧ ∃ f r', st.handler = some f ∧ (f q).result = some r' ∧ r'.payload = some (.custom b) := by
  by_cases hq : BuiltIn q
  · exfalso
    have hbi := (builtIn_iff q).1 hq
    unfold handle at h
    split at h
    · cases h; cases hb
    · cases h; cases hb
    · cases h; cases hb
    · split at h <;> cases h <;> cases hb
    · cases h; cases hb
    · rename_i h1 h2 h3 h4 h5
      cases ho : q.op.resolve with
      | none => exact hbi.1 ho
      | some o => cases o <;> simp_all
  · refine ⟨hq, ?_⟩
    obtain ⟨h0, hf⟩ := C94_handler st q hq
    cases hh : st.handler with
    | none =>
      obtain ⟨r', h1, h2⟩ := h0 hh
      rw [h] at h1; cases h1
      rw [h2] at hb; cases hb
    | some f =>
      obtain ⟨g1, g2, g3, g4⟩ := hf f hh
      have refused : ∀ c, ¬ ∃ r, (handle st q).2 = some r ∧ Refused st q c r := by
        rintro c ⟨r', h1, h2⟩
        rw [h] at h1; cases h1
        rw [h2] at hb; cases hb
      cases hr : (f q).result with
      | some r' =>
        by_cases hid : r'.id = q.id
        · have := g2 r' hr hid
          rw [h] at this
          cases this
          exact ⟨f, r', rfl, hr, hb⟩
        · exact absurd (g3 r' hr hid) (refused _)
      | none =>
        by_cases h1 : f q = .raises
        · exact absurd (g1 h1) (refused _)
        · by_cases h2 : f q = .cancelled
          · rw [handle_handler hq] at h
            simp [hh, h2] at h
          · exact absurd (g4 h1 h2 hr) (refused _)

/-- C94, partial: as long as the handler is not cancelled and returns responses that can be pickled, every readable request gets its
response, every acknowledgement is passed on, and the task goes on reading. Missing: `C94_ends`, and requests that cannot be read
(`C94_unreadable`). -/
theorem C94_answered_partial (st : St R P U) (is : List (Item R))
    (hs : ∀ f, st.handler = some f → ∀ q ∈ requests is, ¬ BuiltIn q → Sound f q) :
    (answers (ioLoop st is).1).map (·.id) = (requests is).map (·.id) ∧ passed (ioLoop st is).1 = acks is ∧ (ioLoop st is).2.isSome := by
  induction is generalizing st with
  | nil => exact ⟨rfl, rfl, rfl⟩
  | cons i is ih =>
    cases i with
    | ack b =>
      obtain ⟨h1, h2, h3⟩ := ih st hs
      exact ⟨h1, congrArg (b :: ·) h2, h3⟩
    | unknown => exact ih st hs
    | unreadable => exact ih st hs
    | request q =>
      simp only [ioLoop, requests, acks]
      have hq : ∀ f, st.handler = some f → ¬ BuiltIn q → Sound f q := fun f hf => hs f hf q (by simp [requests])
      cases h : (handle st q).2 with
      | none =>
        exfalso
        by_cases hb : BuiltIn q
        · have hbi := (builtIn_iff q).1 hb
          unfold handle at h
          split at h
          · cases h
          · cases h
          · cases h
          · split at h <;> cases h
          · cases h
          · rename_i h1 h2 h3 h4 h5
            cases ho : q.op.resolve with
            | none => exact hbi.1 ho
            | some o => cases o <;> simp_all
        · rw [handle_handler hb] at h
          cases hh : st.handler with
          | none => simp [hh] at h
          | some f =>
            have := (hq f hh hb).1
            cases hf : f q <;> simp_all
      | some r =>
        simp only
        have hp : picklable r = true := by
          unfold picklable
          split
          · rename_i b hb
            cases b with
            | true => rfl
            | false =>
              obtain ⟨h1, f, r', h2, h3, h4⟩ := custom_of h hb
              exact absurd h4 ((hq f h2 h1).2 r' h3)
          · rfl
        rw [if_pos hp]
        obtain ⟨h1, h2, h3⟩ := ih (handle st q).1 (by
          rw [(handle_handler_same st q).1]
          exact fun f hf q' hq' => hs f hf q' (by simp [requests, hq']))
        refine ⟨?_, h2, h3⟩
        show (r :: answers _).map (·.id) = _
        rw [List.map_cons, List.map_cons, (C94_response h).1, h1]

/-- C94 is violated: a handler that is cancelled, or whose response cannot be pickled, ends the task: neither this request nor any later one is answered, and
no acknowledgement is passed on any more. -/
theorem C94_ends (st : St R P U) (f : Request R → Handled R P U) (hf : st.handler = some f) (q : Request R) (hq : ¬ BuiltIn q)
    (hb : f q = .cancelled ∨ ∃ r, (f q).result = some r ∧ r.id = q.id ∧ r.payload = some (.custom false)) (is : List (Item R)) :
    ioLoop st (.request q :: is) = ([], none) := by
  simp only [ioLoop]
  rcases hb with hb | ⟨r, h1, h2, h3⟩
  · rw [handle_handler hq]; simp [hf, hb]
  · rw [((C94_handler st q hq).2 f hf).2.1 r h1 h2]
    simp [picklable, h3]

/-- C94 is violated: a request that cannot be read gets no response at all. -/
theorem C94_unreadable (st : St R P U) : ioLoop st [.unreadable] = ([], some st) := rfl

/-- C94 is violated: the declared type of handlers allows any awaitable, but only coroutines are awaited; a handler that returns a future with a proper
response is refused. -/
theorem C94_future (st : St R P U) (f : Request R → Handled R P U) (hf : st.handler = some f) (q : Request R) (hq : ¬ BuiltIn q)
    (r : Response R P U) (h : f q = .future r) : ∃ r', (handle st q).2 = some r' ∧ Refused st q .invalidResponse r' :=
  ((C94_handler st q hq).2 f hf).2.2.2 (by simp [h]) (by simp [h]) (by simp [h, Handled.result])

/-- The setting of the trace that the last readable request for it asked for. -/
def lastControl (b : Bool) (qs : List (Request R)) : Bool :=
  qs.foldl (fun b q => match q.payload with
    | some (.control on) => if q.op = .member .setTrace ∨ q.op = .str "SET_PROFILING_TRACE" then on else b
    | _ => b) b

theorem setTrace_iff (a : OpArg) : (a = .member .setTrace ∨ a = .str "SET_PROFILING_TRACE") ↔ a.resolve = some .setTrace := by
  rw [← asks_iff]
  constructor
  · rintro (rfl | rfl) <;> constructor
  · intro h; cases h <;> simp

/-- C94: tracing, and pushing its samples, is on exactly if the last request about it said so. -/
theorem C94_tracing (st st' : St R P U) (is : List (Item R)) (h : (ioLoop st is).2 = some st') (hb : st.pushing = st.tracing) :
    st'.tracing = lastControl st.tracing (requests is) ∧ st'.pushing = st'.tracing := by
  induction is generalizing st with
  | nil => cases h; exact ⟨rfl, hb⟩
  | cons i is ih =>
    cases i with
    | ack b => exact ih st h hb
    | unknown => exact ih st h hb
    | unreadable => exact ih st h hb
    | request q =>
      simp only [ioLoop] at h
      cases hq : (handle st q).2 with
      | none => rw [hq] at h; cases h
      | some r =>
        rw [hq] at h
        simp only at h
        split at h
        · have e : (handle st q).1.pushing = (handle st q).1.tracing ∧ (handle st q).1.tracing = (match q.payload with
              | some (.control on) => if q.op = .member .setTrace ∨ q.op = .str "SET_PROFILING_TRACE" then on else st.tracing
              | _ => st.tracing) := by
            simp only [setTrace_iff]
            by_cases hbi : BuiltIn q
            · have hbi' := (builtIn_iff q).1 hbi
              unfold handle
              cases ho : q.op.resolve with
              | none => exact absurd ho hbi'.1
              | some o =>
                cases o with
                | updateField => exact absurd ho hbi'.2
                | setTrace =>
                  cases hp : q.payload with
                  | none => exact ⟨hb, rfl⟩
                  | some l => cases l <;> simp [hb]
                | _ =>
                  refine ⟨hb, ?_⟩
                  cases hp : q.payload with
                  | none => rfl
                  | some l => cases l <;> simp
            · rw [handle_handler hbi]
              refine ⟨hb, ?_⟩
              rw [builtIn_iff] at hbi
              have : q.op.resolve ≠ some .setTrace := by
                intro e; rw [e] at hbi; simp at hbi
              cases hp : q.payload with
              | none => rfl
              | some l => cases l <;> simp [this]
          have := ih (handle st q).1 h e.1
          rw [e.2] at this
          exact this
        · cases h

/-! ## Examples -/

/-- A handler that knows one request, returns a future for another, and is cancelled by a third. -/
def exampleHandler : Request Nat → Handled Nat Nat Nat := fun q =>
  if q.id = 1 then .coroutine ⟨1, true, some (.custom true), none, none⟩
  else if q.id = 2 then .future ⟨2, true, none, none, none⟩
  else if q.id = 3 then .cancelled
  else .raises

/-- Non-vacuity: requests of all kinds among acknowledgements. -/
example : ioLoop (⟨9, [4, 5], some exampleHandler, false, false⟩ : St Nat Nat Nat)
    [.ack true, .request ⟨0, .str "PING", none⟩, .unknown, .request ⟨1, .member .updateField, none⟩, .ack false, .unreadable, .request ⟨2, .str "NONE", none⟩,
      .request ⟨5, .member .setTrace, some (.control true)⟩] =
    ([.ack true, .answer ⟨0, true, some (.ping 9), none, some 9⟩, .answer ⟨1, true, some (.custom true), none, some 9⟩, .ack false,
      .answer ⟨2, false, none, some .invalidResponse, some 9⟩, .answer ⟨5, true, none, none, some 9⟩],
      some ⟨9, [4, 5], some exampleHandler, true, true⟩) := by
  rfl

example : (ioLoop (⟨9, [4, 5], some exampleHandler, false, false⟩ : St Nat Nat Nat)
    [.request ⟨3, .str "UPDATE_SETTING_FIELD", none⟩, .ack true, .request ⟨0, .str "PING", none⟩]).1 = [] := by rfl

end Route
end Ez
