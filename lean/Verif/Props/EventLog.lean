import Verif.Lemmas.Py
import Verif.Model.EventLog
import Verif.Props.Backpressure

/-!
# C31, C33: event logs and event streams

Specification: a history of log operations on an empty log. The `n`-th appended event has number `n`
(`numbered`); nothing else about the log's internals is used.
-/

set_option linter.unusedSectionVars false
set_option linter.unusedSimpArgs false

namespace Ez
variable {I E : Type} [DecidableEq I]

/-- An operation on an event log. -/
inductive LogOp (I E : Type) where
  | append (e : E)
  | subscribe (i : I) (after : Nat)
  | send (i : I)
  | unsubscribe (i : I)

namespace LogOp

/-- The log after an operation. -/
def exec (limit maxsize : Int) (l : EventLog I E) : LogOp I E → EventLog I E
  | .append e => l.append limit maxsize e
  | .subscribe i n => l.subscribe maxsize i n
  | .send i => l.sendNext i
  | .unsubscribe i => l.unsubscribe i

/-- The log after a history of operations, oldest first. -/
def execAll (limit maxsize : Int) (h : List (LogOp I E)) : EventLog I E :=
  h.foldl (exec limit maxsize) EventLog.init

/-- The event an operation appends. -/
def event : LogOp I E → Option E
  | .append e => some e
  | _ => none

/-- The operation starts or ends the subscription of `i`. -/
def Resubscribes (i : I) : LogOp I E → Prop
  | .subscribe j _ => j = i
  | .unsubscribe j => j = i
  | _ => False

end LogOp

/-- Specification: the events that occurred, oldest first. -/
def occurred (h : List (LogOp I E)) : List E := h.filterMap LogOp.event

/-- Specification: events numbered `k+1, k+2, …`. -/
def numberedFrom (k : Nat) : List E → List (Nat × E)
  | [] => []
  | e :: es => (k + 1, e) :: numberedFrom (k + 1) es

/-- Specification: the `n` newest elements of a list, oldest first. -/
def newest {α : Type} (n : Nat) (l : List α) : List α := l.drop (l.length - n)

theorem numberedFrom_append (k : Nat) (a b : List E) :
    numberedFrom k (a ++ b) = numberedFrom k a ++ numberedFrom (k + a.length) b := by
  induction a generalizing k with
  | nil => simp [numberedFrom]
  | cons x a ih =>
    simp only [List.cons_append, numberedFrom, ih, List.length_cons]
    rw [Nat.add_assoc, Nat.add_comm 1]

@[simp] theorem length_numberedFrom (k : Nat) (a : List E) : (numberedFrom k a).length = a.length := by
  induction a generalizing k with
  | nil => rfl
  | cons x a ih => simp [numberedFrom, ih]

theorem map_fst_numberedFrom (k : Nat) (a : List E) :
    (numberedFrom k a).map (·.1) = List.range' (k + 1) a.length := by
  induction a generalizing k with
  | nil => rfl
  | cons x a ih => simp [numberedFrom, ih, List.range'_succ]

theorem map_snd_numberedFrom (k : Nat) (a : List E) : (numberedFrom k a).map (·.2) = a := by
  induction a generalizing k with
  | nil => rfl
  | cons x a ih => simp [numberedFrom, ih]

/-- The invariant of the retained events. -/
theorem log_state (limit maxsize : Int) (h : List (LogOp I E)) :
    (LogOp.execAll limit maxsize h).seq = (occurred h).length ∧
    (LogOp.execAll limit maxsize h).hist = occurred h ∧
    (LogOp.execAll limit maxsize h).events =
      newest limit.toNat (numberedFrom 0 (occurred h)) := by
  induction h using list_snoc_induction with
  | h0 => simp [LogOp.execAll, EventLog.init, occurred, numberedFrom, newest]
  | hs h c ih =>
    obtain ⟨h1, h2, h3⟩ := ih
    unfold LogOp.execAll at *
    rw [List.foldl_append, List.foldl_cons, List.foldl_nil]
    cases c with
    | append e =>
      have hocc : occurred (h ++ [LogOp.append e]) = occurred h ++ [e] := by
        simp [occurred, List.filterMap_append, LogOp.event]
      refine ⟨?_, ?_, ?_⟩
      · simp [LogOp.exec, EventLog.append, hocc, h1]
      · simp [LogOp.exec, EventLog.append, hocc, h2]
      · simp only [LogOp.exec, EventLog.append, hocc, h3, h1, numberedFrom_append, numberedFrom,
          Nat.zero_add]
        generalize hN : numberedFrom 0 (occurred h) = N
        have hl : (occurred h).length = N.length := by rw [← hN]; simp
        rw [hl]
        simp only [EventLog.trim, newest, List.length_append, List.length_drop, List.length_cons,
          List.length_nil]
        split
        · rename_i hlt
          by_cases hz : limit.toNat = 0
          · have e1 : (((N.length - (N.length - limit.toNat) + (0 + 1) : Nat) : Int) - limit).toNat ≥ 1 := by
              omega
            rw [List.drop_eq_nil_of_le (by simp; omega), List.drop_eq_nil_of_le (by simp; omega)]
          · have hN2 : limit.toNat ≤ N.length := by omega
            have e1 : (((N.length - (N.length - limit.toNat) + (0 + 1) : Nat) : Int) - limit).toNat = 1 := by
              omega
            rw [e1, List.drop_append_of_le_length (by simp; omega), List.drop_drop,
              List.drop_append_of_le_length (by omega)]
            congr 2; omega
        · rename_i hlt
          have : N.length - limit.toNat = 0 := by omega
          rw [this]
          have : N.length + (0 + 1) - limit.toNat = 0 := by omega
          rw [this]; simp
    | subscribe i n =>
      have hocc : occurred (h ++ [LogOp.subscribe i n]) = occurred h := by
        simp [occurred, List.filterMap_append, LogOp.event]
      rw [hocc]; exact ⟨h1, h2, h3⟩
    | send i =>
      have hocc : occurred (h ++ [LogOp.send i]) = occurred h := by
        simp [occurred, List.filterMap_append, LogOp.event]
      rw [hocc]; exact ⟨h1, h2, h3⟩
    | unsubscribe i =>
      have hocc : occurred (h ++ [LogOp.unsubscribe i]) = occurred h := by
        simp [occurred, List.filterMap_append, LogOp.event]
      rw [hocc]; exact ⟨h1, h2, h3⟩

/-- **C31.** After any history of log operations the retained events are the newest ones up to the
retention limit, and an event retained from the `n`-th occurrence carries the number `n`. -/
theorem C31_retained_newest_numbered (limit maxsize : Int) (h : List (LogOp I E)) :
    (LogOp.execAll limit maxsize h).events = newest limit.toNat (numberedFrom 0 (occurred h)) :=
  (log_state limit maxsize h).2.2

/-- **C31.** The numbers of the retained events are consecutive and end with the number of events that
occurred. -/
theorem C31_numbers_consecutive (limit maxsize : Int) (h : List (LogOp I E)) :
    ∃ k, (LogOp.execAll limit maxsize h).events.map (·.1) =
        List.range' (k + 1) ((occurred h).length - k) ∧
      k = (occurred h).length - limit.toNat := by
  refine ⟨_, ?_, rfl⟩
  rw [C31_retained_newest_numbered, newest, List.map_drop, map_fst_numberedFrom]
  simp only [length_numberedFrom, Nat.zero_add, List.drop_range']
  congr 1
  omega

/-- **C31.** Asking for the events after number `n` gives exactly the retained events with a larger
number, in order: the `k`-th event that occurred is returned iff `k` is larger than `n` and it is
retained. -/
theorem C31_events_after_exact (limit maxsize : Int) (h : List (LogOp I E)) (n : Nat) :
    (LogOp.execAll limit maxsize h).after n =
      (numberedFrom 0 (occurred h)).drop (max n ((occurred h).length - limit.toNat)) := by
  have hf : ∀ (es : List E) (k n : Nat),
      (numberedFrom k es).filter (fun x => decide (n < x.1)) = (numberedFrom k es).drop (n - k) := by
    intro es
    induction es with
    | nil => intro k n; simp [numberedFrom]
    | cons e es ih =>
      intro k n
      simp only [numberedFrom, List.filter_cons]
      by_cases hk : n < k + 1
      · have h0 : n - k = 0 := by omega
        simp only [hk, decide_true, if_true, ih, h0, List.drop_zero]
        have : n - (k + 1) = 0 := by omega
        rw [this, List.drop_zero]
      · obtain ⟨d, hd⟩ : ∃ d, n - k = d + 1 := ⟨n - k - 1, by omega⟩
        simp only [hk, decide_false, Bool.false_eq_true, if_false, ih, hd, List.drop_succ_cons]
        congr 1; omega
  have hd : ∀ (es : List E) (m : Nat), ∃ k fs, (numberedFrom 0 es).drop m = numberedFrom k fs ∧
      k = min m es.length := by
    intro es m
    refine ⟨min m es.length, es.drop m, ?_, rfl⟩
    conv => lhs; rw [← List.take_append_drop m es, numberedFrom_append]
    rw [List.drop_append, List.drop_eq_nil_of_le (by simp; omega), List.nil_append]
    simp only [Nat.zero_add, length_numberedFrom, List.length_take]
    by_cases hm : m ≤ es.length
    · rw [Nat.min_eq_left hm, Nat.sub_self, List.drop_zero]
    · rw [List.drop_eq_nil_of_le (by omega : es.length ≤ m)]; simp [numberedFrom]
  unfold EventLog.after
  rw [C31_retained_newest_numbered, newest, length_numberedFrom]
  obtain ⟨k, fs, h1, h2⟩ := hd (occurred h) ((occurred h).length - limit.toNat)
  rw [h1, hf, ← h1, List.drop_drop]
  congr 1
  omega

/-- Five events with a limit of three: the last three remain, and two of them are after number 3. -/
example :
    let h : List (LogOp Nat String) := [.append "a", .append "b", .append "c", .append "d", .append "e"]
    (LogOp.execAll 3 1024 h).events = [(3, "c"), (4, "d"), (5, "e")] ∧
    (LogOp.execAll 3 1024 h).after 3 = [(4, "d"), (5, "e")] := by decide

/-! ## C33 -/

theorem queueStreamEvent_eq {α : Type} {n : Int} (hn : 0 < n) (q : List α) (x : α)
    (hq : (q.length : Int) ≤ n) :
    queueStreamEvent n q x = (if (q.length : Int) < n then q else q.tail) ++ [x] := by
  unfold queueStreamEvent
  by_cases h : (q.length : Int) < n
  · rw [if_neg (by omega), if_pos h]
  · rw [if_pos ⟨hn, by omega⟩, if_neg h]
    simp only [List.length_drop]
    rw [if_neg (by omega), List.drop_one]

/-- What holds of a stream subscriber. -/
structure StreamSub.Ok (n : Int) (s : StreamSub E) : Prop where
  bound : (s.queue.length : Int) ≤ n
  suffix : s.queue <:+ s.offered
  kept : (s.sent ++ s.queue).Sublist s.offered

theorem StreamSub.Ok.offer {n : Int} (hn : 0 < n) {s : StreamSub E} (h : s.Ok n) (x : Nat × E) :
    (EventLog.offer n x s).Ok n := by
  have hq := queueStreamEvent_eq hn s.queue x h.bound
  obtain ⟨pre, hpre⟩ := h.suffix
  refine ⟨?_, ?_, ?_⟩
  · simp only [EventLog.offer, hq]
    split
    · simp; omega
    · have := h.bound; simp; omega
  · simp only [EventLog.offer, hq]
    split
    · exact ⟨pre, by rw [← hpre]; simp⟩
    · refine ⟨pre ++ s.queue.take 1, ?_⟩
      rw [← hpre]
      simp only [List.append_assoc, ← List.drop_one]
      rw [← List.append_assoc (s.queue.take 1), List.take_append_drop]
  · simp only [EventLog.offer, hq]
    rw [← List.append_assoc]
    apply List.Sublist.append_right
    split
    · exact h.kept
    · exact ((List.Sublist.refl _).append (List.tail_sublist _)).trans h.kept

theorem StreamSub.Ok.offerAll {n : Int} (hn : 0 < n) (xs : List (Nat × E)) {s : StreamSub E} (h : s.Ok n) :
    (xs.foldl (fun s x => EventLog.offer n x s) s).Ok n := by
  induction xs generalizing s with
  | nil => exact h
  | cons x xs ih => exact ih (h.offer hn x)

theorem offerAll_offered {n : Int} (xs : List (Nat × E)) (s : StreamSub E) :
    (xs.foldl (fun s x => EventLog.offer n x s) s).offered = s.offered ++ xs ∧
    (xs.foldl (fun s x => EventLog.offer n x s) s).sent = s.sent := by
  induction xs generalizing s with
  | nil => simp
  | cons x xs ih =>
    rw [List.foldl_cons]
    refine ⟨?_, ?_⟩
    · rw [(ih _).1]; simp [EventLog.offer]
    · rw [(ih _).2]; simp [EventLog.offer]

theorem PyDict.get?_mapVals {K V W : Type} [DecidableEq K] (d : PyDict K V) (f : V → W) (k : K) :
    PyDict.get? (d.map (fun p => (p.1, f p.2))) k = (PyDict.get? d k).map f := by
  induction d with
  | nil => rfl
  | cons p d ih =>
    rw [List.map_cons, PyDict.get?_cons, PyDict.get?_cons, ih]
    split <;> simp

/-- What one operation does to a subscriber that stays subscribed. -/
theorem exec_sub (limit n : Int) (l : EventLog I E) (i : I) (c : LogOp I E) (hc : ¬ c.Resubscribes i) :
    (c.exec limit n l).subs.get? i = (l.subs.get? i).map (fun s =>
      match c with
      | .append e => EventLog.offer n (l.seq + 1, e) s
      | .send j => if j = i then (match s.queue with
          | [] => s
          | x :: q => { s with queue := q, sent := s.sent ++ [x] }) else s
      | _ => s) := by
  cases c with
  | append e => simp only [LogOp.exec, EventLog.append]; exact PyDict.get?_mapVals _ _ _
  | subscribe j m =>
    have : ¬ i = j := fun h => hc h.symm
    simp only [LogOp.exec, EventLog.subscribe, PyDict.get?_set, this, if_false, Option.map_id']
  | send j =>
    simp only [LogOp.exec, EventLog.sendNext, PyDict.get?_modify]
    by_cases h : i = j
    · subst h; simp only [if_true]; rfl
    · have : ¬ j = i := fun e => h e.symm
      simp only [h, this, if_false, Option.map_id']
  | unsubscribe j =>
    have : ¬ i = j := fun h => hc h.symm
    simp only [LogOp.exec, EventLog.unsubscribe, PyDict.get?_pop, this, if_false, Option.map_id']

/-- Specification: what the server had for a subscriber that subscribed after `pre` asking for events
after number `n`, when `post` happened since: the retained events it asked for, then the new ones. -/
def offeredTo (limit : Int) (pre : List (LogOp I E)) (n : Nat) (post : List (LogOp I E)) :
    List (Nat × E) :=
  (newest limit.toNat (numberedFrom 0 (occurred pre))).filter (fun x => decide (n < x.1)) ++
    numberedFrom (occurred pre).length (occurred post)

/-- The state of a subscriber `i` that subscribed after `pre` and is still subscribed after `post`. -/
theorem sub_state {limit n : Int} (hn : 0 < n) (pre post : List (LogOp I E)) (i : I) (m : Nat)
    (hpost : ∀ c ∈ post, ¬ c.Resubscribes i) :
    ∃ s, (LogOp.execAll limit n (pre ++ .subscribe i m :: post)).subs.get? i = some s ∧ s.Ok n ∧
      s.offered = offeredTo limit pre m post := by
  induction post using list_snoc_induction with
  | h0 =>
    have hst := log_state limit n pre
    refine ⟨(((LogOp.execAll limit n pre).events.filter (fun x => decide (m < x.1))).foldl
      (fun s x => EventLog.offer n x s) { queue := [], sent := [], offered := [] }), ?_, ?_, ?_⟩
    · simp only [LogOp.execAll, List.foldl_append, List.foldl_cons, List.foldl_nil, LogOp.exec,
        EventLog.subscribe, PyDict.get?_set, if_true]
    · apply StreamSub.Ok.offerAll hn
      exact ⟨by simp; omega, by simp, by simp⟩
    · rw [(offerAll_offered _ _).1, hst.2.2]
      simp [offeredTo, occurred, numberedFrom]
  | hs post c ih =>
    obtain ⟨s, h1, h2, h3⟩ := ih (fun c hc => hpost c (by simp [hc]))
    have hc : ¬ c.Resubscribes i := hpost c (by simp)
    have hseq := (log_state limit n (pre ++ .subscribe i m :: post)).1
    have hex : LogOp.execAll limit n (pre ++ .subscribe i m :: (post ++ [c])) =
        c.exec limit n (LogOp.execAll limit n (pre ++ .subscribe i m :: post)) := by
      simp [LogOp.execAll, List.foldl_append]
    rw [hex, exec_sub limit n _ i c hc, h1, Option.map_some]
    refine ⟨_, rfl, ?_, ?_⟩
    · cases c with
      | append e => exact h2.offer hn _
      | send j =>
        simp only
        split
        · split
          · exact h2
          · rename_i x q hq
            have hb := h2.bound
            obtain ⟨p, hp⟩ := h2.suffix
            have hk := h2.kept
            rw [hq] at hb hp hk
            refine ⟨?_, ⟨p ++ [x], ?_⟩, ?_⟩
            · simp only [List.length_cons] at hb; simp only; omega
            · simp [← hp]
            · simpa using hk
        · exact h2
      | subscribe j k => exact h2
      | unsubscribe j => exact h2
    · cases c with
      | append e =>
        simp only [EventLog.offer, h3, hseq]
        have ho : occurred (post ++ [LogOp.append e]) = occurred post ++ [e] := by
          simp [occurred, LogOp.event]
        have ho2 : (occurred (pre ++ LogOp.subscribe i m :: post)).length =
            (occurred pre).length + (occurred post).length := by
          simp [occurred, List.filterMap_append, List.filterMap_cons, LogOp.event]
        simp only [offeredTo, ho, numberedFrom_append, ho2, numberedFrom, List.append_assoc]
      | send j =>
        have ho : occurred (post ++ [LogOp.send j]) = occurred post := by
          simp [occurred, LogOp.event]
        simp only [offeredTo, ho] at h3 ⊢
        split
        · split <;> exact h3
        · exact h3
      | subscribe j k =>
        have ho : occurred (post ++ [LogOp.subscribe j k]) = occurred post := by
          simp [occurred, LogOp.event]
        simp only [offeredTo, ho] at h3 ⊢; exact h3
      | unsubscribe j =>
        have ho : occurred (post ++ [LogOp.unsubscribe j]) = occurred post := by
          simp [occurred, LogOp.event]
        simp only [offeredTo, ho] at h3 ⊢; exact h3

/-- **C33.** The queue of a subscriber never exceeds its bound and holds the newest of the events meant
for the subscriber, in order; what was sent and what is queued are events meant for the subscriber, in
order and without repetition. -/
theorem C33_bounded_newest_in_order {limit n : Int} (hn : 0 < n) (pre post : List (LogOp I E)) (i : I)
    (m : Nat) (hpost : ∀ c ∈ post, ¬ c.Resubscribes i) :
    ∃ s, (LogOp.execAll limit n (pre ++ .subscribe i m :: post)).subs.get? i = some s ∧
      (s.queue.length : Int) ≤ n ∧
      s.queue = newest s.queue.length (offeredTo limit pre m post) ∧
      (s.sent ++ s.queue).Sublist (offeredTo limit pre m post) := by
  obtain ⟨s, h1, h2, h3⟩ := sub_state (limit := limit) hn pre post i m hpost
  refine ⟨s, h1, h2.bound, ?_, h3 ▸ h2.kept⟩
  rw [← h3]
  obtain ⟨p, hp⟩ := h2.suffix
  rw [newest, ← hp, List.length_append, Nat.add_sub_cancel, List.drop_left]

/-- **C33.** When an event occurs, a subscriber's queue gets it as the newest element; the oldest queued
event is discarded iff the queue was full, and nothing else changes. -/
theorem C33_overflow_discards_oldest {limit n : Int} (hn : 0 < n) (pre post : List (LogOp I E)) (i : I)
    (m : Nat) (e : E) (hpost : ∀ c ∈ post, ¬ c.Resubscribes i) :
    ∃ s s', (LogOp.execAll limit n (pre ++ .subscribe i m :: post)).subs.get? i = some s ∧
      (LogOp.execAll limit n (pre ++ .subscribe i m :: post ++ [.append e])).subs.get? i = some s' ∧
      s'.sent = s.sent ∧
      s'.queue = (if (s.queue.length : Int) = n then s.queue.tail else s.queue) ++
        [((occurred pre).length + (occurred post).length + 1, e)] := by
  obtain ⟨s, h1, h2, _⟩ := sub_state (limit := limit) hn pre post i m hpost
  have hseq := (log_state limit n (pre ++ .subscribe i m :: post)).1
  have ho2 : (occurred (pre ++ LogOp.subscribe i m :: post)).length =
      (occurred pre).length + (occurred post).length := by
    simp [occurred, List.filterMap_append, List.filterMap_cons, LogOp.event]
  refine ⟨s, EventLog.offer n ((occurred pre).length + (occurred post).length + 1, e) s, h1, ?_, rfl, ?_⟩
  · have hex : LogOp.execAll limit n (pre ++ .subscribe i m :: post ++ [.append e]) =
        (LogOp.append e).exec limit n (LogOp.execAll limit n (pre ++ .subscribe i m :: post)) := by
      simp [LogOp.execAll, List.foldl_append]
    rw [hex, exec_sub limit n _ i _ (by simp [LogOp.Resubscribes]), h1, hseq, ho2]
    rfl
  · simp only [EventLog.offer, queueStreamEvent_eq hn _ _ h2.bound]
    have := h2.bound
    by_cases hb : (s.queue.length : Int) = n
    · rw [if_pos hb, if_neg (by omega)]
    · rw [if_neg hb, if_pos (by omega)]

/-- **C33.** The sender takes the oldest queued event; a subscriber whose queue was never full when an
event occurred has lost nothing. -/
theorem C33_nothing_lost_without_overflow {limit n : Int} (hn : 0 < n) (pre post : List (LogOp I E)) (i : I)
    (m : Nat) (hpost : ∀ c ∈ post, ¬ c.Resubscribes i)
    (hreplay : ((offeredTo limit pre m []).length : Int) ≤ n)
    (hroom : ∀ p e q, post = p ++ .append e :: q → ∀ s,
      (LogOp.execAll limit n (pre ++ .subscribe i m :: p)).subs.get? i = some s →
      (s.queue.length : Int) < n) :
    ∃ s, (LogOp.execAll limit n (pre ++ .subscribe i m :: post)).subs.get? i = some s ∧
      s.sent ++ s.queue = offeredTo limit pre m post := by
  suffices h : ∃ s, (LogOp.execAll limit n (pre ++ .subscribe i m :: post)).subs.get? i = some s ∧
      s.sent ++ s.queue = s.offered by
    obtain ⟨s, h1, h2⟩ := h
    obtain ⟨s', h1', _, h3⟩ := sub_state (limit := limit) hn pre post i m hpost
    rw [h1] at h1'; cases h1'
    exact ⟨s, h1, h2.trans h3⟩
  induction post using list_snoc_induction with
  | h0 =>
    obtain ⟨s, h1, _, h3⟩ := sub_state (limit := limit) hn pre [] i m hpost
    refine ⟨s, h1, ?_⟩
    have key : ∀ (xs : List (Nat × E)) (s : StreamSub E), s.sent ++ s.queue = s.offered →
        ((s.queue.length + xs.length : Nat) : Int) ≤ n →
        (xs.foldl (fun s x => EventLog.offer n x s) s).sent ++
          (xs.foldl (fun s x => EventLog.offer n x s) s).queue =
          (xs.foldl (fun s x => EventLog.offer n x s) s).offered := by
      intro xs
      induction xs with
      | nil => intro s h _; exact h
      | cons x xs ih =>
        intro s h hl
        simp only [List.length_cons] at hl
        have hq := queueStreamEvent_eq hn s.queue x (by omega)
        rw [if_pos (by omega)] at hq
        rw [List.foldl_cons]
        apply ih
        · simp only [EventLog.offer, hq, ← h, List.append_assoc]
        · simp only [EventLog.offer, hq, List.length_append, List.length_cons, List.length_nil]; omega
    have hst := log_state limit n pre
    simp only [LogOp.execAll, List.foldl_append, List.foldl_cons, List.foldl_nil, LogOp.exec,
        EventLog.subscribe, PyDict.get?_set, if_true, Option.some.injEq] at h1
    subst h1
    apply key
    · rfl
    · have he : (LogOp.execAll limit n pre).events = _ := hst.2.2
      simp only [LogOp.execAll] at he
      rw [he]
      simp only [offeredTo, occurred, List.filterMap_nil, numberedFrom, List.append_nil] at hreplay
      simpa [occurred] using hreplay
  | hs post c ih =>
    obtain ⟨s, h1, h2⟩ := ih (fun c hc => hpost c (by simp [hc]))
      (fun p e q hp => hroom p e (q ++ [c]) (by simp [hp]))
    have hc : ¬ c.Resubscribes i := hpost c (by simp)
    have hex : LogOp.execAll limit n (pre ++ .subscribe i m :: (post ++ [c])) =
        c.exec limit n (LogOp.execAll limit n (pre ++ .subscribe i m :: post)) := by
      simp [LogOp.execAll, List.foldl_append]
    rw [hex, exec_sub limit n _ i c hc, h1, Option.map_some]
    refine ⟨_, rfl, ?_⟩
    cases c with
    | append e =>
      have hr := hroom post e [] rfl s h1
      have hq := queueStreamEvent_eq hn s.queue
        ((LogOp.execAll limit n (pre ++ .subscribe i m :: post)).seq + 1, e) (by omega)
      rw [if_pos hr] at hq
      simp only [EventLog.offer, hq, ← h2, List.append_assoc]
    | send j =>
      simp only
      split
      · split
        · exact h2
        · rename_i x q hq
          rw [hq] at h2
          simpa using h2
      · exact h2
    | subscribe j k => exact h2
    | unsubscribe j => exact h2

/-- A queue of two: the third event pushes out the oldest queued one; what had been sent stays. -/
example :
    let pre : List (LogOp Nat String) := [.append "a", .append "b"]
    let post : List (LogOp Nat String) := [.send 7, .append "c", .append "d", .append "e"]
    ((LogOp.execAll 10 2 (pre ++ .subscribe 7 0 :: post)).subs.get? 7).map (fun s => (s.sent, s.queue)) =
      some ([(1, "a")], [(4, "d"), (5, "e")]) := by decide

end Ez
