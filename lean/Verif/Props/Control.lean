import Verif.Model.Control

/-!
# C83: a process does not wait for itself when settings are patched
-/

set_option linter.unusedSectionVars false
set_option linter.unusedSimpArgs false

namespace Ez
namespace Control

/-! ## Specification -/

/-- Specification: requests that have arrived and were not answered. -/
def St.unanswered (s : St) : List Nat :=
  s.handler.toList ++ s.incoming.filterMap fun i => match i with | .ack => none | .request r _ => some r

/-- Specification: patches that have arrived and are not finished: their requests are not answered, or the unit has
not finished with the settings. -/
def St.patches (s : St) : Nat :=
  s.incoming.countP (fun i => match i with | .request _ p => p | .ack => false) + (if s.handler.isSome then 1 else 0) +
    s.inflight

/-- Specification: the requests passed on, in order. -/
def requests (as : List Act) : List Nat :=
  as.filterMap fun a => match a with | .request r _ => some r | _ => none

/-- Specification: the number of settings for the unit: patches and messages of other publishers. -/
def settings (as : List Act) : Nat :=
  as.countP fun a => match a with | .request _ p => p | .external => true | _ => false

/-- Specification: nothing is left to do. -/
structure Rest (s : St) : Prop where
  incoming : s.incoming = []
  handler : s.handler = none
  queue : s.queue = []
  sub : s.sub = .idle
  reports : s.reports = 0

/-- Specification: steps of the process and the server only. -/
def Inner (as : List Act) : Prop := ∀ a ∈ as, a = .process ∨ a = .server

/-! ## Invariant -/

/-- Acknowledgements on their way. -/
def St.ackCount (s : St) : Nat := s.reports + s.incoming.count .ack + s.acks

/-- Whether a report waits. -/
def Sub.waits : Sub → Nat
  | .reporting _ => 1
  | _ => 0

theorem ack_step {n : Nat} {a : Act} {s t : St} (h : Step n a s t) (hi : s.ackCount = s.sub.waits + s.lapsed) :
    t.ackCount = t.sub.waits + t.lapsed := by
  cases h <;> simp_all [St.ackCount, Sub.waits, List.count_append, List.count_cons] <;> omega

theorem ack_inv {n : Nat} {as : List Act} {s : St} (h : Steps n init as s) : s.ackCount = s.sub.waits + s.lapsed := by
  induction h with
  | nil => rfl
  | snoc _ h' ih => exact ack_step h' ih

/-! ## Every run ends -/

/-- The work left. -/
def Item.work : Item → Nat
  | .ack => 2
  | .request _ true => 8
  | .request _ false => 1

/-- The work left for the task of the settings input. -/
def Sub.work : Sub → Nat
  | .idle => 0
  | .reporting _ => 2
  | .working _ => 1

/-- The work left. -/
def St.work (s : St) : Nat :=
  (s.incoming.map Item.work).sum + (if s.handler.isSome then 7 else 0) + 6 * s.queue.length + s.sub.work + 3 * s.reports + s.acks

theorem work_step {n : Nat} {a : Act} {s t : St} (h : Step n a s t) (ha : a = .process ∨ a = .server ∨ a = .timeout) :
    t.work < s.work := by
  cases h <;> simp_all [St.work, Item.work, Sub.work] <;> omega

/-- C83: if nothing new arrives, a process comes to a halt: the number of its steps, the server's and the timeouts is bounded. -/
theorem C83_finite {n : Nat} {as : List Act} {s t : St} (h : Steps n s as t)
    (ha : ∀ a ∈ as, a = .process ∨ a = .server ∨ a = .timeout) : as.length + t.work ≤ s.work := by
  induction h with
  | nil => simp
  | snoc h1 h' ih =>
    have i := ih (fun a hm => ha a (by simp [hm]))
    have w := work_step h' (ha _ (by simp))
    simp only [List.length_append, List.length_cons, List.length_nil]
    omega

/-! ## Where runs end -/

/-- Whatever the state, the process or the server has something to do unless everything is done, or a patch waits for a
buffer or for the graph to be resumed, and no message can be finished. -/
theorem halted {n : Nat} {s : St} (hi : s.ackCount = s.sub.waits + s.lapsed) (hp : ∀ t, ¬ Step n .process s t)
    (hs : ∀ t, ¬ Step n .server s t) :
    Rest s ∨ (s.handler.isSome ∧ (s.paused = true ∨ n ≤ s.inflight) ∧
      ((s.sub = .idle ∧ s.queue = []) ∨ ∃ b, s.sub = .reporting b ∧ s.acks = 0)) := by
  have hr : s.reports = 0 := by
    cases e : s.reports with
    | zero => rfl
    | succ k => exact absurd (Step.server s k e) (hs _)
  have hsub : (s.sub = .idle ∧ s.queue = []) ∨ ∃ b, s.sub = .reporting b ∧ s.acks = 0 := by
    cases e : s.sub with
    | idle =>
      cases q : s.queue with
      | nil => exact Or.inl ⟨rfl, rfl⟩
      | cons b q' => exact absurd (Step.take s b q' e q) (hp _)
    | working b => exact absurd (Step.finish s b e) (hp _)
    | reporting b =>
      cases k : s.acks with
      | zero => exact Or.inr ⟨b, rfl, rfl⟩
      | succ k' => exact absurd (Step.acked s b k' e k) (hp _)
  cases e : s.handler with
  | some r =>
    refine Or.inr ⟨rfl, ?_, hsub⟩
    cases ep : s.paused with
    | true => exact Or.inl rfl
    | false =>
      refine Or.inr (Nat.le_of_not_lt fun hlt => hp _ (Step.send s r e ep hlt))
  | none =>
    have hin : s.incoming = [] := by
      cases q : s.incoming with
      | nil => rfl
      | cons i t =>
        cases i with
        | ack => exact absurd (Step.readAck s t e q) (hp _)
        | request r p =>
          cases p with
          | true => exact absurd (Step.readPatch s r t e q) (hp _)
          | false => exact absurd (Step.readPing s r t e q) (hp _)
    left
    rcases hsub with ⟨h1, h2⟩ | ⟨b, h1, h2⟩
    · exact ⟨hin, e, h2, h1, hr⟩
    · simp [St.ackCount, hr, hin, h2, h1, Sub.waits] at hi
      omega

/-- C83: a process halts in one of two ways: everything is done, or a patch waits for a buffer or for the graph to be
resumed; in the second case either the settings input is idle, or its report waits for an acknowledgement that has
arrived and is not read. -/
theorem C83_halts {n : Nat} {as : List Act} {s : St} (h : Steps n init as s) (hl : s.lapsed = 0)
    (hp : ∀ t, ¬ Step n .process s t) (hs : ∀ t, ¬ Step n .server s t) :
    Rest s ∨ (s.handler.isSome ∧ (s.paused = true ∨ n ≤ s.inflight) ∧
      ((s.sub = .idle ∧ s.queue = []) ∨ ((∃ b, s.sub = .reporting b) ∧ .ack ∈ s.incoming))) := by
  have hi := ack_inv h
  rcases halted hi hp hs with h1 | ⟨h1, h2, h3⟩
  · exact Or.inl h1
  · refine Or.inr ⟨h1, h2, ?_⟩
    rcases h3 with h3 | ⟨b, h3, h4⟩
    · exact Or.inl h3
    · refine Or.inr ⟨⟨b, h3⟩, ?_⟩
      have hr : s.reports = 0 := by
        cases e : s.reports with
        | zero => rfl
        | succ k => exact absurd (Step.server s k e) (hs _)
      simp [St.ackCount, hr, h4, h3, Sub.waits, hl] at hi
      exact List.count_pos_iff.1 (by omega)

/-! ## Requests are answered -/

theorem requests_append (as bs : List Act) : requests (as ++ bs) = requests as ++ requests bs := by
  simp [requests]

theorem settings_append (as bs : List Act) : settings (as ++ bs) = settings as + settings bs := by
  simp [settings]

theorem answers_inv {n : Nat} {as : List Act} {s : St} (h : Steps n init as s) : s.answered ++ s.unanswered = requests as := by
  induction h with
  | nil => rfl
  | snoc _ h' ih =>
    rw [requests_append, ← ih]
    clear ih
    cases h' <;> simp_all [St.unanswered, requests, List.filterMap_append, List.filterMap_cons]

theorem reports_inv {n : Nat} {as : List Act} {s : St} (h : Steps n init as s) :
    s.reported + s.queue.length + s.incoming.countP (fun i => match i with | .request _ p => p | .ack => false) +
      (if s.handler.isSome then 1 else 0) = settings as := by
  induction h with
  | nil => rfl
  | snoc _ h' ih =>
    rw [settings_append, ← ih]
    clear ih
    cases h' <;> simp_all [settings, List.countP_append, List.countP_cons] <;> grind

theorem answered_of_rest {n : Nat} {as : List Act} {s : St} (h : Steps n init as s) (hr : Rest s) :
    s.answered = requests as ∧ s.reported = settings as := by
  have h1 := answers_inv h
  have h2 := reports_inv h
  simp [St.unanswered, hr.handler, hr.incoming, hr.queue] at h1 h2
  exact ⟨h1, h2⟩

theorem requests_inner {as : List Act} (h : ∀ a ∈ as, a = .process ∨ a = .server ∨ a = .timeout) :
    requests as = [] ∧ settings as = 0 := by
  induction as with
  | nil => exact ⟨rfl, rfl⟩
  | cons a as ih =>
    obtain ⟨i1, i2⟩ := ih fun a ha => h a (List.mem_cons_of_mem _ ha)
    have := h a (by simp)
    simp only [requests, settings] at i1 i2 ⊢
    rcases this with rfl | rfl | rfl <;> simp [i1, i2]

theorem Steps.trans {n : Nat} {as bs : List Act} {s t u : St} (h : Steps n s as t) (h' : Steps n t bs u) :
    Steps n s (as ++ bs) u := by
  induction h' with
  | nil => simpa using h
  | snoc _ h2 ih => rw [← List.append_assoc]; exact .snoc ih h2

theorem patches_step {n : Nat} {a : Act} {s t : St} (h : Step n a s t) (ha : ∀ r, a ≠ .request r true) :
    t.patches ≤ s.patches := by
  cases h <;> simp_all [St.patches, St.inflight, Sub.own, List.countP_append, List.countP_cons, List.count_append,
    List.count_cons] <;> grind

theorem paused_step {n : Nat} {a : Act} {s t : St} (h : Step n a s t) (ha : a ≠ .pause) (hp : s.paused = false) :
    t.paused = false := by
  cases h <;> simp_all

/-- C83 (partial): if no more patches are under way than the settings publisher has buffers, and the graph is not
paused, then every request is answered, in order, and every message reported without a timeout, whatever the process does first.
Missing: more patches (`C83_stalls`), or a paused graph (`C83_paused`). -/
theorem C83_answered_partial {n : Nat} {as bs : List Act} {s t : St} (h : Steps n init as s) (hn : s.patches ≤ n)
    (hp : s.paused = false) (h' : Steps n s bs t) (hb : Inner bs) (hh : ∀ u, ¬ Step n .process t u)
    (hs : ∀ u, ¬ Step n .server t u) : Rest t ∧ t.answered = requests as ∧ t.reported = settings as := by
  have key : ∀ {bs : List Act} {t : St}, Steps n s bs t → Inner bs →
      t.patches ≤ n ∧ t.paused = false ∧ t.ackCount = t.sub.waits + t.lapsed := by
    intro bs t h'
    induction h' with
    | nil => intro _; exact ⟨hn, hp, ack_inv h⟩
    | snoc _ h2 ih =>
      intro hb
      obtain ⟨i1, i2, i3⟩ := ih (fun a ha => hb a (by simp [ha]))
      have ha := hb _ (List.mem_append_right _ (List.mem_singleton.2 rfl))
      exact ⟨Nat.le_trans (patches_step h2 (by rcases ha with rfl | rfl <;> simp)) i1,
        paused_step h2 (by rcases ha with rfl | rfl <;> simp) i2, ack_step h2 i3⟩
  obtain ⟨k1, k2, k3⟩ := key h' hb
  have hr : Rest t := by
    rcases halted k3 hh hs with hr | ⟨h1, h2, _⟩
    · exact hr
    · rcases h2 with h2 | h2
      · rw [k2] at h2; cases h2
      · simp only [St.patches, h1, if_true] at k1; omega
  obtain ⟨e1, e2⟩ := answered_of_rest (h.trans h') hr
  obtain ⟨e3, e4⟩ := requests_inner (fun a ha => by have := hb a ha; grind)
  rw [requests_append, e3, List.append_nil] at e1
  rw [settings_append, e4] at e2
  exact ⟨hr, e1, e2⟩

/-- C83: with timeouts every request is answered in the end, in order, and every message reported, however many patches are under way, provided the graph is
not paused; at most one timeout is needed for every message. -/
theorem C83_timeouts_release {n : Nat} (hn : 0 < n) {as bs : List Act} {s t : St} (h : Steps n init as s)
    (hp : s.paused = false) (h' : Steps n s bs t) (hb : ∀ a ∈ bs, a = .process ∨ a = .server ∨ a = .timeout)
    (hh : ∀ a u, a = .process ∨ a = .server ∨ a = .timeout → ¬ Step n a t u) :
    Rest t ∧ t.answered = requests as ∧ t.reported = settings as := by
  have key : ∀ {bs : List Act} {t : St}, Steps n s bs t → (∀ a ∈ bs, a = .process ∨ a = .server ∨ a = .timeout) →
      t.paused = false ∧ t.ackCount = t.sub.waits + t.lapsed := by
    intro bs t h'
    induction h' with
    | nil => intro _; exact ⟨hp, ack_inv h⟩
    | snoc _ h2 ih =>
      intro hb
      obtain ⟨i2, i3⟩ := ih (fun a ha => hb a (by simp [ha]))
      have ha := hb _ (List.mem_append_right _ (List.mem_singleton.2 rfl))
      exact ⟨paused_step h2 (by rcases ha with rfl | rfl | rfl <;> simp) i2, ack_step h2 i3⟩
  obtain ⟨k2, k3⟩ := key h' hb
  have hr : Rest t := by
    rcases halted k3 (fun u => hh _ u (by simp)) (fun u => hh _ u (by simp)) with hr | ⟨h1, h2, h3⟩
    · exact hr
    · rcases h3 with ⟨h3, h4⟩ | ⟨b, h3, _⟩
      · rcases h2 with h2 | h2
        · rw [k2] at h2; cases h2
        · simp [St.inflight, h3, h4, Sub.own] at h2; omega
      · exact absurd (Step.timeout t b h3) (hh _ _ (by simp))
  obtain ⟨e1, e2⟩ := answered_of_rest (h.trans h') hr
  obtain ⟨e3, e4⟩ := requests_inner (fun a ha => by have := hb a ha; grind)
  rw [requests_append, e3, List.append_nil] at e1
  rw [settings_append, e4] at e2
  exact ⟨hr, e1, e2⟩

/-! ## Waiting for itself -/

/-- A patch waits for a buffer, all buffers hold messages, and the report of the first waits for its acknowledgement,
which is not read. -/
def Stuck (n : Nat) (s : St) : Prop :=
  s.handler.isSome ∧ n ≤ s.inflight ∧ (∃ b, s.sub = .reporting b) ∧ s.acks = 0

theorem stuck_step {n : Nat} {a : Act} {s t : St} (h : Step n a s t) (ha : a ≠ .timeout) (hs : Stuck n s) :
    Stuck n t ∧ t.answered = s.answered := by
  obtain ⟨h1, h2, ⟨b, h3⟩, h4⟩ := hs
  cases h <;> simp_all [Stuck, St.inflight, Sub.own, List.count_append] <;> omega

theorem stuck_steps {n : Nat} {as : List Act} {s t : St} (h : Steps n s as t) (ha : .timeout ∉ as) (hs : Stuck n s) :
    Stuck n t ∧ t.answered = s.answered := by
  induction h with
  | nil => exact ⟨hs, rfl⟩
  | snoc _ h' ih =>
    simp only [List.mem_append, List.mem_singleton, not_or] at ha
    obtain ⟨i1, i2⟩ := ih ha.1
    obtain ⟨j1, j2⟩ := stuck_step h' (Ne.symm ha.2) i1
    exact ⟨j1, j2.trans i2⟩

/-- `k` patches have been sent and wait at the settings input. -/
def filled (k : Nat) : St :=
  { incoming := [], handler := none, queue := List.replicate k true, sub := .idle, reports := 0, acks := 0,
    paused := false, answered := List.range k, reported := 0, lapsed := 0 }

theorem fill (n : Nat) : ∀ k, k ≤ n → ∃ as, Steps n init as (filled k) ∧ .timeout ∉ as
  | 0, _ => ⟨[], .nil, by simp⟩
  | k + 1, hk => by
    obtain ⟨as, h, ha⟩ := fill n k (by omega)
    have h1 := Steps.snoc h (.request (filled k) k true)
    have h2 := Steps.snoc h1 (.readPatch _ k [] (by rfl) (by rfl))
    have h3 := Steps.snoc h2 (.send _ k (by rfl) (by rfl) (by simp [St.inflight, filled, Sub.own]; omega))
    refine ⟨as ++ [.request k true] ++ [.process] ++ [.process], ?_, ?_⟩
    · have e : filled (k + 1) = { incoming := [], handler := none, queue := (filled k).queue ++ [true], sub := .idle, reports := 0, acks := 0, paused := false, answered := (filled k).answered ++ [k], reported := 0, lapsed := 0 } := by
        simp [filled, List.range_succ, List.replicate_succ']
      rw [e]
      exact h3
    · simp [ha]

/-- C83 fails: however many buffers the settings publisher has, one patch more than that before the unit takes the
first makes the process wait for itself. From then on a ping is not answered before a report has timed out, whatever
else happens. -/
theorem C83_stalls (n : Nat) (hn : 0 < n) : ∃ as s, Steps n init as s ∧ .timeout ∉ as ∧ s.lapsed = 0 ∧
    s.paused = false ∧ s.patches = n + 1 ∧ n + 1 ∈ s.unanswered ∧ n + 1 ∉ s.answered ∧
    ∀ bs t, Steps n s bs t → .timeout ∉ bs → n + 1 ∉ t.answered := by
  obtain ⟨as, h, ha⟩ := fill n n (by omega)
  obtain ⟨m, rfl⟩ : ∃ m, n = m + 1 := ⟨n - 1, by omega⟩
  have h1 := Steps.snoc h (.request (filled (m + 1)) (m + 1) true)
  have h2 := Steps.snoc h1 (.readPatch _ (m + 1) [] (by rfl) (by rfl))
  have h3 := Steps.snoc h2 (.take _ true (List.replicate m true) (by rfl) (by rfl))
  have h4 := Steps.snoc h3 (.server _ 0 (by rfl))
  have h5 := Steps.snoc h4 (.request _ (m + 1 + 1) false)
  refine ⟨_, _, h5, by simp [ha], rfl, rfl, ?_, ?_, ?_, ?_⟩
  · simp [St.patches, St.inflight, filled, Sub.own]; omega
  · simp [St.unanswered, filled]
  · simp [filled]
  · intro bs t ht hb
    have := stuck_steps ht hb ⟨rfl, by simp [St.inflight, filled, Sub.own], ⟨true, rfl⟩, rfl⟩
    rw [this.2]
    simp [filled]

/-- C83 fails while the graph is paused: one patch is enough to leave all requests that arrive later unanswered until
the graph is resumed. -/
theorem C83_paused (n : Nat) : ∃ as s, Steps n init as s ∧ 1 ∈ s.unanswered ∧ s.patches = 1 ∧
    ∀ bs t, Steps n s bs t → .resume ∉ bs → 1 ∉ t.answered := by
  have h1 := Steps.snoc (Steps.nil (s := init)) (Step.pause (n := n) init)
  have h2 := Steps.snoc h1 (.request _ 0 true)
  have h3 := Steps.snoc h2 (.readPatch _ 0 [] (by rfl) (by rfl))
  have h4 := Steps.snoc h3 (.request _ 1 false)
  refine ⟨_, _, h4, by simp [St.unanswered, init], by simp [St.patches, St.inflight, init, Sub.own], ?_⟩
  intro bs t ht hb
  have : t.handler = some 0 ∧ t.paused = true ∧ t.answered = [] := by
    induction ht with
    | nil => exact ⟨rfl, rfl, rfl⟩
    | snoc _ h' ih =>
      simp only [List.mem_append, List.mem_singleton, not_or] at hb
      obtain ⟨i1, i2, i3⟩ := ih hb.1
      cases h' <;> simp_all
  rw [this.2.2]; simp

/-! ## Examples -/

/-- `C83_answered_partial`: two buffers, two patches and a ping. -/
example : ∃ as s, Steps 2 init as s ∧ s.patches ≤ 2 ∧ s.paused = false ∧ s.unanswered = [0, 1, 2] :=
  ⟨_, _, .snoc (.snoc (.snoc (.nil) (.request _ 0 true)) (.request _ 1 true)) (.request _ 2 false), by decide, rfl, rfl⟩

/-- `C83_halts`, `C83_timeouts_release`: a state in which the process and the server can do nothing. -/
example : Rest init := ⟨rfl, rfl, rfl, rfl, rfl⟩

/-- `C83_halts`: the second way. -/
example : let s : St := { incoming := [.ack], handler := some 1, queue := [], sub := .reporting true, reports := 0,
                          acks := 0, paused := false, answered := [0], reported := 1, lapsed := 0 }
    (∃ as, Steps 1 init as s) ∧ (∀ t, ¬ Step 1 .process s t) ∧ ∀ t, ¬ Step 1 .server s t := by
  refine ⟨?_, ?_, ?_⟩
  · have h1 := Steps.snoc (Steps.nil (s := init)) (Step.request (n := 1) init 0 true)
    have h2 := Steps.snoc h1 (.readPatch _ 0 [] (by rfl) (by rfl))
    have h3 := Steps.snoc h2 (.send _ 0 (by rfl) (by rfl) (by decide))
    have h4 := Steps.snoc h3 (.request _ 1 true)
    have h5 := Steps.snoc h4 (.readPatch _ 1 [] (by rfl) (by rfl))
    have h6 := Steps.snoc h5 (.take _ true [] (by rfl) (by rfl))
    exact ⟨_, Steps.snoc h6 (.server _ 0 (by rfl))⟩
  · intro t h; cases h <;> simp_all [St.inflight, Sub.own]
  · intro t h; cases h <;> simp_all

end Control
end Ez
