import Verif.Model.ControlClients

/-!
# C60, C61: answers reach the command they belong to, and every command ends
-/

set_option linter.unusedSectionVars false
set_option linter.unusedSimpArgs false

namespace Ez

namespace Ack

theorem run_invariant {I : St → Prop} (hstep : ∀ a s s', I s → step a s = some s' → I s') (as : List Act) {s s' : St}
    (h0 : I s) (hr : run as s = some s') : I s' := by
  induction as generalizing s with
  | nil => cases hr; exact h0
  | cons a as ih =>
    simp only [run] at hr
    cases hs : step a s with
    | none => simp [hs] at hr
    | some t => simp only [hs] at hr; exact ih (hstep a s t h0 hs) hr

/-- The commands that did not time out, in the order they were written. -/
def kept (lapsed : List Nat) (n : Nat) : List Nat := (List.range n).filter (fun i => decide (i ∉ lapsed))

/-- The invariant: answers go to the commands that did not time out, in order. -/
structure Inv (s : St) : Prop where
  order : s.results.map Prod.fst ++ s.waiting ++ s.writing.toList = kept s.lapsed s.sent
  answered : s.results.map Prod.snd ++ s.queue = s.answers
  idle : s.queue ≠ [] → s.waiting = []

theorem kept_succ {lapsed : List Nat} {n : Nat} (h : ∀ i ∈ lapsed, i < n) : kept lapsed (n + 1) = kept lapsed n ++ [n] := by
  have : n ∉ lapsed := fun hn => Nat.lt_irrefl n (h n hn)
  simp [kept, List.range_succ, List.filter_append, this]

theorem kept_lapse (lapsed : List Nat) (n i : Nat) :
    kept (lapsed ++ [i]) n = (kept lapsed n).filter (fun j => decide (j ≠ i)) := by
  simp only [kept, List.filter_filter]
  apply List.filter_congr
  intro j _
  simp only [List.mem_append, List.mem_singleton]
  by_cases h1 : j ∈ lapsed <;> by_cases h2 : j = i <;> simp [h1, h2]

theorem kept_nodup (lapsed : List Nat) (n : Nat) : (kept lapsed n).Nodup :=
  List.nodup_range.sublist List.filter_sublist

theorem inv_step (a : Act) (s s' : St) (hi : Inv s ∧ ∀ i ∈ s.lapsed, i < s.sent) (hs : step a s = some s') :
    Inv s' ∧ ∀ i ∈ s'.lapsed, i < s'.sent := by
  obtain ⟨⟨h1, h2, h3⟩, hl⟩ := hi
  cases a with
  | write =>
    simp only [step] at hs
    split at hs <;> cases hs
    rename_i hw
    refine ⟨⟨?_, h2, h3⟩, fun i hi => Nat.lt_succ_of_lt (hl i hi)⟩
    rw [hw] at h1
    simp only [Option.toList_none, List.append_nil] at h1
    simp only [Option.toList_some]
    rw [kept_succ hl, ← h1]
  | wait =>
    simp only [step] at hs
    split at hs
    · cases hs
    · rename_i i hw
      rw [hw] at h1
      split at hs <;> cases hs <;> rename_i hq
      · refine ⟨⟨?_, h2, by simp [hq]⟩, hl⟩
        simpa using h1
      · have hwt := h3 (by simp [hq])
        refine ⟨⟨?_, ?_, fun _ => hwt⟩, hl⟩
        · simp only [hwt, List.append_nil, Option.toList_some] at h1
          simpa [hwt] using h1
        · rw [hq] at h2; simpa using h2
  | answer a =>
    simp only [step] at hs
    split at hs <;> cases hs <;> rename_i hw
    · refine ⟨⟨h1, ?_, fun _ => hw⟩, hl⟩
      rw [← h2]; simp
    · have hq : s.queue = [] := Classical.byContradiction fun h => by have := h3 h; rw [hw] at this; cases this
      refine ⟨⟨?_, ?_, by simp [hq]⟩, hl⟩
      · rw [hw] at h1; simpa using h1
      · rw [hq] at h2 ⊢; simpa using h2
  | timeout i =>
    simp only [step] at hs
    split at hs <;> cases hs
    rename_i hm
    have hnd : (s.results.map Prod.fst ++ s.waiting ++ s.writing.toList).Nodup := by rw [h1]; exact kept_nodup _ _
    have hr : i ∉ s.results.map Prod.fst ∧ i ∉ s.writing.toList := by
      rw [List.append_assoc, List.nodup_append] at hnd
      obtain ⟨_, hnd2, hd⟩ := hnd
      rw [List.nodup_append] at hnd2
      exact ⟨fun h => hd i h i (by simp [hm]) rfl, fun h => hnd2.2.2 i hm i h rfl⟩
    refine ⟨⟨?_, h2, ?_⟩, ?_⟩
    · rw [kept_lapse, ← h1]
      simp only [List.filter_append]
      congr 1
      · congr 1
        exact (List.filter_eq_self.2 (fun j hj => by
          simp only [decide_eq_true_eq]; exact fun e => hr.1 (e ▸ hj))).symm
      · exact (List.filter_eq_self.2 (fun j hj => by
          simp only [decide_eq_true_eq]; exact fun e => hr.2 (e ▸ hj))).symm
    · intro hq; simp [h3 hq]
    · intro j hj
      rcases List.mem_append.1 hj with hj | hj
      · exact hl j hj
      · cases List.mem_singleton.1 hj
        have : i ∈ kept s.lapsed s.sent := by rw [← h1]; simp [hm]
        exact List.mem_range.1 (List.mem_filter.1 this).1

theorem run_inv {as : List Act} {s : St} (hr : run as init = some s) : Inv s :=
  (run_invariant inv_step as ⟨by constructor <;> simp [init, kept], by simp [init]⟩ hr).1

/-- The place of a command among those that did not time out. -/
theorem kept_getElem {lapsed : List Nat} {n i k : Nat} (h : (kept lapsed n)[k]? = some i) :
    k = (kept lapsed i).length ∧ i ∉ lapsed := by
  induction n generalizing k with
  | zero => simp [kept] at h
  | succ n ih =>
    by_cases hn : n ∈ lapsed
    · have : kept lapsed (n + 1) = kept lapsed n := by
        simp [kept, List.range_succ, List.filter_append, hn]
      rw [this] at h; exact ih h
    · have : kept lapsed (n + 1) = kept lapsed n ++ [n] := by
        simp [kept, List.range_succ, List.filter_append, hn]
      rw [this] at h
      by_cases hk : k < (kept lapsed n).length
      · rw [List.getElem?_append_left hk] at h; exact ih h
      · rw [List.getElem?_append_right (by omega)] at h
        have hk0 : k - (kept lapsed n).length = 0 := by
          apply Classical.byContradiction; intro hne
          rw [List.getElem?_eq_none (by simp; omega)] at h; cases h
        rw [hk0] at h
        simp only [List.getElem?_cons_zero, Option.some.injEq] at h
        subst h
        exact ⟨by omega, hn⟩

/-- C60: for every run, the result of command `i` is the server's answer number `i` less the number of earlier commands
that timed out. -/
theorem C60_exact (as : List Act) (s : St) (hr : run as init = some s) (i : Nat) (a : Answer) (h : (i, a) ∈ s.results) :
    s.answers[((List.range i).filter (fun j => decide (j ∉ s.lapsed))).length]? = some a := by
  have hi := run_inv hr
  obtain ⟨k, hk, he⟩ := List.getElem_of_mem h
  have h1 : (kept s.lapsed s.sent)[k]? = some i := by
    rw [← hi.order, List.append_assoc, List.getElem?_append_left (by simpa using hk)]
    simp [he, hk]
  have h2 : s.answers[k]? = some a := by
    rw [← hi.answered, List.getElem?_append_left (by simpa using hk)]
    simp [he, hk]
  rw [(kept_getElem h1).1] at h2
  exact h2

/-- C60 (partial): without timeouts every command gets the server's answer to it. Missing: `C60_negation`. -/
theorem C60_matched_partial (as : List Act) (s : St) (hr : run as init = some s) (hl : s.lapsed = []) (i : Nat) (a : Answer)
    (h : (i, a) ∈ s.results) : s.answers[i]? = some a := by
  have := C60_exact as s hr i a h
  have hf : (List.range i).filter (fun j => decide (j ∉ s.lapsed)) = List.range i :=
    List.filter_eq_self.2 (fun j _ => by simp [hl])
  rwa [hf, List.length_range] at this

/-- C60: nobody waits while an answer is left over, and as many commands have a result as answers were taken. -/
theorem C60_no_idle_answer (as : List Act) (s : St) (hr : run as init = some s) :
    (s.queue = [] ∨ s.waiting = []) ∧ s.results.map Prod.snd ++ s.queue = s.answers := by
  have hi := run_inv hr
  refine ⟨?_, hi.answered⟩
  by_cases hq : s.queue = []
  · exact Or.inl hq
  · exact Or.inr (hi.idle hq)

/-- Three commands, answered out of step with their waiting; meets `C60_matched_partial`. -/
example : ∃ s, run [.write, .wait, .write, .answer .complete, .answer .error, .wait, .write, .wait, .answer .complete]
      init = some s ∧ s.lapsed = [] ∧ s.results = [(0, .complete), (1, .error), (2, .complete)] :=
  ⟨_, rfl, rfl, rfl⟩

/-- C60 fails after a timeout: command 0 times out and its answer comes late; command 1, which the server refuses, is told
that it succeeded, and command 2, which succeeds, is told that it failed. -/
theorem C60_negation : ∃ s, run [.write, .wait, .timeout 0, .answer .complete, .write, .wait, .answer .error, .write, .wait,
      .answer .complete] init = some s ∧ s.answers = [.complete, .error, .complete] ∧
    s.results = [(1, .complete), (2, .error)] :=
  ⟨_, rfl, rfl, rfl⟩

theorem run_append (as bs : List Act) (s : St) : run (as ++ bs) s = (run as s).bind (run bs) := by
  induction as generalizing s with
  | nil => rfl
  | cons a as ih =>
    simp only [List.cons_append, run]
    cases step a s with
    | none => rfl
    | some s' => exact ih s'

/-- Answers are always taken, and go to the waiting commands in order. -/
theorem run_answers (ans : List Answer) (s : St) :
    ∃ s', run (ans.map .answer) s = some s' ∧ s'.waiting = s.waiting.drop ans.length ∧
      s'.results = s.results ++ s.waiting.zip ans ∧ s'.sent = s.sent ∧ s'.lapsed = s.lapsed ∧ s'.writing = s.writing := by
  induction ans generalizing s with
  | nil => exact ⟨s, rfl, by simp, by simp, rfl, rfl, rfl⟩
  | cons a ans ih =>
    cases hw : s.waiting with
    | nil =>
      obtain ⟨s', h1, h2, h3, h4, h5, h6⟩ := ih { s with answers := s.answers ++ [a], queue := s.queue ++ [a] }
      exact ⟨s', by simpa [run, step, hw] using h1, by simpa [hw] using h2, by simpa [hw] using h3, h4, h5, h6⟩
    | cons i w =>
      obtain ⟨s', h1, h2, h3, h4, h5, h6⟩ := ih { s with answers := s.answers ++ [a], waiting := w, results := s.results ++ [(i, a)] }
      exact ⟨s', by simpa [run, step, hw] using h1, by simpa using h2, by simpa using h3, h4, h5, h6⟩

/-- C60: nothing gets stuck. A command that was sent has a result, timed out, waits, or is being written. Further answers can
always come, and with as many of them as commands wait every command has a result that did not time out and is not being
written. The next command can be written as soon as the one being written is done, which it can always be. A command that
waits can time out, which then is all that happens to it. -/
theorem C60_goes_on (as : List Act) (s : St) (hr : run as init = some s) :
    (∀ i < s.sent, i ∈ s.results.map Prod.fst ∨ i ∈ s.lapsed ∨ i ∈ s.waiting ∨ s.writing = some i) ∧
    (∀ ans : List Answer, ∃ s', run (as ++ ans.map .answer) init = some s' ∧
      (s.waiting.length ≤ ans.length →
        ∀ i < s.sent, i ∉ s.lapsed → s.writing ≠ some i → i ∈ s'.results.map Prod.fst)) ∧
    (s.writing = none → ∃ s', run (as ++ [.write]) init = some s' ∧ s'.writing = some s.sent) ∧
    (s.writing ≠ none → ∃ s', run (as ++ [.wait, .write]) init = some s' ∧ s'.writing = some s.sent) ∧
    (∀ i ∈ s.waiting, ∃ s', run (as ++ [.timeout i]) init = some s' ∧ i ∈ s'.lapsed ∧
      i ∉ s'.waiting ∧ s'.results = s.results ∧ ∀ j ∈ s.waiting, j ≠ i → j ∈ s'.waiting) := by
  have hall : ∀ i < s.sent, i ∈ s.results.map Prod.fst ∨ i ∈ s.lapsed ∨ i ∈ s.waiting ∨ s.writing = some i := by
    intro i hi
    by_cases hl : i ∈ s.lapsed
    · exact Or.inr (Or.inl hl)
    · have : i ∈ kept s.lapsed s.sent := by simp [kept, hi, hl]
      rw [← (run_inv hr).order] at this
      simp only [List.mem_append, Option.mem_toList] at this
      rcases this with (h | h) | h
      · exact Or.inl h
      · exact Or.inr (Or.inr (Or.inl h))
      · exact Or.inr (Or.inr (Or.inr h))
  refine ⟨hall, ?_, ?_, ?_, ?_⟩
  · intro ans
    obtain ⟨s', h1, h2, h3, h4, h5, h6⟩ := run_answers ans s
    refine ⟨s', by rw [run_append, hr]; exact h1, ?_⟩
    intro hlen i hi hl hw
    rw [h3, List.map_append, List.map_fst_zip hlen, List.mem_append]
    rcases hall i hi with h | h | h | h
    · exact Or.inl h
    · exact absurd h hl
    · exact Or.inr h
    · exact absurd h hw
  · intro hw
    rw [run_append, hr]
    simp [run, step, hw]
  · intro hw
    rw [run_append, hr]
    cases hw' : s.writing with
    | none => exact absurd hw' hw
    | some i => cases hq : s.queue <;> simp [run, step, hw', hq]
  · intro i hi
    rw [run_append, hr]
    simp only [Option.bind_some, run, step, hi, if_true]
    refine ⟨_, rfl, by simp, by simp, rfl, ?_⟩
    intro j hj hne
    simp [hj, hne]

/-- Two commands wait and one is being written; two answers later the two have a result. -/
example : ∃ s, run [.write, .wait, .write, .wait, .write] init = some s ∧ s.waiting = [0, 1] ∧ s.writing = some 2 ∧
    ∃ s', run [.answer .complete, .answer .error] s = some s' ∧ s'.results = [(0, .complete), (1, .error)] :=
  ⟨_, rfl, rfl, rfl, _, rfl, rfl⟩

end Ack

namespace Session
variable {R : Type}

theorem run_invariant {I : St R → Prop} (hstep : ∀ a s s', I s → step a s = some s' → I s') (as : List (Act R))
    {s s' : St R} (h0 : I s) (hr : run as s = some s') : I s' := by
  induction as generalizing s with
  | nil => cases hr; exact h0
  | cons a as ih =>
    simp only [run] at hr
    cases hs : step a s with
    | none => simp [hs] at hr
    | some t => simp only [hs] at hr; exact ih (hstep a s t h0 hs) hr

/-- The numbers of the queued commands. -/
def queued (s : St R) : List Nat := s.queue.filterMap (fun c => c.map Prod.fst)

/-- The invariant. -/
structure Inv (s : St R) : Prop where
  order : s.alive = true → s.written ++ queued s = List.range s.issued
  current : s.current.isSome → s.alive = true
  last : ∀ c, s.current = some c → ∃ w, s.written = w ++ [c.1] ∧ w.length = s.replies.length
  between : s.alive = true → s.current = none → s.written.length = s.replies.length
  doneLive : s.alive = true → s.done.map Prod.fst = s.written.take s.replies.length
  sub : s.replies.length ≤ s.written.length
  got : ∀ i r, (i, Outcome.response r) ∈ s.done → ∃ k : Nat, s.written[k]? = some i ∧
    (s.replies[k]? = some (Reply.byte r) ∨ s.replies[k]? = some (Reply.object r))
  rest : s.alive = false → ∀ i < s.issued, i ∈ s.done.map Prod.fst ∨ s.written.getLast? = some i
  bound : ∀ i ∈ s.done.map Prod.fst, i < s.issued
  nodup : (s.done.map Prod.fst).Nodup

theorem inv_init : Inv (init : St R) := by
  constructor <;> simp [init, queued]

theorem range_split {w q : List Nat} {n : Nat} (h : w ++ q = List.range n) :
    (∀ i ∈ w, i < n) ∧ (∀ i ∈ q, i < n) ∧ w.Nodup ∧ q.Nodup ∧ ∀ i ∈ w, i ∉ q := by
  have hn : (w ++ q).Nodup := by rw [h]; exact List.nodup_range
  have hm : ∀ i ∈ w ++ q, i < n := by rw [h]; intro i hi; exact List.mem_range.1 hi
  rw [List.nodup_append] at hn
  exact ⟨fun i hi => hm i (by simp [hi]), fun i hi => hm i (by simp [hi]), hn.1, hn.2.1,
    fun i hi hq => hn.2.2 i hi i hq rfl⟩

/-- Ending the loop. `rs` is what was read last; the command under way is the last one written. -/
theorem inv_drain {s : St R} (hi : Inv s) (ha : s.alive = true) (rs : List (Reply R))
    (hrs : s.replies.length + rs.length ≤ s.written.length) :
    Inv (drain { s with replies := s.replies ++ rs }) := by
  obtain ⟨h1, h2, h3, h4, h5, h6, h7, h8, h9, h10⟩ := hi
  have hq : s.done.map Prod.fst ++ (s.queue.filterMap (fun c => c.map (fun c => (c.1, (Outcome.failed : Outcome R))))).map
      Prod.fst = s.done.map Prod.fst ++ queued s := by
    congr 1
    simp only [queued, List.map_filterMap]
    congr 1
    funext c
    cases c <;> rfl
  obtain ⟨g1, g2, g3, g4, g5⟩ := range_split (h1 ha)
  constructor
  · simp [drain]
  · simp [drain]
  · simp [drain]
  · simp [drain]
  · simp [drain]
  · simpa [drain] using hrs
  · intro i r hm
    simp only [drain, List.mem_append] at hm
    rcases hm with hm | hm
    · obtain ⟨k, hk, hr⟩ := h7 i r hm
      refine ⟨k, hk, ?_⟩
      have hlt : k < s.replies.length := by
        rcases hr with hr | hr <;> exact (List.getElem?_eq_some_iff.1 hr).1
      simpa only [drain, List.getElem?_append_left hlt] using hr
    · obtain ⟨c, _, hc⟩ := List.mem_filterMap.1 hm
      cases c <;> simp at hc
  · intro _ i hlt
    simp only [drain, List.map_append]
    rw [hq]
    have hm : i ∈ s.written ++ queued s := by rw [h1 ha]; exact List.mem_range.2 hlt
    rcases List.mem_append.1 hm with hm | hm
    · cases hc : s.current with
      | none =>
        left
        rw [h5 ha, ← h4 ha hc, List.take_length]
        exact List.mem_append_left _ hm
      | some c =>
        obtain ⟨w, hw, hl⟩ := h3 c hc
        rw [hw] at hm
        rcases List.mem_append.1 hm with hm | hm
        · left
          rw [h5 ha, ← hl, hw, List.take_left]
          exact List.mem_append_left _ hm
        · right; rw [hw]; simp [List.mem_singleton.1 hm]
    · left; exact List.mem_append_right _ hm
  · intro i hm
    simp only [drain, List.map_append] at hm
    rw [hq] at hm
    rcases List.mem_append.1 hm with hm | hm
    · exact h9 i hm
    · exact g2 i hm
  · simp only [drain, List.map_append]
    rw [hq, List.nodup_append]
    refine ⟨h10, g4, ?_⟩
    intro i hi j hj e
    subst e
    rw [h5 ha] at hi
    exact g5 i (List.mem_of_mem_take hi) hj

theorem inv_answered {s : St R} (hi : Inv s) {c : Nat × Kind} (hc : s.current = some c) (r : Reply R) (o : Outcome R)
    (ho : ∀ v, o = .response v → r = .byte v ∨ r = .object v) :
    Inv { s with current := none, replies := s.replies ++ [r], done := s.done ++ [(c.1, o)] } := by
  have ha := hi.current (by simp [hc])
  obtain ⟨w, hw, hl⟩ := hi.last c hc
  obtain ⟨h1, h2, h3, h4, h5, h6, h7, h8, h9, h10⟩ := hi
  obtain ⟨g1, g2, g3, g4, g5⟩ := range_split (h1 ha)
  have hdone : s.done.map Prod.fst = w := by rw [h5 ha, hw, ← hl, List.take_left]
  have hcw : c.1 ∉ w := by
    rw [hw, List.nodup_append] at g3
    exact fun h => g3.2.2 c.1 h c.1 (by simp) rfl
  constructor
  · intro _; exact h1 ha
  · simp
  · simp
  · intro _ _; simp [hw, hl]
  · intro _
    simp only [List.map_append, List.map_cons, List.map_nil, hdone, List.length_append, List.length_cons,
      List.length_nil, hw]
    rw [List.take_of_length_le (by simp [hl])]
  · simp [hw, hl]
  · intro i v hm
    simp only [List.mem_append, List.mem_singleton, Prod.mk.injEq] at hm
    rcases hm with hm | ⟨rfl, hm⟩
    · obtain ⟨k, hk, hr⟩ := h7 i v hm
      refine ⟨k, hk, ?_⟩
      have hlt : k < s.replies.length := by
        rcases hr with hr | hr <;> exact (List.getElem?_eq_some_iff.1 hr).1
      simpa only [List.getElem?_append_left hlt] using hr
    · refine ⟨s.replies.length, ?_, ?_⟩
      · rw [hw, ← hl]; simp
      · rcases ho v hm.symm with rfl | rfl <;> simp
  · intro hf; simp [ha] at hf
  · intro i hm
    simp only [List.map_append, List.map_cons, List.map_nil, List.mem_append, List.mem_singleton] at hm
    rcases hm with hm | rfl
    · exact h9 i hm
    · exact g1 _ (by rw [hw]; simp)
  · simp only [List.map_append, List.map_cons, List.map_nil, hdone]
    rw [List.nodup_append]
    refine ⟨?_, by simp, ?_⟩
    · rw [hw, List.nodup_append] at g3; exact g3.1
    · intro i hi j hj e
      cases List.mem_singleton.1 hj
      exact hcw (e ▸ hi)

theorem inv_step (a : Act R) (s s' : St R) (hi : Inv s) (hs : step a s = some s') : Inv s' := by
  cases a with
  | issue k =>
    simp only [step] at hs
    split at hs <;> cases hs <;> rename_i ha
    · obtain ⟨h1, h2, h3, h4, h5, h6, h7, h8, h9, h10⟩ := hi
      refine ⟨?_, h2, h3, h4, h5, h6, h7, ?_, fun i hm => Nat.lt_succ_of_lt (h9 i hm), h10⟩
      · intro _
        have := h1 ha
        simp only [queued, List.filterMap_append] at this ⊢
        rw [List.range_succ, ← this, List.append_assoc]
        rfl
      · intro hf; simp [ha] at hf
    · have ha' : s.alive = false := by simpa using ha
      obtain ⟨h1, h2, h3, h4, h5, h6, h7, h8, h9, h10⟩ := hi
      constructor
      · intro h; exact absurd h ha
      · exact h2
      · exact h3
      · intro h; exact absurd h ha
      · intro h; exact absurd h ha
      · exact h6
      · intro i r hm
        simp only [List.mem_append, List.mem_singleton, Prod.mk.injEq, reduceCtorEq, and_false, or_false] at hm
        exact h7 i r hm
      · intro _ i hlt
        simp only [List.map_append, List.mem_append, List.map_cons, List.map_nil, List.mem_singleton]
        rcases Nat.lt_succ_iff_lt_or_eq.1 hlt with h | h
        · rcases h8 ha' i h with h | h
          · exact Or.inl (Or.inl h)
          · exact Or.inr h
        · exact Or.inl (Or.inr h)
      · intro i hm
        simp only [List.map_append, List.mem_append, List.map_cons, List.map_nil, List.mem_singleton] at hm
        rcases hm with hm | rfl
        · exact Nat.lt_succ_of_lt (h9 i hm)
        · exact Nat.lt_succ_self _
      · simp only [List.map_append, List.map_cons, List.map_nil]
        rw [List.nodup_append]
        refine ⟨h10, by simp, ?_⟩
        intro i hi j hj e
        cases List.mem_singleton.1 hj
        exact Nat.lt_irrefl _ (e ▸ h9 i hi)
  | close =>
    simp only [step] at hs
    split at hs <;> cases hs
    obtain ⟨h1, h2, h3, h4, h5, h6, h7, h8, h9, h10⟩ := hi
    refine ⟨?_, h2, h3, h4, h5, h6, h7, h8, h9, h10⟩
    intro ha
    have := h1 ha
    simp only [queued, List.filterMap_append] at this ⊢
    simpa using this
  | take =>
    simp only [step] at hs
    split at hs
    · rename_i q ha hc hq
      cases hs
      have hi' : Inv { s with queue := q } := by
        obtain ⟨h1, h2, h3, h4, h5, h6, h7, h8, h9, h10⟩ := hi
        refine ⟨?_, h2, h3, h4, h5, h6, h7, h8, h9, h10⟩
        intro ha
        have := h1 ha
        simp only [queued, hq] at this ⊢
        simpa using this
      have := inv_drain hi' ha [] (by simpa using hi'.sub)
      simpa using this
    · rename_i c q ha hc hq
      cases hs
      obtain ⟨h1, h2, h3, h4, h5, h6, h7, h8, h9, h10⟩ := hi
      have hl := h4 ha hc
      constructor
      · intro _
        have := h1 ha
        simp only [queued, hq] at this ⊢
        simpa using this
      · intro _; exact ha
      · intro c' hc'
        cases hc'
        exact ⟨s.written, rfl, hl⟩
      · intro _ h; cases h
      · intro _
        simp only
        rw [h5 ha, ← hl, List.take_left, List.take_length]
      · simp; omega
      · intro i r hm
        obtain ⟨k, hk, hr⟩ := h7 i r hm
        refine ⟨k, ?_, hr⟩
        simp only
        rw [List.getElem?_append_left (List.getElem?_eq_some_iff.1 hk).1]
        exact hk
      · intro hf; simp [ha] at hf
      · exact h9
      · exact h10
    · cases hs
  | reply r =>
    simp only [step] at hs
    split at hs
    · cases hs
    · rename_i i hc
      split at hs <;> cases hs
      · exact inv_answered hi hc (.byte _) (.response _) (by intro v hv; cases hv; exact Or.inl rfl)
      · exact inv_answered hi hc .ended .nothing (by intro v hv; cases hv)
    · rename_i i hc
      have ha := hi.current (by simp [hc])
      obtain ⟨w, hw, hl⟩ := hi.last _ hc
      split at hs <;> cases hs
      · exact inv_answered hi hc (.object _) (.response _) (by intro v hv; cases hv; exact Or.inr rfl)
      · exact inv_drain hi ha [.broken] (by simp [hw, hl])
      · exact inv_drain hi ha [.ended] (by simp [hw, hl])
  | lost =>
    simp only [step] at hs
    split at hs
    · cases hs
    · rename_i c hc
      cases hs
      have ha := hi.current (by simp [hc])
      have := inv_drain hi ha [] (by simpa using hi.sub)
      simpa using this

theorem run_inv {as : List (Act R)} {s : St R} (hr : run as init = some s) : Inv s := run_invariant inv_step as inv_init hr

/-- C61: a command's response is the server's reply to that command, and each command ends at most once. -/
theorem C61_matched (as : List (Act R)) (s : St R) (hr : run as init = some s) :
    (∀ i r, (i, Outcome.response r) ∈ s.done → ∃ k : Nat, s.written[k]? = some i ∧
      (s.replies[k]? = some (Reply.byte r) ∨ s.replies[k]? = some (Reply.object r))) ∧
    (s.done.map Prod.fst).Nodup :=
  ⟨(run_inv hr).got, (run_inv hr).nodup⟩

/-- What the endings other than a response mean. -/
structure Ends (s : St R) : Prop where
  inv : Inv s
  nothing : ∀ i, (i, Outcome.nothing) ∈ s.done → ∃ k : Nat, s.written[k]? = some i ∧ s.replies[k]? = some Reply.ended
  failed : ∀ i, (i, Outcome.failed) ∈ s.done → i ∉ s.written
  bounded : ∀ i ∈ s.written, i < s.issued

theorem Ends.none_failed {s : St R} (h : Ends s) (ha : s.alive = true) (i : Nat) : (i, Outcome.failed) ∉ s.done := by
  intro hm
  have h1 : i ∈ s.done.map Prod.fst := List.mem_map.2 ⟨_, hm, rfl⟩
  rw [h.inv.doneLive ha] at h1
  exact h.failed i hm (List.mem_of_mem_take h1)

theorem ends_nothing {w w' : List Nat} {rs rs' : List (Reply R)} {i : Nat}
    (h : ∃ k : Nat, w[k]? = some i ∧ rs[k]? = some Reply.ended) :
    ∃ k : Nat, (w ++ w')[k]? = some i ∧ (rs ++ rs')[k]? = some Reply.ended := by
  obtain ⟨k, h1, h2⟩ := h
  refine ⟨k, ?_, ?_⟩
  · rw [List.getElem?_append_left (List.getElem?_eq_some_iff.1 h1).1]; exact h1
  · rw [List.getElem?_append_left (List.getElem?_eq_some_iff.1 h2).1]; exact h2

theorem ends_drain {s : St R} (h : Ends s) (ha : s.alive = true) (rs : List (Reply R))
    (hi : Inv (drain { s with replies := s.replies ++ rs })) : Ends (drain { s with replies := s.replies ++ rs }) := by
  refine ⟨hi, ?_, ?_, by simpa only [drain] using h.bounded⟩
  · intro i hm
    simp only [drain, List.mem_append] at hm
    rcases hm with hm | hm
    · simpa only [drain, List.append_nil] using ends_nothing (w' := []) (rs' := rs) (h.nothing i hm)
    · obtain ⟨c, _, hc⟩ := List.mem_filterMap.1 hm
      cases c <;> simp at hc
  · intro i hm
    simp only [drain, List.mem_append] at hm
    rcases hm with hm | hm
    · exact absurd hm (h.none_failed ha i)
    · obtain ⟨c, hc, he⟩ := List.mem_filterMap.1 hm
      cases c with
      | none => cases he
      | some c =>
        cases he
        intro hw
        exact (range_split (h.inv.order ha)).2.2.2.2 _ hw (List.mem_filterMap.2 ⟨some c, hc, rfl⟩)

theorem ends_answered {s : St R} (h : Ends s) {c : Nat × Kind} (hc : s.current = some c) (r : Reply R) (o : Outcome R)
    (ho : o = .nothing → r = .ended) (hf : o ≠ .failed)
    (hi : Inv { s with current := none, replies := s.replies ++ [r], done := s.done ++ [(c.1, o)] }) :
    Ends { s with current := none, replies := s.replies ++ [r], done := s.done ++ [(c.1, o)] } := by
  refine ⟨hi, ?_, ?_, h.bounded⟩
  · intro i hm
    simp only [List.mem_append, List.mem_singleton, Prod.mk.injEq] at hm
    rcases hm with hm | ⟨rfl, hm⟩
    · simpa only [List.append_nil] using ends_nothing (w' := []) (rs' := [r]) (h.nothing i hm)
    · obtain ⟨w, hw, hl⟩ := h.inv.last c hc
      refine ⟨s.replies.length, ?_, ?_⟩
      · rw [hw, ← hl]; simp
      · rw [ho hm.symm]; simp
  · intro i hm
    simp only [List.mem_append, List.mem_singleton, Prod.mk.injEq] at hm
    rcases hm with hm | ⟨rfl, hm⟩
    · exact h.failed i hm
    · exact absurd hm.symm hf

theorem ends_step (a : Act R) (s s' : St R) (h : Ends s) (hs : step a s = some s') : Ends s' := by
  have hi' := inv_step a s s' h.inv hs
  cases a with
  | issue k =>
    simp only [step] at hs
    split at hs <;> cases hs <;> rename_i ha
    · exact ⟨hi', h.nothing, h.failed, fun i hm => Nat.lt_succ_of_lt (h.bounded i hm)⟩
    · refine ⟨hi', ?_, ?_, fun i hm => Nat.lt_succ_of_lt (h.bounded i hm)⟩
      · intro i hm
        simp only [List.mem_append, List.mem_singleton, Prod.mk.injEq, reduceCtorEq, and_false, or_false] at hm
        exact h.nothing i hm
      · intro i hm
        simp only [List.mem_append, List.mem_singleton, Prod.mk.injEq, and_true] at hm
        rcases hm with hm | rfl
        · exact h.failed i hm
        · intro hw; exact absurd (h.bounded _ hw) (Nat.lt_irrefl _)
  | close =>
    simp only [step] at hs
    split at hs <;> cases hs
    exact ⟨hi', h.nothing, h.failed, h.bounded⟩
  | take =>
    simp only [step] at hs
    split at hs
    · rename_i q ha hc hq
      cases hs
      have h' : Ends { s with queue := q } := by
        refine ⟨?_, h.nothing, h.failed, h.bounded⟩
        obtain ⟨h1, h2, h3, h4, h5, h6, h7, h8, h9, h10⟩ := h.inv
        refine ⟨?_, h2, h3, h4, h5, h6, h7, h8, h9, h10⟩
        intro ha
        have := h1 ha
        simp only [queued, hq] at this ⊢
        simpa using this
      have := ends_drain h' ha [] (by simpa using hi')
      simpa using this
    · rename_i c q ha hc hq
      cases hs
      refine ⟨hi', ?_, ?_, (range_split (hi'.order ha)).1⟩
      · intro i hm
        simpa only [List.append_nil] using ends_nothing (w' := [c.1]) (rs' := []) (h.nothing i hm)
      · intro i hm
        exact absurd hm (h.none_failed ha i)
    · cases hs
  | reply r =>
    simp only [step] at hs
    split at hs
    · cases hs
    · rename_i i hc
      split at hs <;> cases hs
      · exact ends_answered h hc (.byte _) (.response _) (by intro hv; cases hv) (by simp) hi'
      · exact ends_answered h hc .ended .nothing (by intro _; rfl) (by simp) hi'
    · rename_i i hc
      have ha := h.inv.current (by simp [hc])
      split at hs <;> cases hs
      · exact ends_answered h hc (.object _) (.response _) (by intro hv; cases hv) (by simp) hi'
      · exact ends_drain h ha [.broken] hi'
      · exact ends_drain h ha [.ended] hi'
  | lost =>
    simp only [step] at hs
    split at hs
    · cases hs
    · rename_i c hc
      cases hs
      have ha := h.inv.current (by simp [hc])
      have := ends_drain h ha [] (by simpa using hi')
      simpa using this

theorem run_ends {as : List (Act R)} {s : St R} (hr : run as init = some s) : Ends s :=
  run_invariant ends_step as ⟨inv_init, by simp [init], by simp [init], by simp [init]⟩ hr

/-- C61: a command raises only if it was never written to the connection, and every command that has ended without having
been written raises. A command is left without an answer only if the connection ended where its answer was expected. -/
theorem C61_raises (as : List (Act R)) (s : St R) (hr : run as init = some s) :
    (∀ i, (i, Outcome.failed) ∈ s.done → i ∉ s.written) ∧
    (∀ i, i ∈ s.done.map Prod.fst → i ∉ s.written → (i, Outcome.failed) ∈ s.done) ∧
    (∀ i, (i, Outcome.nothing) ∈ s.done → ∃ k : Nat, s.written[k]? = some i ∧ s.replies[k]? = some Reply.ended) := by
  have h := run_ends hr
  refine ⟨h.failed, ?_, h.nothing⟩
  intro i hm hw
  obtain ⟨⟨j, o⟩, hm', rfl⟩ := List.mem_map.1 hm
  cases o with
  | failed => exact hm'
  | nothing =>
    obtain ⟨k, hk, _⟩ := h.nothing _ hm'
    exact absurd (List.mem_of_getElem? hk) hw
  | response r =>
    obtain ⟨k, hk, _⟩ := h.inv.got _ _ hm'
    exact absurd (List.mem_of_getElem? hk) hw

/-- C61: while the loop runs, commands are written in the order they were issued and all but the queued ones and the one
under way have ended. -/
theorem C61_in_order (as : List (Act R)) (s : St R) (hr : run as init = some s) (ha : s.alive = true) :
    s.written ++ s.queue.filterMap (fun c => c.map Prod.fst) = List.range s.issued ∧
    s.done.map Prod.fst = s.written.take s.replies.length ∧
    s.written.length = s.replies.length + (if s.current.isSome then 1 else 0) := by
  have hi := run_inv hr
  refine ⟨hi.order ha, hi.doneLive ha, ?_⟩
  cases hc : s.current with
  | none => simpa using hi.between ha hc
  | some c =>
    obtain ⟨w, hw, hl⟩ := hi.last c hc
    simp [hw, hl]

/-- C61 (partial): when the loop has ended (closed, broken reply, connection lost), every command ever issued, before or
after, has ended, except possibly the last one written. Missing: that one, see `C61_negation`. -/
theorem C61_all_end_partial (as : List (Act R)) (s : St R) (hr : run as init = some s) (ha : s.alive = false) (i : Nat)
    (hi : i < s.issued) : i ∈ s.done.map Prod.fst ∨ s.written.getLast? = some i :=
  (run_inv hr).rest ha i hi

/-- Once the loop has ended, a command that has not ended never will. -/
theorem C61_stuck (as : List (Act R)) (s s' : St R) (ha : s.alive = false) (hq : s.current = none) (i : Nat)
    (hi : i < s.issued) (hd : i ∉ s.done.map Prod.fst) (hr : run as s = some s') : i ∉ s'.done.map Prod.fst := by
  have := run_invariant (I := fun s => s.alive = false ∧ s.current = none ∧ i < s.issued ∧ i ∉ s.done.map Prod.fst) ?_ as
    ⟨ha, hq, hi, hd⟩ hr
  · exact this.2.2.2
  · intro a s s' ⟨h1, h2, h3, h4⟩ hs
    cases a with
    | issue k =>
      simp only [step, h1, Bool.false_eq_true, if_false, Option.some.injEq] at hs
      subst hs
      refine ⟨rfl, h2, Nat.lt_succ_of_lt h3, ?_⟩
      simp only [List.map_append, List.mem_append, not_or]
      refine ⟨h4, ?_⟩
      simp only [List.map_cons, List.map_nil, List.mem_singleton]
      omega
    | close => simp [step, h1] at hs
    | take => simp [step, h1] at hs
    | reply r => simp [step, h2] at hs
    | lost => simp [step, h2] at hs

/-- Three commands, the session closed with one queued; meets `C61_in_order` before the end and `C61_all_end_partial`. -/
example : ∃ s s' : St Nat, run [.issue .byte, .issue .pickled, .take, .issue .byte, .reply (.byte 1), .take, .close,
      .issue .byte] init = some s ∧ s.alive = true ∧ s.written = [0, 1] ∧ s.done = [(0, .response 1)] ∧
    run [.reply (.object 5), .take, .reply (.byte 2), .take, .issue .byte] s = some s' ∧ s'.alive = false ∧
    s'.done = [(0, .response 1), (1, .response 5), (2, .response 2), (3, .failed), (4, .failed)] :=
  ⟨_, _, rfl, rfl, rfl, rfl, rfl, rfl, rfl⟩

/-- C61 fails: if the connection ends while a snapshot is being read, the commands in the queue get an exception but the
snapshot call itself waits forever. -/
theorem C61_negation : ∃ s : St Nat, run [.issue .pickled, .issue .byte, .take, .reply .ended] init = some s ∧
    s.done = [(1, .failed)] ∧ ∀ as s', run as s = some s' → 0 ∉ s'.done.map Prod.fst :=
  ⟨_, rfl, rfl, fun as s' hr => C61_stuck as _ s' rfl rfl 0 (by decide) (by decide) hr⟩

theorem run_append (as bs : List (Act R)) (s : St R) : run (as ++ bs) s = (run as s).bind (run bs) := by
  induction as generalizing s with
  | nil => rfl
  | cons a as ih =>
    simp only [List.cons_append, run]
    cases step a s with
    | none => rfl
    | some s' => exact ih s'

/-- Specification: the reply a server gives to a command that it serves. -/
def Serves : Kind → R → Reply R
  | .byte, v => .byte v
  | .pickled, v => .object v

/-- A server that serves what it is sent: the queued commands up to the first request to close end with its responses. -/
theorem run_served (val : Nat → R) (q : List (Nat × Kind)) (rest : List (Option (Nat × Kind))) (s : St R)
    (ha : s.alive = true) (hc : s.current = none) (hq : s.queue = q.map some ++ rest) :
    ∃ more s', (∀ a ∈ more, a = .take ∨ ∃ r, a = .reply r) ∧ run more s = some s' ∧ s'.alive = true ∧ s'.current = none ∧
      s'.queue = rest ∧ s'.issued = s.issued ∧
      s'.done = s.done ++ q.map (fun c => (c.1, .response (val c.1))) := by
  induction q generalizing s with
  | nil => exact ⟨[], s, by simp, rfl, ha, hc, by simpa using hq, rfl, by simp⟩
  | cons c q ih =>
    obtain ⟨i, k⟩ := c
    have h1 : ∃ s1, run [.take, .reply (Serves k (val i))] s = some s1 ∧ s1.alive = true ∧ s1.current = none ∧
        s1.queue = q.map some ++ rest ∧ s1.issued = s.issued ∧ s1.done = s.done ++ [(i, .response (val i))] := by
      cases k <;> simp [run, step, ha, hc, hq, Serves]
    obtain ⟨s1, hr1, ha1, hc1, hq1, hi1, hd1⟩ := h1
    obtain ⟨more, s', hm, hr', ha', hc', hq', hi', hd'⟩ := ih s1 ha1 hc1 hq1
    refine ⟨[.take, .reply (Serves k (val i))] ++ more, s', ?_, ?_, ha', hc', hq', hi'.trans hi1, by simp [hd', hd1]⟩
    · intro a h
      simp only [List.mem_append, List.mem_cons, List.not_mem_nil, or_false] at h
      rcases h with (h | h) | h
      · exact Or.inl h
      · exact Or.inr ⟨_, h⟩
      · exact hm a h
    · rw [run_append, hr1]; exact hr'

/-- A list of queued commands and requests to close is made up of the commands before the first such request and the rest. -/
theorem queue_split (l : List (Option (Nat × Kind))) : ∃ q rest, l = List.map some q ++ rest ∧
    (rest = [] ∨ ∃ rest', rest = none :: rest') := by
  induction l with
  | nil => exact ⟨[], [], rfl, Or.inl rfl⟩
  | cons c l ih =>
    cases c with
    | none => exact ⟨[], _, rfl, Or.inr ⟨l, rfl⟩⟩
    | some c =>
      obtain ⟨q, rest, h, h'⟩ := ih
      exact ⟨c :: q, rest, by simp [h], h'⟩

/-- C61: nothing gets stuck while the loop runs. A command can always be issued, and the session be asked to close. If the
server serves what it is sent then, if the session was not asked to close, every command issued ends with the server's
response to it; if it was asked to, the loop ends and every command issued has ended. -/
theorem C61_goes_on (as : List (Act R)) (s : St R) (hr : run as init = some s) :
    (∀ k, ∃ s', run (as ++ [.issue k]) init = some s' ∧ s'.issued = s.issued + 1) ∧
    (s.alive = true → (∃ s', run (as ++ [.close]) init = some s') ∧
      ∀ val : Nat → R, ∃ more s', (∀ a ∈ more, a = .take ∨ ∃ r, a = .reply r) ∧ run (as ++ more) init = some s' ∧
        (none ∉ s.queue → s'.alive = true ∧
          ∀ i < s.issued, i ∈ s.done.map Prod.fst ∨ (i, Outcome.response (val i)) ∈ s'.done) ∧
        (none ∈ s.queue → s'.alive = false) ∧
        ∀ i < s.issued, i ∈ s'.done.map Prod.fst) := by
  have hi := run_inv hr
  refine ⟨?_, ?_⟩
  · intro k
    rw [run_append, hr]
    cases ha : s.alive <;> simp [run, step, ha]
  · intro ha
    refine ⟨by rw [run_append, hr]; simp [run, step, ha], ?_⟩
    intro val
    -- the command under way ends
    have h1 : ∃ m1 s1, (∀ a ∈ m1, a = .take ∨ ∃ r, a = .reply r) ∧ run m1 s = some s1 ∧ s1.alive = true ∧ s1.current = none ∧
        s1.queue = s.queue ∧ s1.issued = s.issued ∧
        (∀ i ∈ s1.done.map Prod.fst, i ∈ s.done.map Prod.fst ∨ (i, Outcome.response (val i)) ∈ s1.done) := by
      cases hc : s.current with
      | none => exact ⟨[], s, by simp, rfl, ha, hc, rfl, rfl, fun i h => Or.inl h⟩
      | some c =>
        obtain ⟨i, k⟩ := c
        refine ⟨[.reply (Serves k (val i))],
          { s with
            current := none
            replies := s.replies ++ [Serves k (val i)]
            done := s.done ++ [(i, .response (val i))] }, ?_, ?_, ha, rfl, rfl, rfl, ?_⟩
        · intro a h; exact Or.inr ⟨_, List.mem_singleton.1 h⟩
        · cases k <;> simp [run, step, hc, Serves]
        · intro j hj
          simp only [List.map_append, List.mem_append, List.map_cons, List.map_nil, List.mem_singleton] at hj
          rcases hj with hj | rfl
          · exact Or.inl hj
          · exact Or.inr (by simp)
    obtain ⟨m1, s1, hm1, hr1, ha1, hc1, hq1, hi1, hd1⟩ := h1
    have hrun1 : run (as ++ m1) init = some s1 := by rw [run_append, hr]; exact hr1
    obtain ⟨q, rest, hsplit, hrest⟩ := queue_split s1.queue
    obtain ⟨m2, s2, hm2, hr2, ha2, hc2, hq2, hi2, hd2⟩ := run_served val q rest s1 ha1 hc1 hsplit
    have hrun2 : run (as ++ (m1 ++ m2)) init = some s2 := by
      rw [← List.append_assoc, run_append, hrun1]; exact hr2
    have hm12 : ∀ a ∈ m1 ++ m2, a = .take ∨ ∃ r, a = .reply r := by
      intro a h
      rcases List.mem_append.1 h with h | h
      · exact hm1 a h
      · exact hm2 a h
    -- what has ended then
    have hended : ∀ i ∈ s2.done.map Prod.fst, i ∈ s.done.map Prod.fst ∨ (i, Outcome.response (val i)) ∈ s2.done := by
      intro i h
      rw [hd2] at h ⊢
      simp only [List.map_append, List.mem_append] at h ⊢
      rcases h with h | h
      · exact (hd1 i h).imp id Or.inl
      · simp only [List.map_map, List.mem_map, Function.comp] at h
        obtain ⟨c, hc, rfl⟩ := h
        exact Or.inr (Or.inr (List.mem_map.2 ⟨c, hc, rfl⟩))
    have hlive := run_inv hrun2
    have hdone : s2.done.map Prod.fst = s2.written := by
      rw [hlive.doneLive ha2, ← hlive.between ha2 hc2, List.take_length]
    rcases hrest with rfl | ⟨rest', rfl⟩
    · have hall : ∀ i < s.issued, i ∈ s2.done.map Prod.fst := by
        intro i h
        have ho := hlive.order ha2
        rw [queued, hq2] at ho
        simp only [List.filterMap_nil, List.append_nil] at ho
        rw [hdone, ho, hi2, hi1]
        exact List.mem_range.2 h
      have hnone : none ∉ s.queue := by
        rw [← hq1, hsplit]; simp
      exact ⟨m1 ++ m2, s2, hm12, hrun2, fun _ => ⟨ha2, fun i h => hended i (hall i h)⟩, fun h => absurd h hnone, hall⟩
    · have hnone : none ∈ s.queue := by
        rw [← hq1, hsplit]; simp
      have hr3 : run [.take] s2 = some (drain { s2 with queue := rest' }) := by
        simp [run, step, ha2, hc2, hq2]
      have hrun3 : run (as ++ (m1 ++ m2 ++ [.take])) init = some (drain { s2 with queue := rest' }) := by
        rw [← List.append_assoc, run_append, hrun2]; exact hr3
      refine ⟨m1 ++ m2 ++ [.take], _, ?_, hrun3, fun h => absurd hnone h, fun _ => rfl, ?_⟩
      · intro a h
        rcases List.mem_append.1 h with h | h
        · exact hm12 a h
        · exact Or.inl (List.mem_singleton.1 h)
      · intro i h
        have ho := hlive.order ha2
        have hm : i ∈ s2.written ++ queued s2 := by rw [ho, hi2, hi1]; exact List.mem_range.2 h
        simp only [drain, List.map_append, List.mem_append] at hm ⊢
        rcases hm with hm | hm
        · exact Or.inl (by rw [hdone]; exact hm)
        · right
          simp only [queued, hq2, List.mem_filterMap] at hm
          obtain ⟨c, hc, hc'⟩ := hm
          cases c with
          | none => simp at hc'
          | some c =>
            simp only [Option.map_some, Option.some.injEq] at hc'
            simp only [List.mem_map, List.mem_filterMap]
            refine ⟨(i, .failed), ⟨some c, ?_, by simp [hc']⟩, rfl⟩
            simpa using hc

/-- Two commands, one of them under way, and the same with a request to close between them. -/
example : ∃ s s' : St Nat, run [.issue .pickled, .take, .issue .byte] init = some s ∧ s.alive = true ∧ none ∉ s.queue ∧
    run [.reply (.object 5), .take, .reply (.byte 1)] s = some s' ∧ s'.done = [(0, .response 5), (1, .response 1)] :=
  ⟨_, _, rfl, rfl, by decide, rfl, rfl⟩

example : ∃ s s' : St Nat, run [.issue .pickled, .take, .close, .issue .byte] init = some s ∧ s.alive = true ∧ none ∈ s.queue ∧
    run [.reply (.object 5), .take] s = some s' ∧ s'.alive = false ∧ s'.done = [(0, .response 5), (1, .failed)] :=
  ⟨_, _, rfl, rfl, by decide, rfl, rfl, rfl⟩

end Session
end Ez
