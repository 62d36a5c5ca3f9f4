import Verif.Model.Updates
import Verif.Lemmas.Py

/-!
# C81: calls which change the graph return when subscribers have applied the change
-/

set_option linter.unusedSectionVars false
set_option linter.unusedSimpArgs false

namespace Ez
namespace Updates

variable {S : Type} [DecidableEq S]

/-! ## Specification -/

/-- The commands which have been taken up, in order. -/
def taken (as : List (Act S)) : List (Cmd S) :=
  as.filterMap fun a => match a with
    | .begin c => some c
    | _ => none

/-- The subscriber has applied the update of command `n` and has no other to apply. -/
def UpToDate (st : St S) (n : Nat) (s : S) : Prop := (st.seen s).getLast? = some n ∧ ∀ k, some k ∉ st.inbox s

/-! ## Lemmas -/

theorem upd_same {α : Type} (f : S → α) (p : S) (a : α) : upd f p a p = a := by simp [upd]

theorem upd_apply {α : Type} (f : S → α) (p q : S) (a : α) : upd f p a q = if q = p then a else f q := rfl

/-- The updates in a stream. -/
def ups (l : List (Option Nat)) : List Nat := l.filterMap id

/-- Whether the server waits for `s` to confirm. -/
def WaitsFor (st : St S) (s : S) : Prop := st.waiting = true ∧ ∃ rest, st.todo = .notify s :: rest

/-- Counting updates, confirmations and timeouts. -/
structure Inv (as : List (Act S)) (st : St S) : Prop where
  num : st.n = (taken as).length
  flow : ∀ s, as.count (.send s) = (st.seen s).length + (ups (st.inbox s)).length
  acked : ∀ s, (st.seen s).length = st.acks s + as.count (.ack s)
  lag : ∀ s, as.count (.send s) ≤ as.count (.ack s) + st.late s ∨ (WaitsFor st s ∧ as.count (.send s) ≤ as.count (.ack s) + st.late s + 1)
  late : ∀ s, st.late s = as.count (.timeout s)
  head : st.waiting = true → ∃ s rest, st.todo = .notify s :: rest
  free : ∀ s, st.pending s = true ∨ WaitsFor st s
  cur : st.todo ≠ [] → ∃ c, st.cur = some c
  plan : ∀ c, st.cur = some c → (taken as).getLast? = some c ∧ ∃ done, c.plan = done ++ st.todo ∧
    ∀ s, (.notify s ∈ done ∨ WaitsFor st s) → (st.seen s ++ ups (st.inbox s)).getLast? = some st.n
  ready : ∀ s pre post, st.inbox s = pre ++ none :: post → ∃ k, (k + 1 ∈ st.seen s ∨ some (k + 1) ∈ pre) ∧ (taken as)[k]? = some (.subscribe s)
  started : ∀ s, st.ready s = true → ∃ k, k + 1 ∈ st.seen s ∧ (taken as)[k]? = some (.subscribe s)

theorem inv_init : Inv [] (init : St S) where
  num := rfl
  flow := by simp [init, ups]
  acked := by simp [init]
  lag := by simp [init]
  late := by simp [init]
  head := by simp [init]
  free := by simp [init]
  cur := by simp [init]
  plan := by simp [init]
  ready := by simp [init]
  started := by simp [init]

theorem taken_snoc (as : List (Act S)) (a : Act S) :
    taken (as ++ [a]) = taken as ++ (match a with | .begin c => [c] | _ => []) := by
  cases a <;> simp [taken]

theorem count_snoc (as : List (Act S)) (a b : Act S) : (as ++ [a]).count b = as.count b + if a = b then 1 else 0 := by
  rw [List.count_append, List.count_singleton]
  by_cases h : a = b <;> simp [h]

theorem ups_append (a b : List (Option Nat)) : ups (a ++ b) = ups a ++ ups b := by simp [ups]

theorem inv_begin {as : List (Act S)} {st : St S} {c : Cmd S} (h : Inv as st) (h0 : st.todo = []) :
    Inv (as ++ [.begin c]) { st with n := st.n + 1, cur := some c, todo := c.plan } := by
  have hw : st.waiting = false := by
    cases e : st.waiting with
    | false => rfl
    | true => obtain ⟨s, r, hr⟩ := h.head e; rw [h0] at hr; simp at hr
  have nw : ∀ s, ¬ WaitsFor st s := fun s e => by have := e.1; simp [hw] at this
  refine ⟨?_, ?_, ?_, ?_, ?_, ?_, ?_, ?_, ?_, ?_, ?_⟩
  · simp [taken_snoc, h.num]
  · intro s; simpa [count_snoc] using h.flow s
  · intro s; simpa [count_snoc] using h.acked s
  · intro s
    rcases h.lag s with e | e
    · left; simpa [count_snoc] using e
    · exact absurd e.1 (nw s)
  · intro s; simpa [count_snoc] using h.late s
  · intro e; simp [hw] at e
  · intro s
    rcases h.free s with e | e
    · exact .inl e
    · exact absurd e (nw s)
  · intro _; exact ⟨c, rfl⟩
  · intro c' hc
    simp only [Option.some.injEq] at hc
    subst hc
    refine ⟨by simp [taken_snoc], [], by simp, ?_⟩
    intro s hs
    rcases hs with hs | hs
    · simp at hs
    · have := hs.1; simp [hw] at this
  · intro s pre post e
    obtain ⟨k, h1, h2⟩ := h.ready s pre post e
    exact ⟨k, h1, by rw [taken_snoc, List.getElem?_append_left (List.getElem?_eq_some_iff.1 h2).1]; exact h2⟩
  · intro s e
    obtain ⟨k, h1, h2⟩ := h.started s e
    exact ⟨k, h1, by rw [taken_snoc, List.getElem?_append_left (List.getElem?_eq_some_iff.1 h2).1]; exact h2⟩

theorem inv_step {as : List (Act S)} {st st' : St S} {a : Act S} (h : Inv as st) (hs : Step st a st') : Inv (as ++ [a]) st' := by
  cases hs with
  | «begin» h0 => exact inv_begin h h0
  | @send s rest ht hw hp =>
    have nw : ∀ s, ¬ WaitsFor st s := fun s e => by have := e.1; simp [hw] at this
    have wf : ∀ (st' : St S), st'.waiting = true → st'.todo = st.todo → ∀ t, WaitsFor st' t ↔ t = s := by
      intro st' e1 e2 t
      constructor
      · intro ⟨_, r, hr⟩; rw [e2, ht] at hr; simp at hr; exact hr.1.symm
      · intro e; subst e; exact ⟨e1, rest, by rw [e2, ht]⟩
    have tk : taken (as ++ [.send s]) = taken as := by simp [taken_snoc]
    refine ⟨by rw [tk]; exact h.num, ?_, ?_, ?_, ?_, ?_, ?_, h.cur, ?_, ?_, ?_⟩
    · intro t
      have := h.flow t
      simp only [count_snoc, Act.send.injEq, upd_apply]
      by_cases e : s = t
      · subst e; simp [ups_append, ups] at this ⊢; omega
      · simp [e, Ne.symm e, this]
    · intro t; simpa [count_snoc] using h.acked t
    · intro t
      have h1 : as.count (.send t) ≤ as.count (.ack t) + st.late t := by
        rcases h.lag t with e | e
        · exact e
        · exact absurd e.1 (nw t)
      by_cases e : s = t
      · right
        subst e
        refine ⟨(wf _ (by rfl) (by rfl) s).2 rfl, ?_⟩
        simp [count_snoc]; omega
      · left; simpa [count_snoc, e] using h1
    · intro t; simpa [count_snoc] using h.late t
    · intro _; exact ⟨s, rest, ht⟩
    · intro t
      by_cases e : t = s
      · subst e; exact .inr ((wf _ (by rfl) (by rfl) t).2 rfl)
      · rcases h.free t with e' | e'
        · exact .inl (by simpa [upd, e] using e')
        · exact absurd e' (nw t)
    · intro c hc
      obtain ⟨h1, done, h2, h3⟩ := h.plan c hc
      refine ⟨by rw [tk]; exact h1, done, h2, ?_⟩
      intro t hd
      simp only [upd_apply]
      by_cases e : t = s
      · simp [e, ups_append, ups]
      · rw [if_neg e]
        rcases hd with hd | hd
        · exact h3 t (.inl hd)
        · exact absurd ((wf _ (by rfl) (by rfl) t).1 hd) e
    · intro t pre post e
      rw [tk]
      simp only [upd_apply] at e
      split at e
      · rename_i et
        subst et
        rcases List.append_eq_append_iff.1 e with ⟨l, e1, e2⟩ | ⟨l, e1, e2⟩
        · cases l with
          | nil => simp at e2
          | cons x l => simp at e2
        · cases l with
          | nil => simp at e2
          | cons x l =>
            simp only [List.cons_append, List.cons.injEq] at e2
            obtain ⟨rfl, _⟩ := e2
            exact h.ready t pre l e1
      · exact h.ready t pre post e
    · rw [tk]; exact h.started
  | @timeout s rest ht hw =>
    have hws : ∀ t, WaitsFor st t ↔ t = s := by
      intro t
      constructor
      · intro ⟨_, r, hr⟩; rw [ht] at hr; simp at hr; exact hr.1.symm
      · intro e; subst e; exact ⟨hw, rest, ht⟩
    have tk : taken (as ++ [.timeout s]) = taken as := by simp [taken_snoc]
    refine ⟨by rw [tk]; exact h.num, ?_, ?_, ?_, ?_, ?_, ?_, ?_, ?_, ?_, ?_⟩
    · intro t; simpa [count_snoc] using h.flow t
    · intro t; simpa [count_snoc] using h.acked t
    · intro t
      left
      simp only [count_snoc, upd_apply]
      by_cases e : t = s
      · subst e
        have := h.lag t
        simp; omega
      · rcases h.lag t with e' | e'
        · simpa [e] using e'
        · exact absurd ((hws t).1 e'.1) e
    · intro t
      have := h.late t
      simp only [count_snoc, upd_apply, Act.timeout.injEq]
      by_cases e : t = s
      · subst e; simp [this]
      · simp [e, Ne.symm e, this]
    · simp
    · intro t
      left
      simp only [upd_apply]
      by_cases e : t = s
      · simp [e]
      · rw [if_neg e]
        rcases h.free t with e' | e'
        · exact e'
        · exact absurd ((hws t).1 e') e
    · intro _; exact h.cur (by simp [ht])
    · intro c hc
      obtain ⟨h1, done, h2, h3⟩ := h.plan c hc
      refine ⟨by rw [tk]; exact h1, done ++ [.notify s], by simp [h2, ht], ?_⟩
      intro t hd
      rcases hd with hd | hd
      · rcases List.mem_append.1 hd with hd | hd
        · exact h3 t (.inl hd)
        · simp at hd; exact h3 t (.inr ((hws t).2 hd))
      · have := hd.1; simp at this
    · rw [tk]; exact h.ready
    · rw [tk]; exact h.started
  | @reply rest ht =>
    have hw : st.waiting = false := by
      cases e : st.waiting with
      | false => rfl
      | true => obtain ⟨s, r, hr⟩ := h.head e; rw [ht] at hr; simp at hr
    have nw : ∀ s, ¬ WaitsFor st s := fun s e => by have := e.1; simp [hw] at this
    have tk : taken (as ++ [.reply]) = taken as := by simp [taken_snoc]
    refine ⟨by rw [tk]; exact h.num, ?_, ?_, ?_, ?_, ?_, ?_, ?_, ?_, ?_, ?_⟩
    · intro t; simpa [count_snoc] using h.flow t
    · intro t; simpa [count_snoc] using h.acked t
    · intro t
      rcases h.lag t with e | e
      · left; simpa [count_snoc] using e
      · exact absurd e.1 (nw t)
    · intro t; simpa [count_snoc] using h.late t
    · intro e; simp [hw] at e
    · intro t
      rcases h.free t with e | e
      · exact .inl e
      · exact absurd e (nw t)
    · intro _; exact h.cur (by simp [ht])
    · intro c hc
      obtain ⟨h1, done, h2, h3⟩ := h.plan c hc
      refine ⟨by rw [tk]; exact h1, done ++ [.reply], by simp [h2, ht], ?_⟩
      intro t hd
      rcases hd with hd | hd
      · rcases List.mem_append.1 hd with hd | hd
        · exact h3 t (.inl hd)
        · simp at hd
      · have := hd.1; simp [hw] at this
    · rw [tk]; exact h.ready
    · rw [tk]; exact h.started
  | @tellReady s rest ht =>
    have hw : st.waiting = false := by
      cases e : st.waiting with
      | false => rfl
      | true => obtain ⟨s, r, hr⟩ := h.head e; rw [ht] at hr; simp at hr
    have nw : ∀ s, ¬ WaitsFor st s := fun s e => by have := e.1; simp [hw] at this
    have tk : taken (as ++ [.tellReady s]) = taken as := by simp [taken_snoc]
    have hup : ∀ t, ups (upd st.inbox s (st.inbox s ++ [none]) t) = ups (st.inbox t) := by
      intro t
      simp only [upd_apply]
      split
      · rename_i e; subst e; simp [ups_append, ups]
      · rfl
    refine ⟨by rw [tk]; exact h.num, ?_, ?_, ?_, ?_, ?_, ?_, ?_, ?_, ?_, ?_⟩
    · intro t; simpa [count_snoc, hup] using h.flow t
    · intro t; simpa [count_snoc] using h.acked t
    · intro t
      rcases h.lag t with e | e
      · left; simpa [count_snoc] using e
      · exact absurd e.1 (nw t)
    · intro t; simpa [count_snoc] using h.late t
    · intro e; simp [hw] at e
    · intro t
      rcases h.free t with e | e
      · exact .inl e
      · exact absurd e (nw t)
    · intro _; exact h.cur (by simp [ht])
    · intro c hc
      obtain ⟨h1, done, h2, h3⟩ := h.plan c hc
      refine ⟨by rw [tk]; exact h1, done ++ [.ready s], by simp [h2, ht], ?_⟩
      intro t hd
      simp only [hup]
      rcases hd with hd | hd
      · rcases List.mem_append.1 hd with hd | hd
        · exact h3 t (.inl hd)
        · simp at hd
      · have := hd.1; simp [hw] at this
    · intro t pre post e
      rw [tk]
      simp only [upd_apply] at e
      split at e
      · rename_i et
        subst et
        rcases List.append_eq_append_iff.1 e with ⟨l, e1, e2⟩ | ⟨l, e1, e2⟩
        · -- the new one
          have hpre : pre = st.inbox t := by
            cases l with
            | nil => simpa using e1
            | cons x l => simp at e2
          obtain ⟨c, hc⟩ := h.cur (by simp [ht])
          obtain ⟨h1, done, h2, h3⟩ := h.plan c hc
          have hc' : c = .subscribe t ∧ done = [.notify t] := by
            rw [ht] at h2
            cases c with
            | publish subs | sessionEdge subs =>
              exfalso
              have : (Item.ready t) ∈ subs.map Item.notify ++ [Item.reply] := by simp only [Cmd.plan] at h2; rw [h2]; simp
              simp at this
            | edge subs =>
              exfalso
              have : (Item.ready t) ∈ Item.reply :: subs.map Item.notify := by simp only [Cmd.plan] at h2; rw [h2]; simp
              simp at this
            | subscribe u =>
              simp only [Cmd.plan] at h2
              cases done with
              | nil => simp at h2
              | cons d done =>
                cases done with
                | nil => simp at h2; exact ⟨by rw [h2.2.1], by rw [← h2.1, h2.2.1]⟩
                | cons d' done => simp at h2
          obtain ⟨rfl, rfl⟩ := hc'
          have hl := h3 t (.inl (by simp))
          have hm : st.n ∈ st.seen t ++ ups (st.inbox t) := List.mem_of_getLast? hl
          have hn := h.num
          have hpos : 0 < (taken as).length := by
            cases e : taken as with
            | nil => rw [e] at h1; simp at h1
            | cons => simp
          refine ⟨st.n - 1, ?_, ?_⟩
          · rw [show st.n - 1 + 1 = st.n by omega]
            rcases List.mem_append.1 hm with hm | hm
            · exact .inl hm
            · right; rw [hpre]; simpa [ups] using hm
          · rw [List.getLast?_eq_getElem?] at h1
            rw [hn]; exact h1
        · cases l with
          | nil =>
            simp at e2 e1
            obtain ⟨c, hc⟩ := h.cur (by simp [ht])
            obtain ⟨h1, done, h2, h3⟩ := h.plan c hc
            have hc' : c = .subscribe t ∧ done = [.notify t] := by
              rw [ht] at h2
              cases c with
              | publish subs | sessionEdge subs =>
                exfalso
                have : (Item.ready t) ∈ subs.map Item.notify ++ [Item.reply] := by simp only [Cmd.plan] at h2; rw [h2]; simp
                simp at this
              | edge subs =>
                exfalso
                have : (Item.ready t) ∈ Item.reply :: subs.map Item.notify := by simp only [Cmd.plan] at h2; rw [h2]; simp
                simp at this
              | subscribe u =>
                simp only [Cmd.plan] at h2
                cases done with
                | nil => simp at h2
                | cons d done =>
                  cases done with
                  | nil => simp at h2; exact ⟨by rw [h2.2.1], by rw [← h2.1, h2.2.1]⟩
                  | cons d' done => simp at h2
            obtain ⟨rfl, rfl⟩ := hc'
            have hl := h3 t (.inl (by simp))
            have hm : st.n ∈ st.seen t ++ ups (st.inbox t) := List.mem_of_getLast? hl
            have hn := h.num
            have hpos : 0 < (taken as).length := by
              cases e : taken as with
              | nil => rw [e] at h1; simp at h1
              | cons => simp
            refine ⟨st.n - 1, ?_, ?_⟩
            · rw [show st.n - 1 + 1 = st.n by omega]
              rcases List.mem_append.1 hm with hm | hm
              · exact .inl hm
              · right; rw [← e1]; simpa [ups] using hm
            · rw [List.getLast?_eq_getElem?] at h1
              rw [hn]; exact h1
          | cons x l =>
            simp only [List.cons_append, List.cons.injEq] at e2
            obtain ⟨rfl, _⟩ := e2
            exact h.ready t pre l e1
      · exact h.ready t pre post e
    · rw [tk]; exact h.started
  | @apply s k rest hi =>
    have tk : taken (as ++ [.apply s]) = taken as := by simp [taken_snoc]
    have hup : ∀ t, upd st.seen s (st.seen s ++ [k]) t ++ ups (upd st.inbox s rest t) = st.seen t ++ ups (st.inbox t) := by
      intro t
      simp only [upd_apply]
      split
      · rename_i e; subst e; simp [hi, ups]
      · rfl
    have hlen : ∀ t, (upd st.seen s (st.seen s ++ [k]) t).length + (ups (upd st.inbox s rest t)).length = (st.seen t).length + (ups (st.inbox t)).length := by
      intro t
      have := congrArg List.length (hup t)
      simpa using this
    refine ⟨by rw [tk]; exact h.num, ?_, ?_, ?_, ?_, h.head, h.free, h.cur, ?_, ?_, ?_⟩
    · intro t
      have := h.flow t
      have := hlen t
      simp only [count_snoc]
      simp; omega
    · intro t
      have := h.acked t
      simp only [count_snoc, upd_apply]
      split
      · rename_i e; subst e; simp; omega
      · simpa using this
    · intro t
      rcases h.lag t with e | e
      · left; simpa [count_snoc] using e
      · right; exact ⟨e.1, by simpa [count_snoc] using e.2⟩
    · intro t; simpa [count_snoc] using h.late t
    · intro c hc
      obtain ⟨h1, done, h2, h3⟩ := h.plan c hc
      refine ⟨by rw [tk]; exact h1, done, h2, ?_⟩
      intro t hd
      simp only [hup]
      exact h3 t hd
    · intro t pre post e
      rw [tk]
      simp only [upd_apply] at e ⊢
      split at e
      · rename_i et
        subst et
        obtain ⟨j, h1, h2⟩ := h.ready t (some k :: pre) post (by simp [hi, e])
        refine ⟨j, ?_, h2⟩
        simp only [List.mem_cons] at h1
        rcases h1 with h1 | h1 | h1
        · left; simp [h1]
        · left; simp only [Option.some.injEq] at h1; simp [h1]
        · exact .inr h1
      · rename_i et
        rw [if_neg et]
        exact h.ready t pre post e
    · intro t e
      rw [tk]
      obtain ⟨j, h1, h2⟩ := h.started t e
      refine ⟨j, ?_, h2⟩
      simp only [upd_apply]
      split
      · rename_i et; subst et; simp [h1]
      · exact h1
  | @becomeReady s rest hi =>
    have tk : taken (as ++ [.becomeReady s]) = taken as := by simp [taken_snoc]
    have hup : ∀ t, ups (upd st.inbox s rest t) = ups (st.inbox t) := by
      intro t
      simp only [upd_apply]
      split
      · rename_i e; subst e; simp [hi, ups]
      · rfl
    refine ⟨by rw [tk]; exact h.num, ?_, ?_, ?_, ?_, h.head, h.free, h.cur, ?_, ?_, ?_⟩
    · intro t; simpa [count_snoc, hup] using h.flow t
    · intro t; simpa [count_snoc] using h.acked t
    · intro t
      rcases h.lag t with e | e
      · left; simpa [count_snoc] using e
      · right; exact ⟨e.1, by simpa [count_snoc] using e.2⟩
    · intro t; simpa [count_snoc] using h.late t
    · intro c hc
      obtain ⟨h1, done, h2, h3⟩ := h.plan c hc
      refine ⟨by rw [tk]; exact h1, done, h2, ?_⟩
      intro t hd
      simp only [hup]
      exact h3 t hd
    · intro t pre post e
      rw [tk]
      simp only [upd_apply] at e
      split at e
      · rename_i et
        subst et
        obtain ⟨j, h1, h2⟩ := h.ready t (none :: pre) post (by simp [hi, e])
        exact ⟨j, by simpa using h1, h2⟩
      · exact h.ready t pre post e
    · intro t e
      rw [tk]
      simp only [upd_apply] at e
      split at e
      · rename_i et
        subst et
        obtain ⟨j, h1, h2⟩ := h.ready t [] rest (by simp [hi])
        exact ⟨j, by simpa using h1, h2⟩
      · exact h.started t e
  | @ack s k rest ha ht hw =>
    have hws : ∀ t, WaitsFor st t ↔ t = s := by
      intro t
      constructor
      · intro ⟨_, r, hr⟩; rw [ht] at hr; simp at hr; exact hr.1.symm
      · intro e; subst e; exact ⟨hw, rest, ht⟩
    have tk : taken (as ++ [.ack s]) = taken as := by simp [taken_snoc]
    refine ⟨by rw [tk]; exact h.num, ?_, ?_, ?_, ?_, ?_, ?_, ?_, ?_, ?_, ?_⟩
    · intro t; simpa [count_snoc] using h.flow t
    · intro t
      have := h.acked t
      simp only [count_snoc, upd_apply, Act.ack.injEq]
      by_cases e : t = s
      · subst e; simp; omega
      · simp [e, Ne.symm e, this]
    · intro t
      left
      simp only [count_snoc, Act.ack.injEq]
      by_cases e : t = s
      · subst e
        have := h.lag t
        simp; omega
      · rcases h.lag t with e' | e'
        · simpa [Ne.symm e] using e'
        · exact absurd ((hws t).1 e'.1) e
    · intro t; simpa [count_snoc] using h.late t
    · simp
    · intro t
      left
      simp only [upd_apply]
      by_cases e : t = s
      · simp [e]
      · rw [if_neg e]
        rcases h.free t with e' | e'
        · exact e'
        · exact absurd ((hws t).1 e') e
    · intro _; exact h.cur (by simp [ht])
    · intro c hc
      obtain ⟨h1, done, h2, h3⟩ := h.plan c hc
      refine ⟨by rw [tk]; exact h1, done ++ [.notify s], by simp [h2, ht], ?_⟩
      intro t hd
      rcases hd with hd | hd
      · rcases List.mem_append.1 hd with hd | hd
        · exact h3 t (.inl hd)
        · simp at hd; exact h3 t (.inr ((hws t).2 hd))
      · have := hd.1; simp at this
    · rw [tk]; exact h.ready
    · rw [tk]; exact h.started
  | @ackIdle s k ha hw =>
    have tk : taken (as ++ [.ack s]) = taken as := by simp [taken_snoc]
    refine ⟨by rw [tk]; exact h.num, ?_, ?_, ?_, ?_, h.head, ?_, h.cur, ?_, ?_, ?_⟩
    · intro t; simpa [count_snoc] using h.flow t
    · intro t
      have := h.acked t
      simp only [count_snoc, upd_apply, Act.ack.injEq]
      by_cases e : t = s
      · subst e; simp; omega
      · simp [e, Ne.symm e, this]
    · intro t
      simp only [count_snoc, Act.ack.injEq]
      rcases h.lag t with e' | e'
      · left; simp; omega
      · right; exact ⟨e'.1, by simp; omega⟩
    · intro t; simpa [count_snoc] using h.late t
    · intro t
      rcases h.free t with e' | e'
      · left; simp only [upd_apply]; split <;> simp [e']
      · exact .inr e'
    · rw [tk]; exact h.plan
    · rw [tk]; exact h.ready
    · rw [tk]; exact h.started

theorem inv_steps {as : List (Act S)} {st : St S} (h : Steps init as st) : Inv as st := by
  generalize e : (init : St S) = st0 at h
  induction h with
  | nil => subst e; exact inv_init
  | snoc _ hs ih => exact inv_step ih hs

/-! ## C81 -/

/-- Calls which answer after the updates: when `Publisher.create` returns, or `connect` of a session which no other overlaps, every
subscriber concerned has applied the update of this call, unless an update of this subscriber has timed out at some time. -/
theorem C81_in_effect_partial {as : List (Act S)} {st st' : St S} {c : Cmd S} {subs : List S} {s : S} (h : Steps init as st)
    (hs : Step st .reply st') (hc : (taken as).getLast? = some c) (hp : c = .publish subs ∨ c = .sessionEdge subs) (hm : s ∈ subs)
    (hl : .timeout s ∉ as) : UpToDate st' (taken as).length s := by
  have i := inv_steps h
  cases hs with
  | @reply rest ht =>
    have hw : ¬ WaitsFor st s := fun ⟨_, r, hr⟩ => by rw [ht] at hr; simp at hr
    obtain ⟨c', hc'⟩ := i.cur (by simp [ht])
    obtain ⟨h1, done, h2, h3⟩ := i.plan c' hc'
    rw [hc, Option.some.injEq] at h1
    subst h1
    have hd : done = subs.map .notify := by
      rw [ht] at h2
      have h2 : subs.map Item.notify ++ [.reply] = done ++ .reply :: rest := by rcases hp with rfl | rfl <;> exact h2
      rcases List.append_eq_append_iff.1 h2 with ⟨l, e1, e2⟩ | ⟨l, e1, e2⟩
      · cases l with
        | nil => simpa using e1
        | cons x l => simp at e2
      · cases l with
        | nil => simpa using e1.symm
        | cons x l =>
          simp at e2
          have : Item.reply ∈ subs.map Item.notify := by rw [e1, ← e2.1]; simp
          simp at this
    have hlast := h3 s (.inl (by rw [hd]; simp [hm]))
    have hc0 : as.count (.timeout s) = 0 := List.count_eq_zero.2 hl
    have hz : (ups (st.inbox s)).length = 0 := by
      have e1 := i.flow s
      have e2 := i.acked s
      have e3 := i.late s
      rcases i.lag s with e | e
      · omega
      · exact absurd e.1 hw
    have hz := List.length_eq_zero_iff.1 hz
    rw [hz, List.append_nil, i.num] at hlast
    refine ⟨hlast, ?_⟩
    intro k hk
    have : k ∈ ups (st.inbox s) := by simpa [ups] using hk
    rw [hz] at this
    simp at this

/-- With timeouts: when no update is waited for, a subscriber lags behind by at most as many updates as have timed out. -/
theorem C81_lag {as : List (Act S)} {st : St S} (h : Steps init as st) (hw : st.waiting = false) (s : S) :
    as.count (.send s) ≤ (st.seen s).length + as.count (.timeout s) := by
  have i := inv_steps h
  have h1 := i.acked s
  have h2 := i.late s
  rcases i.lag s with e | ⟨e, _⟩
  · omega
  · have := e.1; simp [hw] at this

/-- When `Subscriber.create` returns, the subscriber has applied the update made for it, timeouts or not. -/
theorem C81_subscribed {as : List (Act S)} {st : St S} {s : S} (h : Steps init as st) (hr : st.ready s = true) :
    ∃ k, k + 1 ∈ st.seen s ∧ (taken as)[k]? = some (.subscribe s) :=
  (inv_steps h).started s hr

/-- The server is never held up by an update: whatever it has to do next can be done or is waited for, and can then time out. -/
theorem C81_goes_on {as : List (Act S)} {st : St S} (h : Steps init as st) (ht : st.todo ≠ []) :
    ∃ a st', Step st a st' ∧ (st'.todo.length < st.todo.length ∨ (st'.todo = st.todo ∧ st.waiting = false ∧ st'.waiting = true)) := by
  have i := inv_steps h
  cases e : st.todo with
  | nil => exact absurd e ht
  | cons x rest =>
    cases x with
    | reply => exact ⟨_, _, .reply e, .inl (by simp)⟩
    | ready s => exact ⟨_, _, .tellReady e, .inl (by simp)⟩
    | notify s =>
      cases hw : st.waiting with
      | true => exact ⟨_, _, .timeout e hw, .inl (by simp)⟩
      | false =>
        have hp : st.pending s = true := by
          rcases i.free s with h1 | h1
          · exact h1
          · have := h1.1; simp [hw] at this
        exact ⟨_, _, .send e hw hp, .inr (by simp [e])⟩

/-- A publisher is created; the subscriber applies the update and confirms. -/
example : ∃ (st st' : St Bool), Steps init [.begin (.publish [true]), .send true, .apply true, .ack true] st ∧ Step st .reply st' ∧ UpToDate st' 1 true := by
  have : ∃ (st st' : St Bool), Steps init [.begin (.publish [true]), .send true, .apply true, .ack true] st ∧ Step st .reply st' :=
    ⟨_, _, .snoc (as := [_, _, _]) (.snoc (as := [_, _]) (.snoc (as := [_]) (.snoc (as := []) (.nil _) (.begin rfl)) (.send (rest := [.reply]) rfl rfl rfl))
      (.apply (k := 1) (rest := []) rfl)) (.ack (k := 0) (rest := [.reply]) rfl rfl rfl), .reply (rest := []) rfl⟩
  obtain ⟨st, st', h1, h2⟩ := this
  exact ⟨st, st', h1, h2, C81_in_effect_partial h1 h2 rfl (.inl rfl) (by simp) (by simp)⟩

/-- A subscriber is created; its update times out. -/
example : ∃ (st : St Bool), Steps init [.begin (.subscribe true), .send true, .timeout true, .tellReady true, .apply true, .becomeReady true] st ∧
    st.ready true = true ∧ st.seen true = [1] :=
  ⟨_, .snoc (as := [_, _, _, _, _]) (.snoc (as := [_, _, _, _]) (.snoc (as := [_, _, _]) (.snoc (as := [_, _]) (.snoc (as := [_]) (.snoc (as := []) (.nil _)
    (.begin rfl)) (.send (rest := [.ready true]) rfl rfl rfl)) (.timeout (rest := [.ready true]) rfl rfl)) (.tellReady (rest := []) rfl))
      (.apply (k := 1) (rest := [none]) rfl)) (.becomeReady (rest := []) rfl), rfl, rfl⟩

/-! ## Violations -/

/-- `GraphService.connect` returns before the subscriber has even been told. -/
theorem C81_connect_fails : ∃ (as : List (Act Bool)) (st st' : St Bool), Steps init as st ∧ Step st .reply st' ∧
    (taken as).getLast? = some (.edge [true]) ∧ st'.seen true = [] ∧ st'.inbox true = [] := by
  refine ⟨[.begin (.edge [true])], _, _, .snoc (as := []) (.nil _) (.begin rfl), .reply (rest := [.notify true]) rfl, rfl, rfl, rfl⟩

/-- After a timeout, the late confirmation is taken for that of the next update: `Publisher.create` returns although the subscriber has not
applied the update. -/
theorem C81_late_fails : ∃ (as : List (Act Bool)) (st st' : St Bool), Steps init as st ∧ Step st .reply st' ∧
    taken as = [.publish [true], .publish [true]] ∧ st'.seen true = [1] ∧ st'.inbox true = [some 2] := by
  refine ⟨[.begin (.publish [true]), .send true, .timeout true, .reply, .begin (.publish [true]), .send true, .apply true, .ack true], _, _,
    .snoc (as := [_, _, _, _, _, _, _]) (.snoc (as := [_, _, _, _, _, _]) (.snoc (as := [_, _, _, _, _]) (.snoc (as := [_, _, _, _])
      (.snoc (as := [_, _, _]) (.snoc (as := [_, _]) (.snoc (as := [_]) (.snoc (as := []) (.nil _) (.begin rfl))
        (.send (rest := [.reply]) rfl rfl rfl)) (.timeout (rest := [.reply]) rfl rfl)) (.reply (rest := []) rfl)) (.begin rfl))
          (.send (rest := [.reply]) rfl rfl rfl)) (.apply (k := 1) (rest := [some 2]) rfl)) (.ack (k := 0) (rest := [.reply]) rfl rfl rfl),
    .reply (rest := []) rfl, rfl, rfl, rfl⟩

namespace Overlap

/-- Calls return when the subscriber has applied what they sent, if each is made after the others have returned. -/
inductive Serial : St → Prop where
  | init : Serial init
  | step {st st' : St} (t : Serial st) (h : Step st st') (hc : st'.calls.length = st.calls.length ∨ ∀ p ∈ st.calls, ∃ k, p = .returned k) : Serial st'

/-- Updates of sessions, `_partial`: without overlap, a call returns when the subscriber has applied its update.  (Missing: calls which
overlap, see `C81_overlap_fails`.) -/
theorem C81_serial_partial {st : St} (h : Serial st) {k : Nat} (hk : .returned k ∈ st.calls) : k ≤ st.applied := by
  have inv : (∀ k, .returned k ∈ st.calls → k ≤ st.acked) ∧ st.acked ≤ st.applied ∧ st.applied ≤ st.wrote ∧
      (((∀ p ∈ st.calls, ∃ k, p = .returned k) ∧ st.acked = st.wrote ∧ st.pending = true) ∨
        ∃ l p, st.calls = l ++ [p] ∧ (∀ p ∈ l, ∃ k, p = .returned k) ∧
          ((p = .sent st.wrote ∧ st.acked + 1 = st.wrote) ∨ (p = .confirmed st.wrote ∧ st.acked = st.wrote))) := by
    clear hk
    induction h with
    | init => simp [Overlap.init]
    | @step st st' t h hc ih =>
      obtain ⟨h1, h2, h3, h4⟩ := ih
      have mapl : ∀ l : List Phase, (∀ p ∈ l, ∃ k, p = .returned k) → l.map wake = l := by
        intro l hl
        induction l with
        | nil => rfl
        | cons x l ihl =>
          obtain ⟨k, rfl⟩ := hl x (by simp)
          simp [wake, ihl (fun p hp => hl p (by simp [hp]))]
      cases h with
      | callFree hp =>
        have hc : ∀ p ∈ st.calls, ∃ k, p = .returned k := by simpa using hc
        have e : st.acked = st.wrote := by
          rcases h4 with ⟨_, e, _⟩ | ⟨l, p, e, _, hp'⟩
          · exact e
          · obtain ⟨k, hk⟩ := hc p (by simp [e])
            rw [hk] at hp'; simp at hp'
        refine ⟨?_, h2, by simp only; omega, .inr ⟨st.calls, _, rfl, hc, .inl ⟨rfl, by simp [e]⟩⟩⟩
        intro k hk
        simp at hk
        exact h1 k hk
      | callBusy hp =>
        have hc : ∀ p ∈ st.calls, ∃ k, p = .returned k := by simpa using hc
        exfalso
        rcases h4 with ⟨_, _, e⟩ | ⟨l, p, e, _, hp'⟩
        · rw [hp] at e; simp at e
        · obtain ⟨k, hk⟩ := hc p (by simp [e])
          rw [hk] at hp'; simp at hp'
      | @write i hi =>
        exfalso
        have := List.mem_of_getElem? hi
        rcases h4 with ⟨e, _⟩ | ⟨l, p, e, hl, hp'⟩
        · obtain ⟨k, hk⟩ := e _ this; simp at hk
        · rw [e] at this
          rcases List.mem_append.1 this with m | m
          · obtain ⟨k, hk⟩ := hl _ m; simp at hk
          · rw [List.mem_singleton] at m
            rw [← m] at hp'; simp at hp'
      | @finish i k hi =>
        have hm := List.mem_of_getElem? hi
        rcases h4 with ⟨e, _⟩ | ⟨l, p, e, hl, hp'⟩
        · obtain ⟨k, hk⟩ := e _ hm; simp at hk
        · rw [e] at hm
          rcases List.mem_append.1 hm with m | m
          · obtain ⟨k, hk⟩ := hl _ m; simp at hk
          · rw [List.mem_singleton] at m
            subst m
            simp at hp'
            obtain ⟨rfl, ha⟩ := hp'
            have hi2 : i = l.length := by
              rw [e] at hi
              rcases Nat.lt_trichotomy i l.length with q | q | q
              · rw [List.getElem?_append_left q] at hi
                obtain ⟨k, hk⟩ := hl _ (List.mem_of_getElem? hi); simp at hk
              · exact q
              · rw [List.getElem?_append_right (by omega)] at hi
                rw [List.getElem?_eq_none (by simp; omega)] at hi; simp at hi
            subst hi2
            have e2 : (st.calls.set l.length (.returned st.wrote)).map wake = l ++ [.returned st.wrote] := by
              rw [e, List.set_append_right _ _ (Nat.le_refl _)]
              simp [mapl l hl, wake]
            refine ⟨?_, h2, h3, .inl ⟨?_, ha, rfl⟩⟩
            · intro k hk
              simp only [e2] at hk
              rcases List.mem_append.1 hk with m | m
              · exact h1 k (by rw [e]; simp [m])
              · simp at m; simp only; omega
            · intro p hp
              simp only [e2] at hp
              rcases List.mem_append.1 hp with m | m
              · exact hl p m
              · simp at m; exact ⟨_, m⟩
      | apply hlt => exact ⟨h1, by simp only; omega, by simp only; omega, h4⟩
      | ack hlt =>
        rcases h4 with ⟨_, e, _⟩ | ⟨l, p, e, hl, hp'⟩
        · omega
        · rcases hp' with ⟨rfl, ha⟩ | ⟨rfl, ha⟩
          · have e2 : st.calls.map wake = l ++ [.confirmed st.wrote] := by rw [e]; simp [mapl l hl, wake]
            refine ⟨?_, by simp only; omega, by simp only; omega, .inr ⟨l, .confirmed st.wrote, e2, hl, .inr ⟨rfl, ha⟩⟩⟩
            intro k hk
            simp only [e2] at hk
            rcases List.mem_append.1 hk with m | m
            · have := h1 k (by rw [e]; simp [m]); simp only; omega
            · simp at m
          · omega
  have := inv.1 k hk
  omega

example : ∃ st, Serial st ∧ .returned 2 ∈ st.calls ∧ st.applied = 2 :=
  ⟨_, .step (.step (.step (.step (.step (.step (.step (.step .init (.callFree rfl) (.inr (by simp [Overlap.init]))) (.apply (by decide)) (.inl rfl))
    (.ack (by decide)) (.inl rfl)) (.finish (i := 0) (k := 1) rfl) (.inl rfl)) (.callFree rfl) (.inr (by intro p hp; simp [Overlap.init, wake] at hp; exact ⟨_, hp⟩))) (.apply (by decide)) (.inl rfl))
      (.ack (by decide)) (.inl rfl)) (.finish (i := 1) (k := 2) rfl) (.inl rfl), by decide, rfl⟩

/-- Two calls which overlap, without any timeout: the second is made after the confirmation of the first has been read and before the first
goes on; the first then wakes the second, which returns although the subscriber has not applied its update. -/
theorem C81_overlap_fails : ∃ st, Steps init st ∧ .returned 2 ∈ st.calls ∧ st.applied = 1 :=
  ⟨_, .tail (.tail (.tail (.tail (.tail (.tail (.refl _) (.callFree rfl)) (.apply (by decide))) (.ack (by decide))) (.callFree rfl))
    (.finish (i := 0) (k := 1) rfl)) (.finish (i := 1) (k := 2) rfl), by decide, rfl⟩

end Overlap

end Updates
end Ez
