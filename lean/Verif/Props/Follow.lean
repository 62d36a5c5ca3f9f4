import Verif.Model.Follow

/-!
# C63: a subscriber is connected to the publishers of the last update

While registering and unregistering succeed, a subscriber is a client of exactly the publishers the last
update names, and every update is answered. A single publisher that cannot be reached any more ends the
loop: the subscriber is then cut off from all its publishers, for good, and if that happens before the
first `COMPLETE` then `Subscriber.create` never returns.
-/

set_option linter.unusedSectionVars false
set_option linter.unusedSimpArgs false

namespace Ez.Follow
variable {P : Type} [DecidableEq P]

/-- Specification: the publishers the last update names. -/
def wanted : List (Ev P) → List P
  | [] => []
  | .update ps _ _ _ _ :: es => if es.any (fun e => match e with | .update .. => true | _ => false) then wanted es else ps
  | _ :: es => wanted es

/-- Specification: how many updates there were. -/
def updates (es : List (Ev P)) : Nat := es.countP (fun e => match e with | .update .. => true | _ => false)

/-- Specification: registering and unregistering succeed and the connection is not closed. -/
def Smooth : Ev P → Prop
  | .update _ _ _ reg unreg => (∀ p, reg p = true) ∧ ∀ p, unreg p = true
  | .eof _ => False
  | _ => True

theorem wanted_snoc (es : List (Ev P)) (e : Ev P) :
    wanted (es ++ [e]) = match e with | .update ps _ _ _ _ => ps | _ => wanted es := by
  induction es with
  | nil => cases e <;> rfl
  | cons x es ih =>
    cases x with
    | update ps new old reg unreg =>
      cases e with
      | update ps' => simp [wanted, ih]
      | _ => simp [wanted, ih]
    | _ => simp only [List.cons_append, wanted, ih]

/-- Connected to exactly the publishers of `_channels`. -/
structure Ok (st : St P) : Prop where
  nodup : st.chans.Nodup
  client : ∀ p, st.client p = true ↔ p ∈ st.chans

theorem regLoop_ok {reg : P → Bool} (ps : List P) : ∀ {st : St P}, (∀ p ∈ ps, reg p = true) → Ok st → ps.Nodup →
    (∀ p ∈ ps, p ∉ st.chans) →
    ∃ st', regLoop reg ps st = (st', true) ∧ Ok st' ∧ (∀ p, p ∈ st'.chans ↔ p ∈ st.chans ∨ p ∈ ps) ∧
      st'.ready = st.ready ∧ st'.alive = st.alive ∧ st'.answers = st.answers := by
  induction ps with
  | nil => intro st _ h _ _; exact ⟨st, rfl, h, by simp, rfl, rfl, rfl⟩
  | cons p ps ih =>
    intro st hr h hn hnew
    rw [List.nodup_cons] at hn
    have hp := hnew p (List.mem_cons_self ..)
    have h1 : Ok ({ st with chans := st.chans ++ [p], client := setClient st.client p true } : St P) := by
      refine ⟨?_, ?_⟩
      · rw [List.nodup_append]
        refine ⟨h.nodup, by simp, ?_⟩
        intro a ha b hb e
        simp only [List.mem_singleton] at hb
        subst e hb
        exact hp ha
      · intro q
        simp only [setClient, List.mem_append, List.mem_singleton]
        by_cases e : q = p
        · simp [e]
        · simp [e, h.client q]
    obtain ⟨st', e1, e2, e3, e4, e5, e6⟩ := ih (fun q hq => hr q (List.mem_cons_of_mem _ hq)) h1 hn.2 (by
      intro q hq
      simp only [List.mem_append, List.mem_singleton, not_or]
      exact ⟨hnew q (List.mem_cons_of_mem _ hq), fun e => hn.1 (e ▸ hq)⟩)
    refine ⟨st', by simp only [regLoop, hr p (List.mem_cons_self ..), if_true]; exact e1, e2, ?_, e4, e5, e6⟩
    intro q
    rw [e3]
    simp [or_assoc]

theorem unregLoop_ok {unreg : P → Bool} (ps : List P) : ∀ {st : St P}, (∀ p ∈ ps, unreg p = true) → Ok st →
    ∃ st', unregLoop unreg ps st = (st', true) ∧ Ok st' ∧ (∀ p, p ∈ st'.chans ↔ p ∈ st.chans ∧ p ∉ ps) ∧
      st'.ready = st.ready ∧ st'.alive = st.alive ∧ st'.answers = st.answers := by
  induction ps with
  | nil => intro st _ h; exact ⟨st, rfl, h, by simp, rfl, rfl, rfl⟩
  | cons p ps ih =>
    intro st hr h
    have h1 : Ok ({ st with chans := st.chans.filter (· ≠ p), client := setClient st.client p false } : St P) := by
      refine ⟨h.nodup.filter _, ?_⟩
      intro q
      simp only [setClient, List.mem_filter]
      by_cases e : q = p
      · simp [e]
      · simp [e, h.client q]
    obtain ⟨st', e1, e2, e3, e4, e5, e6⟩ := ih (fun q hq => hr q (List.mem_cons_of_mem _ hq)) h1
    refine ⟨st', by simp only [unregLoop, hr p (List.mem_cons_self ..), if_true]; exact e1, e2, ?_, e4, e5, e6⟩
    intro q
    rw [e3]
    simp only [List.mem_filter, List.mem_cons, not_or]
    constructor
    · rintro ⟨⟨a, b⟩, c⟩; exact ⟨a, by simpa using b, c⟩
    · rintro ⟨a, b, c⟩; exact ⟨⟨a, by simpa using b⟩, c⟩

/-- **C63** (partial): as long as registering and unregistering succeed, whatever updates arrive and in
whatever order the sets are traversed, the loop runs, the subscriber is a client of exactly the publishers
the last update names, every update was answered, and `create` may return once a `COMPLETE` was read. -/
theorem C63_follows_partial {es : List (Ev P)} {st : St P} (r : Run es st) (hs : ∀ e ∈ es, Smooth e) :
    st.alive = true ∧ (∀ p, st.client p = true ↔ p ∈ wanted es) ∧ (∀ p, p ∈ st.chans ↔ p ∈ wanted es) ∧
      st.answers = updates es ∧ (st.ready = true ↔ .complete ∈ es) := by
  suffices Ok st ∧ st.alive = true ∧ (∀ p, p ∈ st.chans ↔ p ∈ wanted es) ∧
      st.answers = updates es ∧ (st.ready = true ↔ .complete ∈ es) by
    obtain ⟨h1, h2, h3, h4⟩ := this
    exact ⟨h2, fun p => (h1.client p).trans (h3 p), h3, h4⟩
  induction r with
  | init => exact ⟨⟨List.nodup_nil, by simp [init]⟩, rfl, by simp [init, wanted], rfl, by simp [init]⟩
  | @step es st e r hv ih =>
    obtain ⟨h1, h2, h3, h4, h5⟩ := ih (fun e he => hs e (List.mem_append_left _ he))
    simp only [read, h2, if_true]
    have he := hs e (by simp)
    cases e with
    | complete =>
      exact ⟨⟨h1.nodup, h1.client⟩, h2, (by rw [wanted_snoc]; exact h3), (by simpa [updates, handle] using h4),
        by simp [handle]⟩
    | unknown =>
      exact ⟨h1, h2, (by rw [wanted_snoc]; exact h3), (by simpa [updates, handle] using h4), by simpa [handle] using h5⟩
    | eof u => exact absurd he id
    | update ps new old reg unreg =>
      obtain ⟨v1, v2, v3, v4⟩ := hv _ _ _ _ _ rfl h2
      obtain ⟨st1, e1, e2, e3, e4, e5, e6⟩ := regLoop_ok new (fun p _ => he.1 p) h1 v1 (fun p hp => ((v3 p).1 hp).2)
      obtain ⟨st2, f1, f2, f3, f4, f5, f6⟩ := unregLoop_ok old (fun p _ => he.2 p) e2
      simp only [handle, e1, f1]
      refine ⟨⟨f2.nodup, f2.client⟩, by rw [f5, e5]; exact h2, ?_, ?_, ?_⟩
      · intro p
        rw [wanted_snoc]
        simp only
        rw [f3, e3, v3, v4]
        by_cases hp : p ∈ ps <;> by_cases hq : p ∈ st.chans <;> simp [hp, hq]
      · rw [f6, e6, h4]; simp [updates]
      · rw [f4, e4, h5]; simp

theorem finalLoop_all {unreg : P → Bool} (hr : ∀ p, unreg p = true) (ps : List P) : ∀ {st : St P}, ps.Nodup →
    (∀ p ∈ ps, st.client p = true) →
    ∀ p, (finalLoop unreg ps st).client p = if p ∈ ps then false else st.client p := by
  induction ps with
  | nil => intro st _ _ p; simp [finalLoop]
  | cons p ps ih =>
    intro st hn hc q
    rw [List.nodup_cons] at hn
    simp only [finalLoop, hc p (List.mem_cons_self ..), if_true, hr p]
    rw [ih hn.2 (by
      intro x hx
      have : x ≠ p := fun e => hn.1 (e ▸ hx)
      simp [setClient, this, hc x (List.mem_cons_of_mem _ hx)])]
    by_cases e : q = p
    · subst e; simp [setClient, hn.1]
    · simp [setClient, e]

theorem regLoop_fails {reg : P → Bool} (ps : List P) : ∀ {st : St P}, Ok st → ps.Nodup → (∀ p ∈ ps, p ∉ st.chans) →
    (∃ p ∈ ps, reg p = false) →
    ∃ st', regLoop reg ps st = (st', false) ∧ Ok st' ∧ st'.ready = st.ready ∧ st'.answers = st.answers := by
  induction ps with
  | nil => rintro st _ _ _ ⟨p, hp, _⟩; cases hp
  | cons p ps ih =>
    intro st h hn hnew hf
    rw [List.nodup_cons] at hn
    have hp := hnew p (List.mem_cons_self ..)
    cases hr : reg p with
    | false => exact ⟨st, by simp [regLoop, hr], h, rfl, rfl⟩
    | true =>
      have h1 : Ok ({ st with chans := st.chans ++ [p], client := setClient st.client p true } : St P) := by
        refine ⟨?_, ?_⟩
        · rw [List.nodup_append]
          refine ⟨h.nodup, by simp, ?_⟩
          intro a ha b hb e
          simp only [List.mem_singleton] at hb
          subst e hb
          exact hp ha
        · intro q
          simp only [setClient, List.mem_append, List.mem_singleton]
          by_cases e : q = p
          · simp [e]
          · simp [e, h.client q]
      obtain ⟨st', e1, e2, e3, e4⟩ := ih h1 hn.2 (by
        intro q hq
        simp only [List.mem_append, List.mem_singleton, not_or]
        exact ⟨hnew q (List.mem_cons_of_mem _ hq), fun e => hn.1 (e ▸ hq)⟩) (by
          obtain ⟨q, hq, hq'⟩ := hf
          rcases List.mem_cons.1 hq with e | e
          · rw [e, hr] at hq'; cases hq'
          · exact ⟨q, e, hq'⟩)
      exact ⟨st', by simp only [regLoop, hr, if_true]; exact e1, e2, e3, e4⟩

theorem unregLoop_fails {unreg : P → Bool} (ps : List P) : ∀ {st : St P}, ¬ (∀ p ∈ ps, unreg p = true) →
    (unregLoop unreg ps st).2 = false := by
  induction ps with
  | nil => intro st h; exact absurd (by simp) h
  | cons p ps ih =>
    intro st h
    simp only [unregLoop]
    split
    · rename_i hp
      exact ih (fun h' => h (by
        intro q hq
        rcases List.mem_cons.1 hq with e | e
        · rw [e]; exact hp
        · exact h' q e))
    · rfl

/-- Once the loop has ended nothing that arrives matters. -/
theorem read_dead {st : St P} (hd : st.alive = false) (es : List (Ev P)) : es.foldl read st = st := by
  induction es with
  | nil => rfl
  | cons e es ih =>
    have : read st e = st := by simp [read, hd]
    rw [List.foldl_cons, this]; exact ih

/-- While the loop runs, whatever failed or did not, the subscriber is a client of exactly the publishers
in `_channels`. -/
theorem Run.ok {es : List (Ev P)} {st : St P} (r : Run es st) (ha : st.alive = true) : Ok st := by
  induction r with
  | init => exact ⟨List.nodup_nil, by simp [Follow.init]⟩
  | @step es st e r hv ih =>
    cases hd : st.alive with
    | false => simp [read, hd] at ha
    | true =>
      have h1 := ih hd
      simp only [read, hd, if_true] at ha ⊢
      cases e with
      | complete => exact ⟨h1.nodup, h1.client⟩
      | unknown => exact h1
      | eof u => simp [handle, finish] at ha
      | update ps new old reg unreg =>
        obtain ⟨v1, v2, v3, v4⟩ := hv _ _ _ _ _ rfl hd
        by_cases hr : ∀ p ∈ new, reg p = true
        · obtain ⟨st1, e1, e2, _⟩ := regLoop_ok new hr h1 v1 (fun p hp => ((v3 p).1 hp).2)
          by_cases hu : ∀ p ∈ old, unreg p = true
          · obtain ⟨st2, f1, f2, _⟩ := unregLoop_ok old hu e2
            simp only [handle, e1, f1]
            exact ⟨f2.nodup, f2.client⟩
          · have hf := unregLoop_fails old (st := st1) hu
            simp only [handle, e1] at ha
            generalize unregLoop unreg old st1 = x at hf ha
            obtain ⟨st2, b⟩ := x
            simp only at hf
            subst hf
            simp [finish] at ha
        · obtain ⟨st1, e1, _⟩ := regLoop_fails new h1 v1 (fun p hp => ((v3 p).1 hp).2) (by
            simpa using hr)
          simp [handle, e1, finish] at ha

/-- **C63** does not hold of the code, in general: if one of the new publishers of an update cannot be
registered with, then the subscriber is afterwards a client of nobody, the update is not answered, and
nothing that arrives later changes that – in particular `create`, if it is still waiting, never returns. -/
theorem C63_cut_off {es : List (Ev P)} {st : St P} (r : Run es st) (ha : st.alive = true)
    {ps new old : List P} {reg unreg : P → Bool} (hv : valid st ps new old)
    (hf : ∃ p ∈ new, reg p = false) (hu : ∀ p, unreg p = true) (es' : List (Ev P)) :
    let st' := es'.foldl read (handle st (.update ps new old reg unreg))
    st'.alive = false ∧ (∀ p, st'.client p = false) ∧ st'.ready = st.ready ∧ st'.answers = st.answers := by
  obtain ⟨st1, h1, h2, h3, h4⟩ := regLoop_fails new (r.ok ha) hv.1 (fun p hp => ((hv.2.2.1 p).1 hp).2) hf
  have h5 := finalLoop_all hu st1.chans (st := st1) h2.nodup (fun p hp => (h2.client p).2 hp)
  have h6 : ∀ (l : List P) (s : St P), (finalLoop unreg l s).ready = s.ready ∧
      (finalLoop unreg l s).answers = s.answers := by
    intro l
    induction l with
    | nil => intro s; exact ⟨rfl, rfl⟩
    | cons p l ih =>
      intro s
      simp only [finalLoop]
      split
      · split
        · exact ih _
        · exact ⟨rfl, rfl⟩
      · exact ⟨rfl, rfl⟩
  simp only [handle, h1]
  rw [read_dead (by rfl)]
  refine ⟨rfl, ?_, (h6 _ _).1.trans h3, (h6 _ _).2.trans h4⟩
  intro p
  show (finalLoop unreg st1.chans st1).client p = false
  rw [h5]
  split
  · rfl
  · rename_i hp
    cases e : st1.client p with
    | false => rfl
    | true => exact absurd ((h2.client p).1 e) hp

/-! ## Examples -/

namespace Example

def yes : Nat → Bool := fun _ => true

/-- Three updates: publishers 1 and 2, then 2 and 3, then the connection is set up. -/
def good : List (Ev Nat) := [.update [1, 2] [2, 1] [] yes yes, .complete, .update [2, 3] [3] [1] yes yes]

theorem run_snoc {es : List (Ev Nat)} {st : St Nat} (r : Run es st) (e : Ev Nat) (st' : St Nat)
    (hv : ∀ ps new old reg unreg, e = .update ps new old reg unreg → st.alive = true → valid st ps new old)
    (h : read st e = st') : Run (es ++ [e]) st' := h ▸ Run.step e r hv

/-- The state after updates 1, 2 and `COMPLETE`. -/
theorem run_two : Run [.update [1, 2] [2, 1] [] yes yes, .complete]
    (handle (handle (init : St Nat) (.update [1, 2] [2, 1] [] yes yes)) .complete) := by
  refine run_snoc (es := [_]) (run_snoc (es := []) .init _ _ ?_ rfl) _ _ ?_ rfl
  · intro ps new old reg unreg h _
    cases h
    refine ⟨by decide, by decide, ?_, ?_⟩ <;> intro p <;> simp [init, or_comm]
  · intro ps new old reg unreg h; cases h

/-- The hypotheses of `C63_follows_partial` are met by `good`; the subscriber ends up as a client of 2 and
3, not of 1. -/
example : (∃ st, Run good st ∧ st.chans = [2, 3] ∧ st.client 2 = true ∧ st.client 3 = true ∧ st.client 1 = false ∧
    st.ready = true ∧ st.answers = 2) ∧ ∀ e ∈ good, Smooth e := by
  refine ⟨⟨_, run_snoc (es := [_, _]) run_two _ _ ?_ rfl, ?_⟩, ?_⟩
  · intro ps new old reg unreg h _
    cases h
    refine ⟨by decide, by decide, ?_, ?_⟩ <;> intro p <;>
      simp [handle, regLoop, unregLoop, init, yes] <;> omega
  · decide
  · intro e he
    simp only [good, List.mem_cons, List.not_mem_nil, or_false] at he
    rcases he with rfl | rfl | rfl <;> simp [Smooth, yes]

/-- **C63** does not hold of the code: publisher 3 is gone before the subscriber of publishers 1 and 2 reads
the update that names it. Afterwards no message of publishers 1 and 2 reaches it any more. -/
theorem C63_negation : ∃ es : List (Ev Nat), ∃ st, Run es st ∧ st.client 1 = true ∧ st.client 2 = true ∧
    ∃ e, (∀ ps new old reg unreg, e = .update ps new old reg unreg → valid st ps new old ∧ ∀ p ∈ ps, p ≠ 3 → reg p = true) ∧
      (read st e).alive = false ∧ (read st e).client 1 = false ∧ (read st e).client 2 = false := by
  refine ⟨_, _, run_two, by decide, by decide, .update [1, 2, 3] [3] [] (fun p => decide (p ≠ 3)) yes, ?_, by decide⟩
  intro ps new old reg unreg h
  cases h
  refine ⟨⟨by decide, by decide, ?_, ?_⟩, by simp⟩ <;> intro p <;>
    simp [handle, regLoop, unregLoop, init, yes] <;> omega

/-- If this happens to the first update, `create` never returns, whatever the server sends afterwards. -/
theorem C63_negation_create (es : List (Ev Nat)) :
    (es.foldl read (read (init : St Nat) (.update [1, 2] [1, 2] [] (fun p => decide (p ≠ 2)) yes))).ready = false := by
  rw [read_dead (by decide)]
  decide

/-- A channel whose task failed is left last: `unregister` raises, the `finally` block raises again for the
same channel, and the subscriber stays a client of publisher 1 although it follows no update any more. -/
theorem C63_negation_leak : ∃ es : List (Ev Nat), ∃ st, Run es st ∧ st.client 1 = true ∧
    ∃ unreg, valid st [] [] [2, 1] ∧
      (read st (.update [] [] [2, 1] yes unreg)).alive = false ∧
      (read st (.update [] [] [2, 1] yes unreg)).client 1 = true ∧
      1 ∈ (read st (.update [] [] [2, 1] yes unreg)).chans := by
  refine ⟨_, _, run_two, by decide, fun p => decide (p ≠ 2), ?_, by decide⟩
  refine ⟨by decide, by decide, ?_, ?_⟩ <;> intro p <;> simp [handle, regLoop, unregLoop, init, yes] <;> omega

end Example

end Ez.Follow
