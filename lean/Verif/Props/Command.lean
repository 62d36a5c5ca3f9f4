import Verif.Model.Command

/-!
# C119: what the commands `start`, `serve` and `shutdown` do, and what they say

Sources: see `Verif/Model/Command.lean`.
-/

set_option linter.unusedSimpArgs false
set_option linter.unusedVariables false
set_option linter.unnecessarySimpa false

namespace Ez
namespace Cmd

/-! ## Specification -/

/-- The server of the child that `start` made runs, at the address `start` was given. -/
def Own (c : Cfg) (st : St) : Prop := c.port ≠ 0 ∧ ∃ a m, st.child = .up a m

/-- Some server runs at that address. -/
def Someone (c : Cfg) (st : St) : Prop := Own c st ∨ st.others = .served

/-- A state that comes about. -/
def Reachable (c : Cfg) (st : St) : Prop := ∃ o as, (c.port = 0 → o = .free) ∧ run c (init o) as = some st

/-- No other program starts a server at the address. -/
def Alone (as : List Act) : Prop := Act.others .served ∉ as

/-- The child is not interrupted, and its dashboard does not fail. -/
def Undisturbed (as : List Act) : Prop := Act.interrupt ∉ as ∧ Act.dash false ∉ as

/-- The child will never have a server. -/
def Lost (st : St) : Prop := st.child = .ended ∨ st.child = .stuck

/-! ## Lemmas -/

theorem own_iff (c : Cfg) (st : St) : childAt c st = true ↔ Own c st := by
  unfold childAt Own
  cases h : st.child <;> simp [Child.up?]

theorem accepted_iff (c : Cfg) (st : St) : accepted c st = true ↔ Someone c st := by
  unfold accepted Someone
  rw [Bool.or_eq_true, own_iff]
  simp

theorem run_append (c : Cfg) (st : St) (as bs : List Act) : run c st (as ++ bs) = (run c st as).bind fun st' => run c st' bs := by
  induction as generalizing st with
  | nil => rfl
  | cons a as ih =>
    simp only [List.cons_append, run]
    cases step c st a with
    | none => rfl
    | some s => simpa using ih s

theorem run_inv {c : Cfg} {P : St → Prop} {Q : Act → Prop} (hs : ∀ st a st', P st → Q a → step c st a = some st' → P st') :
    ∀ (as : List Act) (st st' : St), P st → (∀ a ∈ as, Q a) → run c st as = some st' → P st' := by
  intro as
  induction as with
  | nil => intro st st' h _ hr; simp only [run, Option.some.injEq] at hr; subst hr; exact h
  | cons a as ih =>
    intro st st' h hq hr
    simp only [run] at hr
    cases e : step c st a with
    | none => rw [e] at hr; cases hr
    | some s =>
      rw [e] at hr
      exact ih s st' (hs st a s h (hq a (by simp)) e) (fun b hb => hq b (by simp [hb])) hr

/-- One server at an address, nobody at port 0, and a child only after `fork`. -/
structure Inv (c : Cfg) (st : St) : Prop where
  one : st.child.up? = true → st.others ≠ .served
  zero : c.port = 0 → st.others = .free
  begun : st.starter = .begun ∨ st.starter = .declined → st.child = .none
  declined : st.starter = .declined → c.dash ≠ .none ∧ c.installed = false
  forked : st.starter = .polling ∨ st.starter = .reported → st.child ≠ .none ∧ (c.dash = .none ∨ c.installed = true)

theorem asked_iff (d : Dash) : d.asked = true ↔ d ≠ .none := by cases d <;> simp [Dash.asked]

theorem step_inv {c : Cfg} {st : St} {a : Act} {st' : St} (h : Inv c st) (hs : step c st a = some st') : Inv c st' := by
  obtain ⟨h1, h2, h3, h4, h5⟩ := h
  cases a with
  | fork =>
    simp only [step] at hs
    split at hs
    · rename_i hb
      have hc := h3 (.inl hb)
      split at hs
      · rename_i hd
        simp only [Bool.and_eq_true, Bool.not_eq_true', asked_iff] at hd
        cases hs
        exact ⟨h1, h2, fun _ => hc, fun _ => hd, by simp⟩
      · rename_i hd
        simp only [Bool.and_eq_true, Bool.not_eq_true', asked_iff] at hd
        cases hs
        refine ⟨by simp [Child.up?], h2, by simp, by simp, fun _ => ⟨by simp, ?_⟩⟩
        by_cases e : c.dash = .none
        · exact .inl e
        · right
          cases hi : c.installed
          · exact absurd ⟨e, hi⟩ hd
          · rfl
    · cases hs
  | poll =>
    simp only [step] at hs
    split at hs
    · rename_i hp
      cases hs
      split
      · exact ⟨h1, h2, by simp, by simp, fun _ => h5 (.inl hp)⟩
      · exact ⟨h1, h2, h3, h4, h5⟩
    · cases hs
  | bind =>
    simp only [step] at hs
    split at hs
    · rename_i hc
      have hn : ¬(st.starter = .begun ∨ st.starter = .declined) := fun e => by rw [h3 e] at hc; cases hc
      cases hs
      split <;> exact ⟨by simp [Child.up?], h2, fun e => absurd e hn, h4, fun e => ⟨by simp, (h5 e).2⟩⟩
    · cases hs
  | listen =>
    simp only [step] at hs
    split at hs
    · rename_i hc
      have hn : ¬(st.starter = .begun ∨ st.starter = .declined) := fun e => by rw [h3 e] at hc; cases hc
      cases hs
      split
      · exact ⟨by simp [Child.up?], h2, fun e => absurd e hn, h4, fun e => ⟨by simp, (h5 e).2⟩⟩
      · rename_i ho
        exact ⟨fun _ => by simpa using ho, h2, fun e => absurd e hn, h4, fun e => ⟨by simp, (h5 e).2⟩⟩
    · cases hs
  | dash ok =>
    simp only [step] at hs
    split at hs
    · rename_i x hc
      have hn : ¬(st.starter = .begun ∨ st.starter = .declined) := fun e => by rw [h3 e] at hc; cases hc
      cases hs
      refine ⟨fun _ => h1 (by rw [hc]; rfl), h2, fun e => absurd e hn, h4, fun e => ⟨?_, (h5 e).2⟩⟩
      cases ok <;> simp
    · rename_i hc
      have hn : ¬(st.starter = .begun ∨ st.starter = .declined) := fun e => by rw [h3 e] at hc; cases hc
      cases hs
      refine ⟨?_, h2, fun e => absurd e hn, h4, fun e => ⟨?_, (h5 e).2⟩⟩ <;> cases ok <;> simp [Child.up?]
    · cases hs
  | stop =>
    simp only [step] at hs
    split at hs
    · rename_i m hc
      have hn : ¬(st.starter = .begun ∨ st.starter = .declined) := fun e => by rw [h3 e] at hc; cases hc
      cases hs
      exact ⟨by simp [Child.up?], h2, fun e => absurd e hn, h4, fun e => ⟨by simp, (h5 e).2⟩⟩
    · cases hs
  | exit =>
    simp only [step] at hs
    split at hs
    · rename_i hc
      have hn : ¬(st.starter = .begun ∨ st.starter = .declined) := fun e => by rw [h3 e] at hc; cases hc
      cases hs
      exact ⟨by simp [Child.up?], h2, fun e => absurd e hn, h4, fun e => ⟨by simp, (h5 e).2⟩⟩
    · cases hs
  | interrupt =>
    simp only [step] at hs
    split at hs
    · rename_i m hc
      have hn : ¬(st.starter = .begun ∨ st.starter = .declined) := fun e => by rw [h3 e] at hc; cases hc
      cases hs
      exact ⟨by simp [Child.up?], h2, fun e => absurd e hn, h4, fun e => ⟨by simp, (h5 e).2⟩⟩
    · cases hs
  | shutdown =>
    simp only [step] at hs
    split at hs
    · cases hs
      cases hc : st.child with
      | up a m =>
        have hn : ¬(st.starter = .begun ∨ st.starter = .declined) := fun e => by rw [h3 e] at hc; cases hc
        refine ⟨fun _ => h1 (by rw [hc]; rfl), h2, fun e => absurd e hn, h4, fun e => ⟨?_, (h5 e).2⟩⟩
        simp only; split <;> simp
      | _ => exact ⟨by simp [Child.up?, hc], h2, fun e => by simpa [hc] using h3 e, h4, fun e => by simpa [hc] using h5 e⟩
    · cases hs
      exact ⟨h1, h2, h3, h4, h5⟩
  | others o =>
    simp only [step] at hs
    split at hs
    · rename_i hh
      cases hs
      refine ⟨fun hu => ?_, fun hz => ?_, h3, h4, h5⟩
      · intro e; subst e; simp only [canHave, Bool.and_eq_true, Bool.not_eq_true'] at hh; rw [hh.2] at hu; cases hu
      · cases o <;> simp [canHave, hz] at hh ⊢
    · cases hs

theorem reachable_inv {c : Cfg} {st : St} (h : Reachable c st) : Inv c st := by
  obtain ⟨o, as, ho, hr⟩ := h
  refine run_inv (P := Inv c) (Q := fun _ => True) (fun st a st' h _ hs => step_inv h hs) as _ _ ?_ (fun _ _ => trivial) hr
  exact ⟨by simp [init, Child.up?], ho, by simp [init], by simp [init], by simp [init]⟩

theorem said_step {c : Cfg} {st : St} {a : Act} {st' : St} (hs : step c st a = some st') : ∃ l, st'.said = l ++ st.said := by
  cases a <;> simp only [step] at hs <;> (try split at hs) <;> (try split at hs) <;> cases hs <;>
    first
    | exact ⟨[], rfl⟩
    | exact ⟨[_], rfl⟩
    | (split <;> exact ⟨[], rfl⟩)

/-- A server that was told to stop was told so by a call of `shutdown` that said so. -/
theorem told_step {c : Cfg} {st : St} {a : Act} {st' : St} (h : ∀ m, st.child = .up true m → Said.issued ∈ st.said) (hs : step c st a = some st') :
    ∀ m, st'.child = .up true m → Said.issued ∈ st'.said := by
  intro m hm
  cases a with
  | poll =>
    simp only [step] at hs
    split at hs
    · cases hs
      split at hm <;> split <;> exact h m hm
    · cases hs
  | shutdown =>
    simp only [step] at hs
    split at hs <;> cases hs
    · simp
    · simp only at hm ⊢
      exact List.mem_cons_of_mem _ (h m hm)
  | others o =>
    simp only [step] at hs
    split at hs <;> cases hs
    exact h m hm
  | dash ok =>
    simp only [step] at hs
    split at hs
    · rename_i a hc
      cases hs
      simp only at hm ⊢
      split at hm
      · cases hm; exact h _ hc
      · cases hm
    · cases hs
      simp only at hm
      split at hm <;> cases hm
    · cases hs
  | fork => simp only [step] at hs; split at hs <;> (try split at hs) <;> cases hs <;> first | exact h m hm | cases hm
  | bind => simp only [step] at hs; split at hs <;> cases hs; split at hm <;> cases hm
  | listen => simp only [step] at hs; split at hs <;> cases hs; split at hm <;> cases hm
  | stop => simp only [step] at hs; split at hs <;> cases hs; cases hm
  | exit => simp only [step] at hs; split at hs <;> cases hs; cases hm
  | interrupt => simp only [step] at hs; split at hs <;> cases hs; cases hm

theorem reachable_told {c : Cfg} {st : St} (h : Reachable c st) : ∀ m, st.child = .up true m → Said.issued ∈ st.said := by
  obtain ⟨o, as, ho, hr⟩ := h
  exact run_inv (P := fun s => ∀ m, s.child = .up true m → Said.issued ∈ s.said) (Q := fun _ => True) (fun st a st' h _ hs => told_step h hs) as _ _
    (by simp [init]) (fun _ _ => trivial) hr

theorem reachable_run {c : Cfg} {st st' : St} {as : List Act} (h : Reachable c st) (hr : run c st as = some st') : Reachable c st' := by
  obtain ⟨o, bs, ho, hb⟩ := h
  exact ⟨o, bs ++ as, ho, by rw [run_append, hb]; exact hr⟩

/-- Where a report comes from. -/
theorem report_from {c : Cfg} : ∀ (as : List Act) (st st' : St), st.starter ≠ .reported → run c st as = some st' → st'.starter = .reported →
    ∃ pre post s, as = pre ++ .poll :: post ∧ run c st pre = some s ∧ s.starter = .polling ∧ Someone c s := by
  intro as
  induction as with
  | nil => intro st st' h hr he; simp only [run, Option.some.injEq] at hr; subst hr; exact absurd he h
  | cons a as ih =>
    intro st st' h hr he
    simp only [run] at hr
    cases e : step c st a with
    | none => rw [e] at hr; cases hr
    | some s =>
      rw [e] at hr
      by_cases hs : s.starter = .reported
      · refine ⟨[], as, st, ?_, rfl, ?_⟩ <;> cases a <;> simp only [step] at e <;>
          (try (split at e <;> (try split at e) <;> cases e <;> first | exact absurd hs h | (simp at hs; done) | skip))
        all_goals first
          | rfl
          | skip
        all_goals
          rename_i hp ha
          exact ⟨hp, (accepted_iff _ _).1 ha⟩
      · obtain ⟨pre, post, s', h1, h2, h3⟩ := ih s st' hs hr he
        exact ⟨a :: pre, post, s', by rw [h1]; rfl, by simp [run, e, h2], h3⟩

/-! ## Theorems -/

/-- C119: when no other program runs a server at the address, `start` says that servers were forked only when its child's server runs: the round of the loop that led to it
found it. Missing: when another program does (`C119_stranger`). -/
theorem C119_reported_partial {c : Cfg} {o : Others} {as : List Act} {st : St} (ho : o ≠ .served) (ha : Alone as)
    (hr : run c (init o) as = some st) (hp : st.starter = .reported) :
    ∃ pre post s, as = pre ++ .poll :: post ∧ run c (init o) pre = some s ∧ Own c s := by
  obtain ⟨pre, post, s, h1, h2, _, h4⟩ := report_from as _ _ (by simp [init]) hr hp
  refine ⟨pre, post, s, h1, h2, ?_⟩
  rcases h4 with h4 | h4
  · exact h4
  · exfalso
    refine run_inv (P := fun s => s.others ≠ .served) (Q := fun a => a ≠ .others .served) ?_ pre _ _ (by simpa [init] using ho) ?_ h2 h4
    · intro st a st' h hq hs
      cases a <;> simp only [step] at hs <;> (try split at hs) <;> (try split at hs) <;> cases hs <;> (try exact h) <;> (try (split <;> exact h))
      · intro e; exact hq (by rw [← e])
    · intro a hm e
      subst e
      exact ha (by rw [h1]; simp [hm])

/-- C119: and a server of the child runs on, as long as no `shutdown` says that it told a server, nobody interrupts it and its dashboard does not fail. -/
theorem C119_runs_on {c : Cfg} {st st' : St} {as : List Act} (h : Reachable c st) (hc : ∃ a m, st.child = .up a m) (hu : Undisturbed as)
    (hr : run c st as = some st') (hn : Said.issued ∉ st'.said) : ∃ a m, st'.child = .up a m := by
  have key : Reachable c st' ∧ (Said.issued ∈ st'.said ∨ ∃ m, st'.child = .up false m) := by
    refine run_inv (P := fun s => Reachable c s ∧ (Said.issued ∈ s.said ∨ ∃ m, s.child = .up false m)) (Q := fun a => a ≠ .interrupt ∧ a ≠ .dash false) ?_ as _ _
      ⟨h, ?_⟩ (fun a hm => ⟨fun e => hu.1 (e ▸ hm), fun e => hu.2 (e ▸ hm)⟩) hr
    · rintro st a st' ⟨hR, hp⟩ ⟨h2, h3⟩ hs
      refine ⟨reachable_run hR (as := [a]) (by simp [run, hs]), ?_⟩
      rcases hp with hp | ⟨m, hc⟩
      · obtain ⟨l, hl⟩ := said_step hs
        rw [hl]
        exact .inl (List.mem_append_right _ hp)
      · cases a with
        | fork =>
          simp only [step] at hs
          split at hs
          · rename_i hb
            rw [(reachable_inv hR).begun (.inl hb)] at hc
            cases hc
          · cases hs
        | dash ok =>
          cases ok with
          | false => exact absurd rfl h3
          | true =>
            cases m <;> simp [step, hc] at hs
            subst hs
            exact .inr ⟨_, rfl⟩
        | poll =>
          simp only [step] at hs
          split at hs
          · cases hs
            split <;> exact .inr ⟨m, hc⟩
          · cases hs
        | others o =>
          simp only [step] at hs
          split at hs <;> cases hs
          exact .inr ⟨m, hc⟩
        | shutdown =>
          simp only [step] at hs
          split at hs <;> cases hs
          · exact .inl (by simp)
          · exact .inr ⟨m, hc⟩
        | interrupt => exact absurd rfl h2
        | _ => simp [step, hc] at hs
    · obtain ⟨a, m, hc⟩ := hc
      cases a with
      | true => exact .inl (reachable_told h m hc)
      | false => exact .inr ⟨m, hc⟩
  rcases key.2 with h1 | ⟨m, h1⟩
  · exact absurd h1 hn
  · exact ⟨_, m, h1⟩

/-- C119: a round of the loop ends it exactly if somebody's server runs at the address, and changes nothing else. -/
theorem C119_round (c : Cfg) {st : St} (hp : st.starter = .polling) :
    ∃ st', step c st .poll = some st' ∧ (st'.starter = .reported ↔ Someone c st) ∧ (st'.starter = .polling ↔ ¬ Someone c st) ∧
      st'.child = st.child ∧ st'.others = st.others ∧ st'.said = st.said := by
  refine ⟨_, (by simp only [step, hp]; rfl), ?_⟩
  rw [← accepted_iff]
  cases accepted c st <;> simp [hp]

/-- C119: with a port and an address that nobody else uses, `start` gets to the point where it says so: from any state in which the child is about to bind, binding, listening
and the next round are enough. -/
theorem C119_reports {c : Cfg} {st : St} (h0 : c.port ≠ 0) (hp : st.starter = .polling) (hc : st.child = .starting)
    (ho : st.others = .free ∨ st.others = .shared) :
    ∃ st', run c st [.bind, .listen, .poll] = some st' ∧ st'.starter = .reported ∧ Own c st' := by
  rcases ho with ho | ho <;>
    simp [run, step, hc, ho, hp, accepted, childAt, Child.up?, h0, Own]

/-- C119: `start` says nothing, and makes no child, exactly if a dashboard is asked for and its package is missing. -/
theorem C119_declined {c : Cfg} {st : St} (h : Reachable c st) :
    (st.starter = .declined → st.child = .none ∧ c.dash ≠ .none ∧ c.installed = false) ∧
      (c.dash ≠ .none → c.installed = false → st.child = .none ∧ st.starter ≠ .polling ∧ st.starter ≠ .reported) := by
  have hi := reachable_inv h
  refine ⟨fun e => ⟨hi.begun (.inr e), hi.declined e⟩, fun h1 h2 => ?_⟩
  have hn : ¬(st.starter = .polling ∨ st.starter = .reported) := fun e => by
    rcases (hi.forked e).2 with h3 | h3
    · exact h1 h3
    · rw [h2] at h3; cases h3
  refine ⟨hi.begun ?_, fun e => hn (.inl e), fun e => hn (.inr e)⟩
  cases e : st.starter <;> simp [e] at hn ⊢

/-- C119: if the address is another program's, the child's `bind` fails and the child ends; if the other program comes in between `bind` and `listen`, the child waits for
ever. -/
theorem C119_child_fails (c : Cfg) {st : St} :
    (st.child = .starting → st.others = .served ∨ st.others = .taken → ∃ st', step c st .bind = some st' ∧ Lost st') ∧
      (st.child = .bound → st.others = .served → ∃ st', step c st .listen = some st' ∧ Lost st') := by
  refine ⟨fun hc ho => ?_, fun hc ho => ?_⟩
  · refine ⟨_, (by simp only [step, hc]; rfl), ?_⟩
    rcases ho with ho | ho <;> simp [ho, Lost]
  · refine ⟨_, (by simp only [step, hc]; rfl), ?_⟩
    simp [ho, Lost]

/-- C119: a child that is lost stays lost, whatever happens. -/
theorem C119_lost_stays {c : Cfg} {st st' : St} {as : List Act} (h : Reachable c st) (hl : Lost st) (hr : run c st as = some st') : Lost st' := by
  refine (run_inv (P := fun s => Inv c s ∧ Lost s) (Q := fun _ => True) ?_ as _ _ ⟨reachable_inv h, hl⟩ (fun _ _ => trivial) hr).2
  rintro st a st' ⟨hi, hl⟩ _ hs
  refine ⟨step_inv hi hs, ?_⟩
  cases a with
  | fork =>
    simp only [step] at hs
    split at hs
    · rename_i hb
      have := hi.begun (.inl hb)
      rcases hl with hl | hl <;> rw [this] at hl <;> cases hl
    · cases hs
  | poll =>
    simp only [step] at hs
    split at hs
    · cases hs
      split <;> exact hl
    · cases hs
  | others o =>
    simp only [step] at hs
    split at hs <;> cases hs
    exact hl
  | shutdown =>
    simp only [step] at hs
    split at hs <;> cases hs
    · rcases hl with hl | hl <;> simp [Lost, hl]
    · exact hl
  | _ => rcases hl with hl | hl <;> simp [step, hl] at hs

/-- C119: then `start` goes round its loop for ever, unless another program starts a server at the address: it never looks at its child. -/
theorem C119_hangs {c : Cfg} {st st' : St} {as : List Act} (h : Reachable c st) (hp : st.starter = .polling) (hl : Lost st) (ho : st.others ≠ .served)
    (ha : Alone as) (hr : run c st as = some st') : st'.starter = .polling ∧ ∃ st'', step c st' .poll = some st'' ∧ st''.starter = .polling := by
  have key : Reachable c st' ∧ st'.starter = .polling ∧ Lost st' ∧ st'.others ≠ .served := by
    refine run_inv (P := fun s => Reachable c s ∧ s.starter = .polling ∧ Lost s ∧ s.others ≠ .served) (Q := fun a => a ≠ .others .served) ?_ as _ _
      ⟨h, hp, hl, ho⟩ (fun a hm e => ha (e ▸ hm)) hr
    rintro st a st' ⟨hR, hp, hl, ho⟩ hq hs
    have hr1 : run c st [a] = some st' := by simp [run, hs]
    refine ⟨reachable_run hR hr1, ?_, C119_lost_stays hR hl hr1, ?_⟩
    · cases a with
      | poll =>
        obtain ⟨s, h1, _, h2, _⟩ := C119_round c hp
        rw [h1] at hs; cases hs
        refine h2.2 ?_
        rintro (⟨_, _, _, h3⟩ | h3)
        · rcases hl with hl | hl <;> rw [hl] at h3 <;> cases h3
        · exact ho h3
      | fork => simp [step, hp] at hs
      | others o =>
        simp only [step] at hs
        split at hs <;> cases hs
        exact hp
      | shutdown =>
        simp only [step] at hs
        split at hs <;> cases hs <;> exact hp
      | _ => rcases hl with hl | hl <;> simp [step, hl] at hs
    · cases a with
      | others o =>
        simp only [step] at hs
        split at hs <;> cases hs
        intro e; exact hq (by rw [← e])
      | poll =>
        obtain ⟨s, h1, _, _, _, h2, _⟩ := C119_round c hp
        rw [h1] at hs; cases hs
        rw [h2]; exact ho
      | fork => simp [step, hp] at hs
      | shutdown =>
        simp only [step] at hs
        split at hs <;> cases hs <;> exact ho
      | _ => rcases hl with hl | hl <;> simp [step, hl] at hs
  obtain ⟨hR, hp', hl', ho'⟩ := key
  refine ⟨hp', ?_⟩
  obtain ⟨s, h1, _, h2, _⟩ := C119_round c hp'
  refine ⟨s, h1, h2.2 ?_⟩
  rintro (⟨_, _, _, h3⟩ | h3)
  · rcases hl' with hl | hl <;> rw [hl] at h3 <;> cases h3
  · exact ho' h3

/-- C119: if another program's server runs at the address, the next round ends the loop: `start` says that servers were forked, with the number of a child whose server does not
run; and the child, if it is still before `bind` then, ends without ever having a server unless the other server goes. -/
theorem C119_stranger {c : Cfg} {st : St} (h : Reachable c st) (hp : st.starter = .polling) (ho : st.others = .served) :
    ∃ st', step c st .poll = some st' ∧ st'.starter = .reported ∧ ¬ Own c st' ∧
      (st.child = .starting → ∃ st'', step c st' .bind = some st'' ∧ st''.child = .ended) := by
  obtain ⟨s, h1, h2, _, h3, h4, _⟩ := C119_round c hp
  refine ⟨s, h1, h2.2 (.inr ho), ?_, fun hc => ⟨{ s with child := .ended }, (by simp [step, h3, hc, h4, ho]), rfl⟩⟩
  rintro ⟨_, a, m, hu⟩
  rw [h3] at hu
  exact (reachable_inv h).one (by rw [hu]; rfl) ho

/-- C119: with port 0 `start` never ends its loop: the child's server is at a port that the operating system chose, and `start` asks at port 0. -/
theorem C119_port_zero {c : Cfg} {st : St} (h : Reachable c st) (h0 : c.port = 0) : st.starter ≠ .reported := by
  intro e
  obtain ⟨o, as, ho, hr⟩ := h
  obtain ⟨pre, post, s, _, h2, _, h4⟩ := report_from as _ _ (by simp [init]) hr e
  rcases h4 with h4 | h4
  · exact h4.1 h0
  · have := (reachable_inv ⟨o, pre, ho, h2⟩).zero h0
    rw [this] at h4; cases h4

/-- C119: `shutdown` says that it told the server exactly if somebody's server runs at the address; otherwise it warns, and nothing changes. -/
theorem C119_shutdown_says (c : Cfg) (st : St) :
    ∃ st', step c st .shutdown = some st' ∧ (Someone c st → st'.said = .issued :: st.said) ∧
      (¬ Someone c st → st'.said = .warned :: st.said ∧ st'.child = st.child) ∧ st'.others = st.others ∧ st'.starter = st.starter := by
  simp only [step, ← accepted_iff]
  cases h : accepted c st <;> simp

/-- C119: the child's server that was told so can stop at once; then, unless the dashboard still has to be started, the process ends; and nobody's server runs at the address. -/
theorem C119_shutdown {c : Cfg} {st : St} (h : Reachable c st) (ho : Own c st) :
    ∃ st' st'', step c st .shutdown = some st' ∧ step c st' .stop = some st'' ∧ ¬ Someone c st'' ∧
      (st.child = .up false .join ∨ st.child = .up true .join → ∃ st₃, step c st'' .exit = some st₃ ∧ st₃.child = .ended) := by
  have hi := (reachable_inv h).one
  obtain ⟨h0, a, m, hc⟩ := ho
  have hs : st.others ≠ .served := hi (by rw [hc]; rfl)
  have ha : accepted c st = true := (accepted_iff _ _).2 (.inl ⟨h0, a, m, hc⟩)
  refine ⟨{ st with said := .issued :: st.said, child := .up true m }, { st with said := .issued :: st.said, child := .down m }, ?_, ?_, ?_, ?_⟩
  · simp [step, ha, hc, h0]
  · simp [step]
  · rintro (⟨_, _, _, h3⟩ | h3)
    · simp at h3
    · exact hs h3
  · rintro (e | e) <;> rw [hc] at e <;> cases e <;> exact ⟨_, rfl, rfl⟩

/-- The child is past having a server. -/
def Over (st : St) : Prop := (∃ m, st.child = .down m) ∨ st.child = .ended

/-- C119: and a server that has stopped does not come back. -/
theorem C119_stopped_stays {c : Cfg} {st st' : St} {as : List Act} (h : Reachable c st) (hl : Over st) (hr : run c st as = some st') : Over st' := by
  refine (run_inv (P := fun s => Inv c s ∧ Over s) (Q := fun _ => True) ?_ as _ _ ⟨reachable_inv h, hl⟩ (fun _ _ => trivial) hr).2
  rintro st a st' ⟨hi, hl⟩ _ hs
  refine ⟨step_inv hi hs, ?_⟩
  cases a with
  | fork =>
    simp only [step] at hs
    split at hs
    · rename_i hb
      have := hi.begun (.inl hb)
      rcases hl with ⟨_, hl⟩ | hl <;> rw [this] at hl <;> cases hl
    · cases hs
  | poll =>
    simp only [step] at hs
    split at hs
    · cases hs
      split <;> exact hl
    · cases hs
  | others o =>
    simp only [step] at hs
    split at hs <;> cases hs
    exact hl
  | shutdown =>
    simp only [step] at hs
    split at hs <;> cases hs
    · rcases hl with ⟨m, hl⟩ | hl <;> simp [Over, hl]
    · exact hl
  | dash ok =>
    rcases hl with ⟨m, hl⟩ | hl
    · cases m <;> simp [step, hl] at hs
      subst hs
      cases ok <;> simp [Over]
    · simp [step, hl] at hs
  | exit =>
    rcases hl with ⟨m, hl⟩ | hl
    · cases m <;> simp [step, hl] at hs
      subst hs
      exact .inr rfl
    · simp [step, hl] at hs
  | _ => rcases hl with ⟨m, hl⟩ | hl <;> simp [step, hl] at hs

/-- C119: a dashboard that fails takes the graph server with it. -/
theorem C119_dashboard_fails (c : Cfg) {st : St} {a : Bool} (hc : st.child = .up a .dash) :
    ∃ st', step c st (.dash false) = some st' ∧ st'.child = .ended ∧ st'.starter = st.starter := by
  simp [step, hc]

/-- C119: the child is told the address, and is told of the dashboard what `start` was told; but `False` becomes `True`. -/
theorem C119_handed_over (a : String × Int) (d : Dash) :
    parse (childArgs a d) none .none = some (some a, if d = .bool false then .bool true else d) := by
  rcases d with _ | b | _ <;> (try cases b) <;> simp [childArgs, parse]

/-- C119: where the dashboard is: at the port that was given, else at the one that is set, else at the graph server's plus one; at the host that is set, else at the graph
server's. -/
theorem C119_dashboard_address (env : Option (String × Int)) (graph : String × Int) (d : Dash) (p : Int) :
    (dashboardAddress env graph d.given).1 = (env.map Prod.fst).getD graph.1 ∧
      (d = .port p → (dashboardAddress env graph d.given).2 = p) ∧
      ((∀ n, d ≠ .port n) → (dashboardAddress env graph d.given).2 = (env.map Prod.snd).getD (graph.2 + 1)) := by
  rcases d with _ | b | n <;> cases env <;> simp [dashboardAddress, Dash.given]

/-- C119 fails: `start` goes round its loop for ever when another program's socket has the address: the child ends at `bind`. -/
theorem C119_negation_hangs : ∃ (c : Cfg) (as : List Act) (st : St), c.port ≠ 0 ∧ run c (init .taken) as = some st ∧ st.child = .ended ∧
    ∀ bs st', Alone bs → run c st bs = some st' → st'.starter = .polling := by
  refine ⟨⟨25978, .none, false⟩, [.fork, .bind], ⟨.polling, .ended, .taken, []⟩, by decide, rfl, rfl, fun bs st' hb hr => ?_⟩
  exact (C119_hangs (c := ⟨25978, .none, false⟩) ⟨.taken, [.fork, .bind], by decide, rfl⟩ rfl (.inl rfl) (by decide) hb hr).1

/-- C119 fails: a server runs at the address; `start` says that it forked one, and its child ends without ever having had one. -/
theorem C119_negation_stranger : ∃ (c : Cfg) (as : List Act) (st : St), c.port ≠ 0 ∧ run c (init .served) as = some st ∧ st.starter = .reported ∧
    st.child = .ended ∧ ∀ pre post s, as = pre ++ post → run c (init .served) pre = some s → ¬ Own c s := by
  refine ⟨⟨25978, .none, false⟩, [.fork, .poll, .bind], ⟨.reported, .ended, .served, []⟩, by decide, rfl, rfl, rfl, ?_⟩
  intro pre post s e hr
  obtain ⟨n, rfl⟩ : ∃ n, pre = [Act.fork, .poll, .bind].take n := ⟨pre.length, by rw [e]; simp⟩
  match n with
  | 0 | 1 | 2 | 3 =>
    simp [run, step, init, accepted, childAt, Dash.asked] at hr
    subst hr
    rintro ⟨_, a, m, h⟩
    cases h
  | n + 4 =>
    simp [run, step, init, accepted, childAt, Dash.asked] at hr
    subst hr
    rintro ⟨_, a, m, h⟩
    cases h

/-- C119 fails: `start` has said that servers were forked, and then the dashboard's port is taken and both are gone. -/
theorem C119_negation_dashboard : ∃ (c : Cfg) (as : List Act) (st : St), c.port ≠ 0 ∧ c.installed = true ∧ Alone as ∧ Act.shutdown ∉ as ∧ Act.interrupt ∉ as ∧
    run c (init .free) as = some st ∧ st.starter = .reported ∧ st.child = .ended :=
  ⟨⟨25978, .bool true, true⟩, [.fork, .bind, .listen, .poll, .dash false], ⟨.reported, .ended, .free, []⟩,
    by decide, rfl, (by unfold Alone; decide), by decide, by decide, rfl, rfl, rfl⟩

/-- C119 fails: `run_command("start", …, dashboard=False)` starts a dashboard. -/
theorem C119_negation_false : ∃ a, parse (childArgs a (.bool false)) none .none = some (some a, .bool true) :=
  ⟨("127.0.0.1", 25978), rfl⟩

/-! ## Examples -/

/-- `start`, rounds before and after the child listens, `shutdown`, and one more that finds nobody. -/
example : run ⟨25978, .none, false⟩ (init .free) [.fork, .poll, .bind, .poll, .listen, .poll, .shutdown, .stop, .exit, .shutdown]
    = some ⟨.reported, .ended, .free, [.warned, .issued]⟩ := rfl

example : Reachable ⟨25978, .port 8000, true⟩ ⟨.polling, .up false .dash, .shared, []⟩ :=
  ⟨.shared, [.fork, .bind, .listen], by decide, rfl⟩

/-- Another program comes in between the child's `bind` and `listen`. -/
example : run ⟨25978, .none, false⟩ (init .free) [.fork, .bind, .others .served, .listen, .others .free, .poll] = some ⟨.polling, .stuck, .free, []⟩ := rfl

example : dashboardAddress none ("10.0.0.1", 25978) (Dash.port 80).given = ("10.0.0.1", 80) ∧
    dashboardAddress (some ("h", 5)) ("10.0.0.1", 25978) (Dash.bool true).given = ("h", 5) ∧
    dashboardAddress none ("10.0.0.1", 25978) (Dash.bool true).given = ("10.0.0.1", 25979) := ⟨rfl, rfl, rfl⟩

end Cmd
end Ez
