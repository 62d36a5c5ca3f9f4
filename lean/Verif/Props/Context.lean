import Verif.Model.Context
import Verif.Lemmas.Py

/-!
# C90: leaving a context undoes what was done with it

Specification: after `__aexit__` all clients made with the context are closed, its session owns no connections and is closed,
and a server that it has started has stopped.
-/

set_option linter.unusedSectionVars false
set_option linter.unusedSimpArgs false

namespace Ez
namespace Context

/-! ## Specification -/

/-- The states that a context can get into. -/
def Reachable (st : St) : Prop := ∃ s as, Steps (entered s) as st

/-- The clients that were made before `revert` was called (or after it had returned or raised). -/
def St.inTime (st : St) (c : Nat) : Prop := (c, false) ∈ st.made

/-! ## Lemmas -/

/-- What holds in every state. -/
structure Inv (st : St) : Prop where
  kept : ∀ c, st.inTime c → c ∈ st.tracked ∨ st.closed c = true
  shut : st.phase.late = true → ∀ c, st.inTime c → st.closed c = true
  dead : st.live = false → st.owned = []
  gone : st.phase = .left → st.session = false ∧ st.live = false ∧ st.edges = [] ∧ st.server = false
  open' : st.phase ≠ .left → st.session = true
  todo : ∀ todo exit, st.phase = .waiting todo exit → ∀ c ∈ todo, st.closed c = true

theorem set_true {f : Nat → Bool} {c x : Nat} (h : f x = true) : set f c x = true := by simp [set, h]

theorem inv_step {st st' : St} {a : Act} (h : Inv st) (s : Step st a st') : Inv st' := by
  cases s with
  | create c hc =>
    refine ⟨?_, ?_, h.dead, h.gone, h.open', h.todo⟩
    · intro x hx
      rcases List.mem_append.1 hx with hx | hx
      · rcases h.kept x hx with h | h
        · exact .inl (PySet.mem_add.2 (.inl h))
        · exact .inr h
      · simp only [List.mem_singleton, Prod.mk.injEq] at hx
        exact .inl (PySet.mem_add.2 (.inr hx.1))
    · intro hp x hx
      rcases List.mem_append.1 hx with hx | hx
      · exact h.shut hp x hx
      · simp only [List.mem_singleton, Prod.mk.injEq] at hx
        have hp : st.phase.late = true := hp
        rw [hp] at hx
        cases hx.2
  | close c =>
    refine ⟨fun x hx => ?_, fun hp x hx => set_true (h.shut hp x hx), h.dead, h.gone, h.open', fun t e hp x hx => set_true (h.todo t e hp x hx)⟩
    rcases h.kept x hx with h | h
    · exact .inl h
    · exact .inr (set_true h)
  | discard c hc =>
    refine ⟨fun x hx => ?_, h.shut, h.dead, h.gone, h.open', h.todo⟩
    rcases h.kept x hx with h | h
    · by_cases e : x = c
      · exact .inr (by rw [e]; exact hc)
      · exact .inl (by simp [PySet.discard, h, e])
    · exact .inr h
  | fail c => exact ⟨h.kept, h.shut, h.dead, h.gone, h.open', h.todo⟩
  | connect e hs hl =>
    refine ⟨h.kept, h.shut, ?_, ?_, h.open', h.todo⟩
    · intro hd
      have hd : st.live = false := hd
      rw [hl] at hd
      cases hd
    · intro hp
      have := (h.gone hp).1
      rw [hs] at this
      cases this
  | disconnect e hs hl =>
    refine ⟨h.kept, h.shut, ?_, ?_, h.open', h.todo⟩
    · intro hd
      have hd : st.live = false := hd
      rw [hl] at hd
      cases hd
    · intro hp
      have := (h.gone hp).1
      rw [hs] at this
      cases this
  | lose => exact ⟨h.kept, h.shut, fun _ => rfl, fun hp => ⟨(h.gone hp).1, rfl, (h.gone hp).2.2⟩, h.open', h.todo⟩
  | begin exit hp =>
    have hc : ∀ c, st.inTime c → (decide (c ∈ st.tracked) || st.closed c) = true := by
      intro c hc
      rcases h.kept c hc with h | h <;> simp [h]
    have hl : st.session = true := h.open' (by rcases hp with hp | hp <;> simp [hp])
    refine ⟨fun c hx => .inr (hc c hx), fun _ => hc, h.dead, (fun hq => by cases hq), fun _ => hl, ?_⟩
    intro t e hq c hct
    cases hq
    simp [hct]
  | waited c todo exit hp hc hf =>
    refine ⟨h.kept, fun _ x hx => h.shut (by simp [hp, Phase.late]) x hx, h.dead, (fun hq => by cases hq),
      fun _ => h.open' (by simp [hp]), ?_⟩
    intro t e hq x hx
    cases hq
    exact h.todo _ _ hp x (List.mem_filter.1 hx).1
  | raises c todo exit hp hc hf =>
    exact ⟨h.kept, (fun hq => by cases hq), h.dead, (fun hq => by cases hq), fun _ => h.open' (by simp [hp]), (fun _ _ hq => by cases hq)⟩
  | waitedAll exit hp =>
    have hc := h.shut (by simp [hp, Phase.late])
    exact ⟨fun c hx => .inr (hc c hx), fun _ => hc, h.dead, (fun hq => by cases hq), fun _ => h.open' (by simp [hp]),
      (fun _ _ hq => by cases hq)⟩
  | clear exit hp =>
    have hc := h.shut (by simp [hp, Phase.late])
    have hs := h.open' (by simp [hp])
    refine ⟨fun c hx => .inr (hc c hx), fun _ => hc, ?_, ?_, fun _ => hs, ?_⟩
    · intro hl
      have hl : st.live = false := hl
      simp [hl, h.dead hl]
    · intro hq
      cases exit <;> cases hq
    · intro t e hq
      cases exit <;> cases hq
  | leave hp =>
    have hc := h.shut (by simp [hp, Phase.late])
    exact ⟨fun c hx => .inr (hc c hx), fun _ => hc, fun _ => rfl, fun _ => ⟨rfl, rfl, rfl, rfl⟩, fun hq => absurd rfl hq,
      (fun _ _ hq => by cases hq)⟩

theorem inv_steps {st st' : St} {as : List Act} (h : Inv st) (s : Steps st as st') : Inv st' := by
  induction s with
  | refl => exact h
  | step _ s ih => exact inv_step ih s

theorem reachable_inv {st : St} (h : Reachable st) : Inv st := by
  obtain ⟨s, as, h⟩ := h
  refine inv_steps ?_ h
  exact ⟨(fun c hc => by cases hc), (fun hp => by cases hp), fun _ => rfl, (fun hp => by cases hp), fun _ => rfl, (fun _ _ hp => by cases hp)⟩

/-- Every client that is tracked was made with the context. -/
theorem tracked_made {st st' : St} {as : List Act} (s : Steps st as st') (h : ∀ c ∈ st.tracked, c ∈ st.made.map (·.1)) :
    ∀ c ∈ st'.tracked, c ∈ st'.made.map (·.1) := by
  induction s with
  | refl => exact h
  | step _ s ih =>
    cases s with
    | create c hc =>
      intro x hx
      simp only [List.map_append, List.map_cons, List.map_nil, List.mem_append, List.mem_singleton]
      rcases PySet.mem_add.1 hx with hx | hx
      · exact .inl (ih x hx)
      · exact .inr hx
    | discard c hc => exact fun x hx => ih x (by simp [PySet.discard] at hx; exact hx.1)
    | waitedAll => exact fun x hx => by cases hx
    | _ => exact ih

/-! ## Theorems -/

/-- C90, partial: once the context was left, every client that was made with it is closed, its session is closed and owns no
connection, and a server that it started has stopped. Missing: clients made while `revert` waits or later
(`C90_lost`), and that the context is left at all (`C90_stuck`). -/
theorem C90_undone_partial {st : St} (h : Reachable st) (hl : st.phase = .left) :
    (∀ c b, (c, b) ∈ st.made → b = false → st.closed c = true) ∧ st.session = false ∧ st.owned = [] ∧ st.edges = [] ∧
      st.server = false := by
  have i := reachable_inv h
  obtain ⟨h1, h2, h3, h4⟩ := i.gone hl
  refine ⟨?_, h1, i.dead h2, h3, h4⟩
  rintro c b hc rfl
  exact i.shut (by simp [hl, Phase.late]) c hc

/-- C90, partial: after `revert` every client that was made before is closed and the session owns no connection. Missing: as
before. -/
theorem C90_reverted_partial {st st' : St} (h : Reachable st) (s : Step st .clear st') :
    (∀ c, (c, false) ∈ st'.made → st'.closed c = true) ∧ st'.owned = [] ∧ st'.edges = [] := by
  have i := reachable_inv h
  cases s with
  | clear exit hp =>
    have hs := i.open' (by simp [hp])
    refine ⟨fun c hc => i.shut (by simp [hp, Phase.late]) c hc, ?_, rfl⟩
    cases hl : st.live with
    | true => simp [hs, hl]
    | false => simp [i.dead hl]

theorem waits {exit : Bool} (n : Nat) : ∀ {st : St} {todo : List Nat}, todo.length ≤ n → st.phase = .waiting todo exit →
    (∀ c ∈ todo, st.failed c = false) →
    ∃ as, Steps st as { st with phase := .waiting [] exit } ∧ ∀ a ∈ as, ∃ c, a = .waited c := by
  induction n with
  | zero =>
    intro st todo hn hp _
    obtain rfl : todo = [] := List.length_eq_zero_iff.1 (by omega)
    have : st = { st with phase := .waiting [] exit } := by rw [← hp]
    exact ⟨[], by rw [← this]; exact .refl, by simp⟩
  | succ n ih =>
    intro st todo hn hp hf
    match todo with
    | [] => exact ih (by simp) hp hf
    | c :: t =>
      have s := Step.waited st c _ exit hp (by simp) (hf c (by simp))
      have hlen : ((c :: t).filter (· ≠ c)).length ≤ n := by
        have : ((c :: t).filter (· ≠ c)) = t.filter (· ≠ c) := by simp
        rw [this]
        have := List.length_filter_le (· ≠ c) t
        simp only [List.length_cons] at hn
        omega
      obtain ⟨as, h1, h2⟩ := ih (st := { st with phase := .waiting ((c :: t).filter (· ≠ c)) exit }) hlen rfl
        (fun x hx => hf x (List.mem_filter.1 hx).1)
      refine ⟨.waited c :: as, ?_, ?_⟩
      · have pre : ∀ {as : List Act} {st1 st2 st3 : St} {a : Act}, Step st1 a st2 → Steps st2 as st3 → Steps st1 (a :: as) st3 := by
          intro as st1 st2 st3 a s h
          induction h with
          | refl => exact .step .refl s
          | step _ s' ih => exact .step (as := a :: _) ih s'
        exact pre s h1
      · intro a ha
        rcases List.mem_cons.1 ha with rfl | ha
        · exact ⟨c, rfl⟩
        · exact h2 a ha

/-- C90: leaving the context comes to its end if no task of its clients has failed. -/
theorem C90_left {st : St} {todo : List Nat} {exit : Bool} (hp : st.phase = .waiting todo exit)
    (hf : ∀ c ∈ todo, st.failed c = false) :
    ∃ as st', Steps st as st' ∧ st'.phase = (if exit then .left else .idle) ∧
      ∀ a ∈ as, (∃ c, a = .waited c) ∨ a = .waitedAll ∨ a = .clear ∨ a = .leave := by
  obtain ⟨as, h1, h2⟩ := waits (exit := exit) todo.length (st := st) (Nat.le_refl _) hp hf
  have h3 := h1.step (.waitedAll _ exit rfl)
  have h4 := h3.step (.clear _ exit rfl)
  cases exit with
  | false =>
    refine ⟨_, _, h4, by simp, ?_⟩
    intro a ha
    simp only [List.append_assoc, List.mem_append, List.mem_singleton] at ha
    rcases ha with ha | rfl | rfl
    · exact .inl (h2 a ha)
    · simp
    · simp
  | true =>
    refine ⟨_, _, h4.step (.leave _ (by simp)), by simp, ?_⟩
    intro a ha
    simp only [List.append_assoc, List.mem_append, List.mem_singleton] at ha
    rcases ha with ha | rfl | rfl | rfl
    · exact .inl (h2 a ha)
    · simp
    · simp
    · simp

/-- C90 is violated: a client that is made while `revert` waits for others is not closed and no longer tracked. -/
theorem C90_lost {st : St} {exit : Bool} (hp : st.phase = .waiting [] exit) (c : Nat) (hc : c ∉ st.made.map (·.1))
    (ho : st.closed c = false) :
    ∃ st', Steps st [.create c, .waitedAll] st' ∧ c ∈ st'.made.map (·.1) ∧ st'.closed c = false ∧ c ∉ st'.tracked := by
  refine ⟨_, .step (as := [.create c]) (.step (as := []) .refl (.create st c hc)) (.waitedAll _ exit hp), ?_, ho, by simp⟩
  simp

/-- C90 is violated: if a task of a client has failed, `revert` raises whenever it is called, the session stays open, the
connections stay, and a server that was started is not stopped, until somebody closes and drops the client. -/
theorem C90_stuck {st st' : St} {as : List Act} {c : Nat} (hp : st.phase = .idle ∨ st.phase = .raised) (hc : c ∈ st.tracked)
    (hf : st.failed c = true) (s : Steps st as st') (hn : .discard c ∉ as) :
    (st'.phase = .idle ∨ st'.phase = .raised ∨ ∃ todo exit, st'.phase = .waiting todo exit ∧ c ∈ todo) ∧
    st'.session = st.session ∧ st'.server = st.server ∧
      ∀ e ∈ st.owned, .disconnect e ∉ as → .lose ∉ as → e ∈ st'.owned := by
  have key : (c ∈ st'.tracked ∧ st'.failed c = true) ∧
      (st'.phase = .idle ∨ st'.phase = .raised ∨ ∃ todo exit, st'.phase = .waiting todo exit ∧ c ∈ todo) ∧
      st'.session = st.session ∧ st'.server = st.server ∧
      ∀ e ∈ st.owned, .disconnect e ∉ as → .lose ∉ as → e ∈ st'.owned := by
    induction s with
    | refl => exact ⟨⟨hc, hf⟩, by rcases hp with h | h <;> simp [h], rfl, rfl, fun e he _ _ => he⟩
    | @step bs b0 _ _ h s ih =>
      obtain ⟨⟨h1, h2⟩, h3, h4, h5, h6⟩ := ih (by intro h; exact hn (by simp [h]))
      have h6' : ∀ (b : Act) (e : Edge), e ∈ st.owned → .disconnect e ∉ bs ++ [b] → .lose ∉ bs ++ [b] → e ∈ St.owned _ :=
        fun b e he hd hl => h6 e he (fun h => hd (by simp [h])) (fun h => hl (by simp [h]))
      cases s with
      | create x hx => exact ⟨⟨PySet.mem_add.2 (.inl h1), h2⟩, h3, h4, h5, h6' _⟩
      | close x => exact ⟨⟨h1, h2⟩, h3, h4, h5, h6' _⟩
      | discard x hx =>
        refine ⟨⟨?_, h2⟩, h3, h4, h5, h6' _⟩
        have : c ≠ x := by rintro rfl; exact hn (by simp)
        simp [PySet.discard, h1, this]
      | fail x => exact ⟨⟨h1, set_true h2⟩, h3, h4, h5, h6' _⟩
      | connect e hs hl => exact ⟨⟨h1, h2⟩, h3, h4, h5, fun e' he hd hl => PySet.mem_add.2 (.inl (h6' _ e' he hd hl))⟩
      | disconnect e hs hl =>
        refine ⟨⟨h1, h2⟩, h3, h4, h5, fun e' he hd hl => ?_⟩
        have : e' ≠ e := by rintro rfl; exact hd (by simp)
        simp [PySet.discard, this, h6' _ e' he hd hl]
      | lose => exact ⟨⟨h1, h2⟩, h3, h4, h5, fun e' he hd hl => absurd (by simp) hl⟩
      | begin exit hq => exact ⟨⟨h1, h2⟩, .inr (.inr ⟨_, _, rfl, h1⟩), h4, h5, h6' _⟩
      | waited x todo exit hq hx hfx =>
        refine ⟨⟨h1, h2⟩, .inr (.inr ⟨_, _, rfl, ?_⟩), h4, h5, h6' _⟩
        have : c ≠ x := by rintro rfl; rw [h2] at hfx; cases hfx
        rcases h3 with h3 | h3 | ⟨t, e, h3, h⟩
        · rw [h3] at hq; cases hq
        · rw [h3] at hq; cases hq
        · rw [h3] at hq; cases hq
          simp [h, this]
      | raises x todo exit hq hx hfx => exact ⟨⟨h1, h2⟩, .inr (.inl rfl), h4, h5, h6' _⟩
      | waitedAll exit hq =>
        rcases h3 with h3 | h3 | ⟨t, e, h3, h⟩
        · rw [h3] at hq; cases hq
        · rw [h3] at hq; cases hq
        · rw [h3] at hq; cases hq; cases h
      | clear exit hq =>
        rcases h3 with h3 | h3 | ⟨t, e, h3, h⟩ <;> (rw [h3] at hq; cases hq)
      | leave hq =>
        rcases h3 with h3 | h3 | ⟨t, e, h3, h⟩ <;> (rw [h3] at hq; cases hq)
  exact key.2

/-- C90 is violated: if the session cannot be opened, entering raises, and a server that was started is not stopped. -/
theorem C90_server_kept : (enter true false).2 = true ∧ (enter true false).1.server = true := ⟨rfl, rfl⟩

/-! ## Examples -/

/-- Two clients, a connection, and the exit. -/
theorem example_run : Steps (entered true)
    [.create 1, .create 2, .connect ("A", "B"), .begin true, .waited 2, .waited 1, .waitedAll, .clear, .leave]
    ⟨[], fun c => decide (c ∈ [1, 2]) || false, fun _ => false, [], false, false, [], false, .left, [(1, false), (2, false)]⟩ := by
  have h0 : Steps (entered true) [] (entered true) := .refl
  have h1 := h0.step (.create _ 1 (by simp [entered]))
  have h2 := h1.step (.create _ 2 (by simp [entered]))
  have h3 := h2.step (.connect _ ("A", "B") rfl rfl)
  have h4 := h3.step (.begin _ true (.inl rfl))
  have h5 := h4.step (.waited _ 2 [1, 2] true rfl (by decide) rfl)
  have h6 := h5.step (.waited _ 1 [1] true rfl (by decide) rfl)
  have h7 := h6.step (.waitedAll _ true rfl)
  have h8 := h7.step (.clear _ true rfl)
  exact h8.step (.leave _ rfl)

example := C90_undone_partial ⟨_, _, example_run⟩ rfl

/-- A subscriber whose task has failed. -/
example {as : List Act} {st' : St} (s : Steps { entered true with tracked := [1], failed := (· == 1), made := [(1, false)] } as st')
    (h : .discard 1 ∉ as) := C90_stuck (.inl rfl) (by simp) (by simp) s h

example := C90_lost (st := { entered true with phase := .waiting [] true }) rfl 1 (by simp [entered]) rfl

example := C90_left (st := { entered true with phase := .waiting [1, 2] true }) rfl (by simp [entered])

end Context
end Ez
