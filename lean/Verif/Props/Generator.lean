import Verif.Model.Generator
import Verif.Lemmas.Py

set_option linter.unusedSectionVars false
set_option linter.unusedSimpArgs false

/-!
# Units made from generators (C77, C78)
-/

namespace Ez
namespace Gens

variable {V : Type}

/-! ## Specification -/

/-- The body at a `yield` in state `s`, sent `ms`, answers `rs` and is then at a `yield` in state `s'`. -/
inductive Answers {S : Type} (b : Body S V) : S → List (Option V) → List (Option V) → S → Prop where
  | nil (s : S) : Answers b s [] [] s
  | cons {s s1 s' : S} {m r : Option V} {ms rs : List (Option V)} (h : b.next s m = .yielded r s1) (t : Answers b s1 ms rs s') :
      Answers b s (m :: ms) (r :: rs) s'

/-- The body at a `yield` in state `s`, sent `m`, ends. -/
def Ends {S : Type} (b : Body S V) (s : S) (m : Option V) : Prop := b.next s m = .returned ∨ b.next s m = .raised

/-- What a chain of `Gen` units publishes, each subscribed to the one before. -/
def chain : List (Generator V) → List (Option V) → List V
  | [], ms => ms.filterMap id
  | g :: gs, ms => chain gs ((unitRun g ms).map some)

/-- The values which are not `None`. -/
def Sent.val : Sent V → Option V
  | .value v => v
  | _ => none

/-- The generator is at a `yield`, and does not yield `None` from there. -/
structure Strict (g : Generator V) : Prop where
  started : (∃ s, g.phase = .waiting s) ∨ g.phase = .closed
  never : ∀ s x s', g.body.next s x ≠ .yielded none s'

/-! ## `Gen` -/

theorem unitRun_closed {g : Generator V} (h : g.phase = .closed) (ms : List (Option V)) : unitRun g ms = [] := by
  induction ms generalizing g with
  | nil => rfl
  | cons m ms ih =>
    have e : onMessage g m = (g, []) := by
      cases g; simp only at h; subst h; rfl
    rw [unitRun, e]; exact ih h

theorem unitRun_answers {S : Type} {b : Body S V} {s s' : S} {ms rs : List (Option V)} (h : Answers b s ms rs s') (tl : List (Option V)) :
    unitRun ⟨S, b, .waiting s⟩ (ms ++ tl) = rs.filterMap id ++ unitRun ⟨S, b, .waiting s'⟩ tl := by
  induction h with
  | nil s => rfl
  | @cons s s1 s' m r ms rs h t ih =>
    rw [List.cons_append, unitRun]
    have e : onMessage ⟨S, b, .waiting s⟩ m = (⟨S, b, .waiting s1⟩, r.toList) := by
      simp only [onMessage, Generator.send, h, Ran.sent]
      cases r <;> rfl
    rw [e, ih]
    cases r <;> simp

/-- **C77**.  A `Gen` unit publishes what the generator answers, except `None`, in the order of the messages. -/
theorem C77_answers {S : Type} {b : Body S V} {s s' : S} {ms rs : List (Option V)} (h : Answers b s ms rs s') :
    unitRun ⟨S, b, .waiting s⟩ ms = rs.filterMap id := by
  have := unitRun_answers h []
  simpa [unitRun] using this

/-- **C77** (violated: an exception costs more than its message).  After the generator has raised or returned for one message, the unit
publishes nothing any more. -/
theorem C77_silenced {S : Type} {b : Body S V} {s s' : S} {ms rs : List (Option V)} (h : Answers b s ms rs s') {m : Option V}
    (he : Ends b s' m) (later : List (Option V)) : unitRun ⟨S, b, .waiting s⟩ (ms ++ m :: later) = rs.filterMap id := by
  rw [unitRun_answers h, unitRun]
  have e : onMessage ⟨S, b, .waiting s'⟩ m = (⟨S, b, .closed⟩, []) := by
    rcases he with e | e <;> simp only [onMessage, Generator.send, e, Ran.sent]
  rw [e, unitRun_closed rfl, List.append_nil, List.append_nil]

/-- **C77**.  One of the two happens: the generator answers all messages, or it ends at one of them. -/
theorem C77_cases {S : Type} (b : Body S V) (s : S) (ms : List (Option V)) : (∃ rs s', Answers b s ms rs s') ∨
    ∃ pre m post rs s', ms = pre ++ m :: post ∧ Answers b s pre rs s' ∧ Ends b s' m := by
  induction ms generalizing s with
  | nil => exact .inl ⟨[], s, .nil s⟩
  | cons m ms ih =>
    cases e : b.next s m with
    | returned => exact .inr ⟨[], m, ms, [], s, rfl, .nil s, .inl e⟩
    | raised => exact .inr ⟨[], m, ms, [], s, rfl, .nil s, .inr e⟩
    | yielded r s1 =>
      rcases ih s1 with ⟨rs, s', h⟩ | ⟨pre, m', post, rs, s', h1, h2, h3⟩
      · exact .inl ⟨r :: rs, s', .cons e h⟩
      · exact .inr ⟨m :: pre, m', post, r :: rs, s', by rw [h1]; rfl, .cons e h2, h3⟩

theorem unitRun_append (g : Generator V) (ms ms' : List (Option V)) :
    ∃ g', unitRun g (ms ++ ms') = unitRun g ms ++ unitRun g' ms' := by
  induction ms generalizing g with
  | nil => exact ⟨g, rfl⟩
  | cons m ms ih =>
    obtain ⟨g', h⟩ := ih (onMessage g m).1
    exact ⟨g', by rw [List.cons_append, unitRun, unitRun, h, List.append_assoc]⟩

theorem onMessage_le (g : Generator V) (m : Option V) : (onMessage g m).2.length ≤ 1 := by
  unfold onMessage; split <;> simp

/-- **C77**.  Whatever the generator does, the unit publishes at most once per message, and later messages do not change what was
published. -/
theorem C77_causal (g : Generator V) (ms ms' : List (Option V)) : (unitRun g ms).length ≤ ms.length ∧
    unitRun g ms <+: unitRun g (ms ++ ms') := by
  constructor
  · induction ms generalizing g with
    | nil => simp [unitRun]
    | cons m ms ih =>
      have h1 := onMessage_le g m
      have h2 := ih (onMessage g m).1
      rw [unitRun, List.length_append, List.length_cons]; omega
  · obtain ⟨g', h⟩ := unitRun_append g ms ms'
    exact ⟨_, h.symm⟩

/-! ## `consumer` -/

/-- **C77**.  A function decorated by `consumer` gives a generator which is at its first `yield`; it raises if there is none. -/
theorem C77_consumer {S : Type} (b : Body S V) :
    (∀ g, consumer b = .ok g ↔ ∃ v s, b.first = .yielded v s ∧ g = ⟨S, b, .waiting s⟩) ∧
    (∀ e, consumer b = .error e ↔ b.first = .returned ∧ e = .stopIteration ∨ b.first = .raised ∧ e = .raised) := by
  unfold consumer Generator.make Generator.send
  simp only
  cases h : b.first with
  | yielded v s =>
    simp only [Ran.sent, Except.ok.injEq, reduceCtorEq, false_and, or_self, iff_false, not_false_eq_true, implies_true, and_true, Ran.yielded.injEq]
    exact fun g => ⟨fun e => ⟨v, s, ⟨rfl, rfl⟩, e.symm⟩, fun ⟨_, _, ⟨_, e2⟩, e3⟩ => by rw [e3, e2]⟩
  | returned => simp [Ran.sent, eq_comm]
  | raised => simp [Ran.sent, eq_comm]

/-- **C77** (violated: messages are processed).  A generator which is not made by `consumer` makes a unit which publishes nothing,
whatever it would answer. -/
theorem C77_unprimed {S : Type} (b : Body S V) (ms : List V) : unitRun (Generator.make b) (ms.map some) = [] := by
  induction ms with
  | nil => rfl
  | cons m ms ih =>
    rw [List.map_cons, unitRun]
    exact ih

/-! ## `compose` -/

theorem Strict.send {g : Generator V} (h : Strict g) (x : Option V) : Strict (g.send x).1 ∧ (g.send x).2 ≠ .value none := by
  obtain ⟨S, b, p⟩ := g
  obtain ⟨hp, hn⟩ := h
  simp only at hp hn
  rcases hp with ⟨s, e⟩ | e
  · subst e
    cases e2 : b.next s x with
    | yielded v s' =>
      have : v ≠ none := fun e3 => hn s x s' (by rw [e2, e3])
      simp only [Generator.send, e2, Ran.sent, ne_eq, Sent.value.injEq]
      exact ⟨⟨.inl ⟨s', rfl⟩, hn⟩, this⟩
    | returned =>
      simp only [Generator.send, e2, Ran.sent]
      exact ⟨⟨.inr rfl, hn⟩, by simp⟩
    | raised =>
      simp only [Generator.send, e2, Ran.sent]
      exact ⟨⟨.inr rfl, hn⟩, by simp⟩
  · subst e
    exact ⟨⟨.inr rfl, hn⟩, by simp [Generator.send]⟩

theorem chain_nil (gs : List (Generator V)) : chain gs [] = [] := by
  induction gs with
  | nil => rfl
  | cons g gs ih => exact ih

/-- One message through a chain. -/
theorem chain_cons {gs : List (Generator V)} (h : ∀ g ∈ gs.dropLast, Strict g) (m : Option V) (ms : List (Option V)) :
    chain gs (m :: ms) = (call gs m).2.val.toList ++ chain (call gs m).1 ms ∧ ∀ g ∈ (call gs m).1.dropLast, Strict g := by
  induction gs generalizing m ms with
  | nil => cases m <;> simp [chain, call, Sent.val]
  | cons g gs ih =>
    rw [chain, unitRun, call]
    cases gs with
    | nil =>
      refine ⟨?_, by cases e : g.send m with | mk g' r => cases r <;> simp [call]⟩
      simp only [onMessage]
      cases e : g.send m with
      | mk g' r =>
        cases r with
        | value v => cases v <;> simp [chain, call, Sent.val]
        | stopIteration => simp [chain, Sent.val]
        | typeError => simp [chain, Sent.val]
        | raised => simp [chain, Sent.val]
    | cons g2 gs =>
      have hg : Strict g := h g (by simp)
      have hr : ∀ g ∈ (g2 :: gs).dropLast, Strict g := fun g' hg' => h g' (by simp [hg'])
      have hs := hg.send m
      simp only [onMessage]
      cases e : g.send m with
      | mk g' r =>
        rw [e] at hs
        cases r with
        | value v =>
          cases v with
          | none => simp at hs
          | some v =>
            simp only [List.cons_append, List.nil_append, List.map_cons]
            have hi := ih hr (some v) ((unitRun g' ms).map some)
            refine ⟨by rw [hi.1]; rfl, ?_⟩
            intro x hx
            have hne : (call (g2 :: gs) (some v)).1 ≠ [] := by
              rw [call]; split <;> simp
            rw [List.dropLast_cons_of_ne_nil hne, List.mem_cons] at hx
            rcases hx with rfl | hx
            · exact hs.1
            · exact hi.2 x hx
        | stopIteration =>
          simp only [List.nil_append, Sent.val, Option.toList_none, chain]
          refine ⟨trivial, fun x hx => ?_⟩
          rw [List.dropLast_cons_of_ne_nil (by simp), List.mem_cons] at hx
          rcases hx with rfl | hx
          · exact hs.1
          · exact hr x hx
        | typeError =>
          simp only [List.nil_append, Sent.val, Option.toList_none, chain]
          refine ⟨trivial, fun x hx => ?_⟩
          rw [List.dropLast_cons_of_ne_nil (by simp), List.mem_cons] at hx
          rcases hx with rfl | hx
          · exact hs.1
          · exact hr x hx
        | raised =>
          simp only [List.nil_append, Sent.val, Option.toList_none, chain]
          refine ⟨trivial, fun x hx => ?_⟩
          rw [List.dropLast_cons_of_ne_nil (by simp), List.mem_cons] at hx
          rcases hx with rfl | hx
          · exact hs.1
          · exact hr x hx

/-- **C77** (partial: no generator but the last yields `None`).  Calling the composed function with one value after another gives what a
chain of `Gen` units publishes. -/
theorem C77_compose_partial {gs : List (Generator V)} (h : ∀ g ∈ gs.dropLast, Strict g) (ms : List (Option V)) :
    (calls gs ms).filterMap Sent.val = chain gs ms := by
  induction ms generalizing gs with
  | nil => rw [chain_nil]; rfl
  | cons m ms ih =>
    obtain ⟨h1, h2⟩ := chain_cons h m ms
    rw [calls, h1, List.filterMap_cons, ← ih h2]
    cases (call gs m).2.val <;> rfl

/-! ## `gen_to_unit` -/

variable {W : Type} [DecidableEq W]

/-- The generator, sent `ms` one after another, answers `rs` (its exceptions are left out). -/
def sends : Generator V → List V → List (Option V)
  | _, [] => []
  | g, m :: ms => (match (g.send (some m)).2 with | .value v => [v] | _ => []) ++ sends (g.send (some m)).1 ms

/-- All tracked attributes of the message are as in `st`. -/
def Same (tracked : List (String × String)) (attr : String → Option W) (st : PyDict String W) : Prop :=
  ∀ x ∈ tracked, ∃ w, attr x.1 = some w ∧ PyDict.get? st x.2 = some w

theorem checkFields_same {tracked : List (String × String)} {attr : String → Option W} {st : PyDict String W} :
    (checkFields attr tracked st = (st, false) ↔ Same tracked attr st) ∧
    ((checkFields attr tracked st).2 = false → (checkFields attr tracked st).1 = st) := by
  induction tracked with
  | nil => exact ⟨⟨fun _ x hx => by simp at hx, fun _ => rfl⟩, fun _ => rfl⟩
  | cons x rest ih =>
    obtain ⟨mf, sf⟩ := x
    unfold checkFields Same
    cases h1 : attr mf with
    | none => simp [h1]
    | some w =>
      cases h2 : PyDict.get? st sf with
      | none => simp [h1, h2]
      | some w' =>
        simp only
        by_cases e : w' = w
        · subst e
          simp only [if_true]
          refine ⟨ih.1.trans ⟨fun h y hy => ?_, fun h y hy => h y (List.mem_cons_of_mem _ hy)⟩, ih.2⟩
          rcases List.mem_cons.1 hy with rfl | hy
          · exact ⟨_, h1, h2⟩
          · exact h y hy
        · simp only [if_neg e, Prod.mk.injEq, Bool.true_eq_false, and_false, false_iff]
          refine ⟨fun h => ?_, fun h => h.elim⟩
          obtain ⟨w2, e1, e2⟩ := h (mf, sf) (by simp)
          rw [h1] at e1; rw [h2] at e2
          simp only [Option.some.injEq] at e1 e2
          exact e (e2.trans e1.symm)

/-- **C78** (partial: the attributes which are tracked do not change).  A unit made by `gen_to_unit` publishes all answers of the generator
made from its settings. -/
theorem C78_settings_partial {func : PyDict String W → Generator V} {settings : PyDict String W} {tracked : List (String × String)}
    {attr : V → String → Option W} {ms : List V} (h : ∀ m ∈ ms, Same tracked (attr m) settings) :
    (Made.init func settings).run tracked attr ms = sends (func settings) ms := by
  unfold Made.init
  generalize func settings = g
  induction ms generalizing g with
  | nil => rfl
  | cons m ms ih =>
    have hc := checkFields_same.1.2 (h m (by simp))
    have hr := fun m' hm' => h m' (List.mem_cons_of_mem m hm')
    rw [Made.run, sends]
    unfold Made.onMessage
    rw [hc]
    simp only
    cases e : g.send (some m) with
    | mk g' r => cases r <;> simp [ih hr]

theorem sends_answers {S : Type} {b : Body S V} {s s' : S} {ms : List V} {rs : List (Option V)} (h : Answers b s (ms.map some) rs s') :
    sends ⟨S, b, .waiting s⟩ ms = rs := by
  induction ms generalizing s rs with
  | nil => cases h; rfl
  | cons m ms ih =>
    rw [List.map_cons] at h
    cases h with
    | cons h t => rw [sends]; simp only [Generator.send, h, Ran.sent]; rw [ih t]; rfl

/-- **C78** (partial: the attributes which are tracked do not change, and the function is decorated by `consumer`).  The unit publishes
every answer, `None` too. -/
theorem C78_answers_partial {func : PyDict String W → Generator V} {settings : PyDict String W} {tracked : List (String × String)}
    {attr : V → String → Option W} {ms : List V} (h : ∀ m ∈ ms, Same tracked (attr m) settings) {S : Type} {b : Body S V} {s s' : S}
    (hf : func settings = ⟨S, b, .waiting s⟩) {rs : List (Option V)} (ha : Answers b s (ms.map some) rs s') :
    (Made.init func settings).run tracked attr ms = rs := by
  rw [C78_settings_partial h, hf, sends_answers ha]

/-- **C78** (violated: messages are processed by a generator made for their attributes).  Whatever arrives, no other generator than
the first is ever used: what is published are its answers to some of the messages. -/
theorem C78_first_generator (func : PyDict String W → Generator V) (settings : PyDict String W) (tracked : List (String × String))
    (attr : V → String → Option W) (ms : List V) :
    ∃ got, List.Sublist got ms ∧ (Made.init func settings).run tracked attr ms = sends (func settings) got := by
  unfold Made.init
  generalize func settings = g
  generalize settings = st
  induction ms generalizing g st with
  | nil => exact ⟨[], .slnil, rfl⟩
  | cons m ms ih =>
    rw [Made.run]
    unfold Made.onMessage
    simp only
    cases hc : (checkFields (attr m) tracked st).2 with
    | true =>
      obtain ⟨got, h1, h2⟩ := ih g (checkFields (attr m) tracked st).1
      exact ⟨got, h1.cons m, by simpa using h2⟩
    | false =>
      obtain ⟨got, h1, h2⟩ := ih (g.send (some m)).1 (checkFields (attr m) tracked st).1
      refine ⟨m :: got, h1.cons_cons m, ?_⟩
      rw [sends, ← h2]
      cases e : g.send (some m) with
      | mk g' r => cases r <;> simp

/-- **C78** (violated).  A message with another value of a tracked attribute than the one before is lost. -/
theorem C78_lost {tracked : List (String × String)} {attr : V → String → Option W} {u : Made V W} {m : V}
    (h : ¬ Same tracked (attr m) u.state) : (u.onMessage tracked attr m).2 = [] := by
  unfold Made.onMessage
  simp only
  cases hc : (checkFields (attr m) tracked u.state).2 with
  | true => rfl
  | false =>
    exact absurd (checkFields_same.1.1 (Prod.ext (checkFields_same.2 hc) hc)) h

/-! ## Examples -/

/-- `while True: x = yield y`, with `y` even numbers as they are, `None` for odd ones. -/
def evens : Body Unit Nat := ⟨.yielded none (), fun _ x => match x with
  | some n => .yielded (if n % 2 = 0 then some n else none) ()
  | none => .raised⟩

/-- The sum of all numbers sent so far; `None` cannot be added. -/
def sums : Body Nat Nat := ⟨.yielded none 0, fun s x => match x with
  | some n => .yielded (some (s + n)) (s + n)
  | none => .raised⟩

/-- The quotient of 100. -/
def quotients : Body Unit Nat := ⟨.yielded none (), fun _ x => match x with
  | some (n + 1) => .yielded (some (100 / (n + 1))) ()
  | _ => .raised⟩

example : unitRun ⟨Nat, sums, .waiting 0⟩ [some 1, some 2, some 3] = [1, 3, 6] :=
  C77_answers (rs := [some 1, some 3, some 6]) (s' := 6) (.cons rfl (.cons rfl (.cons rfl (.nil _))))

example (later : List (Option Nat)) : unitRun ⟨Unit, quotients, .waiting ()⟩ ([some 4] ++ some 0 :: later) = [25] :=
  C77_silenced (rs := [some 25]) (s' := ()) (.cons rfl (.nil _)) (.inr rfl) later

theorem sums_strict (s : Nat) : Strict ⟨Nat, sums, .waiting s⟩ := ⟨.inl ⟨s, rfl⟩, fun s x s' => by cases x <;> simp [sums]⟩

example : (calls [⟨Nat, sums, .waiting 0⟩, ⟨Unit, evens, .waiting ()⟩] [some 1, some 1, some 1, some 1]).filterMap Sent.val = [2, 4] := by
  rw [C77_compose_partial (by simpa using sums_strict 0)]; decide +kernel

/-- **C77** (violated).  Even numbers, and the sum of them: as units, odd numbers are left out; composed, the first odd number ends the
second generator, and every later call raises. -/
theorem C77_compose_fails : chain [⟨Unit, evens, .waiting ()⟩, ⟨Nat, sums, .waiting 0⟩] [some 2, some 3, some 4, some 6] = [2, 6, 12] ∧
    calls [⟨Unit, evens, .waiting ()⟩, ⟨Nat, sums, .waiting 0⟩] [some 2, some 3, some 4, some 6] =
      [.value (some 2), .raised, .stopIteration, .stopIteration] := by decide +kernel

/-- Numbers plus a setting. -/
def plus (n : Nat) : Body Unit (Nat × Nat) := ⟨.yielded none (), fun _ x => match x with
  | some (f, v) => .yielded (some (f, v + n)) ()
  | none => .raised⟩

/-- A generator which adds the value of `n`. -/
def adder (st : PyDict String Nat) : Generator (Nat × Nat) := ⟨Unit, plus ((PyDict.get? st "n").getD 0), .waiting ()⟩

/-- Messages have an attribute `k`. -/
def attrK (m : Nat × Nat) (f : String) : Option Nat := if f = "k" then some m.1 else none

example : (Made.init adder [("n", 5)]).run [("k", "n")] attrK [(5, 1), (5, 2)] = [some (5, 6), some (5, 7)] :=
  C78_answers_partial (by intro m hm x hx; simp only [List.mem_cons, List.not_mem_nil, or_false] at hm hx; subst hx; rcases hm with rfl | rfl <;> exact ⟨5, by decide, by decide⟩)
    rfl (s' := ()) (.cons rfl (.cons rfl (.nil _)))

/-- **C78** (violated).  The message with which `k` changes to 7 is lost, and to the ones after it 5 is still added. -/
theorem C78_fails : (Made.init adder [("n", 5)]).run [("k", "n")] attrK [(5, 1), (7, 1), (7, 1)] = [some (5, 6), some (7, 6)] := by
  decide +kernel

/-- An undecorated function: nothing is published. -/
example : unitRun (Generator.make sums) ([1, 2, 3].map some) = [] := C77_unprimed sums [1, 2, 3]

example : consumer sums = .ok ⟨Nat, sums, .waiting 0⟩ := ((C77_consumer sums).1 _).2 ⟨none, 0, rfl, rfl⟩

end Gens
end Ez
