import Verif.Model.TaskRun

/-!
# C88: a task does what its function says

Specification: what the function was meant to do (`meant`), independent of how it is called.
-/

set_option linter.unusedSectionVars false
set_option linter.unusedSimpArgs false

namespace Ez
namespace TaskRun

variable {M A O : Type} [DecidableEq A]

/-! ## Specification -/

/-- What a function does with a message, however it is written: what it yields, and how it ends. -/
def Code.does : Code M A O → Option M → List (A × O) × Option Exc
  | .plain f, m => ([], f m)
  | .coroutine f, m => ([], f m)
  | .asyncGen f, m => f m
  | .generator f, m => f m

/-- The message that a function with so many parameters gets. -/
def given (params : Nat) (m : M) : Option M := if params = 2 then some m else none

/-- What a task is meant to do with a message: its code is run, everything it yields on a stream that has a
publisher is broadcast, in order, and it ends as the function ends. An error is noted, and raised if shutdown is strict. -/
structure Does (pubs : A → Bool) (strict : Bool) (t : Task M A O) (m : M) (o : Out A O) : Prop where
  ran : o.ran = true
  published : o.published = (t.code.does (given t.params m)).1.filter (fun x => pubs x.1)
  raised : o.raised = if (t.code.does (given t.params m)).2 = some .error ∧ strict = false then none
    else (t.code.does (given t.params m)).2
  term : o.term = true ↔ (t.code.does (given t.params m)).2 = some .normalTermination
  unclean : o.unclean = true ↔ (t.code.does (given t.params m)).2 = some .error

/-- The function has one or two parameters, is no ordinary generator function and is not decorated with `timeit`. -/
structure Proper (t : Task M A O) : Prop where
  params : t.params = 1 ∨ t.params = 2
  untimed : t.timed = false
  code : ∀ f, t.code ≠ .generator f

/-- The messages up to the first one with which the function ends by raising (an error counts if shutdown is strict). -/
def Stops (strict : Bool) (t : Task M A O) (m : M) : Prop :=
  (t.code.does (given t.params m)).2 ≠ none ∧ ((t.code.does (given t.params m)).2 = some .error → strict = true)

instance (strict : Bool) (t : Task M A O) (m : M) : Decidable (Stops strict t m) := by unfold Stops; infer_instance

/-! ## Lemmas -/

theorem pump_all {pubs : A → Bool} {send : A → O → Bool} (h : ∀ a o, pubs a = true → send a o = true) :
    ∀ ys : List (A × O), pump pubs send ys = (ys.filter (fun x => pubs x.1), false)
  | [] => rfl
  | (a, o) :: t => by
    have ih := pump_all h t
    cases hp : pubs a with
    | false => simp [pump, hp, ih]
    | true => simp [pump, hp, h a o hp, ih]

theorem pump_prefix {pubs : A → Bool} {send : A → O → Bool} :
    ∀ ys : List (A × O), (pump pubs send ys).1 <+: ys.filter (fun x => pubs x.1)
  | [] => by simp [pump]
  | (a, o) :: t => by
    have ih := pump_prefix (pubs := pubs) (send := send) t
    cases hp : pubs a with
    | false => simpa [pump, hp] using ih
    | true =>
      cases hs : send a o with
      | false => simp [pump, hp, hs]
      | true => simpa [pump, hp, hs, List.cons_prefix_cons] using ih

theorem callFn_proper {t : Task M A O} (h : Proper t) (m : M) : callFn t m = call t.code (given t.params m) := by
  rcases h.params with hp | hp <;> simp [callFn, hp, given, callTimed, h.untimed]

/-! ## Theorems -/

/-- C88, partial: a task with a proper function does what the function says, if no broadcast raises. Missing: functions
decorated with `timeit`, functions with more than two parameters and ordinary generator functions. -/
theorem C88_does_partial (pubs : A → Bool) (send : A → O → Bool) (strict : Bool) (t : Task M A O) (m : M) (h : Proper t)
    (hs : ∀ a o, pubs a = true → send a o = true) :
    Does pubs strict t m (wrapped pubs send strict t m) := by
  have hc := callFn_proper h m
  have fin : ∀ (ys : List (A × O)) (e : Option Exc), t.code.does (given t.params m) = (ys, e) →
      wrapped pubs send strict t m = finish strict true (ys.filter (fun x => pubs x.1)) e →
      Does pubs strict t m (wrapped pubs send strict t m) := by
    intro ys e hd hw
    rw [hw]
    match e with
    | none => exact ⟨rfl, by rw [hd]; rfl, by rw [hd]; rfl, by rw [hd]; simp [finish], by rw [hd]; simp [finish]⟩
    | some .complete => exact ⟨rfl, by rw [hd]; rfl, by rw [hd]; rfl, by rw [hd]; simp [finish], by rw [hd]; simp [finish]⟩
    | some .normalTermination =>
      exact ⟨rfl, by rw [hd]; rfl, by rw [hd]; rfl, by rw [hd]; simp [finish], by rw [hd]; simp [finish]⟩
    | some .cancelled => exact ⟨rfl, by rw [hd]; rfl, by rw [hd]; rfl, by rw [hd]; simp [finish], by rw [hd]; simp [finish]⟩
    | some .error =>
      exact ⟨rfl, by rw [hd]; rfl, by rw [hd]; cases strict <;> rfl, by rw [hd]; simp [finish], by rw [hd]; simp [finish]⟩
  cases he : t.code with
  | plain f =>
    cases hf : f (given t.params m) with
    | none => exact fin [] none (by simp [Code.does, he, hf]) (by simp [wrapped, hc, call, he, hf])
    | some e => exact fin [] (some e) (by simp [Code.does, he, hf]) (by simp [wrapped, hc, call, he, hf])
  | coroutine f => exact fin [] _ (by rw [he]; rfl) (by simp [wrapped, hc, call, he])
  | asyncGen f =>
    exact fin (f (given t.params m)).1 (f (given t.params m)).2 (by rw [he]; rfl) (by simp [wrapped, hc, call, he, pump_all hs])
  | generator f => exact absurd he (h.code f)

/-- C88: even if a broadcast raises, the objects broadcast are a first part of those which the function yields. -/
theorem C88_prefix (pubs : A → Bool) (send : A → O → Bool) (strict : Bool) (t : Task M A O) (m : M) :
    (wrapped pubs send strict t m).published <+: (t.code.does (given t.params m)).1.filter (fun x => pubs x.1) := by
  have fp : ∀ (strict ran : Bool) (p : List (A × O)) (e : Option Exc), (finish strict ran p e).published = p := by
    intro s r p e
    match e with
    | none => rfl
    | some .complete => rfl
    | some .normalTermination => rfl
    | some .cancelled => rfl
    | some .error => rfl
  cases hr : (callFn t m).2 with
  | error e => simp [wrapped, hr, fp]
  | ok r =>
    cases r with
    | value => simp [wrapped, hr, fp]
    | generator => simp [wrapped, hr, fp]
    | coroutine e => simp [wrapped, hr, fp]
    | asyncGen ys e =>
      simp only [wrapped, hr, fp]
      have : (t.code.does (given t.params m)).1 = ys := by
        have hc : ∀ x, (call t.code x).2 = .ok (.asyncGen ys e) → (t.code.does x).1 = ys := by
          intro x hx
          cases he : t.code with
          | plain f => rw [he] at hx; cases hf : f x <;> simp [call, hf] at hx
          | coroutine f => simp [call, he] at hx
          | asyncGen f => simp [call, he] at hx; simp [Code.does, hx.1]
          | generator f => simp [call, he] at hx
        have ht : ∀ b x, (callTimed b t.code x).2 = .ok (.asyncGen ys e) → (call t.code x).2 = .ok (.asyncGen ys e) := by
          intro b x hx
          unfold callTimed at hx
          cases b with
          | false => simpa using hx
          | true => cases hq : (call t.code x).2 <;> simp [hq] at hx
        unfold callFn at hr
        split at hr
        · rename_i hp; rw [given, if_neg (by omega)]; exact hc _ (ht _ _ hr)
        · split at hr
          · rename_i hp; rw [given, if_pos hp]; exact hc _ (ht _ _ hr)
          · simp at hr
      rw [this]
      exact pump_prefix ys

theorem pump_fails {pubs : A → Bool} {send : A → O → Bool} :
    ∀ ys : List (A × O), (pump pubs send ys).2 = false → (pump pubs send ys).1 = ys.filter (fun x => pubs x.1)
  | [], _ => rfl
  | (a, o) :: t, h => by
    have ih := pump_fails (pubs := pubs) (send := send) t
    cases hp : pubs a with
    | false => simp_all [pump]
    | true =>
      cases hs : send a o with
      | false => simp [pump, hp, hs] at h
      | true => simp_all [pump]

/-- C88: if not everything that a proper function yields on streams with publishers is broadcast, then the shutdown is
marked as unclean. -/
theorem C88_noted (pubs : A → Bool) (send : A → O → Bool) (strict : Bool) (t : Task M A O) (m : M) (h : Proper t)
    (hne : (wrapped pubs send strict t m).published ≠ (t.code.does (given t.params m)).1.filter (fun x => pubs x.1)) :
    (wrapped pubs send strict t m).unclean = true := by
  have hc := callFn_proper h m
  cases he : t.code with
  | plain f =>
    cases hf : f (given t.params m) with
    | none => exact absurd (by simp [wrapped, hc, call, he, hf, finish, Code.does]) hne
    | some e => exact absurd (by cases e <;> simp [wrapped, hc, call, he, hf, finish, Code.does]) hne
  | coroutine f =>
    refine absurd ?_ hne
    cases hf : f (given t.params m) with
    | none => simp [wrapped, hc, call, he, hf, finish, Code.does]
    | some e => cases e <;> simp [wrapped, hc, call, he, hf, finish, Code.does]
  | asyncGen f =>
    cases hq : (pump pubs send (f (given t.params m)).1).2 with
    | true => simp [wrapped, hc, call, he, hq, finish]
    | false =>
      refine absurd ?_ hne
      have := pump_fails _ hq
      simp only [wrapped, hc, call, he, hq, Code.does, this]
      cases hf : (f (given t.params m)).2 with
      | none => simp [finish]
      | some e => cases e <;> simp [finish]
  | generator f => exact absurd he (h.code f)

/-- C88: a task with a proper function gets message after message up to the first with which it raises, and what is
broadcast is what the function yields for these messages, in order. -/
theorem C88_serves_partial (pubs : A → Bool) (send : A → O → Bool) (strict : Bool) (t : Task M A O) (h : Proper t)
    (hs : ∀ a o, pubs a = true → send a o = true) (ms : List M) :
    (serve pubs send strict t ms).flatMap (·.published) =
      ((ms.take ((ms.takeWhile (fun m => ! decide (Stops strict t m))).length + 1)).flatMap
        (fun m => (t.code.does (given t.params m)).1)).filter (fun x => pubs x.1) := by
  induction ms with
  | nil => rfl
  | cons m ms ih =>
    have hd := C88_does_partial pubs send strict t m h hs
    have hst : (wrapped pubs send strict t m).raised.isSome = true ↔ Stops strict t m := by
      rw [hd.raised, Stops]
      split
      · rename_i h'; simp [h'.1, h'.2]
      · rename_i h'
        cases he : (t.code.does (given t.params m)).2 with
        | none => simp
        | some e => cases e <;> cases strict <;> simp_all
    by_cases hq : Stops strict t m
    · have := hst.2 hq
      simp [serve, this, hq, hd.published]
    · have : (wrapped pubs send strict t m).raised.isSome = false := by
        cases hx : (wrapped pubs send strict t m).raised.isSome with
        | false => rfl
        | true => exact absurd (hst.1 hx) hq
      simp only [serve, this, Bool.false_eq_true, ↓reduceIte, List.flatMap_cons, ih, hd.published]
      simp [hq, List.filter_append]

/-- C88 is violated: a coroutine or asynchronous generator function that is decorated with `timeit` is never run, and every
call is an error. -/
theorem C88_timeit_fails (pubs : A → Bool) (send : A → O → Bool) (strict : Bool) (t : Task M A O) (m : M)
    (ht : t.timed = true) (hc : ∀ f, t.code ≠ .plain f) :
    wrapped pubs send strict t m = ⟨false, [], if strict then some .error else none, false, true⟩ := by
  have h1 : ∀ x, callTimed true t.code x = (false, .error .error) := by
    intro x
    cases he : t.code with
    | plain f => exact absurd he (hc f)
    | coroutine f => rfl
    | asyncGen f => rfl
    | generator f => rfl
  have : callFn t m = (false, .error .error) := by
    unfold callFn
    split
    · rw [ht, h1]
    · split
      · rw [ht, h1]
      · rfl
  simp [wrapped, this, finish]

/-- C88 is violated: a function with more than two parameters is never run, even if the others have defaults, and every
call is an error. -/
theorem C88_parameters_fail (pubs : A → Bool) (send : A → O → Bool) (strict : Bool) (t : Task M A O) (m : M)
    (h1 : t.params ≠ 1) (h2 : t.params ≠ 2) :
    wrapped pubs send strict t m = ⟨false, [], if strict then some .error else none, false, true⟩ := by
  simp [wrapped, callFn, h1, h2, finish]

/-- C88 is violated: an ordinary generator function is never run, and nothing says so. -/
theorem C88_generator_ignored (pubs : A → Bool) (send : A → O → Bool) (strict : Bool) (t : Task M A O) (m : M)
    (hp : t.params = 1 ∨ t.params = 2) (ht : t.timed = false) (f : Option M → List (A × O) × Option Exc)
    (hc : t.code = .generator f) :
    wrapped pubs send strict t m = ⟨false, [], none, false, false⟩ := by
  rcases hp with hp | hp <;> simp [wrapped, callFn, callTimed, call, hp, ht, hc, finish]

/-! ## Examples -/

/-- Yields the message twice on `"OUT"` and once on `"LOST"`, which has no publisher; completes with 3, fails with 4. -/
def twice : Option Nat → List (String × Nat) × Option Exc
  | some 3 => ([("OUT", 3)], some .complete)
  | some 4 => ([("OUT", 4)], some .error)
  | some n => ([("OUT", n), ("LOST", n), ("OUT", n)], none)
  | none => ([], none)

/-- The stream has a publisher. -/
def onlyOut (a : String) : Bool := a == "OUT"

example : Proper (⟨.asyncGen twice, 2, false⟩ : Task Nat String Nat) := ⟨.inr rfl, rfl, by intro f h; cases h⟩

example : (serve onlyOut (fun _ _ => true) false (⟨.asyncGen twice, 2, false⟩ : Task Nat String Nat) [1, 4, 2, 3, 5]).flatMap
    (·.published) = [("OUT", 1), ("OUT", 1), ("OUT", 4), ("OUT", 2), ("OUT", 2), ("OUT", 3)] := by decide

example : (serve onlyOut (fun _ _ => true) true (⟨.asyncGen twice, 2, false⟩ : Task Nat String Nat) [1, 4, 2, 3, 5]).flatMap
    (·.published) = [("OUT", 1), ("OUT", 1), ("OUT", 4)] := by decide

example : (wrapped onlyOut (fun _ o => o != 1) false (⟨.asyncGen twice, 2, false⟩ : Task Nat String Nat) 1).published = [] ∧
    (wrapped onlyOut (fun _ _ => true) false (⟨.asyncGen twice, 2, true⟩ : Task Nat String Nat) 1).ran = false ∧
    (wrapped onlyOut (fun _ _ => true) false (⟨.asyncGen twice, 3, false⟩ : Task Nat String Nat) 1).ran = false ∧
    (wrapped onlyOut (fun _ _ => true) false (⟨.generator twice, 2, false⟩ : Task Nat String Nat) 1).unclean = false := by
  decide

end TaskRun
end Ez
