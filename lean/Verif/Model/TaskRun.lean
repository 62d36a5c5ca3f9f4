import Verif.Model.Py

/-!
# Model of running a task: `task_wrapper` (`src/ezmsg/core/backendprocess.py`) and `timeit` (`src/ezmsg/core/unit.py`)

What a function of the user does when it is called is given: how it ends and what it yields. A function that is
not run has no effect. Broadcasting may raise an exception. Logging is left out, and so are exceptions other
than those of `Exc`, e.g. `KeyboardInterrupt`.
-/

namespace Ez
namespace TaskRun

/-- The exceptions that `wrapped_task` distinguishes, backendprocess.py:714-736. -/
inductive Exc where
  | complete
  | normalTermination
  | cancelled
  | error
deriving DecidableEq, Repr

/-- A function of the user: given the message, if it is called with one, how it ends (`none`: it returns) and, for
generator functions, what it yields before that.

* `plain`: `def`
* `coroutine`: `async def`
* `asyncGen`: `async def` with `yield`
* `generator`: `def` with `yield` -/
inductive Code (M A O : Type) where
  | plain (f : Option M → Option Exc)
  | coroutine (f : Option M → Option Exc)
  | asyncGen (f : Option M → List (A × O) × Option Exc)
  | generator (f : Option M → List (A × O) × Option Exc)

/-- A task: the function, the number of parameters in its signature (which `functools.wraps` keeps, unit.py:263),
and whether it is decorated with `timeit`. -/
structure Task (M A O : Type) where
  code : Code M A O
  params : Nat
  timed : Bool

/-- What calling a function gives: a value, or an object that has not been run yet. -/
inductive Res (A O : Type) where
  | value
  | coroutine (e : Option Exc)
  | asyncGen (ys : List (A × O)) (e : Option Exc)
  | generator

/-- What running a task has done: whether the code of the user's function was run, which objects were broadcast
to which address, the exception that `wrapped_task` raises, whether `term_ev` was set and whether the
shutdown was marked as unclean. -/
structure Out (A O : Type) where
  ran : Bool
  published : List (A × O)
  raised : Option Exc
  term : Bool
  unclean : Bool
deriving DecidableEq

variable {M A O : Type} [DecidableEq A]

/-- Calling the function: only the code of plain functions is run by that. The flag says whether it was run. -/
def call (c : Code M A O) (m : Option M) : Bool × Except Exc (Res A O) :=
  match c with
  | .plain f =>
    match f m with
    | none => (true, .ok .value)
    | some e => (true, .error e)
  | .coroutine f => (false, .ok (.coroutine (f m)))
  | .asyncGen f => (false, .ok (.asyncGen (f m).1 (f m).2))
  | .generator _ => (false, .ok .generator)

/-- `timeit`, unit.py:263-273: the entries of `_tasks` are functions (unit.py:88-89), so that unpacking one
into two names raises `TypeError` after the function was called. -/
def callTimed (timed : Bool) (c : Code M A O) (m : Option M) : Bool × Except Exc (Res A O) :=
  let r := call c m
  if timed then
    match r.2 with
    | .error e => (r.1, .error e)
    | .ok _ => (r.1, .error .error)
  else r

/-- `call_fn`, backendprocess.py:691-702: with any other number of parameters it is not defined, and using it raises
`NameError`. -/
def callFn (t : Task M A O) (m : M) : Bool × Except Exc (Res A O) :=
  if t.params = 1 then callTimed t.timed t.code none
  else if t.params = 2 then callTimed t.timed t.code (some m)
  else (false, .error .error)

/-- The loop over what is yielded, backendprocess.py:708-709, with `publish`, 675-678: the broadcasts, and whether one of
them raised. -/
def pump (pubs : A → Bool) (send : A → O → Bool) : List (A × O) → List (A × O) × Bool
  | [] => ([], false)
  | (a, o) :: t =>
    if pubs a then
      if send a o then ((a, o) :: (pump pubs send t).1, (pump pubs send t).2) else ([], true)
    else pump pubs send t

/-- What is made of the way in which the task ended, backendprocess.py:714-736. -/
def finish (strict ran : Bool) (published : List (A × O)) : Option Exc → Out A O
  | none => ⟨ran, published, none, false, false⟩
  | some .complete => ⟨ran, published, some .complete, false, false⟩
  | some .normalTermination => ⟨ran, published, some .normalTermination, true, false⟩
  | some .cancelled => ⟨ran, published, some .cancelled, false, false⟩
  | some .error => ⟨ran, published, if strict then some .error else none, false, true⟩

/-- `wrapped_task`, backendprocess.py:704-736. -/
def wrapped (pubs : A → Bool) (send : A → O → Bool) (strict : Bool) (t : Task M A O) (m : M) : Out A O :=
  let r := callFn t m
  match r.2 with
  | .error e => finish strict r.1 [] (some e)
  | .ok .value => finish strict r.1 [] none
  | .ok .generator => finish strict r.1 [] none
  | .ok (.coroutine e) => finish strict true [] e
  | .ok (.asyncGen ys e) =>
    let q := pump pubs send ys
    finish strict true q.1 (if q.2 then some .error else e)

/-- A task that is the only one of its subscription is given message after message until it raises,
`handle_subscriber`, backendprocess.py:774-803. -/
def serve (pubs : A → Bool) (send : A → O → Bool) (strict : Bool) (t : Task M A O) : List M → List (Out A O)
  | [] => []
  | m :: ms =>
    let o := wrapped pubs send strict t m
    if o.raised.isSome then [o] else o :: serve pubs send strict t ms

end TaskRun
end Ez
