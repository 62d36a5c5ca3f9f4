import Verif.Model.Py

/-!
# Units made from generator functions (`src/ezmsg/util/gen_to_unit.py`)

The class that `gen_to_unit` makes of a signature, and what `initialize` does; what the unit does with messages is in
`Model/Generator.lean`.

* Types of messages are `NoneType`, `AxisArray` or others. Annotations of parameters are left out; a parameter is a name and
  its default. `*args` and `**kwargs` are not modelled. That positional parameters with a default come last is Python's rule
  and not built into the model, as it does not hold for keyword-only parameters.
* Which defaults `dataclass` refuses (those without a hash) is a parameter.
-/

namespace Ez
namespace GenUnit

/-- The type of a message. -/
inductive Ty where
  | none
  | axisArray
  | other (n : Nat)
deriving DecidableEq

/-- The annotation of the result: nothing or a class without parameters; something like `Iterator[int]`; something like
`Optional[...]`, whose origin is not a class; or `Generator[...]` with its parameters. -/
inductive Hint where
  | plain
  | notGenerator
  | union
  | generator (args : List Ty)

/-- A parameter of the function. -/
structure Param (V : Type) where
  name : String
  default : Option V

inductive Err where
  | valueError
  | typeError
deriving DecidableEq

/-- The types of what is published and received: gen_to_unit.py:37-49. Unpacking a list of more than three parameters
raises `ValueError`, too. -/
def types : Hint → Except Err (Ty × Ty)
  | .plain => .error .valueError
  | .notGenerator => .error .valueError
  | .union => .error .typeError
  | .generator [p, s, _] => .ok (p, s)
  | .generator _ => .error .valueError

/-- `_init_fn` of `dataclasses`: whether a field without default comes after one with. -/
def misplaced {V : Type} : List (Param V) → Bool
  | [] => false
  | p :: ps => (p.default.isSome && ps.any fun q => q.default.isNone) || misplaced ps

/-- The settings class, a dataclass with the fields of the parameters: gen_to_unit.py:51-60, 167-177. -/
def settings {V : Type} (hashable : V → Bool) (ps : List (Param V)) : Except Err (List (Param V)) :=
  if ps.any fun p => p.default.any fun v => !hashable v then .error .valueError
  else if misplaced ps then .error .typeError
  else .ok ps

/-- The fields of the state class, `args["gen"] = ...`: gen_to_unit.py:180-191. -/
def stateFields (names : List String) : List String := if "gen" ∈ names then names else names ++ ["gen"]

/-- A stream of the unit. -/
inductive Stream where
  | input (t : Ty)
  | output (t : Ty)
deriving DecidableEq

/-- The task of the unit: gen_to_unit.py:94-141. -/
inductive Task where
  | task
  | publish
  | subscribe
  | subscribePublish
deriving DecidableEq

/-- `stream_suffix.get(t, "")`: gen_to_unit.py:88-90. -/
def suffix (t : Ty) : String := if t = .axisArray then "_SIGNAL" else ""

/-- What `gen_to_unit` returns, and whether it warned about `sleep_time`. -/
structure Made (V : Type) where
  settings : List (Param V)
  state : List String
  streams : List (String × Stream)
  task : Task
  warned : Bool

/-- The streams and the task: gen_to_unit.py:91-141. -/
def streamsTask (p s : Ty) : List (String × Stream) × Task :=
  if s = .none ∧ p = .none then ([], .task)
  else if s = .none ∧ p ≠ .none then ([("OUTPUT" ++ suffix p, .output p)], .publish)
  else if s ≠ .none ∧ p = .none then ([("INPUT" ++ suffix s, .input s)], .subscribe)
  else ([("INPUT" ++ suffix s, .input s), ("OUTPUT" ++ suffix p, .output p)], .subscribePublish)

/-- `gen_to_unit`: gen_to_unit.py:27-164. -/
def genToUnit {V : Type} (hashable : V → Bool) (hint : Hint) (ps : List (Param V)) (sleep : Rat) : Except Err (Made V) :=
  match types hint with
  | .error e => .error e
  | .ok (p, s) =>
    match settings hashable ps with
    | .error e => .error e
    | .ok fs =>
      let st := streamsTask p s
      .ok { settings := fs, state := stateFields (ps.map (·.name)), streams := st.1, task := st.2
            warned := decide ("INPUT" ∈ st.1.map (·.1)) && decide (sleep ≠ 0) }

/-- An attribute of the state: the generator made with these arguments, or a value. -/
inductive Attr (V : Type) where
  | gen (args : PyDict String V)
  | val (v : V)
deriving DecidableEq

/-- `initialize`: gen_to_unit.py:65-68. -/
def init {V : Type} (sets : PyDict String V) : PyDict String (Attr V) :=
  sets.foldl (fun st f => PyDict.set st f.1 (.val f.2)) (PyDict.set [] "gen" (.gen sets))

end GenUnit
end Ez
