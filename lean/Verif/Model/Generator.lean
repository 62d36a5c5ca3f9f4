import Verif.Model.Py

/-!
# Generators (`src/ezmsg/util/generator.py`, `src/ezmsg/util/gen_to_unit.py`)

The body of a generator function is a machine: running it up to its next `yield` gives a value and a state, or it returns or raises.
`none` as a value is Python's `None`.
-/

namespace Ez
namespace Gens

variable {V : Type}

/-- What running the body up to its next `yield` gives. -/
inductive Ran (S V : Type) where
  | yielded (v : Option V) (s : S)
  | returned
  | raised

/-- The body of a generator function called with some arguments: from its beginning, and from a `yield` which a value is sent to. -/
structure Body (S V : Type) where
  first : Ran S V
  next : S → Option V → Ran S V

/-- Where a generator is: not started, at a `yield`, or ended. -/
inductive Phase (S : Type) where
  | created
  | waiting (s : S)
  | closed

/-- What `send` gives: a value or an exception. -/
inductive Sent (V : Type) where
  | value (v : Option V)
  | stopIteration
  | typeError
  | raised
  deriving DecidableEq

/-- A generator. -/
structure Generator (V : Type) : Type 1 where
  S : Type
  body : Body S V
  phase : Phase S

/-- A generator which returns or raises has ended. -/
def Ran.sent {S : Type} : Ran S V → Phase S × Sent V
  | .yielded v s => (.waiting s, .value v)
  | .returned => (.closed, .stopIteration)
  | .raised => (.closed, .raised)

/-- `generator.send(x)`: only `None` can be sent to one which has not started. -/
def Generator.send (g : Generator V) (x : Option V) : Generator V × Sent V :=
  let r := match g.phase with
    | .created => (match x with
      | none => g.body.first.sent
      | some _ => (.created, .typeError))
    | .waiting s => (g.body.next s x).sent
    | .closed => (.closed, .stopIteration)
  ({ g with phase := r.1 }, r.2)

/-- Calling a generator function. -/
def Generator.make {S : Type} (b : Body S V) : Generator V := ⟨S, b, .created⟩

/-- Calling a function decorated by `consumer` (generator.py:25-48): `next(gen)` is `gen.send(None)`. -/
def consumer {S : Type} (b : Body S V) : Except (Sent V) (Generator V) :=
  match (Generator.make b).send none with
  | (g, .value _) => .ok g
  | (_, e) => .error e

/-- `Gen.on_message` (generator.py:91-102): exceptions are logged. -/
def onMessage (g : Generator V) (m : Option V) : Generator V × List V :=
  match g.send m with
  | (g', .value (some v)) => (g', [v])
  | (g', _) => (g', [])

/-- What a `Gen` unit publishes for the messages it receives. -/
def unitRun : Generator V → List (Option V) → List V
  | _, [] => []
  | g, m :: ms => (onMessage g m).2 ++ unitRun (onMessage g m).1 ms

/-- `compose(*gens)` called with a value (generator.py:51-67): an exception ends the call. -/
def call : List (Generator V) → Option V → List (Generator V) × Sent V
  | [], x => ([], .value x)
  | g :: gs, x =>
    match g.send x with
    | (g', .value y) => (g' :: (call gs y).1, (call gs y).2)
    | (g', e) => (g' :: gs, e)

/-- The results of calling the composed function with one value after another. -/
def calls : List (Generator V) → List (Option V) → List (Sent V)
  | _, [] => []
  | gs, m :: ms => (call gs m).2 :: calls (call gs m).1 ms

/-! ## `gen_to_unit` -/

variable {W : Type} [DecidableEq W]

/-- A unit made by `gen_to_unit`: the attributes of `STATE` but `gen`, and `gen`. -/
structure Made (V W : Type) : Type 1 where
  state : PyDict String W
  gen : Generator V

/-- `initialize` (gen_to_unit.py:65-68). -/
def Made.init (func : PyDict String W → Generator V) (settings : PyDict String W) : Made V W := ⟨settings, func settings⟩

/-- `check_fields` (gen_to_unit.py:73-86): the attributes afterwards, and whether it raises.  `attr m f` is the attribute `f` of
the message, if it has one.  `asdict(self.STATE)` copies every attribute, also the generator in `gen`, and generators cannot be copied:
`TypeError`. -/
def checkFields (attr : String → Option W) : List (String × String) → PyDict String W → PyDict String W × Bool
  | [], st => (st, false)
  | (mf, sf) :: rest, st =>
    match attr mf, PyDict.get? st sf with
    | none, _ => (st, true)
    | some _, none => (st, true)
    | some w, some w' => if w' = w then checkFields attr rest st else (PyDict.set st sf w, true)

/-- `subscribe_publish` (gen_to_unit.py:133-139) for one message: what it publishes, `None` too; exceptions are logged and the next
message is taken (backendprocess.py:727-733). -/
def Made.onMessage (tracked : List (String × String)) (attr : V → String → Option W) (u : Made V W) (m : V) :
    Made V W × List (Option V) :=
  let c := checkFields (attr m) tracked u.state
  if c.2 then (⟨c.1, u.gen⟩, [])
  else match u.gen.send (some m) with
    | (g, .value v) => (⟨c.1, g⟩, [v])
    | (g, _) => (⟨c.1, g⟩, [])

/-- What the unit publishes for the messages it receives. -/
def Made.run (tracked : List (String × String)) (attr : V → String → Option W) : Made V W → List V → List (Option V)
  | _, [] => []
  | u, m :: ms => (u.onMessage tracked attr m).2 ++ Made.run tracked attr (u.onMessage tracked attr m).1 ms

end Gens
end Ez
