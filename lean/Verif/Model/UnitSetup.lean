import Verif.Model.Py

/-!
# Model of how units get their settings and their state (`src/ezmsg/core/component.py`, `unit.py`, `state.py`)

Objects are numbers (their identity). Classes are numbers too; `isinstance` is a parameter. A settings class is a
dataclass: its constructor binds arguments to fields. What `__post_init__` and `initialize` do is given. The streams, which are
copied for every component, are in `Model/Classes.lean` and `Model/Address.lean`.
-/

namespace Ez
namespace UnitSetup

/-- Exceptions. -/
inductive Exc where
  | typeError
  | valueError
  | attributeError
  | assertionError
  | other
deriving DecidableEq, Repr

/-- Values: objects that are no settings, and settings objects with their class and fields. -/
inductive Val where
  | obj (id : Nat)
  | settings (cls : Nat) (fields : List (String × Val))

/-- A settings class (settings.py:46-47: a frozen dataclass): its fields in order with their defaults, if any, and the
exception that making an object raises once all fields have a value, e.g. in `__post_init__`. -/
structure SettingsClass where
  cls : Nat
  fields : List (String × Option Val)
  post : List (String × Val) → Option Exc

/-- Binding arguments to the fields of a dataclass: positional arguments first, then by name, then defaults. The result
pairs every field with its value; `none` if a field has no value, or an argument is left over or given twice. -/
def bind : List (String × Option Val) → List Val → PyDict String Val → Option (List (String × Val))
  | [], [], [] => some []
  | [], _, _ => none
  | (f, _) :: fs, a :: args, kw =>
    match kw.get? f with
    | some _ => none
    | none => (bind fs args kw).map ((f, a) :: ·)
  | (f, d) :: fs, [], kw =>
    match kw.get? f with
    | some v => (bind fs [] (kw.pop f)).map ((f, v) :: ·)
    | none =>
      match d with
      | some v => (bind fs [] kw).map ((f, v) :: ·)
      | none => none

/-- `settings_type(*args, **kwargs)`. -/
def construct (c : SettingsClass) (args : List Val) (kw : PyDict String Val) : Except Exc Val :=
  match bind c.fields args kw with
  | none => .error .typeError
  | some fs =>
    match c.post fs with
    | some e => .error e
    | none => .ok (.settings c.cls fs)

/-- `isinstance(v, settings_type)`: the class of `v` is `settings_type` or a subclass of it. -/
def isinstance (sub : Nat → Nat → Bool) (c : SettingsClass) : Val → Bool
  | .obj _ => false
  | .settings k _ => sub k c.cls

/-- `Component.__init__`, component.py:134-152: the settings that are applied, if any. -/
def initSettings (sub : Nat → Nat → Bool) (c : SettingsClass) (args : List Val) (settings : Option Val)
    (kw : PyDict String Val) : Except Exc (Option Val) :=
  match settings with
  | some s => .ok (some s)
  | none =>
    let build : Except Exc (Option Val) :=
      match construct c args kw with
      | .ok s => .ok (some s)
      | .error e => .error e
    match args, kw with
    | [], [] =>
      match construct c [] [] with
      | .ok s => .ok (some s)
      | .error .typeError => .ok none
      | .error e => .error e
    | a :: _, _ => if isinstance sub c a then .ok (some a) else build
    | [], _ => build

/-- The default of a field of a state class: none, an object, or a factory, which makes a new object. -/
inductive Default where
  | missing
  | value (id : Nat)
  | factory
deriving DecidableEq

/-- A unit: the fields of its state class, its settings, the attributes of its state (`none` before `setup`), and what
`initialize` does with the settings and the attributes. -/
structure Unit where
  fields : List (String × Default)
  settings : Option Val
  state : Option (PyDict String Nat)
  init : Val → PyDict String Nat → Except Exc (PyDict String Nat)

/-- `_instantiate_state`, component.py:154-160: the state class has no generated `__init__` (state.py:36), so the new object has no
attributes but those made by factories here. `next` is the number of the next new object. -/
def instantiate : List (String × Default) → Nat → PyDict String Nat × Nat
  | [], next => ([], next)
  | (f, .factory) :: fs, next =>
    let r := instantiate fs (next + 1)
    ((f, next) :: r.1, r.2)
  | (_, _) :: fs, next => instantiate fs next

/-- `getattr(STATE, name)` for the field `name`: an attribute of the object, or the default, which is an attribute of the class. -/
def getField (st : PyDict String Nat) (f : String) (d : Default) : Option Nat :=
  match st.get? f with
  | some o => some o
  | none =>
    match d with
    | .value o => some o
    | _ => none

/-- `_check_state`, component.py:162-168. -/
def check (fields : List (String × Default)) (st : PyDict String Nat) : Bool :=
  fields.all fun (f, d) => (getField st f d).isSome

/-- `Unit.setup`, unit.py:93-106: the unit, the number of the next new object, and the exception, if any. -/
def setup (u : Unit) (next : Nat) : Unit × Nat × Option Exc :=
  match u.state with
  | some _ => (u, next, some .assertionError)
  | none =>
    let r := instantiate u.fields next
    let u := { u with state := some r.1 }
    match u.settings with
    | none => (u, r.2, some .valueError)
    | some s =>
      match u.init s r.1 with
      | .error e => (u, r.2, some e)
      | .ok st =>
        let u := { u with state := some st }
        if check u.fields st then (u, r.2, none) else (u, r.2, some .attributeError)

end UnitSetup
end Ez
