import Verif.Model.Py

/-!
# Patching one field of a unit's settings (`src/ezmsg/core/backendprocess.py`)

* A settings value is a tree: a mapping, an object with attributes, or an atom (a number, a string, an array: a
  value none of whose attributes can be set; a path into it is rejected).
* An object has instance attributes (for a dataclass: its fields) and attributes of its class (methods,
  constants); `getattr` prefers the instance. Non-dataclass objects are copied with one attribute set, by
  `model_copy`, by `copy(update=…)` or by `deepcopy` and `setattr`; these have the same effect here.
* `fixed` lists the dataclass fields declared with `init=False`; `dataclasses.replace` raises for them. Otherwise
  `replace` sets one field (no `__post_init__` that changes others).
* The dotted path is given already split (`field_path.split(".")`); `[]` stands for the empty string.
-/

namespace Ez
namespace Patch

/-- How an object is patched: backendprocess.py:299-322. -/
inductive Kind where
  | dataclass (fixed : List String)
  | other
  deriving DecidableEq

/-- Settings values. -/
inductive Val (A : Type) where
  | atom (a : A)
  | mapping (entries : List (String × Val A))
  | object (kind : Kind) (fields : List (String × Val A)) (classAttrs : List (String × Val A))

variable {A : Type}

/-- `getattr(current, name)`; `none` means `hasattr` is false. -/
def Val.getAttr? : Val A → String → Option (Val A)
  | .object _ fs cs, n => (PyDict.get? fs n).or (PyDict.get? cs n)
  | _, _ => none

/-- The exceptions raised. -/
inductive Err where
  | emptyPath
  | unknownField
  | cannotReplace
  deriving DecidableEq, Repr

/-- `_patch_object_field`: backendprocess.py:299-324. -/
def patchObjectField (obj : Val A) (n : String) (x : Val A) : Except Err (Val A) :=
  match obj with
  | .object (.dataclass fixed) fs cs =>
    if n ∉ PyDict.keys fs then .error .unknownField
    else if n ∈ fixed then .error .cannotReplace
    else .ok (.object (.dataclass fixed) (PyDict.set fs n x) cs)
  | .object .other fs cs =>
    if (obj.getAttr? n).isSome then .ok (.object .other (PyDict.set fs n x) cs)
    else .error .cannotReplace
  | _ => .error .cannotReplace

/-- `apply` inside `_replace_settings_field`: backendprocess.py:267-295. The list is the rest of the path, so
`idx == len(path) - 1` means that only one name is left. -/
def apply (x : Val A) : List String → Val A → Except Err (Val A)
  | [], _ => .error .emptyPath
  | n :: rest, .mapping es =>
    match PyDict.get? es n with
    | none => .error .unknownField
    | some child =>
      if rest = [] then .ok (.mapping (PyDict.set es n x))
      else match apply x rest child with
        | .error e => .error e
        | .ok c => .ok (.mapping (PyDict.set es n c))
  | n :: rest, cur =>
    match cur.getAttr? n with
    | none => .error .unknownField
    | some child =>
      if rest = [] then patchObjectField cur n x
      else match apply x rest child with
        | .error e => .error e
        | .ok c => patchObjectField cur n c

/-- `_replace_settings_field`: backendprocess.py:260-297. -/
def replaceSettingsField (v : Val A) (path : List String) (x : Val A) : Except Err (Val A) :=
  if path = [] then .error .emptyPath else apply x path v

/-! ## The request handler -/
variable {U T : Type} [DecidableEq U] [DecidableEq T]

/-- What `process_request_handler` works on: `settings_input_topics`, `current_settings`
(backendprocess.py:331-332) and the messages broadcast on settings topics. -/
structure Ctl (U T A : Type) where
  inputTopics : PyDict U T
  current : PyDict U (Val A)
  sent : List (T × Val A)

/-- The error codes of the responses. -/
inductive Code where
  | unsupportedOperation
  | invalidResponse
  | handlerError
  deriving DecidableEq, Repr

/-- A request: the operation is the field update or not, the payload is missing, no update request, or an update
request. -/
structure Request (U A : Type) where
  isFieldUpdate : Bool
  unit : U
  update : Option (List String × Val A)

/-- How creating the control publisher and broadcasting end: whether the message got out, and whether an exception
was raised. -/
structure Outcome where
  delivered : Bool
  raised : Bool

/-- `process_request_handler`: backendprocess.py:336-425. The payload returned is
`_settings_snapshot_value(patched)`; here the value itself. -/
def handle (c : Ctl U T A) (r : Request U A) (o : Outcome) : Except Code (Val A) × Ctl U T A :=
  if !r.isFieldUpdate then (.error .unsupportedOperation, c) else
  match r.update with
  | none => (.error .invalidResponse, c)
  | some (path, x) =>
    match c.inputTopics.get? r.unit with
    | none => (.error .unsupportedOperation, c)
    | some topic =>
      match c.current.get? r.unit with
      | none => (.error .handlerError, c)
      | some v =>
        match replaceSettingsField v path x with
        | .error _ => (.error .handlerError, c)
        | .ok v' =>
          let c := if o.delivered then { c with sent := c.sent ++ [(topic, v')] } else c
          if o.raised then (.error .handlerError, c)
          else (.ok v', { c with current := c.current.set r.unit v' })

end Patch
end Ez
