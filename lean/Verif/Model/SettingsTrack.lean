/-!
# Tracking the settings of a unit

Source: `src/ezmsg/core/backendprocess.py`, `process_request_handler` (336-425), `report_settings_update_cb` (496-508), the
`on_message` call in `handle_subscriber` (777-784); `src/ezmsg/core/processclient.py:226-281` (`_io_loop` awaits one request
at a time).

One unit with `INPUT_SETTINGS`; `V` settings objects. The pieces between two awaits are atomic steps:

* `external v`: another publisher's message enters the subscriber's queue,
* `request f`: the handler is called; `f` is the patch of Model/SettingsPatch.lean (`none`: it raises),
* `send`: `control_pub.broadcast(patched)` puts the patched object into the subscriber's queue (before that it may wait for
  the publisher to be created, for a free buffer and for `_running`),
* `finish`: `broadcast` has returned; `current_settings[unit_address] = patched`,
* `receive`: the subscriber's next message: `current_settings[...] = msg`, the report to the graph server, then the unit's
  coroutines.

Left out: the two awaits inside `receive` after the assignment (they change nothing modelled here); requests refused before
the patch (wrong payload, no settings input, nothing tracked).
-/

namespace Ez
namespace Track

/-- What the handler of a request is doing. -/
inductive Hd (V : Type) where
  | idle
  | sending (patched : V)
  | sent (patched : V)
deriving DecidableEq

/-- `current_settings[unit]`, the subscriber's queue, the handler, the messages the unit was given, the values reported to
the graph server, and the replies to requests (`none`: refused). -/
structure St (V : Type) where
  current : V
  queue : List V
  handler : Hd V
  given : List V
  reported : List V
  replies : List (Option V)

/-- One step. -/
inductive Act (V : Type) where
  | external (v : V)
  | request (f : V → Option V)
  | send
  | finish
  | receive

variable {V : Type}

/-- The step; `none`: not possible in this state. -/
def step (a : Act V) (s : St V) : Option (St V) :=
  match a with
  | .external v => some { s with queue := s.queue ++ [v] }
  | .request f =>
    match s.handler with
    | .idle =>
      -- backendprocess.py:397-401, the `except` clause 412-420
      match f s.current with
      | none => some { s with replies := s.replies ++ [none] }
      | some p => some { s with handler := .sending p }
    | _ => none
  | .send =>
    match s.handler with
    | .sending p => some { s with handler := .sent p, queue := s.queue ++ [p] }
    | _ => none
  | .finish =>
    match s.handler with
    -- backendprocess.py:408-409, 422-428
    | .sent p => some { s with handler := .idle, current := p, replies := s.replies ++ [some p] }
    | _ => none
  | .receive =>
    match s.queue with
    | [] => none
    -- backendprocess.py:501-506, then the callables
    | m :: q => some { s with queue := q, current := m, reported := s.reported ++ [m], given := s.given ++ [m] }

/-- A run. -/
def run : List (Act V) → St V → Option (St V)
  | [], s => some s
  | a :: as, s => match step a s with | none => none | some s' => run as s'

/-- At the start the settings the unit was built with are tracked, backendprocess.py:461-462. -/
def init (v : V) : St V := { current := v, queue := [], handler := .idle, given := [], reported := [], replies := [] }

/-- The settings a unit has that takes over each settings message: the last one, or those it was built with. -/
def unitSettings (v0 : V) (s : St V) : V := s.given.getLast?.getD v0

end Track
end Ez
