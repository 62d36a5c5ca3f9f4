/-!
# One process handling control requests and reporting settings

Source: `src/ezmsg/core/processclient.py`: `_write_payload` (188-224), `_io_loop` (226-281), which awaits the handler of a
request before it reads on; `src/ezmsg/core/backendprocess.py`: `process_request_handler` (336-425),
`report_settings_update_cb` (496-508), `handle_subscriber` (740-805), which holds a message until it was reported and all
coroutines returned.

One unit with a settings input that is not leaky. The settings publisher of the process has `n` buffers
(`context.publisher(input_topic)`: 32); a message occupies one until the subscriber has let go of it. Everything the graph
server sends to the process comes in one order over one connection.

Left out: the values of settings (Model/SettingsTrack.lean); refused requests (answered at once like `ping`); creating
the publisher; other subscribers of the settings topic; results of commands (Model/ControlClients.lean).
-/

namespace Ez
namespace Control

/-- What the graph server sends to a process: the acknowledgement of a report, or request `r`, which either is
answered at once (`ping`, `stats`, ...) or patches settings. -/
inductive Item where
  | ack
  | request (r : Nat) (patch : Bool)
deriving DecidableEq

/-- What the task of the settings input is doing with a message; `own`: it comes from the process' own publisher. -/
inductive Sub where
  | idle
  | reporting (own : Bool)
  | working (own : Bool)
deriving DecidableEq

/-- * `incoming`: sent by the server and not yet read by `_io_loop`
* `handler`: the request whose patched settings `_io_loop` is publishing
* `queue`: messages at the settings input, `true` for those of the process' own publisher
* `sub`: the task of the settings input
* `reports`: reports written by the process and not yet acknowledged by the server
* `acks`: `_ack_queue`
* `paused`: `Publisher._running` is cleared
* `answered`: requests whose response was written
* `reported`: the number of reports written
* `lapsed`: the number of reports that timed out -/
structure St where
  incoming : List Item
  handler : Option Nat
  queue : List Bool
  sub : Sub
  reports : Nat
  acks : Nat
  paused : Bool
  answered : List Nat
  reported : Nat
  lapsed : Nat

/-- Before anything happened. -/
def init : St :=
  { incoming := [], handler := none, queue := [], sub := .idle, reports := 0, acks := 0, paused := false, answered := [], reported := 0, lapsed := 0 }

/-- Whether the task of the settings input holds a message of the process' own publisher. -/
def Sub.own : Sub → Nat
  | .idle => 0
  | .reporting b => if b then 1 else 0
  | .working b => if b then 1 else 0

/-- The occupied buffers of the process' own publisher. -/
def St.inflight (s : St) : Nat := s.queue.count true + s.sub.own

/-- Where a step comes from: outside (requests, other publishers, pausing, the server), the process, or a timeout. -/
inductive Act where
  | request (r : Nat) (patch : Bool)
  | external
  | pause
  | resume
  | server
  | process
  | timeout
deriving DecidableEq

/-- One step of a process whose settings publisher has `n` buffers.

* `request`: the server passes on a request
* `external`: a message of another publisher arrives at the settings input
* `server`: the server acknowledges a report
* `readAck`: processclient.py:238-240
* `readPing`: processclient.py:292-306, 271-276
* `readPatch`: processclient.py:271, backendprocess.py:398-408; `broadcast` has begun
* `send`: `broadcast` found a free buffer and is not paused, the response is written, backendprocess.py:408-409, 419-425
* `take`: `recv_zero_copy` gives the next message and the report is written, backendprocess.py:503
* `acked`: processclient.py:212-213
* `finish`: all coroutines returned and the message is released
* `timeout`: processclient.py:213-217, backendprocess.py:783-789 -/
inductive Step (n : Nat) : Act → St → St → Prop where
  | request (s : St) (r : Nat) (p : Bool) :
      Step n (.request r p) s { s with incoming := s.incoming ++ [.request r p] }
  | external (s : St) : Step n .external s { s with queue := s.queue ++ [false] }
  | pause (s : St) : Step n .pause s { s with paused := true }
  | resume (s : St) : Step n .resume s { s with paused := false }
  | server (s : St) (k : Nat) (h : s.reports = k + 1) :
      Step n .server s { s with reports := k, incoming := s.incoming ++ [.ack] }
  | readAck (s : St) (t : List Item) (h : s.handler = none) (h' : s.incoming = .ack :: t) :
      Step n .process s { s with incoming := t, acks := s.acks + 1 }
  | readPing (s : St) (r : Nat) (t : List Item) (h : s.handler = none) (h' : s.incoming = .request r false :: t) :
      Step n .process s { s with incoming := t, answered := s.answered ++ [r] }
  | readPatch (s : St) (r : Nat) (t : List Item) (h : s.handler = none) (h' : s.incoming = .request r true :: t) :
      Step n .process s { s with incoming := t, handler := some r }
  | send (s : St) (r : Nat) (h : s.handler = some r) (hp : s.paused = false) (hn : s.inflight < n) :
      Step n .process s { s with handler := none, queue := s.queue ++ [true], answered := s.answered ++ [r] }
  | take (s : St) (b : Bool) (q : List Bool) (h : s.sub = .idle) (h' : s.queue = b :: q) :
      Step n .process s { s with queue := q, sub := .reporting b, reports := s.reports + 1, reported := s.reported + 1 }
  | acked (s : St) (b : Bool) (k : Nat) (h : s.sub = .reporting b) (h' : s.acks = k + 1) :
      Step n .process s { s with sub := .working b, acks := k }
  | finish (s : St) (b : Bool) (h : s.sub = .working b) : Step n .process s { s with sub := .idle }
  | timeout (s : St) (b : Bool) (h : s.sub = .reporting b) :
      Step n .timeout s { s with sub := .working b, lapsed := s.lapsed + 1 }

/-- Any number of steps from `s`. -/
inductive Steps (n : Nat) (s : St) : List Act → St → Prop where
  | nil : Steps n s [] s
  | snoc {as : List Act} {a : Act} {t u : St} (h : Steps n s as t) (h' : Step n a t u) : Steps n s (as ++ [a]) u

end Control
end Ez
