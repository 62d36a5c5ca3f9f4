import Verif.Model.Py

/-!
# Event log and event streams of the graph server

Source: `src/ezmsg/core/graphserver.py`: `_queue_stream_event` (790-802), `_stream_sender` (804-821),
`_handle_event_subscriber` (823-860), `_append_settings_event_locked` (1373-1400),
`_append_topology_event_locked` (1402-1426), `_handle_session_settings_events_request` (1625-1633).

The settings log and the topology log are handled by the same code shape; `E` is the event without its
sequence number. Each of these code sections runs without suspension (under `_command_lock`).
-/

namespace Ez

/-- `_queue_stream_event`, graphserver.py:790-802, on an `asyncio.Queue(maxsize)`: append; if the queue
is full take the oldest out first; if it is still full (it cannot be) give up. -/
def queueStreamEvent {α : Type} (maxsize : Int) (q : List α) (x : α) : List α :=
  if 0 < maxsize ∧ maxsize ≤ (q.length : Int) then
    let q' := q.drop 1
    if 0 < maxsize ∧ maxsize ≤ (q'.length : Int) then q' else q' ++ [x]
  else q ++ [x]

/-- A stream subscriber: its queue; `sent` is what `_stream_sender` has written to it, oldest first.
`offered` is not in the code: everything that was put into the queue so far. -/
structure StreamSub (E : Type) where
  queue : List (Nat × E)
  sent : List (Nat × E)
  offered : List (Nat × E)

/-- `_settings_events`, `_settings_event_seq`, `_settings_subscribers` (or the topology ones). `hist`
is not in the code: all events ever appended, oldest first. -/
structure EventLog (I E : Type) where
  seq : Nat
  events : List (Nat × E)
  subs : PyDict I (StreamSub E)
  hist : List E

namespace EventLog
variable {I E : Type} [DecidableEq I]

def init : EventLog I E := { seq := 0, events := [], subs := [], hist := [] }

/-- Put one event into a subscriber's queue. -/
def offer (maxsize : Int) (x : Nat × E) (s : StreamSub E) : StreamSub E :=
  { s with queue := queueStreamEvent maxsize s.queue x, offered := s.offered ++ [x] }

/-- `del events[0 : len(events) - max_events]` if there are more than `max_events`,
graphserver.py:1398-1400, 1424-1426. -/
def trim (limit : Int) (es : List (Nat × E)) : List (Nat × E) :=
  if limit < (es.length : Int) then es.drop ((es.length : Int) - limit).toNat else es

/-- `_append_settings_event_locked` / `_append_topology_event_locked`. -/
def append (limit maxsize : Int) (l : EventLog I E) (e : E) : EventLog I E :=
  { seq := l.seq + 1
    events := trim limit (l.events ++ [(l.seq + 1, e)])
    subs := l.subs.map (fun p => (p.1, offer maxsize (l.seq + 1, e) p.2))
    hist := l.hist ++ [e] }

/-- `_handle_event_subscriber`, graphserver.py:836-840: a new subscriber gets the retained events after
`after`. -/
def subscribe (maxsize : Int) (l : EventLog I E) (i : I) (after : Nat) : EventLog I E :=
  let replay := l.events.filter (fun x => decide (after < x.1))
  let s := replay.foldl (fun s x => offer maxsize x s) { queue := [], sent := [], offered := [] }
  { l with subs := l.subs.set i s }

/-- One round of `_stream_sender`, graphserver.py:812-817. Nothing happens on an empty queue
(`queue.get()` waits). -/
def sendNext (l : EventLog I E) (i : I) : EventLog I E :=
  { l with subs := l.subs.modify i (fun s =>
      match s.queue with
      | [] => s
      | x :: q => { s with queue := q, sent := s.sent ++ [x] }) }

/-- `_handle_event_subscriber`, graphserver.py:853-854: the connection ended. -/
def unsubscribe (l : EventLog I E) (i : I) : EventLog I E := { l with subs := l.subs.pop i }

/-- `_handle_session_settings_events_request`, graphserver.py:1629. -/
def after (l : EventLog I E) (n : Nat) : List (Nat × E) := l.events.filter (fun x => decide (n < x.1))

end EventLog
end Ez
