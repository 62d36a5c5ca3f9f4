/-!
# Closing a subscriber

Source: `src/ezmsg/core/subclient.py`: `close` (160-168), `wait_closed` (170-178), `_graph_connection` (180-269);
`src/ezmsg/core/channelmanager.py`: `_register` (81-98), `unregister` (100-129);
`src/ezmsg/core/messagechannel.py`: `Channel.close` (209-214), `Channel.wait_closed` (216-225), `Channel._graph_connection`
(227-248), `_publisher_connection` (250-319); `src/ezmsg/core/shm.py`: `SHMContext._graph_connection` (118-128), `close`
(165-172), `wait_closed` (174-182).

One subscriber and the channels of its process; `P` publishers. Each asyncio task is a small state machine whose states are the
awaits it can be suspended in. `Task.cancel` of CPython throws `CancelledError` at that await; if the task awaits another task,
that one is cancelled too and the `CancelledError` comes out of the `await`. `with suppress(asyncio.CancelledError): await task`
then catches it.

Simplifications:
* Every task has taken its first step before it is cancelled (a task cancelled before does nothing at all).
* Tasks end well; registering or unregistering that raises is in `Model/Follow.lean`.
* The other clients of a channel join and leave, but do not have a channel made anew while it is being closed.
* What a channel does with messages is left out, but for the switch to a new shared memory segment, which awaits a task.
-/

namespace Ez
namespace Closing

/-- A task that reads until its connection ends or it is cancelled, and then closes its writer in `finally`:
`Channel._graph_connection`, `SHMContext._graph_connection`. -/
inductive Aux where
  | reading
  | closing
  | ended
deriving DecidableEq

/-- `Task.cancel` of such a task; in `finally` it interrupts the wait for the writer. -/
def Aux.cancel : Aux → Aux
  | .reading => .closing
  | .closing => .ended
  | .ended => .ended

/-- `Channel._publisher_connection`: reading; waiting for the old segment's task, messagechannel.py:273; attaching the new
one, 275-284; closing the writer in `finally`, 317. -/
inductive PubTask where
  | reading
  | switching
  | attaching
  | closing
  | ended
deriving DecidableEq

/-- A channel: whether it is in the registry, whether the subscriber and whether others are among its clients, and its
tasks. -/
structure Chan where
  live : Bool
  mine : Bool
  others : Bool
  pub : PubTask
  graph : Aux
  shm : Aux
deriving DecidableEq

/-- `self._pub_task.cancel()`. At 273 the error goes to the segment's task and is suppressed in `SHMContext.wait_closed`. Else
the `finally` clause closes the segment, messagechannel.py:312-317. -/
def Chan.cancelPub (c : Chan) : Chan :=
  match c.pub with
  | .reading | .attaching => { c with pub := .closing, shm := c.shm.cancel }
  | .switching => { c with shm := c.shm.cancel }
  | .closing => { c with pub := .ended }
  | .ended => c

/-- `del registry[pub_id]` and `Channel.close`, channelmanager.py:122-126, messagechannel.py:209-214. -/
def Chan.close (c : Chan) : Chan :=
  let d := { c with live := false }.cancelPub
  { d with graph := d.graph.cancel }

/-- `Channel.wait_closed` has nothing left to wait for, messagechannel.py:216-225. -/
def Chan.closed (c : Chan) : Bool := decide (c.pub = .ended ∧ c.graph = .ended ∧ c.shm = .ended)

/-- Cancelling a task that is in `Channel.wait_closed`: the task awaited there is cancelled, messagechannel.py:220-225. -/
def Chan.interrupt (c : Chan) : Chan :=
  if c.pub ≠ .ended then c.cancelPub
  else if c.graph ≠ .ended then { c with graph := c.graph.cancel }
  else { c with shm := c.shm.cancel }

/-- A channel that was just created, messagechannel.py:137-207. -/
def Chan.new (c : Chan) : Chan := { c with live := true, mine := true, pub := .reading, graph := .reading, shm := .reading }

/-- `Subscriber._graph_connection`: `reader.read`; `CHANNELS.register`, subclient.py:234; `CHANNELS.unregister`, 250;
`writer.drain`, 254; in `finally` `CHANNELS.unregister`, 268, and `close_stream_writer`, 269. Lists: publishers still to be
added or removed. -/
inductive Sub (P : Type) where
  | reading
  | registering (p : P) (adds rms : List P)
  | waiting (p : P) (rms : List P)
  | draining
  | cleaning (p : P) (rest : List P)
  | closing
  | ended
deriving DecidableEq

/-- `channels`: the keys of `Subscriber._channels`; `connected`: the writer to the graph server was not closed. -/
structure St (P : Type) where
  sub : Sub P
  channels : List P
  connected : Bool
  chan : P → Chan

/-- A step. -/
inductive Act (P : Type) where
  | update (new : List P)
  | created
  | go
  | eof
  | close
  | grow (p : P)
  | pubStep (p : P)
  | pubEof (p : P)
  | graphStep (p : P)
  | graphEof (p : P)
  | shmStep (p : P)
  | shmEof (p : P)
  | join (p : P)
  | leave (p : P)

variable {P : Type} [DecidableEq P]

def St.setChan (s : St P) (p : P) (c : Chan) : St P := { s with chan := fun q => if q = p then c else s.chan q }

/-- The removing loop of an update, subclient.py:249-254: a channel with other clients is left at once, any other is closed
and awaited. -/
def removing : List P → St P → St P
  | [], s => { s with sub := .draining }
  | p :: rms, s =>
    if (s.chan p).others then
      removing rms { s.setChan p { s.chan p with mine := false } with channels := s.channels.erase p }
    else { s.setChan p { s.chan p with mine := false }.close with sub := .waiting p rms }

/-- The adding loop of an update, subclient.py:233-246: a channel that is there is joined at once, any other is created. -/
def adding : List P → List P → St P → St P
  | [], rms, s => removing rms s
  | p :: adds, rms, s =>
    if (s.chan p).live then
      adding adds rms { s.setChan p { s.chan p with mine := true } with channels := s.channels ++ [p] }
    else { s with sub := .registering p adds rms }

/-- The `finally` clause, subclient.py:266-269. -/
def cleanup : List P → St P → St P
  | [], s => { s with sub := .closing, connected := false }
  | p :: rest, s =>
    if (s.chan p).others then cleanup rest (s.setChan p { s.chan p with mine := false })
    else { s.setChan p { s.chan p with mine := false }.close with sub := .cleaning p rest }

/-- `Subscriber.close`: `self._graph_task.cancel()`, subclient.py:167. While the task is in `Channel.wait_closed` the error is
suppressed there, messagechannel.py:220-223 and shm.py:181. -/
def close (s : St P) : St P :=
  match s.sub with
  | .reading | .registering _ _ _ | .draining => cleanup s.channels s
  | .waiting p _ | .cleaning p _ => s.setChan p (s.chan p).interrupt
  | .closing => { s with sub := .ended }
  | .ended => s

/-- * `update`, `eof`: the graph server sends an update or is gone
* `created`: `Channel.create` returns
* `go`: what the subscriber's task waits for is there
* `close`: see above
* `grow`: the publisher uses a new segment, messagechannel.py:266-273
* `pubStep`, `graphStep`, `shmStep`: what the task of the channel waits for is there
* `pubEof`, `graphEof`, `shmEof`: the connection read by the task of the channel has ended
* `join`, `leave`: the first other client of the channel comes, the last one goes -/
def step (a : Act P) (s : St P) : Option (St P) :=
  match a with
  | .update new =>
    match s.sub with
    | .reading =>
      some (adding (new.eraseDups.filter (fun p => decide (p ∉ s.channels))) (s.channels.filter (fun p => decide (p ∉ new))) s)
    | _ => none
  | .created =>
    match s.sub with
    | .registering p adds rms =>
      some (adding adds rms { s.setChan p (s.chan p).new with channels := s.channels ++ [p] })
    | _ => none
  | .go =>
    match s.sub with
    | .waiting p rms =>
      if (s.chan p).closed then some (removing rms { s with channels := s.channels.erase p }) else none
    | .draining => some { s with sub := .reading }
    | .cleaning p rest => if (s.chan p).closed then some (cleanup rest s) else none
    | .closing => some { s with sub := .ended }
    | _ => none
  | .eof =>
    match s.sub with
    | .reading => some (cleanup s.channels s)
    | _ => none
  | .close => some (close s)
  | .grow p =>
    if (s.chan p).pub = .reading then
      some (s.setChan p { s.chan p with pub := .switching, shm := (s.chan p).shm.cancel })
    else none
  | .pubStep p =>
    match (s.chan p).pub with
    | .switching => if (s.chan p).shm = .ended then some (s.setChan p { s.chan p with pub := .attaching }) else none
    | .attaching => some (s.setChan p { s.chan p with pub := .reading, shm := .reading })
    | .closing => some (s.setChan p { s.chan p with pub := .ended })
    | _ => none
  | .pubEof p =>
    if (s.chan p).pub = .reading then
      some (s.setChan p { s.chan p with pub := .closing, shm := (s.chan p).shm.cancel })
    else none
  | .graphStep p =>
    if (s.chan p).graph = .closing then some (s.setChan p { s.chan p with graph := .ended }) else none
  | .graphEof p =>
    if (s.chan p).graph = .reading then some (s.setChan p { s.chan p with graph := .closing }) else none
  | .shmStep p => if (s.chan p).shm = .closing then some (s.setChan p { s.chan p with shm := .ended }) else none
  | .shmEof p => if (s.chan p).shm = .reading then some (s.setChan p { s.chan p with shm := .closing }) else none
  | .join p =>
    if (s.chan p).live ∧ (s.chan p).others = false then some (s.setChan p { s.chan p with others := true }) else none
  | .leave p =>
    if (s.chan p).live ∧ (s.chan p).others = true then
      some (s.setChan p (if (s.chan p).mine then { s.chan p with others := false }
        else { s.chan p with others := false }.close))
    else none

/-- A run. -/
def run : List (Act P) → St P → Option (St P)
  | [], s => some s
  | a :: as, s => match step a s with | none => none | some s' => run as s'

/-- A new subscriber: it has no channels; those of others are there already. -/
def init (others : P → Bool) : St P :=
  { sub := .reading, channels := [], connected := true,
    chan := fun p => if others p then ⟨true, false, true, .reading, .reading, .reading⟩
      else ⟨false, false, false, .ended, .ended, .ended⟩ }

end Closing
end Ez
