/-!
# Closing a publisher

Source: `src/ezmsg/core/pubclient.py`: `_serve_channels` (222-231), `close` (294-305), `wait_closed` (307-321),
`_graph_connection` (323-364), `_channel_connect` (366-400), `_handle_channel` (403-439), growing the segment in `broadcast`
(514-531); `src/ezmsg/core/channelmanager.py`: `unregister` (100-129); `src/ezmsg/core/netprotocol.py`: `close_server` (262-269);
`src/ezmsg/core/shm.py`: `SHMContext._graph_connection` (118-128), `__getitem__` (130-143), `close` (165-172), `wait_closed`
(174-182).

One publisher; `K` the channels that connect to it. The tasks of the publisher's own channel, which it shares with the
subscribers of its process, are taken together as one; `Model/Closing.lean` has them apart.

Simplifications:
* A cancelled task gets the error at once.
* Tasks that close a writer succeed. Only a channel's connection can break in the middle of an acknowledgement.
* At most one `broadcast` is growing the segment at a time, and the publisher has at least one buffer.
-/

namespace Ez
namespace PubClose

/-- A task that reads and then closes its writer in `finally`: `Publisher._graph_connection`, `_handle_channel`,
`SHMContext._graph_connection`. `bad`: with an exception, other than cancellation, that it does not catch. -/
inductive Task where
  | reading
  | closing (bad : Bool)
  | ended (bad : Bool)
deriving DecidableEq

/-- `Task.cancel`. -/
def Task.cancel : Task → Task
  | .reading => .closing false
  | .closing _ => .ended false
  | .ended b => .ended b

/-- The end of closing the writer. -/
def Task.finish : Task → Option Task
  | .closing b => some (.ended b)
  | _ => none

/-- `Publisher._serve_channels`: in `serve_forever`, 224; in `close_server`, 228; in `CHANNELS.unregister`, 229. -/
inductive Conn where
  | serving
  | shutting
  | leaving
  | ended
deriving DecidableEq

/-- A connection of a channel: none; the handler is exchanging data with the channel, 384-393; the task is there. -/
inductive Link where
  | absent
  | connecting
  | task (t : Task)
deriving DecidableEq

/-- What a `broadcast` is doing: in `create_shm`, 516; in `SHMContext.wait_closed`, 529. -/
inductive Growth where
  | idle
  | creating
  | switching
deriving DecidableEq

/-- `Publisher.wait_closed`, by the await it is in; the channel tasks by their position in `_channel_tasks` and the number of
them when the loop began. -/
inductive Wait where
  | idle
  | shm
  | graph
  | conn
  | chans (i size : Nat)
  | done
  | raised
deriving DecidableEq

/-- * `order`: the keys of `_channel_tasks`
* `mine`, `others`: the clients of the publisher's own channel; `chan`: its tasks
* `shm`: the segment `self._shm`; `fresh`: `new_shm` of a broadcast; `stray`: segments that are attached but that no variable
  refers to any more. -/
structure St (K : Type) where
  graph : Task
  conn : Conn
  mine : Bool
  others : Bool
  chan : Task
  link : K → Link
  order : List K
  shm : Task
  fresh : Task
  stray : List Task
  growth : Growth
  wait : Wait

/-- A step. -/
inductive Act (K : Type) where
  | connect (k : K)
  | greet (k : K)
  | drop (k : K)
  | linkEof (k : K)
  | linkBreak (k : K)
  | linkStep (k : K)
  | graphEof
  | graphStep
  | chanEof
  | chanStep
  | shmEof
  | shmStep
  | connStep
  | join
  | leave
  | grow
  | made
  | moved
  | close
  | wait
  | waitStep

variable {K : Type} [DecidableEq K]

def St.setLink (s : St K) (k : K) (l : Link) : St K := { s with link := fun q => if q = k then l else s.link q }

/-- `task.cancel()` for a channel task. -/
def Link.cancel : Link → Link
  | .task t => .task t.cancel
  | l => l

/-- `CHANNELS.unregister(self.id, self.id)`, channelmanager.py:100-129: the last client closes the channel and waits for it. -/
def St.unregister (s : St K) : St K :=
  if s.others then { s with mine := false, conn := .ended }
  else { s with mine := false, chan := s.chan.cancel, conn := .leaving }

/-- `Publisher.close`, 294-305. In `serve_forever` the error is caught and the server closed; in `close_server` it ends the
task; in `Channel.wait_closed` it is passed to the channel and suppressed. -/
def close (s : St K) : St K :=
  { s with
    graph := s.graph.cancel
    shm := s.shm.cancel
    conn := match s.conn with
      | .serving => .shutting
      | .shutting => .ended
      | c => c
    chan := match s.conn with
      | .leaving => s.chan.cancel
      | _ => s.chan
    link := fun k => if k ∈ s.order then (s.link k).cancel else s.link k }

/-- The result of an awaited task, with `CancelledError` suppressed. -/
def after (t : Task) (w : Wait) : Option Wait :=
  match t with
  | .ended false => some w
  | .ended true => some .raised
  | _ => none

/-- The next step of `wait_closed`, 314-321. Python's loop over a dictionary raises `RuntimeError` if its size has changed. -/
def waitStep (s : St K) : Option Wait :=
  match s.wait with
  | .shm => after s.shm .graph
  | .graph => after s.graph .conn
  | .conn => if s.conn = .ended then some (.chans 0 s.order.length) else none
  | .chans i size =>
    if s.order.length ≠ size then some .raised
    else match s.order[i]? with
      | none => some .done
      | some k => match s.link k with
        | .task t => after t (.chans (i + 1) size)
        | _ => none
  | _ => none

/-- `server.wait_closed` returns: at once before Python 3.12, then when all connections are closed (`waits`). -/
def shut (waits : Bool) (s : St K) : Prop := waits = true → ∀ k, s.link k ≠ .connecting ∧ s.link k ≠ .task .reading

/-- * `connect`, `greet`, `drop`: a channel connects to the server; the handler has its data and makes its task; it goes away
* `linkEof`, `linkBreak`: a channel's connection ends, or ends in the middle of an acknowledgement, 425
* `graphEof`, `shmEof`, `chanEof`: the other connections end
* `linkStep`, `graphStep`, `shmStep`, `chanStep`, `connStep`: what the task waits for in `finally` is there
* `join`, `leave`: the first other client of the publisher's own channel comes, the last one goes
* `grow`, `made`, `moved`: a broadcast asks for a larger segment; has it, copies the buffers and closes the old one; takes the
  new one; `wait_closed` may have been waiting for the old one. Copying raises `BufferError` if the old segment was closed meanwhile, shm.py:141-142
* `close`, `wait`, `waitStep`: see above -/
def step (waits : Bool) (a : Act K) (s s' : St K) : Prop :=
  match a with
  | .connect k => s.conn = .serving ∧ s.link k = .absent ∧ s' = s.setLink k .connecting
  | .greet k => s.link k = .connecting ∧ s' = { s.setLink k (.task .reading) with order := s.order ++ [k] }
  | .drop k => s.link k = .connecting ∧ s' = s.setLink k .absent
  | .linkEof k => s.link k = .task .reading ∧ s' = s.setLink k (.task (.closing false))
  | .linkBreak k => s.link k = .task .reading ∧ s' = s.setLink k (.task (.closing true))
  | .linkStep k => ∃ b, s.link k = .task (.closing b) ∧ s' = s.setLink k (.task (.ended b))
  | .graphEof => s.graph = .reading ∧ s' = { s with graph := .closing false }
  | .graphStep => ∃ t, s.graph.finish = some t ∧ s' = { s with graph := t }
  | .chanEof => s.chan = .reading ∧ s' = { s with chan := .closing false }
  | .chanStep => ∃ t, s.chan.finish = some t ∧ s' = { s with chan := t }
  | .shmEof => s.shm = .reading ∧ s' = { s with shm := .closing false }
  | .shmStep => ∃ t, s.shm.finish = some t ∧ s' = { s with shm := t }
  | .connStep =>
    (s.conn = .shutting ∧ shut waits s ∧ s' = s.unregister) ∨
    (s.conn = .leaving ∧ (∃ b, s.chan = .ended b) ∧ s' = { s with conn := .ended })
  | .join => (s.mine = true ∨ s.others = true) ∧ s' = { s with others := true }
  | .leave => s.others = true ∧ s' = { s with others := false, chan := if s.mine then s.chan else s.chan.cancel }
  | .grow => s.growth = .idle ∧ s' = { s with growth := .creating }
  | .made => s.growth = .creating ∧
    s' = if s.shm = .reading then { s with growth := .switching, fresh := .reading, shm := .closing false }
      else { s with growth := .idle, stray := .reading :: s.stray }
  | .moved => s.growth = .switching ∧ (∃ b, s.shm = .ended b) ∧
    s' = { s with growth := .idle, shm := s.fresh, wait := if s.wait = .shm then .graph else s.wait }
  | .close => s' = PubClose.close s
  | .wait => s.wait = .idle ∧ s' = { s with wait := .shm }
  | .waitStep => ∃ w, PubClose.waitStep s = some w ∧ s' = { s with wait := w }

/-- Runs. -/
def run (waits : Bool) : List (Act K) → St K → St K → Prop
  | [], s, t => s = t
  | a :: as, s, t => ∃ s', step waits a s s' ∧ run waits as s' t

/-- A publisher that was just created: it serves, is registered with its own channel, and other clients may be. -/
def init (others : Bool) : St K :=
  { graph := .reading, conn := .serving, mine := true, others := others, chan := .reading, link := fun _ => .absent,
    order := [], shm := .reading, fresh := .reading, stray := [], growth := .idle, wait := .idle }

end PubClose
end Ez
