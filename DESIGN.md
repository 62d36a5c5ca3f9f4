# Formal model of ezmsg: design

Source under study: `/repo/src/ezmsg` (read as text, never run). Everything below
`/verif/lean/Verif` is Lean 4 (4.33.0).

## Layout

* `Verif/Model/*.lean`: executable models, one per source file (or part of it). Every
  definition cites the file and lines it models and says where it simplifies.
* `Verif/Lemmas/*.lean`: helper lemmas and invariants.
* `Verif/Props/*.lean`: one file per group of properties: a small specification that does not
  use the model's helpers, the property theorems, and examples showing that the hypotheses are
  satisfiable by a non-trivial case.

## Modelling conventions

* Python `set` / `dict` are association lists or duplicate-free lists; iteration order is only
  fixed where CPython fixes it, theorems talk about membership otherwise.
* Exceptions are values (`Except`, `Option` or an explicit outcome); nothing is totalised by a default
  value. Out-of-range indices are errors.
* Python integers are `Nat` where the code guarantees non-negativity, `Int` otherwise.
* asyncio: code between two suspension points (`await`) runs atomically. A concurrent
  program is a transition system whose steps are these atomic pieces; theorems quantify over all
  step sequences. TCP connections are FIFO byte/message queues that do not lose data while open.
* `broadcast` leases a buffer for a channel after `await writer.drain()`, the system model in the same step as the write.
  The acknowledgement cannot be handled in between: it arrives over the same event loop, which resumes a task whose
  `drain` is complete before it handles bytes that arrived later. `Model/Overlap.lean` keeps the two apart.
* UUIDs are opaque values; `uuid1()` is assumed to return fresh values.

## Plan per property (details added as the proofs are built)

| id | what is modelled | how proved |
|----|------------------|------------|
| C01, C02 | `backpressure.py` branch by branch | refinement to the history "leased and not freed since", induction over operation lists |
| C03, C04 | `messagecache.py` with memory views as tokens and a release log | refinement to "latest put per slot", counting invariant |
| C05-C09 | `dag.py` including `_bfs`, `_prune`, ownership | invariant over operation lists; reachability as an inductive relation |
| C10, C11 | graph server request handling on top of the DAG model | invariant over request lists; C10: whoever is not up to date is due in a notification loop |
| C12, C13, C15 | `netprotocol.py` encoders/decoders on byte lists | round-trip theorems |
| C14, C15, C18 | `messagemarshal.py` on byte lists | round trip, frame property |
| C16, C17 | `shm.py` offset arithmetic, publisher's size check | arithmetic; C17 is violated in a 16 byte window: witness + `_partial` |
| C19-C25, C27, C28 | publisher / channel / subscriber transition system built from the backpressure, cache and queue models, arbitrary numbers of publishers, processes, subscribers; every schedule | inductive invariants; measure argument for draining |
| C26 | transport choice functions | case analysis lifted to all channel lists |
| C29, C30 | process registry and request routing of the graph server | invariants over event lists |
| C31, C33 | event log and stream queues; the server's two logs | invariants over operation lists, lifted to every server run |
| C32, C51 | settings table, session metadata, settings events | invariant relating the table to two history functions (`metadataOf`, `reported`); C32 fails: witnesses + `_partial` |
| C52 | topology events | exact effect of each step on connections and units |
| C34, C35 | `backend.py` tree crawling, process collection, relay rewriting | structural induction on component trees |
| C36 | `graph_util.prune_graph_connections` | reachability argument |
| C37 | settings patching on nested records | lens laws |
| C38 | channel manager with suspended creation | invariant; overlapping registration is a witness of failure |
| C39 | port scan | induction on the remaining range |
| C43, C44, C53-C57 | `axisarray.py`, `chunker.py` on arrays as functions of index tuples | element-wise refinement, list arithmetic |
| C40-C42, C45, C46, C50 | `ezmsg.util` units as state machines | invariants / round trips |
| C47 | overlapping broadcasts as interleaved atomic pieces | witness of failure, `_partial` for serialised broadcasts |
| C58, C60, C61 | process control and session clients as transition systems | invariants; all three fail: witnesses + `_partial` |
| C62 | the system model plus departures | simulation by the system without departures, in both directions for the steps of those who stayed; fails in general: witnesses + `_partial` |
| C64 | one publisher's loop over its channels with the dictionary iterator made explicit | invariant over the log; fails: general theorems + witnesses + `_partial` |
| C65 | the profiling registry of a process as a function of the list of calls | the history is split where the endpoint registered and where snapshots were taken; induction over the pieces |
| C66 | the system of C19 with the stored number of every publisher beside it | per step: either the number is stored, or the leases only shrink (`Calmer`), or the publisher is in the middle of a broadcast |
| C67 | the registry of C65; `trace_batch` with its heap | batches related to the queues by an interleaving relation (`Mrg`); invariant relating queue, collected samples and a separate account of what should be recorded |
| C68 | the trace buffers of the graph server and the rounds of followers (`Model/TraceStream.lean`) | per (follower, process): the buffer is the numbered tail of what was pushed, the follower's number says how much it has got or lost; compared round by round with a separate account |
| C70 | processes, runner, two barriers and `term_ev` as one state (`Model/Lifecycle.lean`) | invariants of the barriers; bound on the program's own steps and progress when nothing went wrong; failing is final, so the stop barrier stays closed |
| C71 | `replay` as phases with a clock (`Model/Replay.lean`), requests and time as steps | invariant per phase: what was published about each file; bound on what a paused or stopped unit publishes; lower and upper bounds of times; measure of steps left |
| C72 | `get_compactified_graph` for any naming hierarchy (`Model/Compact.lean`) | the map of each level agrees with one function; composition of images; invariant relating the numbers kept to true levels after k passes |
| C73 | `graph_string` as tree of segments and list of lines (`Model/Draw.lean`) | what entering a name does to the leaves of a tree; reading lines back; composition with C72 |
| C74 | `UnitMeta.__init__`, `ComponentMeta.__init__` as folds over bases and fields (`Model/Classes.lean`) | table of a class from those of its bases; strong induction: the lowest class with the field wins; concrete hierarchies for the negations |
| C75 | `_as2d`, `view2d`, `shape2d` on shapes and index functions (`Model/View2d.lean`) | `unravel` and `ravel` are inverse; rows as lists of all index tuples |
| C76 | `ModifyAxisTransformer`, `SetKey`, `FilterOnKey` (`Model/Modify.lean`) | induction over the dimensions for `squeeze`, over the axes for the new dictionary |
| C77 | generators as machines, `Gen`, `compose` (`Model/Generator.lean`) | induction over messages; for `compose`, one message through the chain |
| C78 | `check_fields`, `subscribe_publish` of `gen_to_unit` (`Model/Generator.lean`) | induction over messages |
| C79 | `TerminateOnTimeout` as a fold over timed events (`Model/Timeout.lean`) | the state is the last message; induction from the end |
| C80 | publishers, units holding messages and the lock of commands (`Model/GraphSync.lean`) | invariants over all steps; a lexicographic rank along the order of publishers; a state no step leaves |
| C81 | commands as lists of updates and answers; overlapping updates (`Model/Updates.lean`) | counting updates, confirmations and timeouts along all steps |
| C82 | trees of components, names and locations as state, relay units (`Model/Address.lean`) | induction over trees; join is injective on names without slashes |
| C83 | reader of the control connection, settings input, buffers (`Model/Control.lean`) | counting acknowledgements; a decreasing measure; a stuck state closed under all steps but timeouts |
| C84 | `_sanitize`, `asdict`, structured values (`Model/SettingsMeta.lean`) | functional induction; `asdict` does not change what is shown; paths into values |
| C85 | schemas of dataclasses (`Model/SettingsMeta.lean`) | by C84 for the defaults; computation |
| C86 | `==` of messages and axes (`Model/Equality.lean`) | comparison of dictionaries by counting names; a separate notion of content |
| C87 | `LinearAxis.value` and `index` (`Model/Equality.lean`) | rational arithmetic |
| C88 | `task_wrapper`, `timeit` (`Model/TaskRun.lean`) | cases of the kind of function; induction over what is yielded and over messages |
| C89 | `Component.__init__`, `Unit.setup` (`Model/UnitSetup.lean`) | induction over fields for binding arguments; numbers of new objects |
| C90 | `GraphContext.__aenter__`, `__aexit__`, `revert` (`Model/Context.lean`) | invariant over all steps; a run that ends by induction over the clients |
| C91 | `_snapshot` as a function of the server (`Model/Snapshot.lean`) | compared with the history of requests; claims of units by induction over the history |
| C92 | `settings_input_topic`, `register_metadata`, `update_settings` | at most one session registers a component, so at most one session contributes a topic; departure of the publisher as in C62 |
| C93 | `profiling_snapshot_all` as a loop over the snapshot's processes | induction over the processes; owners are unique (C29) |
| C94 | `_io_loop` as a function of what arrives, `_handle_route_request` (`Model/RouteRequest.lean`) | induction over what arrives; the response of each request by cases |
| C95 | push task, trace control, polls and the write lock as a transition system (`Model/TracePush.lean`) | invariant: recorded samples are a permutation of their fates, those sent and to be sent a sublist; progress by induction on the samples left |
| C96 | callers of `ensure` and the sockets of the host as a transition system (`Model/ServerStart.lean`) | invariants: sockets at one address and their owners; `SO_REUSEADDR` of sockets that share an address; progress by induction on the ports left |
| C97 | connections, lock and shutdown as a transition system (`Model/ServerStop.lean`) | invariant for quiet shutdowns and a weight that every step of the server lowers; violations by invariants that only the stalled client can break |
| C98 | the same (`Model/ServerStop.lean`) | invariant: lock and queue agree with the tasks; induction over the queue |
| C99 | main thread of the runner, processes and barriers as a transition system (`Model/Interrupt.lean`) | invariants of the runner's variables and of what is left; explicit runs for forced and graceful ends; violations by invariants that nothing, or no step but an interrupt, breaks |
| C100 | the two programs of a connection, interleaved in every way (`Model/Wire.lean`) | operations of the two sides commute, so all runs end in the state that one run reaches; that run by cases and induction over commands, frames and updates; violations as final states of every run |
| C101 | the tasks of a subscriber and of its channels (`Model/Closing.lean`) | invariants over all runs; a count of unfinished tasks that own steps decrease and no step increases; the violations as invariants of the states they lead to |
| C102 | the tasks of a publisher, a growing segment and `wait_closed` (`Model/PubClose.lean`) | invariants before and after `close`; a count of what is left to do that own steps decrease and no step increases; the violations as invariants of the states they lead to |
| C103 | the executor of a process and `monitor_termination` (`Model/Executor.lean`) | one invariant on jobs submitted, taken, running and over; a measure that every take or end decreases; starvation as an invariant of full executors |
| C104 | `new_threaded_event_loop` while tasks go on (`Model/LoopClose.lean`) | induction over the run by its last step, with the past of each phase; rank of the phases for termination |
| C105 | `SyncSubscriber.recv` with a timeout (`Model/SyncRecv.lean`) | one invariant: what was taken is ordered by call, what is in the queue and what was taken is what came, who can still take; runs constructed for the answers |
| C106 | `setup`: order of `network`, `process_components`, `configure` (`Model/Configure.lean`) | the search equals a structural traversal; frame and locality of `configure`; induction over the path to a component; no component is visited before one it is inside of |
| C107 | `ArrayChunker` (`Model/ChunkerUnit.lean`) | invariant: what was published is the chunks of the settings so far, and the generator is the rest of the chunks of the settings in force |
| C108 | `_component_metadata` (`Model/Metadata.lean`) | case analysis over the classes of streams; loop invariant of the dictionaries; the search reaches exactly the components of the system; permutation and order of sorting |
| C109 | `ax`, `AxisInfo.values`, `to_xr_dataarray` (`Model/Coordinates.lean`) | induction over the axes with what one round leaves in the dictionary of coordinates |
| C110 | `_future_result`, `SyncPublisher.publish`, `Publisher.broadcast` cancelled (`Model/CancelPub.lean`) | waiting calls taken out of the state: the rest is a run of the system; the outcome of the calls against the log by induction |
| C111 | channel, cache and memory with objects in use (`Model/Views.lean`) | invariant over all steps; after the end of the channel nothing changes |
| C112 | subscriber's updates and the shared registry of channels (`Model/Unsubscribe.lean`) | frame lemmas for the other subscribers; own updates by induction over the loops |
| C113 | `SyncContext` and its loop as seen by callers (`Model/SyncLife.lean`) | invariant over all steps; measure for the end of shutdown |
| C114 | a publisher, a unit that passes its messages on, and receivers (`Model/Forward.lean`) | invariant over all steps |
| C115 | attaching to segments and the record of resources (`Model/Tracker.lean`) | invariants over all steps |
| C116 | synchronous blocks without a copy (`Model/SyncZero.lean`) | invariant over all steps; measure |
| C117 | load tests: network, end, results (`Model/LoadTest.lean`) | induction; sorted lists |
| C118 | profiling decorators (`Model/Decorators.lean`) | induction over what a task yields |
| C119 | commands `start`, `serve`, `shutdown` (`Model/Command.lean`) | invariant over all interleavings |
| C120 | names of streams and components (`Model/Naming.lean`) | invariant over class statements, induction over inheritance |
| C121 | comparing versions (`Model/Compare.lean`) | counting in sorted lists, permutations, induction over pairs |
| C122 | steady environments (`Model/Steady.lean`) | composition of context managers as entering and leaving functions |
| C123 | benchmarks and reports (`Model/Bench.lean`) | invariant of the table over the lines read; counting in products; order of rationals |
| C124 | who is served and what is answered (`Model/GraphServer.lean`) | simulation of the clients by a fold over the history; C11, C29, C51, C91 |
| C125 | benchmark of round trips (`Model/HotPath.lean`) | induction over messages, samples and cases; C121 for medians, C26 for transports; the sorted list of cases is unique because names differ |
| C126 | page of a report (`Model/HtmlReport.lean`) | a reader (text, markup, attribute values, character references) is defined on its own; escaped text keeps it in its mode |
| C127 | schemas of pydantic and param classes (`Model/Schema.lean`) | "first number" is specified by a split of the list of names; case analysis |
| C128 | decorators of methods (`Model/Marks.lean`) | invariant over the decorators applied so far: the function and its list are new, everything old is unchanged |
| C129 | the class made by `gen_to_unit` (`Model/GenUnit.lean`) | case analysis; induction over the fields for `initialize` |
| C130 | queries to a process through the server (`Model/ProcessCalls.lean`) | the owner is specified by a split of the list of processes; induction over it, case analysis |
| C69 | `SyncContext` and `_recv_any` as one state with the queue of every subscription and the phase of `spin_once` (`Model/SyncSpin.lean`) | accounts per subscription (arrived = called or lost, then taken, then queued); alternation of calls and releases; a message at the head of a queue stays on its way to the callback |
| C63 | the subscriber's update loop | invariant; fails: general cut-off theorem, witnesses + `_partial` |
| C59 | `handle_subscriber` as a function of the messages that arrive | invariant over messages |
| C48, C49 | segment registry and leases | invariant; C48 expected to fail: witness + `_partial` |

Disagreements between the code and a property are recorded in section "Disagreements".

## The graph server model (`Model/GraphServer.lean`)

* Each request is one atomic step (the code holds `_command_lock` over it, or has no `await` in it). Not atomic
  and therefore split into steps: the notification of subscribers after a change (`startJob`, `notify`, `write`),
  the waiting of a routed process request (`request`, `response`, `timeout`, `resume`), sending to event
  streams (`send…`).
* A client id is never used twice (`used`), as `uuid1()` is assumed fresh.
* Session metadata is a dict from component address to initial settings value; a registration that cannot be
  decoded is not a step. Settings values are opaque.
* Shared memory segments are in `Model/Shm*.lean`, not in this state.
* Profiling streams are not modelled here.

## The units of `ezmsg.util` (`Model/Units.lean`)

* C40: `on_input` is split at its `yield`, so that gate commands can come between publishing and the check. The
  model also allows this for a closed gate, where the code does not suspend: more executions than the code has.
  `C40_passes_exactly` gives what passes between two commands, `C40_counts_since_change` what the counter is,
  `C40_changes_exactly` when the gate changes.
* C41: `put` on a full queue suspends (`putter`) and is woken by `wake`. Rate limiting and logging are left out.
  The docstring says a leaky queue drops new messages; the code, and the theorem, drop the oldest.
* C42: files are lists of lines, written completely; failures of the file system are left out.
* C46: times are integers, not floats, so rounding is left out.
* C50: raising `NormalTermination` is a flag per event; what the runner does with it is not modelled here.

## Arrays with named axes (`Model/AxisArray.lean`)

* An array is a shape and a function from index tuples to elements; what numpy functions (`take`, `transpose`,
  `concatenate`, `moveaxis`, `as_strided`, basic slicing) do to it is written out. Python slices follow
  `slice.indices`.
* The specification names an element by an index per dimension name (`Spec/AxisArray.lean`).
* Coordinates have an arbitrary type with `+ - * /` in the model; theorems about coordinates are over the
  rationals, so floating point rounding is left out. `np.rint` is any function that returns a nearest integer.
* Integer dimension arguments of `transpose` and `iter_over_axis`, `view2d`, and coordinate axes given by functions
  are not modelled.

## Processes, relays and graph display (`Model/Backend.lean`, `Model/GraphUtil.lean`)

* Component trees carry identities; the specification of C34 names for every unit the nearest component on the way up
  that was listed as a process component.
* Relays are edges of the running system: a relay's input topic leads to its output topic. C35 compares paths of the
  declared network with paths through rewritten connections and relays. That relay topics are fresh is a hypothesis.
* Graph dictionaries are key/target-list pairs; every iteration order of the sets is covered.

## Settings patches, channels of a process, overlapping calls

* `Model/SettingsPatch.lean`: settings values are trees of dataclass-like objects, mappings and leaves; a field path is
  given split at its dots; `__post_init__` is not run. Attributes found on the class (methods included) count as existing.
* `Model/ChannelManager.lean`: creating a channel is suspended between the lookup and the registration. The specification
  reads from the history which channel serves which client.
* `Model/Overlap.lean`: any number of `broadcast` calls per publisher, each with the ids it computed before its suspension
  points. Publishers are not paused in it and channels do not close. With one uninterrupted call at a time it is shown to
  be an execution of the system model (`C47_serialised_partial`), from which delivery and absence of exceptions follow.

## Growing segments and logged messages

* `Model/Growth.lean`: one publisher and any number of channels in other processes. Message sizes are left out: any
  broadcast may grow the segment. Every channel has at least one client. The server keeps a name as long as somebody holds
  the segment and reports an error afterwards.
* `Model/Codec.lean`: JSON text is a tree. What base64, pickle and the array constructors must do is the hypothesis
  `Lib.Ok`. Dataclasses are built from keyword arguments; `__post_init__` is not run.

## Running units and control connections

`Model/Runner.lean` is `task_wrapper` and `handle_subscriber` for one stream of a unit that is not leaky (a leaky
subscriber releases the message when it is received). A coroutine's behaviour is an arbitrary function of all messages it
was called with. Cancellation at shutdown is not modelled.

`Model/SettingsTrack.lean` is the interplay of the settings callback and the patch handler of one unit;
`Model/ControlClients.lean` the two clients that send commands over one connection. Both have one atomic step per piece of
code between awaits.

## Departures

`Model/Departure.lean` adds two steps to the system model: a publisher is closed (its tasks take no more steps), and a
channel notices that (unread messages are gone, the cache is cleared). `Lemmas/Departure*.lean` show that no step looks at
the wire or the cache of such a channel unless a subscriber has an unfinished message of it; that gives a simulation by the
system without departures.

`Model/Follow.lean` is the loop in which a subscriber follows the graph server, with the outcomes of registering and
unregistering as part of the events.

`Model/Joining.lean` is the loop of `broadcast` over `_channels`, which the system model assumes undisturbed: channels join
and are removed while the loop is suspended in `drain`, with the checks CPython's dictionary iterator makes.

## Profiling (`Model/Profiling.lean`)

`ProfileRegistry` is one state changed by calls (`Act`), each with the time it read from the clock. A snapshot resets the
windows of all endpoints, so two observers of one process share its windows: each is told only what happened since the
other one asked (example in `Props/Profiling.lean`). The code does not say
whose previous snapshot a window refers to, so this is not counted as a disagreement. `heapq` is modelled by taking the least element. Times and values stay integers where the
code converts them to `float`; calls are not interleaved with each other.

## Synchronous code (`Model/SyncSpin.lean`)

`_recv_any` starts one task per subscription. A task which finds its queue empty waits; when it is cancelled it has taken
nothing (`asyncio.Queue.get` takes an item only when it returns), so a message is taken exactly when a task is done. All
tasks run before `asyncio.wait` can return, also with timeout 0, because they were scheduled before its timer. The order in
which finished tasks are reported (a set) is arbitrary. Messages dropped on an interruption are logged as `lost`; that the
garbage collector later closes their generators, which hands the buffers back, is not modelled.

## Lives of processes (`Model/Lifecycle.lean`)

Each process goes through set-up, start barrier, running, stop barrier and shut-down; a barrier is a flag which the last
party to arrive sets. Coroutines are counted in two kinds, those which end by themselves and those which run until they are
cancelled (loops of subscribers). `Own` steps are those the program takes by itself; `C70_ends_partial` relies on user code
for three things: coroutines of the first kind end, cancelled ones end, main functions return. Forced quitting by a second interrupt
and interrupts during set-up are in `Model/Interrupt.lean` (C99); threads of units are not modelled.

## Replaying (`Model/Replay.lean`)

The generator `replay` is suspended at the places where it waits, publishes or sleeps; requests and the passing of time
come in between. Times are whole numbers of an arbitrary unit; a line of a file is not JSON, JSON without the expected entries, the
start mark, or a message; a rate is given by the time between messages. The events `anchor` and `cut` record
what the code computes (`playback_t0`, `replay_t0`) and does (`break`), they are not published. Not modelled: files that cannot be opened, a
file changing while it is played, `filename` being `None`, `tqdm`.

## Compact graphs and drawings (`Model/Compact.lean`, `Model/Draw.lean`)

Names are of any type with a parent and a size that is smaller for the parent (a path is shorter without its last part); sets are
iterated in any order, which may differ from level to level. The level of a component is stated without numbers kept
by the code: `AtMost g a k` says no node of the graph is more than `k` parents below `a`. Not modelled: negative levels.

A drawing is a list of lines, the same for both formats; indentation and the words of the formats are not modelled, nor is what
Mermaid or Graphviz make of special characters in names. A name is the list of its segments; `uuid4` is a function of names. `read`
is the specification: it reads nested subgraphs, nodes and connections back.

## Views, renaming and keys (`Model/View2d.lean`, `Model/Modify.lean`)

Arrays are those of `Model/AxisArray.lean`. `reshape` is row-major; whether it shares memory is a parameter of `view2d`, and the body of the
`with` block is any function of the contents together with how it ends. `in_arr[:] = arr` is modelled for equal shapes. After renaming,
the keys of axes are optional names, as `None` can become a key. Axes are passed on as they are: a `CoordinateAxis` keeps the old name in its own
`dims`. Units are folds over settings and arrays; exceptions are logged and the next array is taken, as without `EZMSG_STRICT_SHUTDOWN`.

## Synchronizing graphs (`Model/GraphSync.lean`)

A transition system of publishers, units which hold messages, and the graph server, whose commands `pause`, `resume` and `sync` exclude one
another. Commands reach a publisher in order; a publisher in `sync` reads no commands. What is counted for a publisher is one copy of each
message for each subscriber. Which buffers are free is left open (with nothing in flight the next one is free), hence the theorem about progress
names a step which does not depend on it (`Certain`). Not modelled: publishers which join or leave, `Publisher.pause/resume/sync` called by the
program itself, leaky subscribers (they hold nothing), and fairness: `C80_answer_partial` and `C80_finite` together say that `sync` is answered
unless tasks go on publishing for ever.

## Confirmed updates (`Model/Updates.lean`)

Two models. In the first, commands are handled one at a time, each a list of things to do taken from the code (`Cmd.plan`); updates carry the number
of their command, streams to and from a subscriber are queues, and any update may time out. In the second, calls of `_notify_subscriber` for one
subscriber overlap; a woken call goes on at any later time, a call which finds the event set goes on at once. Not modelled: subscribers which leave,
what an update contains (C10, C63), failures to register channels (C63).

## Addresses (`Model/Address.lean`)

What `_name` and `_location` hold is the state, the dictionaries of components and streams a tree whose nodes have identities, so that using an object
twice can be said. `place` is the first loop of `setup` with `Component._set_location`, `addRelays` the crawl that adds relay units (result a tree over
old and new objects, and the bindings as a dictionary keyed by address). Names of members are those under which classes hold them (component.py:51-55,
collection.py:34-37). Not modelled: order of the crawl among siblings; members replaced after construction.

## Control requests and reports (`Model/Control.lean`)

One process with one settings input, its own settings publisher with `n` buffers, the connection from the graph server as one queue read by `_io_loop`
only while no handler runs, the task of the settings input holding a message while it reports it and works on it. Measures and the two ways to halt are
proved for all interleavings. Not modelled: values (C58), results of commands (C60), responses as seen by the requester (C30).

## Settings as plain data (`Model/SettingsMeta.lean`)

Values are trees of the kinds that `_sanitize` and `dataclasses.asdict` distinguish. `_sanitize` calls itself on what `asdict` gives; the model does the same
and terminates because `asdict` removes a dataclass object. `repr` is a parameter, `str(key)` is part of a key. Schemas of dataclasses are here,
those of pydantic and `param` classes in `Model/Schema.lean`. Not modelled: a `defaultdict`, an object of several kinds, or one that contains itself. `float(bound)` is left
out: bounds are the declared values.

## Equality of messages (`Model/Equality.lean`)

Objects carry an identity, since `is` is consulted by `ArrayWithNamedDims.__eq__` and when dictionaries are compared. `x == y` is modelled with
`NotImplemented` and the reflected call. Which `__eq__` a `CoordinateAxis` has follows from the order of its bases. `==` of numbers is a parameter: lawful in
`C86_equal`, arbitrary in `C86_self` and `C86_nan`. Attributes are strings and arrays of one dimension. `LinearAxis.index` is modelled in exact arithmetic.

## Running tasks (`Model/TaskRun.lean`)

A function of the user is given by its kind and by what it does with a message: what it yields and how it ends. Calling a coroutine function or generator
function runs none of its code; that is why `timeit`, which raises after the call, keeps the code from being run. Broadcasts may raise. Several tasks of one
subscription are in C59.

## Settings and states of units (`Model/UnitSetup.lean`)

Objects are numbers; a factory takes the next number. The constructor of a settings class binds arguments like a dataclass (no keyword-only fields, no `init=False`).
`initialize` is an arbitrary function of the settings and the attributes of the state; it may raise. Not modelled: an `initialize` that replaces `STATE`.

## The life of a graph context (`Model/Context.lean`)

Clients are numbers that are open, closed or have a failed task; `made` is a record for the specification: which clients were made, and whether that was after
`revert` had begun. The session and its connections are what the server keeps of the context; `lose` is a session connection that breaks. Clients may be made, closed and dropped at every
await of `revert`. Not modelled: cancellation of `revert`.

## Snapshots (`Model/Snapshot.lean`)

`snapshot` is a function of the server's state (`Model/GraphServer.lean`), so C91 compares it with the history of requests: `C11`'s connections, the owners that made them (`MadeBy`), the sessions and
processes that opened and did not leave, the units that were claimed. The orders used by `sorted` are parameters; that the result is sorted needs that they are total and transitive (`C91_sorted`).
`updateSettingsCall` takes as parameters whether `publisher`, `broadcast` and `wait_closed` return; whether the value is received is a matter of `Model/Departure.lean`. If `wait_closed` raises, the closed
publisher stays in the context's set of clients. `profileAll` takes the state of the server at each request, and what each process answers. Not modelled: `pid`, `host`, the time, the conversion of ids to strings.

## Requests to processes and the push task (`Model/RouteRequest.lean`, `Model/TracePush.lean`)

`Model/RouteRequest.lean`: `_io_loop` is a function of what arrives, so that a request is handled to its end before the next command is read, as in the code. The handler is a function from the request to what it does
(returns a response, something else, a coroutine with its result, raises); the profiling registry is a state that the built-in operations use. Not modelled: the time a handler takes, the contents of ping and profiling
payloads. `Model/TracePush.lean`: steps of `_trace_push_loop` interleaved with everything else that touches samples or the write lock. The registry is one list (C67 proves that `trace_batch` returns samples in order of their times);
samples that a full buffer drops, or that go with an unregistered publisher or subscriber, are not `recorded` here.

## Finding or starting the graph server (`Model/ServerStart.lean`)

Any number of callers of `GraphService.ensure` on one host, with their environments, addresses and `auto_start`; a step is one call of the operating system (`connect`, `bind`, `listen`), so that other callers and other programs
can come between two of them. Assumed of the system: the rules of Linux for `bind` and `listen` that the head of the file states. Not modelled: name resolution and wildcard addresses, what listens without being a graph
server, timeouts.

## Connections, the command lock and the end of the graph server (`Model/ServerStop.lean`)

The state is where the task of each connection waits, the lock with its queue, and where `monitor_shutdown` is; what the commands do to the graph is in `Model/GraphServer.lean`. Assumed of asyncio: `Lock` is given in the order of
asking; a task that is cancelled before its first step never enters its body; `Server.wait_closed` waits for all connections since Python 3.12.1 and returns at once before (a parameter of the model). Not modelled: updates of
subscribers under the lock (they have a timeout), the time to close a connection, garbage collection of connections that nobody refers to.

## Interrupts of a run (`Model/Interrupt.lean`)

The main thread of `run_blocking` from `_start_processes` on as a program counter, the processes that it started as five phases each, the two barriers. An interrupt comes where the main thread waits or starts a process; the few statements
of an `except` clause are not interrupted. Assumed of `multiprocessing`: a barrier whose waiter is interrupted forgets it; `terminate` ends a process; a process does not die while it waits at a barrier. Not modelled: what the
processes do between the barriers (C70 has it), `EZMSG_STRICT_SHUTDOWN`, Windows, interrupts during `_initialize`, `start`/`stop` instead of `run_blocking`.

## What travels over connections (`Model/Wire.lean`)

Both sides of a connection are programs of writes, `read(1)`, `readexactly` and closes, in the order of the code; a run is any interleaving of their operations, so bytes arrive with any delay. `Lemmas/Wire.lean` shows that operations of the two
sides commute; so one run to a state in which nothing is left to do proves that all runs lead there. What the server decides is a parameter (C01-C12, C54-C57, C91-C98 are about the decisions). Not modelled: a client that
breaks off in the middle of a request, timeouts of updates, pauses of publishers, and whether asyncio closes a connection whose handler raised.

## Closing a subscriber (`Model/Closing.lean`)

One subscriber and the channels of its process as tasks; a state of a task is the await it is suspended in, and `Task.cancel` is a function of that state, as CPython has it: the error is thrown at the await, and passed on to a task that is awaited.
Not modelled: tasks that are cancelled before their first step, registering and unregistering that raises (`Model/Follow.lean`), a channel that is created anew while it is being closed, and messages.

## Closing a publisher (`Model/PubClose.lean`)

The tasks of one publisher in the style of `Model/Closing.lean`, a broadcast that grows the segment, and `wait_closed` with Python's check for a dictionary that changes during a loop. The tasks of the publisher's own channel are one task. Whether
`Server.wait_closed` waits for open connections depends on the version of Python and is a parameter.

## The threads of a process (`Model/Executor.lean`) and closing its loop (`Model/LoopClose.lean`)

The executor is a queue, a set of running jobs and a number of threads; `submit` and the counting that follows are two steps, the callback of a job that is done is a third. The closing of the loop is a sequence of phases of the closing thread,
between which tasks start, end, fail or keep the thread busy in any order. C104 is stated on the run itself: which tasks were alive at the moment of the snapshot and at the end of the wait.

## Receiving synchronously (`Model/SyncRecv.lean`)

The calling thread, the futures, what the loop was asked to do (in order), the tasks that wait and the results on their way are kept apart, since the loss of C105 lies between them. `taken` and `late` are recorded for the statements only. The zero-copy
variant takes messages in the same way; that the message stays borrowed until the generator is collected when `__enter__` raised is not modelled.

## How settings reach components (`Model/Configure.lean`)

The tree carries the three methods of every collection as functions of its settings; the search is the loop over the explicit stack. The specification goes up from a component, nearest collection first, and does not mention the search.

## The array chunker unit (`Model/ChunkerUnit.lean`)

The state of the generator is the list of chunks that `array_chunker` (`Model/Chunker.lean`) has still to yield. A run is any interleaving of settings messages and turns of the loop of `send_chunk`.

## Metadata (`Model/Metadata.lean`)

`isinstance` is the relation that follows from the bases of the classes in `stream.py`. The specification `Describes` names the class and the parameters of every entry directly, without the chain of tests. What is worked out from the class and the settings of a component
(type names, pickled settings, schema) is one opaque value. A topic or relay that a unit inherits from a base class which is not a unit passes `UnitMeta` and has no entry; units of this kind are not covered by the claim.

## Coordinates (`Model/Coordinates.lean`)

The arguments with which `to_xr_dataarray` calls `DataArray`; what `xarray` makes of them is outside the model.

## Publishing with a timeout (`Model/CancelPub.lean`)

The system of `Model/System.lean` with two more steps: the calling thread gives up (`future.result(timeout)` raises), and the cancellation it asked for reaches the call, unless the call has ended before. A call waits in `_running.wait()`, `_backpressure.wait()` or `drain()`.
`Lemmas/Overlap.lean` shows that waiting calls can be taken out of a state without changing what the others do; that is why a state in which such a call was cancelled is reachable without it.

## Messages in use (`Model/Views.lean`, `Model/Unsubscribe.lean`)

These two rest on facts about CPython and NumPy that the code itself does not show: an array unpickled from an out-of-band buffer refers to the memory through a view of its own, so that releasing the cache's views succeeds while the array is alive; and `mmap.close` raises `BufferError` while such a view exists. In `Views` the
channel handles notifications at once (`Model/Growth.lean` has the lag) and its clients do not change. In `Unsubscribe` an update is one step and new channels can always be made; which channels have memory in use is arbitrary.

## Synchronous contexts (`Model/SyncLife.lean`)

The loop runs what is submitted in order; what the coroutine of a call does is arbitrary. `spin` is in `Model/SyncSpin.lean`, timeouts of calls in `Model/SyncRecv.lean` and `Model/CancelPub.lean`, the tasks that are cancelled in `Model/LoopClose.lean`. The step `drop` stands for CPython closing the suspended generator
`new_threaded_event_loop` when nothing refers to the context any more, which also stops the thread.

## Units that pass messages on (`Model/Forward.lean`)

An array unpickled from an out-of-band buffer keeps a memoryview of its own on the shared memory (`np.frombuffer`), so the cache may release its views (`messagecache.py:142-150`) while the array lives on; what it shows is what is in the memory. The unit is the publisher's only client. The end of the publisher's memory is in
`Model/Views.lean`.

## The resource tracker (`Model/Tracker.lean`)

Taken from CPython: `SharedMemory.__init__` raises before it registers or registers once, and everything looks `register` up in the module when it is called. Threads may be switched between any two of the steps.

## Synchronous blocks (`Model/SyncZero.lean`)

From CPython: the first step of a task comes before a cancellation that was asked for earlier than that step; `asyncio.Queue.get` that is cancelled takes nothing; a generator that nothing refers to is closed by its loop. A superset of the real orders is allowed: a task may take its message any time after it was created.

## Load tests (`Model/LoadTest.lean`)

Times are rational numbers, so rounding is left out; `sorted` is insertion sort. Only the connections of a test are modelled, not how its components are spread over processes, nor that messages get from one to the next (C01 and others).

## Profiling decorators (`Model/Decorators.lean`)

A task is what it yields, the time each message takes and how it ends; reading its messages takes the consumer's time. Lines of the log are their fields, with exact times. Not modelled: `functools.wraps`, closing a generator before its end, several processes that write one file.

## Commands (`Model/Command.lean`)

`start`, its child, the other programs of the host at the address and calls of `shutdown` take steps in any order; `bind` and `listen` fail as on Linux. Words of the command line are values, not text. Not modelled: connections that keep a server from stopping, interrupts of the child before `join`, `open_connection` failing otherwise than by refusal.

## Names (`Model/Naming.lean`)

Objects are numbers, `deepcopy` makes new numbers and keeps names; class statements give names or raise. Not modelled: what objects hold, settings and state types.

## Comparisons (`Model/Compare.lean`)

Times are rational numbers, not floating point numbers; a run of the benchmark is any dictionary of times, which may depend on the pair and on the place in it; a shuffle is any permutation. Not modelled: worktrees, interpreters, descriptions of the environment, unmeasured runs, files.

## Steady environments (`Model/Steady.lean`)

A host is what it permits, a process its environment variables, priority, processors, garbage collector, timer requests and `caffeinate` processes; the measured code is any function of the process it finds. Lowering `nice` needs privileges. Not modelled: warm-up, `gc.collect`, hosts where reading the priority or the processors fails.

## Benchmarks (`Model/Bench.lean`)

An entry of the log has one metric, as all are treated alike; numbers are rational, the medians are those of C121. What a test measures is any function of how many were performed before it; a shuffle is any permutation; quitting is asked before every test. A file is any sequence of descriptions with the entries after them. Not modelled: tests that raise, the text and HTML of the report, encoding of lines, differences of environments.

## The benchmark of round trips (`Model/HotPath.lean`, C125)

`util/perf/hotpath.py`: cases, the publisher's options, the two loops of a sample, the summary, and the suite with its server
and log level. Each operation (start of the server, opening, sending, receiving, closing) takes a time and may raise, as a
given environment says; leaving a context and stopping the server do not raise. The asynchronous and the synchronous loop
do the same operations and share one definition. Floating point numbers are rationals and the square root of `pstdev` is a
parameter. The shuffle is any permutation of the cases. Not modelled: the command line, the printed text, the JSON file;
`stable_perf` around each sample is C122. `_validate_transport_support` never raises in this version, as `Publisher.create` has
`allow_local`. That messages travel as chosen uses `Transport.handOvers` (C26) with the one channel of the benchmark's process;
`shm` and `local` need it to be attached to the segment, as it is in the publisher's own process.

## The page of a report (`Model/HtmlReport.lean`, C126)

`analysis.py`: escaping, the controls, the lists of changes, the rows and their colours; `envinfo.py`: the differences of two
environments. Texts are lists of characters, `html.escape` is its five replacements one after the other. The reader in
`Props/HtmlReport.lean` is a small part of HTML: `<` begins markup, `>` ends it, values stand between apostrophes, and the five
character references are resolved in texts and values; it does not know double quotes, comments or scripts, which the modelled
parts do not use. Formatted numbers are texts given without special characters. The fields of an environment are looked at
in the order of the first one, where Python has a set; the lines are sorted. Not modelled: style sheet, script, printing on a
terminal, opening a browser, and NaN in `severity` other than by its score 0.

## Schemas of pydantic and param classes (`Model/Schema.lean`, C127)

The rest of `settingsmeta.py`. The objects of these libraries are given by their attributes (a function from names to values); the model says
nothing about which attributes the libraries set. Exceptions of `is_required()` and of `float` for integers that are too large are left
out, keys of a mapping of choices are strings, and a `frozenset` counts as a `set`.

## Decorators (`Model/Marks.lean`, C128)

`unit.py:135-332`. A heap of functions (their `__ez_…__` attributes) and of lists of streams, because `functools.wraps` shares lists. Python's order is
kept: all decorator expressions are evaluated (and check their stream), then the function is made, then decorators are applied from the lowest up.
What a class does with the marks is C74, what a call of a measured function does is in `Model/TaskRun.lean`. Deprecation warnings are left out.

## The class made by `gen_to_unit` (`Model/GenUnit.lean`, C129)

The signature (annotation of the result, parameters with their defaults) is the input; the result is the fields of settings and state, the streams, which of
the four tasks, and whether there is a warning. Annotations of parameters, `*args` and `**kwargs`, and `output_stream_kwargs` are left out. Which defaults
have a hash is a parameter. What the unit does with messages is C78.

## Queries to a process through the server (`Model/ProcessCalls.lean`, C130)

The client's functions, the routing in the server and the process of `Model/RouteRequest.lean` are composed. Requests carry bytes, with `pickle` as a
parameter of which the theorems assume that it gives back what was dumped and dumps nothing to no bytes (`Pickle.Good`; the examples have one).
A connection works, is broken, or is late; a process whose handler is cancelled or answers with something that cannot be pickled does not answer.
Requests that overlap, the texts of errors and sessions that are closed are left out.

## Generators and timeouts (`Model/Generator.lean`, `Model/Timeout.lean`)

The body of a generator function is a machine with any type of states: run from its beginning or from a `yield` to the next `yield`, it gives a
value or ends. `send`, `consumer`, `compose` and `Gen.on_message` are modelled on top of it. Not modelled: `throw` and `close`, and that a
generator may be shared by several units. For `gen_to_unit`, the case with input and output is modelled, with `STATE` as a dictionary without
`gen`; tracked attributes are those of parameters. `TerminateOnTimeout` is a fold over messages and polls with their times; polls come
from the loop of the task, and how long they are apart is a parameter.

## Classes of units (`Model/Classes.lean`)

A program is a list of class statements, numbered in order; a class is a unit or an ordinary class, has bases and fields, each marked
as a stream, task, thread, main function or none of these. `make` is what the metaclasses do, with the exception as `none`. Collections
are not modelled, nor are fields assigned after the class statement. The specification does not use Python's C3 linearisation but any order
which contains every class above once, subclasses first (`IsMro`), so the results hold for the order Python takes.

## Testing against wrong programs (`seeded/LOG.jsonl`)

Each line is one edit of the model in a scratch copy. The field `reached` says how far the edit got:

* "an instance of the statement of T is false of the edited model": the strongest kind. The proofs that broke were
  replaced in the scratch copy and `False` was derived from an instance of T, so T's statement excludes this bug.
* "its proof no longer checks": a theorem of a claim failed, but perhaps only its proof script.
* "helper lemma only": the build stopped at a lemma about the edited definition, often one that restates it. The
  theorems of the claim were not rebuilt. Such a line is no evidence that they are strong enough.

The rounds up to the graph server were first run without the first kind of check; 68 of their lines are of the last
kind. They were repeated with it, and the later lines for the same claims record the outcome. Lines are written for
every attempt; up to line 189 they were written for an attempt of the repetition only when it succeeded. Edits for which
it did not succeed carry a note; there is one (`removeEdge`, line 12), equivalent on reachable states because no owner
set is ever empty. Two others (`releaseSetting`, `disconnect`) were for a while taken to be equivalent; they are not,
the test itself was wrong, and the last lines of that round refute them.

## Trusted base

* Lean's kernel and the axioms `propext`, `Classical.choice`, `Quot.sound` (checked per theorem with
  `#print axioms`).
* That the definitions in `Verif/Model` describe the cited code under the conventions above.
* Not modelled: the Python interpreter, pickle, numpy internals, operating system sockets and
  shared memory beyond the byte-level view used here, real time.

## Disagreements

Places where the code does not have the property as stated. Each has a theorem proving the negation on a
concrete witness and a `_partial` theorem for what does hold.

* **C17** (`pubclient.py` size check, `messagemarshal.py`): a message whose size lies in the last 16 bytes
  of the slot passes the publisher's check and then raises `ValueError` while being written.
* **C24**: a leaky subscriber inside a `recv_zero_copy` block holds message `m`; once message `m + num_buffers` is
  due, the publisher waits for it, however short the queue is.
* **C25** (`messagechannel.py:445-467`): `unregister_client` frees the departing client's leases in the channel
  but neither releases the cached message nor acknowledges it when that was the last lease. The publisher's
  buffer stays leased and its broadcast blocks, as long as other clients keep the channel open.
* **C28** (`pubclient.py:475-569`): `_running` is checked once at the start of `broadcast`. A call already
  waiting for a buffer proceeds while the publisher is paused, and `sync` may return with its message
  under way.
* **C49** (`graphserver.py:268-300`): `GraphServer.shms` never forgets a removed segment; an attach by name
  after removal succeeds and the segment is removed a second time.
* **C30** (`graphserver.py:1188-1229`): a response whose sender is not the process the request was sent to pops the
  pending entry and completes the request with `INVALID_RESPONSE`; the real response is then unknown and dropped.
* **C32** (`graphserver.py:1428-1530`): removing a component from the settings table (its session clears or ends, its
  process leaves, a registration without it) appends no event, so a reader of the events keeps it. Registering a
  component whose value a process has reported keeps the reported value but announces the initial one.
* **C38** (`channelmanager.py:81-110`): two `register` calls for one publisher that overlap while the channel is created
  make two channels. The later one replaces the earlier in the registry; its client cannot be unregistered (`KeyError`) and
  that channel is never closed (`C38_negation_two_channels`).
* **C47** (`pubclient.py:475-569`): `broadcast` reads `_msg_id` before it waits and increments it at the end. A second call
  during the first one's `drain` sends the same id: a subscriber gets the second message for the first and then a
  `CacheMiss` (`C47_negation_same_id`). Two calls waiting for a buffer send an id that differs from the one in the message
  header, which ends the channel's reader task with an `AssertionError` (`C47_negation_assertion`). In one process the
  second call overwrites the first one's message (`C47_negation_local`).
* **C48** (`messagechannel.py:250-319`, `graphserver.py:268-300`): if the publisher grows its segment twice before a channel
  reads the first notification, nobody holds the first segment and it is removed. The channel's attach raises
  `FileNotFoundError`, which is not handled: the channel ends and its clients get nothing more (`C48_negation`).
* **C45** (`messagecodec.py`): a dataclass with a field declared `init=False` is encoded with that field and decoded by
  passing it to the constructor, which raises `TypeError`; the rest of the file cannot be read
  (`C45_negation_init_false`). Tuples are decoded as lists (`C45_tuple_becomes_list`).
* **C10** (`graphserver.py:529-566`): a publisher's departure notifies nobody, so the last update of its subscribers keeps
  listing it (`C10_negation_departed`). The loops for session requests run outside `_command_lock`, and
  `_notify_subscriber` determines the list before it waits for `sync_writer`: an update that is woken but has not run yet
  can be overtaken by a later one and is then written last, leaving the subscriber without a publisher it should hear
  (`C10_negation_overtaken`; needs `asyncio.wait_for` to run its coroutine in place, Python 3.12 on). Not modelled: an
  update whose timeout expires while it waits is never written.
* **C58** (`backendprocess.py:397-409`): the handler stores the patched settings after `await broadcast(...)`. Settings of
  another publisher processed during that await are overwritten in `current_settings` though the unit has them; the next
  patch resets them (`C58_negation_stale`). A patch computed while such a message is queued undoes it
  (`C58_negation_lost`).
* **C59** in strict mode: an exception ends `handle_subscriber` without closing the subscriber. It stays registered and
  unread, so upstream publishers block once their buffers are full.
* **C60** (`processclient.py:213-217`): answers carry no id. After a timeout the late answer is taken by the next command,
  and so on for the life of the connection (`C60_negation`). A timeout can happen without a slow server: `_io_loop` awaits
  the request handler, whose `broadcast` may wait for the unit to release a settings message, while the unit waits for the
  acknowledgement of its report, which only `_io_loop` can read.
* **C61** (`graphcontext.py:288-310`): if reading a pickled response fails, the queued commands get the exception but the
  command under way does not; its caller waits forever (`C61_negation`).
* **C62** (`messagechannel.py:312-314`): a channel clears its cache when its publisher goes away, but notifications of
  the cleared messages stay in the subscribers' queues. `recv` of a message that had arrived raises `CacheMiss`
  (`C62_negation_recv`, `C62_next_message_lost`), so does leaving the block of a message being read (`C62_negation_held`).
  A leaky subscriber that drops such a notification raises inside whoever notified it: the receiving task of another
  publisher's channel, which ends (`C62_negation_other`), or another publisher's `broadcast` (`C62_negation_broadcast`).
* **C63** (`subclient.py:232-269`): exceptions from `register` and `unregister` end the update loop. If one publisher named
  in an update is gone by then, the subscriber is unregistered from all its publishers and follows no update any more
  (`C63_cut_off`); during `create` it waits forever (`C63_negation_create`). If `unregister` re-raises the failure of a
  channel's task, the `finally` block fails on the same channel and the subscriber stays a client of the remaining ones
  (`C63_negation_leak`).
* **C64** (`pubclient.py:533-566`): the loop over `self._channels.values()` suspends in `drain`. If a channel joins or is
  removed meanwhile, `broadcast` raises `RuntimeError: dictionary changed size during iteration`, the remaining channels do
  not get the message and its id is used again (`C64_raises_if_changed`, `C64_negation_join`). If a channel's loss is
  noticed while a message is being written to it and the socket still takes the rest, the lease is taken after
  `_handle_channel` freed the channel's leases and is never freed (`C64_leak_blocks`, `C64_negation_leak`).
* **C66** (`pubclient.py:428,435,561,568`, `messagechannel.py:361,413-414`): the number of messages in flight is stored when
  acknowledgements arrive over a connection, but channels in the publisher's process free leases directly and store
  nothing. After an in-process subscriber has consumed everything, the publisher goes on reporting a message in flight
  until it publishes again (`C66_stays_high`).
* **C70** (`backendprocess.py:541-544,588-603`, `backend.py:118-122,634-645,772-784`): a process whose set-up raises aborts
  the start barrier and leaves without coming to the stop barrier, which still expects all processes. The others notice the
  broken start barrier and wait at the stop barrier for ever, so `run_blocking` does not return and `start` does not raise
  its `GraphRunnerStartError` (`C70_failed_setup_hangs`, `C70_setup_fails`); only a system of one process ends
  (`C70_single_setup_failure`). A main function that raises any other exception goes straight to the stop barrier, so units are shut
  down while coroutines of the process run (`C70_main_raises_fails`). An interrupt sent only to the process of
  `run_blocking` makes it wait at the stop barrier; `term_ev` is set only after that, so the other processes are not told
  (`C70_interrupt_fails`).
* **C123** (`util/perf/run.py:156-164, 206, 252-255`, `util/perf/analysis.py:182-190, 225-237`): in a file with results of one combination for different numbers of messages, durations or buffers, as by appending one log to another, those of all but one of them are dropped silently (`C123_negation_mixed`). An unknown configuration raises `KeyError`; the `except ValueError` around it never applies (`C123_negation_config`). With no repetitions an empty file is written and the report raises `StopIteration` (`C123_negation_empty`). A rate 10.5 % higher is an improvement but the lower one, compared to it, neutral (`C123_negation_exchanged`). Any rate compared to 0 is neutral (`C123_negation_zero`). The wall clock time leaves zeros out, so that 1:00:05 looks like 1:05 (`C123_negation_wallclock`).
* **C122** (`util/perf/util.py:23-34, 53-87, 105-109`): `stable_perf` leaves the environment variables it sets (`C122_negation_env`) and the priority class of Windows (`C122_negation_windows`). `_process_priority`, which is to elevate the priority, sets -10, -5 or 0, whichever is permitted first: an unprivileged process with a negative nice such as -3 is lowered to 0 and cannot get it back (`C122_negation_nice`), a privileged one with -15 is measured with -10 (`C122_negation_lowered`). With three processors the first one, to be avoided, is used (`C122_negation_first`).
* **C121** (`util/perf/ab.py:148-156, 453`, `util/perf/util.py:227`): with an even number of pairs, as by default, both versions can be called a regression against the other, because percentages are averaged (`C121_negation_swapped`; the mean never favours `B` in both directions, `C121_mean_favours_a`). Equal times are called "improvement" (`C121_negation_equal`). `median_of_means` takes the upper one of the two middle means for an even number of buckets, which is the number of samples if fewer than five: of 1 and 100 it says 100 (`C121_negation_means`).
* **C120** (`collection.py:28-36`, `component.py:41-55`): the tables of later bases overwrite those of earlier ones, while Python's attribute is that of the first (`C120_negation_bases`); a field that is no component does not remove the component it overrides, so that `U = None` in a derived collection still makes, names and runs `U` (`C120_negation_removed`).
* **C119** (`commands/start.py:23, 33-43`, `commands/serve.py:26-40`): `handle_start` never looks at its child. If the child ends because the address is taken, the loop goes on for ever (`C119_hangs`, `C119_negation_hangs`); the same with port 0, where the child's server has another port (`C119_port_zero`); if another server runs there, `start` says that it forked one, with the number of a child that ends (`C119_stranger`, `C119_negation_stranger`).
  When the dashboard cannot be started, `serve` stops the graph server too, even after `start` has reported it (`C119_negation_dashboard`). `args.dashboard is not None` holds of `False`, which `run_command` accepts (`C119_negation_false`).
* **C118** (`util/profiler.py:79-82, 90, 167`): `_process_obj` asks for the axis of a dimension that is declared in `axes` but need not be one of `dims` (`get_axis` raises `ValueError`), or takes a coordinate the axis does not have, and nothing catches this: with log level `DEBUG` a decorated task raises where it would have published (`C118_stops`, `C118_negation`).
  `func(unit, msg)` is called with a message always, so that a decorated task that only publishes raises `TypeError` (`C118_publisher`). `ax == "win"` compares an axis with a string, so the time within windows is never added (`C118_negation_windows`).
* **C117** (`perf/impl.py:324-327, 331-333, 350`): the numbers of the messages of all sources are put together before gaps are looked for, so that with `fanin` a message that one source has lost is not counted as dropped if another source has the same number; messages missing at the end never are. The runtime is the time between the first and the last
  message *sent*: with a single message received `ZeroDivisionError` is raised, with none `ValueError`, instead of results that say so. What is logged as per cent is a fraction (`C117_negation`).
* **C116** (`sync.py:20-25, 72-75`): if the timeout of `__enter__` strikes when the loop has already taken a message for it, the message is received by nobody, and its buffer is held until the block object is collected, i.e. as long as the exception is kept (`C116_negation`); the publisher may have to wait meanwhile. (`__exit__` that times out raises in
  place of an exception of the block, but the buffer is given back.)
* **C115** (`shm.py:21-40`): `_untracked_shm` has no `try`/`finally`. When attaching raises (the segment is gone), `resource_tracker.register` stays replaced by `_ignore_shm` until the next segment is attached: segments created meanwhile are not recorded, and creating a lock, event or queue of `multiprocessing` raises
  `NameError`, as `_ignore_shm` refers to `self` (`C115_negation_failed`). The replacement is global: a thread that creates such things while another attaches is hit in the same way, and of two threads which attach at the same time the one that is slower gets its segment recorded, so that it is removed, for all processes, when
  this one ends (`C115_negation`).
* **C114** (`debuglog.py:44`, `messagegate.py:81-94`, `messagelogger.py:146-158`, `messagequeue.py:63-86`, `messagereplay.py:229-233`): these units have zero-copy inputs and publish the very object they got. If it came through shared memory, its arrays refer to the publisher's buffer, which is given back when the unit's block
  ends and overwritten by the publisher's next round; receivers in the unit's process then see a later message in place of the one they handle (`C114_negation_overwritten`). `MessageQueue` holds such objects and publishes them later, so what it sends even to other processes are later messages, some of them several times and others never
  (`C114_negation`). The relays copy for this reason (`copy_on_forward`).
* **C113** (`sync.py:136-159`): `SyncContext.__enter__` starts the thread of the loop before it opens the session. If that fails (no server at the address), the exception leaves the thread running; it is no daemon, so the program does not exit as long as something refers to the context, such as the traceback of the uncaught exception
  (`C113_negation_enter_fails`). (`325-352`): `_finalize_shutdown` sets `_closed` first; if leaving the graph context raises (see C90, C112), the thread goes on and calling `shutdown` again does nothing (`C113_negation_cleanup_fails`). A call made by another thread after the tasks were cancelled, and with `EZMSG_STRICT_SHUTDOWN` every
  call that waits, never returns (`C113_negation_stuck`, `C113_negation`).
* **C111** (`shm.py:127`, `messagechannel.py:265-273`): a mapping of shared memory cannot be closed while arrays refer to it. If a larger message is published while an array of an earlier one is in use in another process (non-leaky units use messages in place while a handler runs), `wait_closed` raises `BufferError` in the channel's reader task. The task
  ends, the channel stays registered, and no subscriber of the process gets anything from the publisher any more (`C111_negation_cut_off`). The block in use is left with `CacheMiss`, and the connection that holds the old segment at the server is not closed.
* **C112** (`subclient.py:248-269`, `channelmanager.py:122-127`): the same `BufferError` ends the task of a subscriber that is told to leave a publisher while it uses an array from it. Its `finally` part then raises `KeyError`, since the channel is in `_channels` but no longer registered, so that neither the other channels nor the connection
  are closed: the server still lists the subscriber and waits for it to confirm every later update until the timeout (`C112_negation_deaf`).
* **C110** (`sync.py:20-37`, `pubclient.py:555-569`): a `publish` call that times out is cancelled where it waits. In `drain` the message is already written, but the buffer is not leased and the message id is not advanced. The next message gets the same id: the subscriber receives it in place of the first and its next `recv`
  raises `CacheMiss` (`C110_negation_same_id`); over shared memory it overwrites the first one while a subscriber is using it (`C110_negation_overwritten`). And `TimeoutError` does not mean that the message was not published (`C110_negation_published_twice`): the call may end between the timeout and the cancellation.
* **C109** (`axisarray.py:295-303, 447-449`): `ax` always gives `AxisInfo` a size, and `AxisInfo` refuses a size for a coordinate axis. So `ax` raises `ValueError` for every dimension with a coordinate axis, and `to_xr_dataarray` for every array that has one
  (`C109_refused`, `C109_negation`). `AxisInfo.__len__` has a branch for coordinate axes that `ax` never leads to.
* **C107** (`chunker.py:148-155`): `send_chunk` ends when the generator is exhausted (or `array_chunker` raises). `on_settings` still makes a new generator for a settings message that comes later, and nobody takes chunks from it
  (`C107_negation`). Whether a settings message has an effect so depends on whether it comes before the last chunk was taken.
* **C106** (`backend.py:268-306`): `network` and `process_components` of all collections are called before `configure` of any. A collection inside another one is wired according to the settings it was made with, and runs with those that the outer
  `configure` applied (`C106_negation`). If it was made without settings, `SETTINGS` is `None` in `network`. The documentation of `configure` (`collection.py:70`) says that it runs when the collection is instantiated.
* **C105** (`sync.py:20-25`, `96-98`): when `future.result(timeout)` has given up, the task of `recv` may have taken a message whose result has not reached the future, or take one before the loop handles the cancellation; or the result arrives just
  before `future.cancel()`, which then does nothing. In each case `TimeoutError` is raised, the message was acknowledged to the publisher, and no later `recv` returns it (`C105_negation`).
* **C103** (`backendprocess.py:550-566`): `monitor_termination` is submitted to the same executor as the functions decorated with `thread`, after them. These never end by themselves (the comment at 605-610 says so). If there are as many of
  them as the executor has threads (processors plus four, at most 32), `monitor_termination` never starts, and setting the termination event cancels nothing: a process whose tasks do not end hangs (`C103_negation`).
* **C104** (`backendprocess.py:877-901`): tasks that start after `_cancel_remaining` has looked for tasks (say, in the `finally` clause of a task that was cancelled) are neither cancelled nor counted; the loop is closed over them and the summary is
  clean (`C104_negation`). In the same case the log says "Shutdown was NOT clean" while `ShutdownSummary.unclean`, which decides on the exit status, is `False`: it ignores `cancelled_tasks`. `fut.result()` and `thread.join()` have no timeout: while
  a task keeps the thread busy the loop is not closed, interrupts or not (`C104_busy`).
* **C102** (`pubclient.py:294-321`): `Publisher.close` closes `self._shm`; if a broadcast is in `create_shm` or in `self._shm.wait_closed()` then (516-530), the new segment is attached afterwards and stays so until the graph server goes
  (`C102_segment`: `wait_closed` has returned; `C102_stray`: the broadcast raises `BufferError` and nothing refers to the segment any more). `close` cancels the tasks in `_channel_tasks`; a channel that is exchanging its first data with the
  publisher is entered there afterwards (393), so its task goes on, and `wait_closed` hangs until the channel goes, or raises `RuntimeError` if the loop over the dictionary had begun (`C102_late`). A second `close` during `close_server` ends
  `_serve_channels` before it leaves the publisher's own channel (`C102_twice`). `_handle_channel` does not catch the `IncompleteReadError` of a connection that breaks off in an acknowledgement, and its task stays in `_channel_tasks`: so
  `wait_closed` raises that error much later (`C102_raises`).
* **C101** (`messagechannel.py:216-225`, `shm.py:174-182`): `with suppress(asyncio.CancelledError): await task` also catches the cancellation of the task that executes it. If `Subscriber.close` is called while the subscriber's task is in
  `CHANNELS.unregister`, waiting for a channel it removes, the subscriber goes on reading updates, stays a client of its other channels, and `wait_closed` hangs until the graph server goes (`C101_lost`, `C101_ignored`, `C101_goes_on`). If a channel is
  closed while it waits for the end of its old segment, messagechannel.py:273, it attaches the new segment and goes on receiving, no longer in the registry, and whoever waits for it hangs until the publisher goes (`C101_hangs`).
* **C100** (`graphserver.py:1844-1872`, `1323-1345`, `1938-1950`): `GraphService.connect`, `disconnect` and `sync` only compare the answer with `CYCLIC`, or do not look at it: if the server closes the connection without having carried the request
  out, they return as if it had (`C100_lost`; every other call that needs an answer raises). A process request with the payload `b""` reaches the process with `None`, because an absent payload is sent as an empty one (`C100_empty_payload`). `create_shm` with
  a negative number fails after its command was written and does not close its connection (`C100_negative`). A refused `Channel.create` does not close its connection to the graph server (`Forgotten` in `C100_calls`).
* **C99** (`backend.py:765-885`, `backendprocess.py:590-601`): `process` ignores `KeyboardInterrupt` while it waits at the stop barrier. If another process has died, the barrier never opens, and however often the user
  interrupts, the program goes on waiting, although the runner promises "interrupt again to force quit" (`C99_deaf`). `_cleanup` sets `_cleanup_done` before it has done anything: an interrupt while it waits makes the runner call it again,
  which does nothing; `run` returns and the thread of the loop, which is not a daemon, keeps the program from ending (`C99_left_running`). An interrupt between `proc.start()` and `_spawned_processes.append` leaves a process at the start barrier that
  nobody joins or terminates (`C99_left_process`). An interrupt while the main process sets up does not abort the start barrier (only `Exception` does): the others wait there for ever, and `term_ev` does not reach them; a second
  interrupt is needed (`C99_start_hangs`).
* **C97** (`graphserver.py:203-241`): `_shutdown_async` cancels the tasks that are in `_client_tasks` at one moment. A session's task takes `_command_lock` in its `finally`; while a client holds it that has sent `SUBSCRIBE` without
  a topic, the task does not end, and neither does `stop` (`C97_stalled`). Connections whose `api` still waits for a command are not cancelled: with Python 3.12.1 or later `wait_closed` waits for them (`C97_idle`), with earlier versions they
  stay open (`C97_idle_reached`). A task that has not run yet, or that is already in its `finally`, is cancelled outside of its `try`, and its connection is never closed (`C97_orphan`). `self.shms` is iterated over with an
  `await` in the loop: a segment that is made meanwhile raises `RuntimeError`, and the other leases are not cancelled (`C97_crash`).
* **C98** (`graphserver.py:431-517`): `api` reads the arguments of `SUBSCRIBE`, `PUBLISH`, `CONNECT` and `DISCONNECT` while it holds `_command_lock`, and `SYNC` waits for the publishers under it, without a timeout. One client that stalls blocks
  all commands, and all sessions' and processes' requests, of all others (`C98_blocked`, `C98_sync_kept`).
* **C96** (`graphserver.py:170-241`, `1808-1831`, `netprotocol.py:379-405`): with an explicit address `create_socket` sets `SO_REUSEADDR`, so that two programs can both bind it before one of them listens; `listen` of the other one
  fails in the server's thread, `_server_up` is never set, and `start` waits for it forever (`C96_hangs`, `C96_hangs_forever`). The documentation of `run` (`backend.py:946-947`) says that a server is started at 127.0.0.1:25978; it is
  started at the first free port from 10000 on, and never at 25978, which is reserved (`C96_not_default`), so that a second program does not find it (`C96_not_shared`). A context that has found the server at the default
  address has `graph_address` `None`, which the processes of a run are given: if that server is gone by then, they start servers of their own (`C96_split`).
* **C94** (`processclient.py:226-281`, `391-439`): `_io_loop` awaits the handler and pickles the response in the task that reads the connection. A handler that raises `CancelledError`, or whose response cannot be
  pickled, ends that task (`C94_ends`): no later request is answered, and no acknowledgement is passed on any more. A request that cannot be unpickled has no response (`C94_unreadable`), so the
  requester waits for its timeout. The declared type of a handler allows any awaitable (`processclient.py:49-51`), but only coroutines are awaited; a future is refused with `INVALID_RESPONSE` (`C94_future`).
* **C95** (`processclient.py:450-483`, `profiling.py:314-330`): the samples that have not been pushed when a trace is turned off or expires are discarded (`C95_end_cleared`, `C95_expired`): up to one push interval at the end
  of every trace. A batch that waits for the write lock when the task is cancelled is lost (`C95_batch_lost`).
* **C92** (`graphcontext.py:475-483`): `update_settings` closes its publisher right after the broadcast. If the channel reads the message and the end of the connection before
  the subscriber runs, it clears its cache, and `recv` of the unit raises `CacheMiss` (`C92_lost`): the update is lost after `update_settings` has returned.
* **C93** (`graphcontext.py:701-713`): requests are routed by the first unit that the process had in the snapshot. A process without units is passed over (`C93_no_units`); if the unit
  has gone to another process, that process answers and its data are stored under the id of the first (`C93_other_process`); nothing compares the `process_id` in the answer.
* **C90** (`graphcontext.py:757-793`): `revert` waits for the clients and then clears the set of clients; a client made meanwhile is neither closed nor tracked (`C90_lost`).
  `wait_closed` raises what the task of a client raised, so `revert` raises whenever it is called and neither `_close_session` nor `_shutdown_servers` is reached
  (`C90_stuck`). (`741-755`): an `__aenter__` that fails to open the session after it has started a server leaves the server running (`C90_server_kept`).
* **C88** (`unit.py:263-273`): `timeit` unpacks `self._tasks[...]` into two names, but the entries are functions: every call of a decorated function raises `TypeError`, and a
  decorated coroutine or asynchronous generator is never run (`C88_timeit_fails`). (`backendprocess.py:691-702`): a function with more than two parameters, e.g. one with a
  default, is never run: `call_fn` is not defined (`C88_parameters_fail`). (`707-712`): an ordinary generator function is called and its generator dropped
  without a word (`C88_generator_ignored`).
* **C89** (`component.py:136-140`): settings of another class given to a unit are taken as the value of the first field of its own settings (`C89_wrong_class`); further arguments
  beside a settings object are ignored (`C89_ignored`). (`146-149`): a `TypeError` in `__post_init__` or in a factory of the default settings is hidden, and the unit
  fails later for want of settings (`C89_error_hidden`). (`state.py:36`, `component.py:158-160`): a default that is an object, e.g. another `State`, which is
  hashable and therefore accepted by `dataclass`, is one object for all units of the class (`C89_default_shared`).
* **C86** (`axisarray.py:155-156`, `33-37`): `CoordinateAxis` is declared with `eq=False` so that it inherits the comparison of its data, but the first of its bases
  is `AxisBase`, whose generated `__eq__` compares only `unit`: coordinate axes with different values compare equal, and so do messages that differ in them
  (`C86_coordinates_ignored`). `attrs` are compared with `==`, which raises if one of them is an array that does not have exactly one element and the other message has
  another object for it (`C86_attrs_raise`).
* **C129** (`util/gen_to_unit.py:167-177`): parameters become fields of a dataclass in their order: `def f(a=1, *, b)` is refused with `TypeError` (`C129_keyword_refused`), as are defaults
  without a hash. (`65-68`, `183`): the state keeps the generator as `gen` among the settings; a parameter called `gen` replaces it (`C129_gen_lost`). (`142`): `"INPUT" in streams` is false for
  units that take an `AxisArray`, whose stream is `INPUT_SIGNAL`: no warning (`C129_silent`).
* **C128** (`unit.py:163-169`, `263`): `publisher` appends to the list the function has already. A method that is decorated again, e.g. `proc = ez.publisher(OUT2)(Base.proc)` in a
  subclass, is the same object, so the method of the base class has one more stream, which then appears in the metadata of units of the base class with a stream of that name
  (`C128_again_fails`). `functools.wraps` copies the reference to the list: even if the method is wrapped by `timeit` first, which makes another function, the base class's list grows
  (`C128_wrapped_fails`).
* **C127** (`settingsmeta.py:301`, `311`): the widget of a parameter is chosen by words in the name of its class: `param.parameters.Number` has none of them, so numbers
  get no widget, with bounds or without (`C127_number_without_widget`). (`settingsmeta.py:117-134`, `206`): of a field of pydantic 2 only attributes called `default`,
  `ge` and so on are looked at; pydantic 2 keeps constraints in `metadata` and factories in `default_factory`, which make no difference (`C127_factory_ignored`). That
  pydantic does so is not part of the model.
* **C85** (`settingsmeta.py:83-104`, `107-114`): the widget is chosen by `"int" in field_type.lower()` and the like: a class `Point` or a `list[int]` is an
  integer, a class `Instrument` a text (`C85_hint_wrong`). With `from __future__ import annotations` the annotation is a string and the choices of a
  `Literal` are not found (`C85_choices_hidden`).
* **C84** (`settingsmeta.py:18`, `23`, `27-31`, `39-45`): objects of subclasses of `int`, `float`, `str` are returned as they are, e.g. an `IntEnum`, which the
  reader of the report then must be able to import, while other enumerations become their values (`C84_subclass_kept`). Of the keys `1` and `"1"` one
  entry is lost (`C84_keys_collide`). One field that cannot be deep-copied, e.g. a lock, and there is no structured value (`C84_uncopied_lost`).
* **C83** (`processclient.py:271`): `_io_loop` awaits the handler of a request before it reads on. A patch that waits for a buffer of the settings
  publisher waits for the unit, whose subscriber waits for the acknowledgement of its report, which `_io_loop` does not read (`C83_stalls`): for 5 s
  the process answers nothing, then the report fails although the server took it, and its acknowledgement is taken for the next one (C60). While the
  graph is paused, one patch leaves pings unanswered (`C83_paused`).
* **C82** (`backend.py:164-166`, `addressable.py:75`): the names in the mapping given to `run` may contain slashes. With a collection `A` that has a unit
  `B`, and another unit under the name `A/B`, two streams have the same topic (`C82_slash_fails`), and of two relays at one address one is lost
  (`C82_slash_relay_lost`). After a `setup` that raised an error, the components it had named cannot be used any more (`C82_failed`).
* **C81** (`graphserver.py:476-487`): `GraphService.connect/disconnect` are answered before subscribers are told, so a message published after the call
  returned may miss them (`C81_connect_fails`). `sync_writer` has one event for all updates of a subscriber, and confirmations carry no number: after
  an update has timed out (`EZMSG_SUBSCRIBER_UPDATE_TIMEOUT_SEC`, 1 s), its late confirmation is taken for that of the next (`C81_late_fails`); and
  of two overlapping calls of sessions the one which returns first wakes the other, which then returns too early (`C81_overlap_fails`, Python 3.12 on).
* **C80** (`graphserver.py:426,491-500`, `pubclient.py:349-351,485`, `backendprocess.py:740-805`): `sync` pauses and drains publishers one after
  the other, in the order in which they registered, holding the lock of all commands. A unit holds a message while its publication waits for a
  publisher which has already been paused, so the publisher of that message is never drained: `sync` never returns, and `resume`, `connect`,
  `disconnect` and new clients wait for ever (`C80_stuck`, with witness `C80_deadlock`: the publisher of the unit registered before that of the source).
  `pause` followed by `sync` does this in every order (`C80_paused_deadlock`). And a broadcast which waits for a buffer goes out after its
  publisher has answered (`C80_late`).
* **C79** (`util/terminate.py:46`): documented as terminating if no message has been received in the given time; the time only starts with the
  first message, so a program whose source never sends anything runs for ever (`C79_never_fails`).
* **C78** (`util/gen_to_unit.py:84-86`): when a tracked attribute changes, `check_fields` stores the new value and then calls
  `asdict(self.STATE)`, which tries to copy the generator in `STATE.gen` and raises. The message is lost (`C78_lost`), the generator is never
  replaced (`C78_first_generator`), and as the stored value is already the new one, later messages go to the old generator (`C78_fails`).
* **C77** (`util/generator.py:91-102`): a generator which raises is ended, but `Gen` keeps it. Every later message raises `StopIteration`, which is
  logged at level debug only: the unit stays silent for ever after one bad message (`C77_silenced`). A generator which was not started by `consumer`
  never publishes anything (`C77_unprimed`). `compose` passes `None` on to the next generator whereas `Gen` does not publish it, so replacing a
  chain of units by one unit with composed generators changes what is published (`C77_compose_fails`).
* **C76** (`util/messages/modify.py:42-52`): an entry of `axes` which belongs to no dimension replaces the axis of a dimension renamed to its
  name, and stays under the key `None` if it is mapped to `None` while no dimension is dropped (`C76_axes_fails`).
* **C75** (`util/messages/axisarray.py:835-841,883-890,904-907`): `shape2d` does not know negative numbers and then counts all elements
  as columns (`C75_shape_fails`). A one-dimensional array is made two-dimensional before its dimension is looked up, so -1 gives one row, and 1 is
  accepted (`C75_reads_fails`). `view2d` promises that changes are always reflected in the array; if the block raises and numpy had to copy, they
  are lost, as nothing is done in a `finally` (`C75_writes_fails`).
* **C74** (`core/unit.py:40-70`, `core/component.py:41-55`): the metaclasses collect tasks, threads and streams from the bases in order,
  later ones replacing earlier ones, while Python looks in earlier bases first. With `A` and `B` derived from `Base`, `A` overriding a task and
  `C(A, B)`, the unit runs the task of `Base` (`C74_diamond_fails`). Overriding a task by a function which is not a task leaves the old one
  running (`C74_unmarked_fails`). Tasks of a base which is not a unit never run (`C74_mixin_fails`). The main function of an earlier base is
  lost if a later base has none (`C74_main_fails`), and two bases with the same inherited main function raise (`C74_refused`).
* **C73** (`core/graph_util.py:211-215,231-253`): nothing keeps a node from being inside another one; then either `TypeError` is
  raised or the inner node is silently left out, depending on the order of the keys (`C73_type_error`, `C73_lost`). Compact graphs
  of level 3 have such nodes (`C73_compact_fails`). Subgraphs are identified by their last segment in lower case, so `A/FILTER` and `B/FILTER`
  have the same identifier (`C73_same_identifier`).
* **C72** (`core/graph_util.py:139-146`): a node beside a deeper subcomponent is to wait until the subcomponent has reached
  its level. Its number is raised by `node_level + 1` instead of 1, so it goes 0, 1, 3, 7: `SYS/IN` beside `SYS/A/B/X` is
  still shown at level 3, beside `SYS` which contains it (`stuck`), and beside `SYS/A/B/C/X` it is merged into `SYS` at level 3 while `SYS/A`
  is still shown (`early`, `C72_topmost_fails`). The docstring allows such nodes to be "left as is", but at level 2 they
  are merged when the rest is, and `SYS` should not be shown together with its parts.
* **C71** (`util/messagereplay.py:84-88,141-142,162-164`): a stop asked for while `replay` publishes the first status of
  a file is cleared when it goes on, and the whole file is played (`Example.C71_stop_ignored`). The documentation of
  `INPUT_STOP` says that `False` resets "to the beginning of the current file"; the code abandons the file and goes on to the
  next one (`Example.C71_no_restart`).
* **C69** (`sync.py:304-306,325-352`): `spin_once` uses `self._loop` to hand messages back, but a callback which calls
  `shutdown()` has closed the context and set it to `None`, unless `spin` is running (only `spin` sets `_spinning`). So
  `spin_once` raises `AttributeError`, the messages it had taken for other subscriptions reach no callback and nothing
  is handed back (`C69_shutdown_in_callback_fails`).
* **C42** (`messagelogger.py:86-125`): with `write_period > 0`, `close_file` does not write the buffer first, so messages
  that arrived since the last write are missing from the stopped file (`C42_buffered_stop_loses`), and `open_file` does
  not either, so messages that arrived before a file was opened are written to it
  (`C42_buffered_start_writes_earlier`). `C42_buffered_exact_partial` covers files opened and closed with an empty buffer.
* **C35** (`backend.py:272-295`): relays keep who hears whom but not how often. A subscriber connected to an endpoint both
  directly and through a relay gets every message twice, once from the relay's own publisher (`C35_second_copy`).
* **C36** (`graph_util.py:38-45`): in a cyclic dictionary a reported topic can stay behind as a target
  (`C36_negation_cycle`).
* **C44** (`axisarray.py:345-368`): `isel` shifts the offset of the axis but keeps its gain, so with a step other than 1
  (or an index list with gaps) later elements get wrong coordinates (`C44_negation_step`). A dimension without a
  declared axis is not shifted at all (`C44_negation_default_axis`). An empty selection along a declared axis raises
  `IndexError`, and a coordinate axis is always refused, because `ax` passes a size that `AxisInfo` does not accept
  for one (`C44_refusals`).
* **C53** (`axisarray.py:388-403`): a label before the start of the axis becomes a negative index, which counts from the
  end: `sel(time=slice(2.5, None))` on samples at 3, 3.5, 4, 4.5 gives only the last one
  (`C53_negation_before_start`).
* **C57**: with windows of length 0 and a step above 1 the two implementations return different numbers of windows; a
  window one longer than the array is not refused (the docstring says so).
