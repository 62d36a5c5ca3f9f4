import Verif.Model.Netprotocol

/-!
# What clients and the graph server, and publishers and channels, write to each other

Sources: `src/ezmsg/core/graphserver.py`: `GraphServer.api` (243-517), `_handle_session` (571-637), `_handle_process` (648-698),
`_read_pickled_payload` (767-770), `_stream_sender` (804-822), `_handle_session_process_request` (1323-1345), the other session
requests (1531-1631), `_notify_subscriber` (1736-1757), `GraphService` (1833-1969); `graphcontext.py`: `_open_session` (223-244),
`_session_io_loop` (253-310), `_subscribe_pickled_stream` (557-588) and the calls of both; `processclient.py`: `connect` (88-109),
`_write_payload` (188-206), `_io_loop` (226-260); `pubclient.py`: `Publisher.create` (169-204), `_channel_connect` (366-399),
`_handle_channel` (418-428), `broadcast` (535-556); `subclient.py`: `_graph_connection` (198-255); `messagechannel.py`:
`Channel.create` (152-190), `_publisher_connection` (255-297), `_acknowledge` (418-421); `netprotocol.py`: `Command` (272-349).

* A side of a connection is a program that writes, reads, closes and computes between. What the server decides (is the edge a
  cycle, which segments exist, …) is a parameter.
* Bytes arrive in order, each after an arbitrary delay. Bytes written to a connection the writer has closed are lost. A broken
  connection looks like a closed one. `drain` has no effect here, and `close_stream_writer` succeeds.
* A unique id is its text (`UUID(str(u)) = u`), a timeout is the text of a float, a pickled object is its bytes.
* Tasks that only keep a connection (`_handle_client`, `_graph_connection`, leases) begin where the programs end.
-/

namespace Ez.Wire

/-! ## Programs and connections -/

/-- Exceptions: `IncompleteReadError`, `UnicodeDecodeError`, `ValueError`, `OverflowError`, `CyclicException`, `RuntimeError`. -/
inductive Exn where
  | incomplete
  | decode
  | value
  | overflow
  | cyclic
  | runtime
deriving DecidableEq, Repr

/-- A program with one connection: `done` is its end, with a result or an exception; `write`: `writer.write`; `read1`:
`reader.read(1)`, where `none` is `b""`; `exact`: `reader.readexactly`, with what follows an `IncompleteReadError`; `close`:
`close_stream_writer`. -/
inductive Prog (R : Type) where
  | done (r : Except Exn R)
  | write (b : Bytes) (k : Prog R)
  | read1 (k : Option UInt8 → Prog R)
  | exact (n : Nat) (k : Bytes → Prog R) (eof : Prog R)
  | close (k : Prog R)

variable {R A B : Type}

def ret (r : R) : Prog R := .done (.ok r)
def raise (e : Exn) : Prog R := .done (.error e)

/-- `readexactly` where the exception is not caught. -/
def exactly (n : Nat) (k : Bytes → Prog R) : Prog R := .exact n k (raise .incomplete)

/-- `writer.write(uint64_to_bytes(i))`: netprotocol.py:191-200. -/
def writeInt (i : Int) (k : Prog R) : Prog R :=
  match uint64ToBytes i with
  | some b => .write b k
  | none => raise .overflow

/-- `writer.write(encode_str(s))`: netprotocol.py:215-226. -/
def writeStr (s : String) (k : Prog R) : Prog R :=
  match encodeStr s with
  | some b => .write b k
  | none => raise .overflow

/-- `writer.write(uint64_to_bytes(len(payload))); writer.write(payload)`, as in graphcontext.py:271-273. -/
def writePayload (p : Bytes) (k : Prog R) : Prog R := writeInt p.length (.write p k)

/-- `encode_str` of each argument: graphcontext.py:268-269. -/
def writeStrs : List String → Prog R → Prog R
  | [], k => k
  | s :: ss, k => writeStr s (writeStrs ss k)

/-- `read_int`: netprotocol.py:229-240. -/
def readInt (k : Nat → Prog R) : Prog R := exactly UINT64_SIZE fun raw => k (bytesToUint raw)

/-- `read_str`: netprotocol.py:243-246. -/
def readStr (k : String → Prog R) : Prog R :=
  readInt fun size => exactly size fun raw =>
    match utf8Decode raw with
    | some s => k s
    | none => raise .decode

/-- `read_int` and `readexactly`, as in graphserver.py:767-770. -/
def readPayload (k : Bytes → Prog R) : Prog R := readInt fun size => exactly size k

/-- The connection of a client program and a server program. `up`: what the client wrote and the server has not read; `down`: the
other direction. -/
structure Conn (A B : Type) where
  client : Prog A
  server : Prog B
  up : Bytes
  down : Bytes
  clientClosed : Bool
  serverClosed : Bool

/-- One operation of a program: what is left of the program and of its input, what it writes, whether it has closed. `none`: it
waits for input, or it has ended. `next` says how a program goes on after a turn of its loop. -/
def move (next : R → Option (Prog R)) (p : Prog R) (inp : Bytes) (closed peerClosed : Bool) :
    Option (Prog R × Bytes × Bytes × Bool) :=
  match p with
  | .done (.ok r) => (next r).map fun p => (p, inp, [], closed)
  | .done (.error _) => none
  | .write b k => some (k, inp, if closed then [] else b, closed)
  | .read1 k =>
    match inp with
    | b :: rest => some (k (some b), rest, [], closed)
    | [] => if peerClosed then some (k none, [], [], closed) else none
  | .exact n k eof =>
    if n ≤ inp.length then some (k (inp.take n), inp.drop n, [], closed)
    else if peerClosed then some (eof, [], [], closed) else none
  | .close k => some (k, inp, [], true)

/-- The two sides of a connection. -/
inductive Side where
  | client
  | server
deriving DecidableEq

/-- How both programs go on after a turn of their loops. -/
structure Loops (A B : Type) where
  client : A → Option (Prog A)
  server : B → Option (Prog B)

/-- Programs without loops. -/
def once : Loops A B := ⟨fun _ => none, fun _ => none⟩

/-- One side does its next operation. -/
def step (l : Loops A B) (c : Conn A B) : Side → Option (Conn A B)
  | .client => (move l.client c.client c.down c.clientClosed c.serverClosed).map fun (p, inp, out, x) =>
      { c with client := p, down := inp, up := c.up ++ out, clientClosed := x }
  | .server => (move l.server c.server c.up c.serverClosed c.clientClosed).map fun (p, inp, out, x) =>
      { c with server := p, up := inp, down := c.down ++ out, serverClosed := x }

/-- A run in the given order. -/
def run (l : Loops A B) (c : Conn A B) : List Side → Option (Conn A B)
  | [] => some c
  | w :: ws => (step l c w).bind fun c => run l c ws

/-- A new connection. -/
def fresh (p : Prog A) (q : Prog B) : Conn A B := ⟨p, q, [], [], false, false⟩

/-! ## Commands -/

/-- `Command`: netprotocol.py:272-349. -/
inductive Command where
  | COMPLETE | PUBLISH | SUBSCRIBE | CONNECT | DISCONNECT | CYCLIC | PAUSE | SYNC | RESUME | UPDATE | DAG
  | TX_LOCAL | TX_SHM | TX_TCP | RX_ACK | SHM_CREATE | SHM_ATTACH | SHUTDOWN | CHANNEL | SHM_OK | SHM_ATTACH_FAILED
  | SESSION | SESSION_CONNECT | SESSION_DISCONNECT | SESSION_CLEAR | SESSION_REGISTER | SESSION_SNAPSHOT
  | SESSION_SETTINGS_SNAPSHOT | SESSION_SETTINGS_EVENTS | SESSION_SETTINGS_SUBSCRIBE | SESSION_TOPOLOGY_SUBSCRIBE
  | SESSION_PROFILING_SUBSCRIBE | SESSION_PROCESS_REQUEST | PROCESS | PROCESS_REGISTER | PROCESS_UPDATE_OWNERSHIP
  | PROCESS_SETTINGS_UPDATE | PROCESS_PROFILING_TRACE_UPDATE | PROCESS_ROUTE_REQUEST | PROCESS_ROUTE_RESPONSE | ERROR
deriving DecidableEq, Repr

open Command

/-- The members in the order of their definition: netprotocol.py:296-349. -/
def members : List Command :=
  [COMPLETE, PUBLISH, SUBSCRIBE, CONNECT, DISCONNECT, CYCLIC, PAUSE, SYNC, RESUME, UPDATE, DAG, TX_LOCAL, TX_SHM, TX_TCP, RX_ACK,
    SHM_CREATE, SHM_ATTACH, SHUTDOWN, CHANNEL, SHM_OK, SHM_ATTACH_FAILED, SESSION, SESSION_CONNECT, SESSION_DISCONNECT,
    SESSION_CLEAR, SESSION_REGISTER, SESSION_SNAPSHOT, SESSION_SETTINGS_SNAPSHOT, SESSION_SETTINGS_EVENTS,
    SESSION_SETTINGS_SUBSCRIBE, SESSION_TOPOLOGY_SUBSCRIBE, SESSION_PROFILING_SUBSCRIBE, SESSION_PROCESS_REQUEST, PROCESS,
    PROCESS_REGISTER, PROCESS_UPDATE_OWNERSHIP, PROCESS_SETTINGS_UPDATE, PROCESS_PROFILING_TRACE_UPDATE, PROCESS_ROUTE_REQUEST,
    PROCESS_ROUTE_RESPONSE, ERROR]

/-- `value`: `count.to_bytes(1)`, netprotocol.py:281-294, where `count` members come before. -/
def Command.value (c : Command) : UInt8 := UInt8.ofNat (members.idxOf c)

/-- `writer.write(Command.X.value)`. -/
def cmd (c : Command) (k : Prog R) : Prog R := .write [c.value] k

/-! ## Calls with a connection of their own -/

/-- A call of a client: the methods of `GraphService`, `Publisher.create` (with the address its server got), `Channel.create` (its
connection to the graph server), `_open_session`, `ProcessControlClient.connect`, and the three subscriptions. -/
inductive Call where
  | connect (src dst : String)
  | disconnect (src dst : String)
  | sync
  | pause
  | resume
  | shutdown
  | dag
  | createShm (num size : Int)
  | attachShm (name : String)
  | publish (topic : String) (addr : Address)
  | channel (pub : String)
  | session
  | process
  | settingsEvents (after : Int)
  | topologyEvents (after : Int)
  | profiling (control : Bytes)
deriving DecidableEq

/-- What a call returns: nothing, the pickled graph, the name of a segment, the id the server gave, or the id and the address of
the publisher. -/
inductive Reply where
  | nothing
  | graph (b : Bytes)
  | shm (name : String)
  | id (i : String)
  | channel (i : String) (a : Address)
deriving DecidableEq

/-- `open_connection`: graphserver.py:1833-1842. Another version is only logged. -/
def openConnection (k : Prog R) : Prog R := readStr fun _ => k

/-- graphserver.py:1844-1900, 1938-1969; pubclient.py:169-204; messagechannel.py:152-167; graphcontext.py:227-235, 566-574;
processclient.py:92-100. The end of `createShm` and `attachShm` is the call of `SHMContext.attach`. -/
def call : Call → Prog Reply
  | .connect s t =>
    openConnection <| cmd CONNECT <| writeStr s <| writeStr t <| .read1 fun r =>
      if r = some CYCLIC.value then .close (raise .cyclic) else .close (ret .nothing)
  | .disconnect s t =>
    openConnection <| cmd DISCONNECT <| writeStr s <| writeStr t <| .read1 fun _ => .close (ret .nothing)
  | .sync => openConnection <| cmd SYNC <| .read1 fun _ => .close (ret .nothing)
  | .pause => openConnection <| cmd PAUSE <| .close (ret .nothing)
  | .resume => openConnection <| cmd RESUME <| .close (ret .nothing)
  | .shutdown => openConnection <| cmd SHUTDOWN <| .close (ret .nothing)
  | .dag =>
    openConnection <| cmd DAG <| .read1 fun _ => readPayload fun b => .read1 fun _ => .close (ret (.graph b))
  | .createShm num size =>
    openConnection <| cmd SHM_CREATE <| writeInt num <| writeInt size <| .read1 fun r =>
      if r ≠ some COMPLETE.value then .close (raise .value) else readStr fun name => ret (.shm name)
  | .attachShm name =>
    openConnection <| cmd SHM_ATTACH <| writeStr name <| .read1 fun r =>
      if r ≠ some COMPLETE.value then .close (raise .value) else readStr fun name => ret (.shm name)
  | .publish topic addr =>
    openConnection <| cmd PUBLISH <| writeStr topic <| readStr fun i =>
      writeStr (String.ofList addr.toStr) <| .read1 fun _ => ret (.id i)
  | .channel pub =>
    openConnection <| cmd CHANNEL <| writeStr pub <| .read1 fun r =>
      if r ≠ some COMPLETE.value then raise .value
      else readStr fun i => readStr fun a =>
        match Address.fromString a.toList with
        | some a => ret (.channel i a)
        | none => raise .value
  | .session => openConnection <| cmd SESSION handshake
  | .process => openConnection <| cmd PROCESS handshake
  | .settingsEvents after =>
    openConnection <| cmd SESSION_SETTINGS_SUBSCRIBE <| writeStr (String.ofList (pyStrInt after)) handshake
  | .topologyEvents after =>
    openConnection <| cmd SESSION_TOPOLOGY_SUBSCRIBE <| writeStr (String.ofList (pyStrInt after)) handshake
  | .profiling control => openConnection <| cmd SESSION_PROFILING_SUBSCRIBE <| writePayload control handshake
where
  /-- graphcontext.py:231-235, 571-575; processclient.py:96-100. -/
  handshake : Prog Reply :=
    readStr fun i => .read1 fun r => if r ≠ some COMPLETE.value then .close (raise .runtime) else ret (.id i)

/-- What the server decides: its version, whether an edge would close a cycle, the pickled graph, the name of a new segment, the
segments it has, the address of a publisher it knows, and the id of the new client. -/
structure Env where
  version : String
  cyclic : String → String → Bool
  graph : Bytes
  newShm : Nat → Nat → String
  shms : List String
  publisher : String → Option Address
  id : String

/-- `GraphServer.api`: graphserver.py:243-517. The result is the request the server carried out. `SUBSCRIBE` is in `subscribe`. -/
def api (e : Env) : Prog (Option Call) :=
  writeStr e.version <| .read1 fun
  | none => .close (ret none)
  | some req =>
    if req = SHUTDOWN.value then .close (ret (some .shutdown))
    else if req = SHM_CREATE.value then
      readInt fun num => readInt fun size => cmd COMPLETE <| writeStr (e.newShm num size) <| ret (some (.createShm num size))
    else if req = SHM_ATTACH.value then
      readStr fun name =>
        if name ∈ e.shms then cmd COMPLETE <| writeStr name <| ret (some (.attachShm name)) else .close (ret none)
    else if req = CHANNEL.value then
      readStr fun pub =>
        match e.publisher pub with
        | none => .close (ret none)
        | some a => cmd COMPLETE <| writeStr e.id <| writeStr (String.ofList a.toStr) <| ret (some (.channel pub))
    else if req = SESSION.value then writeStr e.id <| cmd COMPLETE <| ret (some .session)
    else if req = SESSION_SETTINGS_SUBSCRIBE.value then
      readStr fun s =>
        match pyInt s.toList with
        | none => raise .value
        | some after => writeStr e.id <| cmd COMPLETE <| ret (some (.settingsEvents after))
    else if req = SESSION_TOPOLOGY_SUBSCRIBE.value then
      readStr fun s =>
        match pyInt s.toList with
        | none => raise .value
        | some after => writeStr e.id <| cmd COMPLETE <| ret (some (.topologyEvents after))
    else if req = SESSION_PROFILING_SUBSCRIBE.value then
      readPayload fun control => writeStr e.id <| cmd COMPLETE <| ret (some (.profiling control))
    else if req = PROCESS.value then writeStr e.id <| cmd COMPLETE <| ret (some .process)
    else if req = PUBLISH.value then
      readStr fun topic => writeStr e.id <| readStr fun a =>
        match Address.fromString a.toList with
        | none => raise .value
        | some addr => cmd COMPLETE <| ret (some (.publish topic addr))
    else if req = CONNECT.value then
      readStr fun s => readStr fun t =>
        cmd (if e.cyclic s t then CYCLIC else COMPLETE) <| .close (ret (some (.connect s t)))
    else if req = DISCONNECT.value then
      readStr fun s => readStr fun t => cmd COMPLETE <| .close (ret (some (.disconnect s t)))
    else if req = SYNC.value then cmd COMPLETE <| .close (ret (some .sync))
    else if req = PAUSE.value then .close (ret (some .pause))
    else if req = RESUME.value then .close (ret (some .resume))
    else if req = DAG.value then
      cmd DAG <| writePayload e.graph <| cmd COMPLETE <| .close (ret (some .dag))
    else .close (ret none)

/-- A server that has accepted a connection and sent its version, and then closes without reading: it was stopped, or handling the
request failed (graphserver.py:509-517). -/
def hangUp (version : String) : Prog (Option Call) := writeStr version <| .close (ret none)

/-! ## Sessions -/

/-- What a graph context sends over its session: graphcontext.py:157-195, 356-361, 396-420, 590-618. -/
inductive Ask where
  | connect (src dst : String)
  | disconnect (src dst : String)
  | clear
  | register (metadata : Bytes)
  | snapshot
  | settingsSnapshot
  | settingsEvents (after : Int)
  | request (unit op timeout : String) (payload : Option Bytes)
deriving DecidableEq

/-- The command, its arguments, its payload, and whether the answer is pickled, as given to `_session_command`. -/
def Ask.parts : Ask → Command × List String × Option Bytes × Bool
  | .connect s t => (SESSION_CONNECT, [s, t], none, false)
  | .disconnect s t => (SESSION_DISCONNECT, [s, t], none, false)
  | .clear => (SESSION_CLEAR, [], none, false)
  | .register m => (SESSION_REGISTER, [], some m, false)
  | .snapshot => (SESSION_SNAPSHOT, [], none, true)
  | .settingsSnapshot => (SESSION_SETTINGS_SNAPSHOT, [], none, true)
  | .settingsEvents after => (SESSION_SETTINGS_EVENTS, [String.ofList (pyStrInt after)], none, true)
  | .request u op t p => (SESSION_PROCESS_REQUEST, [u, op, t], some (p.getD []), true)

/-- What a command of a session is answered with: one byte (`none`: `b""`), or a pickled object. -/
inductive Answer where
  | byte (b : Option UInt8)
  | pickled (b : Bytes)
deriving DecidableEq

/-- `_session_io_loop` and then `_close_session`: graphcontext.py:253-292, 312-326, for the commands put into its queue. -/
def sessionClient : List Ask → List Answer → Prog (List Answer)
  | [], got => .close (ret got)
  | a :: as, got =>
    let (c, args, payload, pickled) := a.parts
    cmd c <| writeStrs args <| (match payload with | some p => writePayload p | none => id) <|
      if pickled then
        readPayload fun b => .read1 fun r =>
          if r ≠ some COMPLETE.value then raise .runtime else sessionClient as (got ++ [Answer.pickled b])
      else .read1 fun r => sessionClient as (got ++ [Answer.byte r])

/-- What the server does with a command of a session after the ones before: the byte it answers with (`COMPLETE`, `CYCLIC` or
`ERROR`), or the object it sends. -/
structure SessionEnv where
  byte : List Ask → Ask → Command
  data : List Ask → Ask → Bytes

/-- One turn of `_handle_session`: graphserver.py:571-637, after the commands `h`. The result is the commands carried out, and whether the
loop goes on. -/
def sessionTurn (e : SessionEnv) (h : List Ask) : Prog (List Ask × Bool) :=
  .read1 fun
  | none => .close (ret (h, false))
  | some req =>
    let data (a : Ask) : Prog (List Ask × Bool) := writePayload (e.data h a) <| cmd COMPLETE <| ret (h ++ [a], true)
    let byte (a : Ask) : Prog (List Ask × Bool) := cmd (e.byte h a) <| ret (h ++ [a], true)
    if req = SESSION_CONNECT.value then readStr fun s => readStr fun t => byte (.connect s t)
    else if req = SESSION_DISCONNECT.value then readStr fun s => readStr fun t => byte (.disconnect s t)
    else if req = SESSION_CLEAR.value then byte .clear
    else if req = SESSION_REGISTER.value then readPayload fun m => byte (.register m)
    else if req = SESSION_SNAPSHOT.value then data .snapshot
    else if req = SESSION_SETTINGS_SNAPSHOT.value then data .settingsSnapshot
    else if req = SESSION_SETTINGS_EVENTS.value then
      readStr fun s => match pyInt s.toList with
        | none => raise .value
        | some after => data (.settingsEvents after)
    else if req = SESSION_PROCESS_REQUEST.value then
      readStr fun u => readStr fun op => readStr fun t => readInt fun size =>
        if 0 < size then exactly size fun p => data (.request u op t (some p))
        else data (.request u op t none)
    else ret (h, true)

/-- `while True`. -/
def sessionLoops (e : SessionEnv) : Loops (List Answer) (List Ask × Bool) :=
  ⟨fun _ => none, fun (h, more) => if more then some (sessionTurn e h) else none⟩

/-! ## Frames: streams that only one side writes -/

/-- What travels as a command and a body. -/
inductive Frame where
  | ack (ok : Bool)
  | routeRequest (p : Bytes)
  | register (p : Bytes)
  | ownership (p : Bytes)
  | settings (p : Bytes)
  | trace (p : Bytes)
  | routeResponse (p : Bytes)
  | txShm (msg : Nat) (name : String)
  | txTcp (msg : Nat) (content : Bytes)
  | rxAck (msg : Nat)
  | event (p : Bytes)
deriving DecidableEq

/-- graphserver.py:750-765 with the answers 1059-1195 (`ack`), 1285-1288 (`routeRequest`), 814-818 (`event`); processclient.py:203-206 (the
five commands of a process); pubclient.py:541-556 (`txShm`, `txTcp`); messagechannel.py:418-421 (`rxAck`). -/
def Frame.send (k : Prog R) : Frame → Prog R
  | .ack ok => cmd (if ok then COMPLETE else ERROR) k
  | .routeRequest p => cmd PROCESS_ROUTE_REQUEST <| writePayload p k
  | .register p => cmd PROCESS_REGISTER <| writePayload p k
  | .ownership p => cmd PROCESS_UPDATE_OWNERSHIP <| writePayload p k
  | .settings p => cmd PROCESS_SETTINGS_UPDATE <| writePayload p k
  | .trace p => cmd PROCESS_PROFILING_TRACE_UPDATE <| writePayload p k
  | .routeResponse p => cmd PROCESS_ROUTE_RESPONSE <| writePayload p k
  | .txShm m name => cmd TX_SHM <| writeInt m <| writeStr name k
  | .txTcp m content => cmd TX_TCP <| writeInt m <| writePayload content k
  | .rxAck m => cmd RX_ACK <| writeInt m k
  | .event p => writePayload p k

/-- Frames one after another, then the connection is closed. -/
def sender : List Frame → Prog Unit
  | [] => .close (ret ())
  | f :: fs => f.send (sender fs)

/-- A turn of a loop that reads frames: those got so far, and whether it goes on. -/
abbrev Turn := Prog (List Frame × Bool)

/-- `_io_loop` of a process: processclient.py:232-260. -/
def processTurn (got : List Frame) : Turn :=
  .read1 fun
  | none => ret (got, false)
  | some req =>
    if req = COMPLETE.value then ret (got ++ [.ack true], true)
    else if req = ERROR.value then ret (got ++ [.ack false], true)
    else if req ≠ PROCESS_ROUTE_REQUEST.value then ret (got, true)
    else readPayload fun p => ret (got ++ [.routeRequest p], true)

/-- `_handle_process` of the server: graphserver.py:656-693. `answer` says whether a command is carried out. -/
def serverProcessTurn (answer : List Frame → Frame → Bool) (got : List Frame) : Turn :=
  .read1 fun
  | none => .close (ret (got, false))
  | some req =>
    let reply (f : Frame) : Turn := cmd (if answer got f then COMPLETE else ERROR) <| ret (got ++ [f], true)
    if req = PROCESS_REGISTER.value then readPayload fun p => reply (.register p)
    else if req = PROCESS_UPDATE_OWNERSHIP.value then readPayload fun p => reply (.ownership p)
    else if req = PROCESS_SETTINGS_UPDATE.value then readPayload fun p => reply (.settings p)
    else if req = PROCESS_PROFILING_TRACE_UPDATE.value then readPayload fun p => ret (got ++ [.trace p], true)
    else if req = PROCESS_ROUTE_RESPONSE.value then readPayload fun p => ret (got ++ [.routeResponse p], true)
    else ret (got, true)

/-- `_publisher_connection` of a channel: messagechannel.py:255-297. -/
def channelTurn (got : List Frame) : Turn :=
  .read1 fun
  | none => .close (ret (got, false))
  | some msg =>
    readInt fun m =>
      if msg = TX_SHM.value then readStr fun name => ret (got ++ [.txShm m name], true)
      else if msg = TX_TCP.value then readPayload fun b => ret (got ++ [.txTcp m b], true)
      else raise .value

/-- `_handle_channel` of a publisher: pubclient.py:420-438. -/
def publisherTurn (got : List Frame) : Turn :=
  .read1 fun
  | none => .close (ret (got, false))
  | some msg =>
    if msg = RX_ACK.value then readInt fun m => ret (got ++ [.rxAck m], true)
    else ret (got, true)

/-- The loop of `_subscribe_pickled_stream`: graphcontext.py:577-588. An `IncompleteReadError` is taken for the end of the stream. -/
def streamTurn (got : List Frame) : Turn :=
  let over : Turn := .close (ret (got, false))
  .exact UINT64_SIZE (fun raw => .exact (bytesToUint raw) (fun p => ret (got ++ [.event p], true)) over) over

/-- `while True`. -/
def frameLoops (turn : List Frame → Turn) : Loops Unit (List Frame × Bool) :=
  ⟨fun _ => none, fun (got, more) => if more then some (turn got) else none⟩

/-! ## A channel introduces itself to a publisher -/

/-- What a publisher tells a channel. -/
structure PubInfo where
  topic : String
  shm : String
  buffers : Nat
deriving DecidableEq

/-- `Channel.create`: messagechannel.py:169-193. `attaches` says whether the segment named can be attached. The result is the topic, the
name of the segment and the number of buffers. -/
def introduce (id : String) (attaches : Bool) (pid : Nat) : Prog PubInfo :=
  cmd CHANNEL <| writeStr id <| readStr fun topic => readStr fun shm =>
    cmd (if attaches then SHM_OK else SHM_ATTACH_FAILED) <| writeInt pid <| .read1 fun r =>
      if r ≠ some COMPLETE.value then raise .value
      else readInt fun n => ret ⟨topic, shm, n⟩

/-- `_channel_connect`: pubclient.py:380-399. The result is the channel's id, its process, and whether it has the segment. -/
def welcome (i : PubInfo) : Prog (Option (String × Nat × Bool)) :=
  .read1 fun
  | none => ret none
  | some req =>
    if req = CHANNEL.value then
      readStr fun id => writeStr i.topic <| writeStr i.shm <| .read1 fun ok => readInt fun pid =>
        cmd COMPLETE <| writeInt i.buffers <| ret (some (id, pid, decide (ok = some SHM_OK.value)))
    else raise .value

/-! ## Updates of a subscriber -/

/-- `",".join(ids)`: graphserver.py:1744. -/
def joinIds (ids : List String) : String := String.ofList ([','].intercalate (ids.map String.toList))

/-- `_notify_subscriber`: graphserver.py:1736-1748, here with the end of `sync_writer`, which waits for the byte that `_handle_client`
reads. A wait that is given up (1749-1757) is not modelled. -/
def notify (pubs : List String) (k : Prog R) : Prog R :=
  cmd UPDATE <| writeStr (joinIds pubs) <| .read1 fun r => if r = some COMPLETE.value then k else raise .runtime

/-- All updates of a subscriber: graphserver.py:433-457 (`SUBSCRIBE`), then any number of 1727-1734. The result is its topic. -/
def subscribe (e : Env) (first : List String) (updates : List (List String)) : Prog String :=
  writeStr e.version <| .read1 fun req =>
    if req = some SUBSCRIBE.value then
      readStr fun topic => writeStr e.id <| notify first <| cmd COMPLETE <| rest topic updates
    else raise .runtime
where
  rest (topic : String) : List (List String) → Prog String
    | [] => .close (ret topic)
    | u :: us => notify u (rest topic us)

/-- What a subscriber has: its id, the lists of publishers it was told, how many of these came before it was ready (`none`: it
is not ready), and whether its loop goes on. -/
structure Sub where
  id : String
  told : List (List String)
  ready : Option Nat
  more : Bool
deriving DecidableEq

/-- `Subscriber.create`: subclient.py:76-80. -/
def subCreate (topic : String) : Prog Sub :=
  openConnection <| cmd SUBSCRIBE <| writeStr topic <| readStr fun i => ret ⟨i, [], none, true⟩

/-- A turn of `_graph_connection`: subclient.py:198-243. -/
def subTurn (s : Sub) : Prog Sub :=
  .read1 fun
  | none => .close (ret { s with more := false })
  | some req =>
    if req = COMPLETE.value then ret { s with ready := s.ready.or (some s.told.length) }
    else if req = UPDATE.value then
      readStr fun u =>
        let pubs := if u = "" then [] else (pySplit ',' u.toList).map String.ofList
        cmd COMPLETE <| ret { s with told := s.told ++ [pubs] }
    else ret s

def subLoops : Loops Sub String := ⟨fun s => if s.more then some (subTurn s) else none, fun _ => none⟩

end Ez.Wire
