import Verif.Model.Backpressure
import Verif.Model.MessageCache
import Verif.Model.LeakyQueue

/-!
# Publishers, channels and subscribers as a transition system

Sources: `src/ezmsg/core/pubclient.py` (broadcast, acknowledgements, pause/resume/sync),
`src/ezmsg/core/messagechannel.py` (Channel), `src/ezmsg/core/subclient.py` (recv_zero_copy,
dropped notifications). The state is built from the models of `Backpressure`, `MessageCache` and
`LeakyQueue`.

Any number of publishers (`P`), channels (`K`, one per publisher and receiving process and
connection, ids never reused) and subscribers (`S`), message contents `V`.

A step is the code between two suspension points of one asyncio task:
`broadcast` is split at the wait for `_running`, at the wait for the buffer and between the sends to
the individual channels; a TCP connection is a FIFO list in each direction.

Simplifications (see DESIGN.md):
* one `broadcast` call of a publisher at a time (overlapping calls: property C47);
* no shared memory growth (C18, C48): a publisher has one segment, slot `i` holds at most one
  message; an object deserialised from shared memory is a view of its slot and reading it reads the
  slot's current content;
* `write`, `drain` and `lease` for one channel form one step;
* channels come and go (`connect`, `eof`) only while no loop over `_channels` is suspended (see
  `Model/Joining.lean`, property C64);
* `unlink` only happens when the subscriber holds no message of that publisher (`recv_zero_copy`
  block not active);
* a publisher is never closed (see `Model/Departure.lean`, property C62).
-/

namespace Ez

/-- Function update. -/
def upd {α β : Type} [DecidableEq α] (f : α → β) (a : α) (b : β) : α → β :=
  fun x => if x = a then b else f x

namespace Sys

/-- How messages reach a channel (pubclient.py:571-582, see property C26). -/
inductive Mode where
  | local | shm | tcp
deriving DecidableEq

/-- What is fixed about a system. `pubOf k`: publisher of channel `k`. `n p`: `num_buffers`.
`mode k`: transport. `direct k`: the channel lives in the publisher's process and has
`_local_backpressure` (messagechannel.py:442-443). `maxq s`: `none` for an ordinary
`asyncio.Queue`, `some m` for a leaky subscriber with `maxsize = m` (subclient.py:135-140).
`startPaused p`: pubclient.py:276-277. -/
structure Cfg (P K S : Type) where
  pubOf : K → P
  n : P → Nat
  mode : K → Mode
  direct : K → Bool
  maxq : S → Option Int
  startPaused : P → Bool

/-- Buffers exist; in-process delivery needs a channel in the publisher's process, and a publisher has
one such channel (`_local_channel`). -/
structure Cfg.WF {P K S : Type} (cfg : Cfg P K S) : Prop where
  pos : ∀ p, 0 < cfg.n p
  localDirect : ∀ k, cfg.mode k = .local → cfg.direct k = true
  localOne : ∀ k k', cfg.mode k = .local → cfg.mode k' = .local → cfg.pubOf k = cfg.pubOf k' → k = k'

/-- A cached object: a value of its own (in-process and TCP delivery), or a view of a slot of the
publisher's shared memory segment. -/
inductive Obj (V : Type) where
  | val (v : V)
  | view (i : Nat)
deriving DecidableEq

/-- What is on the wire to a channel: `TX_TCP` carries the content, `TX_SHM` only the id. -/
inductive Payload (V : Type) where
  | tcp (v : V)
  | shm
deriving DecidableEq

/-- Progress of the publisher's `broadcast` call. -/
inductive Job (K V : Type) where
  | idle
  /-- suspended in `await self._running.wait()`; `true` once the event was set -/
  | gate (v : V) (woken : Bool)
  /-- suspended in `await self._backpressure.wait(buf_idx)`; `true` once the event was set -/
  | slot (v : V) (woken : Bool)
  /-- in the loop over `_channels`, these are still to be served -/
  | sending (v : V) (todo : List K)

/-- `Publisher`, pubclient.py:231-287. `chans` are the keys of `_channels`; `shm` the segment's slots;
`syncWait`/`syncWoken`: number of `sync()` calls suspended in `Backpressure.sync`, resp. woken up but
not yet returned. -/
structure PubSt (K V : Type) where
  bp : Backpressure K
  msgId : Nat
  running : Bool
  chans : List K
  shm : List (Option (Nat × V))
  job : Job K V
  syncWait : Nat
  syncWoken : Nat

/-- `Channel`, messagechannel.py:73-130, with the two directions of its connection to the publisher:
`wire` towards the channel, `acks` towards the publisher. `clients` are the keys of `clients` that
have a queue. `opened`: the channel was connected to its publisher at some time; `closed`: it was
closed. -/
structure ChanSt (S V : Type) where
  bp : Backpressure S
  cache : MessageCache (Obj V) Unit
  clients : List S
  wire : List (Nat × Payload V)
  acks : List Nat
  opened : Bool
  closed : Bool

/-- `Subscriber`: `_incoming`, `_channels` and the messages currently inside a `recv_zero_copy`
block. -/
structure SubSt (P K : Type) where
  queue : List (P × Nat)
  chans : P → Option K
  held : List (P × Nat)

/-- Observable events, recorded in `St.log`, newest first. -/
inductive Ev (P K S V : Type) where
  /-- `broadcast(v)` was assigned the next message id of `p` -/
  | bcast (p : P) (v : V)
  /-- channel `k` entered `_channels` of its publisher -/
  | connected (k : K)
  /-- the next message of its publisher reached channel `k` -/
  | arrived (k : K)
  | linked (s : S) (k : K)
  | unlinked (s : S) (k : K)
  /-- `recv_zero_copy` yielded `v`, message `m` of channel `k`'s publisher -/
  | recv (s : S) (k : K) (m : Nat) (v : V)
  /-- the `recv_zero_copy` block for message `m` was left -/
  | done (s : S) (k : K) (m : Nat)
  /-- a leaky queue dropped the notification for message `m` -/
  | dropped (s : S) (k : K) (m : Nat)
  /-- a `sync()` call of `p` returned -/
  | synced (p : P)
  /-- `sync()` of `p` was called (which also pauses it) -/
  | syncing (p : P)
  | paused (p : P)
  | resumed (p : P)
deriving DecidableEq

structure St (P K S V : Type) where
  pub : P → PubSt K V
  chan : K → ChanSt S V
  sub : S → SubSt P K
  log : List (Ev P K S V)

/-- Python exceptions that the modelled code can raise. -/
inductive Err where
  | indexError | cacheMiss | valueError | assertionError
deriving DecidableEq

section
variable {P K S V : Type} [DecidableEq P] [DecidableEq K] [DecidableEq S]

def init (cfg : Cfg P K S) : St P K S V :=
  { pub := fun p =>
      { bp := Backpressure.init (cfg.n p), msgId := 0, running := !cfg.startPaused p, chans := []
        shm := List.replicate (cfg.n p) none, job := .idle, syncWait := 0, syncWoken := 0 }
    chan := fun k =>
      { bp := Backpressure.init (cfg.n (cfg.pubOf k)), cache := MessageCache.init (cfg.n (cfg.pubOf k))
        clients := [], wire := [], acks := [], opened := false, closed := false }
    sub := fun _ => { queue := [], chans := fun _ => none, held := [] }
    log := [] }

def setPub (st : St P K S V) (p : P) (x : PubSt K V) : St P K S V := { st with pub := upd st.pub p x }
def setChan (st : St P K S V) (k : K) (x : ChanSt S V) : St P K S V := { st with chan := upd st.chan k x }
def setSub (st : St P K S V) (s : S) (x : SubSt P K) : St P K S V := { st with sub := upd st.sub s x }
def addLog (st : St P K S V) (e : Ev P K S V) : St P K S V := { st with log := e :: st.log }

/-- Effect of `Backpressure.free` on the tasks suspended on its events: `asyncio.Event.set` wakes every
waiter (they run later, whatever happens to the event meanwhile). -/
def wake (n : Nat) (pb : PubSt K V) : PubSt K V :=
  { pb with
    job := match pb.job with
      | .slot v false => .slot v ((pb.bp.waitReady (pb.msgId % n)).getD false)
      | j => j
    syncWait := if pb.bp.syncReady then 0 else pb.syncWait
    syncWoken := if pb.bp.syncReady then pb.syncWoken + pb.syncWait else pb.syncWoken }

/-- The publisher's `self._backpressure.free(channel, idx)`: from `_handle_channel`
(pubclient.py:428, 434) or directly from a channel in the same process (messagechannel.py:414). -/
def pubFree (cfg : Cfg P K S) (st : St P K S V) (k : K) (i : Option Nat) : Except Err (St P K S V) :=
  let p := cfg.pubOf k
  match (st.pub p).bp.free k i with
  | none => .error .indexError
  | some bp => .ok (setPub st p (wake (cfg.n p) { st.pub p with bp := bp }))

/-- `_release_backpressure`, messagechannel.py:398-416, and `_acknowledge`, 418-423. -/
def releaseBp (cfg : Cfg P K S) (st : St P K S V) (k : K) (m : Nat) (c : S) : Except Err (St P K S V) :=
  let i := m % cfg.n (cfg.pubOf k)
  match (st.chan k).bp.free c (some i) with
  | none => .error .indexError
  | some bp =>
    match bp.available i with
    | none => .error .indexError
    | some false => .ok (setChan st k { st.chan k with bp := bp })
    | some true =>
      match (st.chan k).cache.release m with
      | .error _ => .error .cacheMiss
      | .ok cache =>
        if cfg.direct k then
          pubFree cfg (setChan st k { st.chan k with bp := bp, cache := cache }) k (some i)
        else
          .ok (setChan st k
            { st.chan k with bp := bp, cache := cache, acks := (st.chan k).acks ++ [m] })

/-- `queue.put_nowait(item)` on a subscriber's queue: plain `asyncio.Queue`, or `LeakyQueue` with
`Subscriber._handle_dropped_notification` (subclient.py:144-158). The code appends the new item after the
drop handler ran; the handler does not look at the queue, so the queue is updated first here. -/
def putNotif (cfg : Cfg P K S) (st : St P K S V) (c : S) (item : P × Nat) : Except Err (St P K S V) :=
  match cfg.maxq c with
  | none => .ok (setSub st c { st.sub c with queue := (st.sub c).queue ++ [item] })
  | some mx =>
    match LeakyQueue.putNowait mx (st.sub c).queue item with
    | (none, q) => .ok (setSub st c { st.sub c with queue := q })
    | (some d, q) =>
      match (st.sub c).chans d.1 with
      | none => .ok (setSub st c { st.sub c with queue := q })
      | some k' =>
        (releaseBp cfg (setSub st c { st.sub c with queue := q }) k' d.2 c).map
          (fun st' => addLog st' (.dropped c k' d.2))

/-- The loop of `_notify_clients`, messagechannel.py:340-344, over the given clients. -/
def notifyLoop (cfg : Cfg P K S) (k : K) (m : Nat) : List S → St P K S V → Except Err (St P K S V)
  | [], st => .ok st
  | c :: cs, st =>
    match (st.chan k).bp.lease c (m % cfg.n (cfg.pubOf k)) with
    | none => .error .indexError
    | some bp =>
      match putNotif cfg (setChan st k { st.chan k with bp := bp }) c (cfg.pubOf k, m) with
      | .error e => .error e
      | .ok st' => notifyLoop cfg k m cs st'

/-- `_notify_clients`, messagechannel.py:337-345: the new state and whether anybody was notified. -/
def notify (cfg : Cfg P K S) (st : St P K S V) (k : K) (m : Nat) :
    Except Err (St P K S V × Bool) :=
  match notifyLoop cfg k m (st.chan k).clients st with
  | .error e => .error e
  | .ok st' =>
    match (st'.chan k).bp.available (m % cfg.n (cfg.pubOf k)) with
    | none => .error .indexError
    | some b => .ok (st', !b)

/-- `put_local`, messagechannel.py:347-361. -/
def putLocal (cfg : Cfg P K S) (st : St P K S V) (k : K) (m : Nat) (v : V) :
    Except Err (St P K S V) :=
  if cfg.direct k = false then .error .valueError
  else match notify cfg (addLog st (.arrived k)) k m with
    | .error e => .error e
    | .ok (st', false) => .ok st'
    | .ok (st', true) =>
      match (st'.chan k).cache.putLocal (.val v) m with
      | .error _ => .error .cacheMiss
      | .ok cache =>
        let st'' := setChan st' k { st'.chan k with cache := cache }
        match (st''.pub (cfg.pubOf k)).bp.lease k (m % cfg.n (cfg.pubOf k)) with
        | none => .error .indexError
        | some bp => .ok (setPub st'' (cfg.pubOf k) { st''.pub (cfg.pubOf k) with bp := bp })

/-- The part of `broadcast` from pubclient.py:508 (fast path) up to the loop over the channels at 533:
in-process delivery, then the message is written to shared memory if some channel needs that. (The
loop's worklist is set up first; nothing in between looks at it.) -/
def begin (cfg : Cfg P K S) (st : St P K S V) (p : P) (v : V) : Except Err (St P K S V) :=
  let x := (st.pub p).msgId
  let chans := (st.pub p).chans
  let st1 := addLog (setPub st p { st.pub p with
    job := .sending v (chans.filter (fun k => cfg.mode k != .local)) }) (.bcast p v)
  match (match chans.find? (fun k => cfg.mode k == .local) with
    | some k => putLocal cfg st1 k x v
    | none => .ok st1) with
  | .error e => .error e
  | .ok st2 =>
    .ok (if chans.any (fun k => cfg.mode k == .shm) then
        setPub st2 p { st2.pub p with shm := (st2.pub p).shm.set (x % cfg.n p) (some (x, v)) }
      else st2)

/-- `broadcast` after the wait for `_running`, pubclient.py:486-506. -/
def afterGate (cfg : Cfg P K S) (st : St P K S V) (p : P) (v : V) : Except Err (St P K S V) :=
  match (st.pub p).bp.available ((st.pub p).msgId % cfg.n p) with
  | none => .error .indexError
  | some true => begin cfg st p v
  | some false => .ok (setPub st p { st.pub p with job := .slot v false })

/-- The loop body for one channel, pubclient.py:534-563. Sending to a channel that is already closed
may or may not fail (`ok`); if it does not, the lease is taken. -/
def sendTo (cfg : Cfg P K S) (st : St P K S V) (p : P) (v : V) (k : K) (todo : List K) (ok : Bool) :
    Except Err (St P K S V) :=
  let x := (st.pub p).msgId
  if (st.chan k).closed && !ok then
    .ok (setPub st p { st.pub p with job := .sending v todo })
  else
    match (st.pub p).bp.lease k (x % cfg.n p) with
    | none => .error .indexError
    | some bp =>
      let st1 := setPub st p { st.pub p with bp := bp, job := .sending v todo }
      if (st.chan k).closed then .ok st1
      else .ok (setChan st1 k { st.chan k with
        wire := (st.chan k).wire ++ [(x, if cfg.mode k = .shm then .shm else .tcp v)] })

/-- The cached object built from an arriving message, with the assertion on the message id
(messagechannel.py:289-301). -/
def arriving (cfg : Cfg P K S) (st : St P K S V) (k : K) (m : Nat) : Payload V → Except Err (Obj V)
  | .tcp v => .ok (.val v)
  | .shm =>
    match (st.pub (cfg.pubOf k)).shm[m % cfg.n (cfg.pubOf k)]? with
    | some (some (m', _)) =>
      if m' = m then .ok (.view (m % cfg.n (cfg.pubOf k))) else .error .assertionError
    | _ => .error .assertionError

/-- One round of `_publisher_connection`, messagechannel.py:255-310. -/
def deliver (cfg : Cfg P K S) (st : St P K S V) (k : K) (m : Nat) (pl : Payload V)
    (rest : List (Nat × Payload V)) : Except Err (St P K S V) :=
  match arriving cfg st k m pl with
  | .error e => .error e
  | .ok o =>
    match (st.chan k).cache.putFromMem () o m with
    | .error _ => .error .cacheMiss
    | .ok cache =>
      match notify cfg (addLog (setChan st k { st.chan k with cache := cache, wire := rest })
          (.arrived k)) k m with
      | .error e => .error e
      | .ok (st', true) => .ok st'
      | .ok (st', false) =>
        match (st'.chan k).cache.release m with
        | .error _ => .error .cacheMiss
        | .ok cache => .ok (setChan st' k
            { st'.chan k with cache := cache, acks := (st'.chan k).acks ++ [m] })

/-- Reading a cached object. -/
def deref (cfg : Cfg P K S) (st : St P K S V) (k : K) : Obj V → Option V
  | .val v => some v
  | .view i => match (st.pub (cfg.pubOf k)).shm[i]? with
    | some (some (_, v)) => some v
    | _ => none

/-- `Channel.get`, messagechannel.py:363-382, up to the `yield`: look the message up. -/
def lookup (cfg : Cfg P K S) (st : St P K S V) (k : K) (m : Nat) : Except Err V :=
  match (st.chan k).cache.get m with
  | .error _ => .error .cacheMiss
  | .ok o => match deref cfg st k o with
    | some v => .ok v
    | none => .error .valueError

/-- Schedulable steps. -/
inductive Act (P K S V : Type) where
  /-- `broadcast(v)` is called -/
  | bcast (p : P) (v : V)
  /-- a `broadcast` woken up from `_running.wait()` continues -/
  | gateResume (p : P)
  /-- a `broadcast` woken up from `_backpressure.wait()` continues -/
  | slotResume (p : P)
  /-- the loop over the channels serves the next one -/
  | send (p : P) (ok : Bool)
  /-- the end of `broadcast` -/
  | finish (p : P)
  | pause (p : P)
  | resume (p : P)
  | sync (p : P)
  | syncReturn (p : P)
  /-- a message reaches channel `k` -/
  | deliver (k : K)
  /-- the publisher handles an acknowledgement from `k` -/
  | ack (k : K)
  /-- subscriber `s` takes the next notification -/
  | recv (s : S)
  /-- subscriber `s` leaves the `recv_zero_copy` block of its `j`-th held message -/
  | release (s : S) (j : Nat)
  | link (s : S) (k : K)
  | unlink (s : S) (k : K)
  | connect (k : K)
  /-- the last client left: the channel is closed (channelmanager.py:121-126) -/
  | close (k : K)
  /-- the publisher sees the end of the connection of a closed channel (pubclient.py:433-437) -/
  | eof (k : K)

/-- Outcome of scheduling a step. -/
inductive Res (α : Type) where
  /-- the step cannot be taken now -/
  | disabled
  | raised (e : Err)
  | ok (a : α)

def Res.ofExcept {α : Type} : Except Err α → Res α
  | .ok a => .ok a
  | .error e => .raised e

/-- The transition function. -/
def step (cfg : Cfg P K S) (st : St P K S V) : Act P K S V → Res (St P K S V)
  | .bcast p v =>
    match (st.pub p).job with
    | .idle =>
      if (st.pub p).running then .ofExcept (afterGate cfg st p v)
      else .ok (setPub st p { st.pub p with job := .gate v false })
    | _ => .disabled
  | .gateResume p =>
    match (st.pub p).job with
    | .gate v true => .ofExcept (afterGate cfg st p v)
    | _ => .disabled
  | .slotResume p =>
    match (st.pub p).job with
    | .slot v true => .ofExcept (begin cfg st p v)
    | _ => .disabled
  | .send p ok =>
    match (st.pub p).job with
    | .sending v (k :: todo) => .ofExcept (sendTo cfg st p v k todo ok)
    | _ => .disabled
  | .finish p =>
    match (st.pub p).job with
    | .sending _ [] =>
      .ok (setPub st p { st.pub p with job := .idle, msgId := (st.pub p).msgId + 1 })
    | _ => .disabled
  | .pause p => .ok (addLog (setPub st p { st.pub p with running := false }) (.paused p))
  | .resume p =>
    .ok (addLog (setPub st p { st.pub p with
      running := true
      job := match (st.pub p).job with
        | .gate v _ => .gate v true
        | j => j }) (.resumed p))
  | .sync p =>
    let st' := addLog (setPub st p { st.pub p with running := false }) (.syncing p)
    if (st.pub p).bp.syncReady then .ok (addLog st' (.synced p))
    else .ok (setPub st' p { st'.pub p with syncWait := (st.pub p).syncWait + 1 })
  | .syncReturn p =>
    if (st.pub p).syncWoken = 0 then .disabled
    else .ok (addLog (setPub st p { st.pub p with syncWoken := (st.pub p).syncWoken - 1 }) (.synced p))
  | .deliver k =>
    match (st.chan k).wire with
    | (m, pl) :: rest => .ofExcept (deliver cfg st k m pl rest)
    | [] => .disabled
  | .ack k =>
    match (st.chan k).acks with
    | m :: rest =>
      .ofExcept (pubFree cfg (setChan st k { st.chan k with acks := rest }) k
        (some (m % cfg.n (cfg.pubOf k))))
    | [] => .disabled
  | .recv s =>
    match (st.sub s).queue with
    | [] => .disabled
    | (p, m) :: q =>
      match (st.sub s).chans p with
      | none => .ok (setSub st s { st.sub s with queue := q })
      | some k =>
        match lookup cfg st k m with
        | .error e => .raised e
        | .ok v => .ok (addLog (setSub st s { st.sub s with
            queue := q, held := (st.sub s).held ++ [(p, m)] }) (.recv s k m v))
  | .release s j =>
    match (st.sub s).held[j]? with
    | none => .disabled
    | some (p, m) =>
      match (st.sub s).chans p with
      | none => .disabled
      | some k =>
        .ofExcept ((releaseBp cfg
          (setSub st s { st.sub s with held := (st.sub s).held.eraseIdx j }) k m s).map
            (fun st' => addLog st' (.done s k m)))
  | .link s k =>
    if ((st.sub s).chans (cfg.pubOf k)).isSome || (st.chan k).closed || !(st.chan k).opened then
      .disabled
    else .ok (addLog (setSub
      (setChan st k { st.chan k with clients := (st.chan k).clients ++ [s] }) s
      { st.sub s with chans := upd (st.sub s).chans (cfg.pubOf k) (some k) }) (.linked s k))
  | .unlink s k =>
    if (st.sub s).chans (cfg.pubOf k) ≠ some k ∨
        (st.sub s).held.any (fun x => x.1 == cfg.pubOf k) then .disabled
    else match (st.chan k).bp.free s none with
      | none => .raised .indexError
      | some bp => .ok (addLog (setSub
          (setChan st k { st.chan k with
            bp := bp, clients := (st.chan k).clients.filter (· != s) }) s
          { st.sub s with
            queue := rotateOut (cfg.pubOf k) (st.sub s).queue.length (st.sub s).queue
            chans := upd (st.sub s).chans (cfg.pubOf k) none }) (.unlinked s k))
  | .connect k =>
    match (st.pub (cfg.pubOf k)).job with
    | .sending _ _ => .disabled
    | _ =>
      if (st.chan k).opened || (st.chan k).closed then .disabled
      else .ok (addLog (setPub (setChan st k { st.chan k with opened := true }) (cfg.pubOf k)
        { st.pub (cfg.pubOf k) with chans := (st.pub (cfg.pubOf k)).chans ++ [k] }) (.connected k))
  | .close k =>
    if (st.chan k).opened && !(st.chan k).closed && (st.chan k).clients.isEmpty && !cfg.direct k then
      .ok (setChan st k { st.chan k with
        closed := true, wire := [], cache := (st.chan k).cache.clear })
    else .disabled
  | .eof k =>
    match (st.pub (cfg.pubOf k)).job with
    | .sending _ _ => .disabled
    | _ =>
      if (st.chan k).closed && decide (k ∈ (st.pub (cfg.pubOf k)).chans) then
        .ofExcept ((pubFree cfg (setChan st k { st.chan k with acks := [] }) k none).map
          (fun st' => setPub st' (cfg.pubOf k) { st'.pub (cfg.pubOf k) with
            chans := (st'.pub (cfg.pubOf k)).chans.filter (· != k) }))
      else .disabled

end
end Sys
end Ez
