import Verif.Model.Backpressure

/-!
# Channels that come and go while a message is being sent

Sources: `Publisher.broadcast`, `src/ezmsg/core/pubclient.py:475-569`, `_channel_connect`, 366-399, and
`_handle_channel`, 402-437.

`broadcast` loops over `self._channels.values()` and suspends inside the loop, in
`await channel.writer.drain()`, whenever the connection is slow (a message larger than the socket takes). In
the meantime other tasks run: `_handle_channel` of a new connection adds an entry to the same dictionary, that
of a lost one removes it. The system model (`Model/System.lean`) leaves this out; here it is the subject.

One publisher, one `broadcast` call at a time, any number of channels `K` (their ids are UUIDs and not reused).

Simplifications:
* no channel in the publisher's own process (those are skipped by the loop);
* waiting for the gate or for the buffer is not a step of its own: a call starts when its buffer is free;
* the dictionary's table is not reallocated during a loop (reallocation moves the entries under the iterator; it
  matters only if one channel left and another joined).
-/

namespace Ez
namespace Joining

/-- The iterator of `dict.values()`: `size` entries when it was created, `left` not yet visited, `seen` the keys
visited. -/
structure Iter (K : Type) where
  size : Nat
  left : Nat
  seen : List K

inductive Next (K : Type) where
  | visit (k : K) (it : Iter K)
  | stop
  | raise

/-- `next()` of the iterator (CPython's `dictiter_iternextvalue`): `RuntimeError` if the number of entries is not the
original one, else the next entry in insertion order; `RuntimeError` if there is one although all of the original
number were visited. -/
def Iter.next {K : Type} [DecidableEq K] (it : Iter K) (keys : List K) : Next K :=
  if keys.length ≠ it.size then .raise
  else match keys.filter (fun k => decide (k ∉ it.seen)) with
    | [] => .stop
    | k :: _ => if it.left = 0 then .raise else .visit k { it with left := it.left - 1, seen := it.seen ++ [k] }

/-- A `broadcast(v)` suspended in `drain` of channel `cur`. -/
structure Call (K V : Type) where
  v : V
  cur : K
  it : Iter K

/-- What happened, oldest first. -/
inductive Ev (K V : Type) where
  /-- channel `k` entered `_channels` -/
  | joined (k : K)
  /-- the entry of channel `k` was removed from `_channels` -/
  | removed (k : K)
  /-- a `broadcast(v)` call got past its waits, with message id `m` -/
  | start (m : Nat) (v : V)
  /-- the message was written to the connection of `k` -/
  | sent (k : K) (m : Nat) (v : V)
  /-- the call returned -/
  | finished (m : Nat) (v : V)
  /-- the call raised `RuntimeError` -/
  | raised (m : Nat) (v : V)
deriving DecidableEq

/-- `chans`: keys of `_channels` in insertion order. `hung`: the other side closed the connection. `dead`: the task
of `_handle_channel` has left its loop. `used`: all channel ids so far. -/
structure St (K V : Type) where
  bp : Backpressure K
  msgId : Nat
  chans : List K
  hung : List K
  dead : List K
  used : List K
  call : Option (Call K V)
  log : List (Ev K V)

variable {K V : Type} [DecidableEq K]

def init (n : Nat) : St K V :=
  { bp := Backpressure.init n, msgId := 0, chans := [], hung := [], dead := [], used := [], call := none, log := [] }

/-- The head of the loop, pubclient.py:533, then either the write to the next channel, 534-556, or what follows the
loop, 568-569, or the exception. -/
def advance (st : St K V) (v : V) (it : Iter K) : St K V :=
  match it.next st.chans with
  | .visit k it' => { st with call := some { v := v, cur := k, it := it' }, log := st.log ++ [.sent k st.msgId v] }
  | .stop => { st with call := none, msgId := st.msgId + 1, log := st.log ++ [.finished st.msgId v] }
  | .raise => { st with call := none, log := st.log ++ [.raised st.msgId v] }

/-- * `broadcast v`: the call starts, its buffer being free (487-506);
* `drained ok`: `drain` returns, and the buffer is leased (557-561), or raises `ConnectionResetError` or
  `BrokenPipeError` (563-566), which needs a connection closed by the other side;
* `ack k m`: `RX_ACK` of message `m` is read from channel `k` (425-428);
* `join k`: the task `_handle_channel` starts (416);
* `hangup k`: the other side closes the connection;
* `eof k`: the task leaves its loop and frees the channel's leases (422-423, 433-435);
* `remove k`: the connection is closed and the entry deleted (436-437). -/
inductive Act (K V : Type) where
  | broadcast (v : V)
  | drained (ok : Bool)
  | ack (k : K) (m : Nat)
  | join (k : K)
  | hangup (k : K)
  | eof (k : K)
  | remove (k : K)

/-- `none`: not possible in this state. -/
def step (n : Nat) (st : St K V) : Act K V → Option (St K V)
  | .broadcast v =>
    match st.call, st.bp.available (st.msgId % n) with
    | none, some true => some (advance { st with log := st.log ++ [.start st.msgId v] } v
        { size := st.chans.length, left := st.chans.length, seen := [] })
    | _, _ => none
  | .drained ok =>
    match st.call with
    | none => none
    | some c =>
      if ok then
        match st.bp.lease c.cur (st.msgId % n) with
        | none => none
        | some bp => some (advance { st with bp := bp } c.v c.it)
      else if c.cur ∈ st.hung then some (advance st c.v c.it)
      else none
  | .ack k m =>
    if k ∈ st.chans ∧ k ∉ st.dead then (st.bp.free k (some (m % n))).map (fun bp => { st with bp := bp }) else none
  | .join k =>
    if k ∈ st.used then none
    else some { st with chans := st.chans ++ [k], used := st.used ++ [k], log := st.log ++ [.joined k] }
  | .hangup k => if k ∈ st.chans then some { st with hung := st.hung ++ [k] } else none
  | .eof k =>
    if k ∈ st.chans ∧ k ∈ st.hung ∧ k ∉ st.dead then
      (st.bp.free k none).map (fun bp => { st with bp := bp, dead := st.dead ++ [k] })
    else none
  | .remove k =>
    if k ∈ st.chans ∧ k ∈ st.dead then
      some { st with chans := st.chans.erase k, log := st.log ++ [.removed k] }
    else none

/-- All runs. -/
inductive Run (n : Nat) : St K V → Prop where
  | init : Run n (init n)
  | step {st st' : St K V} {a : Act K V} : Run n st → step n st a = some st' → Run n st'

/-- The state after the given steps. -/
def exec (n : Nat) : List (Act K V) → St K V → Option (St K V)
  | [], st => some st
  | a :: as, st => (step n st a).bind (exec n as)

end Joining
end Ez
