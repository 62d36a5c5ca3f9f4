import Verif.Model.Py

/-!
# Growing shared memory

A publisher that replaces its shared memory segment by a larger one, and the channels in other processes that read it:
`Publisher.broadcast` (pubclient.py:512-562), `Channel._publisher_connection` (messagechannel.py:250-319),
`SHMInfo.lease/_release` (shm.py:218-258) and the server's handling of segments (graphserver.py:268-300).

* Segments are named by numbers, a new one gets an unused number. A segment has a slot per buffer; slots hold a message
  id and its content, or nothing if never written. Sizes are left out: the publisher may grow before any broadcast.
* A segment is held by whoever is attached to it. The server removes one that nobody holds some time after the last
  holder has gone (`unlink`). It never forgets a name, so an attach to a removed segment is confirmed by the server and
  fails with `FileNotFoundError` when the memory is opened (shm.py:77-78).
* An error in a channel's reader task ends the channel (messagechannel.py:308-319). The publisher frees its buffers when it
  notices that (`drop`).
* Only channels that read shared memory are in this model, and each has at least one client.
-/

namespace Ez
namespace Growth

/-- A channel in another process. -/
structure Reader where
  /-- its task is running -/
  live : Bool
  /-- the segment it is attached to -/
  seg : Nat
  /-- `TX_SHM` notifications under way: message id and segment name -/
  wire : List (Nat × Nat)
  /-- ids of the cached messages; their contents are views of `seg` -/
  cache : List Nat
  /-- acknowledgements under way -/
  acks : List Nat
  deriving DecidableEq

/-- Why a reader task ended: `FileNotFoundError`, `AssertionError` (messagechannel.py:289), `UninitializedMemory`. -/
inductive Err where
  | fileNotFound
  | assertion
  | uninitialized
  deriving DecidableEq

/-- What happened. -/
inductive Ev (R V : Type) where
  | join (r : R)
  | drop (r : R)
  | bcast (v : V)
  | grow
  | deliver (r : R) (m : Nat)
  | read (r : R) (m : Nat) (v : V)
  | died (r : R) (e : Err)
  deriving DecidableEq

structure St (R V : Type) where
  /-- `self._shm` of the publisher -/
  pubSeg : Nat
  /-- `self._msg_id` -/
  next : Nat
  /-- contents of segment and slot -/
  slots : Nat → Nat → Option (Nat × V)
  /-- segments that are not removed -/
  alive : Nat → Bool
  /-- the name of the next segment -/
  fresh : Nat
  /-- `self._backpressure`: channel and buffer -/
  leases : List (R × Nat)
  /-- `self._channels` -/
  chans : List R
  readers : R → Reader
  log : List (Ev R V)

variable {R V : Type} [DecidableEq R]

/-- A publisher with its first segment, pubclient.py:150-160. -/
def init : St R V :=
  { pubSeg := 0, next := 0, slots := fun _ _ => none, alive := fun s => s == 0, fresh := 1, leases := [], chans := []
    readers := fun _ => { live := false, seg := 0, wire := [], cache := [], acks := [] }, log := [] }

def setReader (st : St R V) (r : R) (x : Reader) : St R V :=
  { st with readers := fun r' => if r' = r then x else st.readers r' }

def logEv (st : St R V) (e : Ev R V) : St R V := { st with log := st.log ++ [e] }

/-- `Backpressure.available`: nobody leases the buffer. -/
def available (st : St R V) (idx : Nat) : Bool := st.leases.all (fun l => decide (l.2 ≠ idx))

/-- Replacing the segment: pubclient.py:519-534. Slots never written are skipped by the copy. -/
def grow (st : St R V) : St R V :=
  logEv { st with
    pubSeg := st.fresh
    slots := fun s => if s = st.fresh then st.slots st.pubSeg else st.slots s
    alive := fun s => s == st.fresh || st.alive s
    fresh := st.fresh + 1 } .grow

/-- Writing the message and notifying every channel: pubclient.py:536-569. A channel that has ended gets nothing, but the
buffer is leased to it until the publisher notices. -/
def bcast (n : Nat) (st : St R V) (v : V) : St R V :=
  let m := st.next
  logEv { st with
    next := m + 1
    slots := fun s i => if s = st.pubSeg ∧ i = m % n then some (m, v) else st.slots s i
    leases := st.leases ++ st.chans.map (fun r => (r, m % n))
    readers := fun r => if r ∈ st.chans ∧ (st.readers r).live
      then { st.readers r with wire := (st.readers r).wire ++ [(m, st.pubSeg)] } else st.readers r } (.bcast v)

/-- The reader task ends: the cache is cleared and the segment released (messagechannel.py:311-317). -/
def die (st : St R V) (r : R) (e : Err) : St R V :=
  logEv (setReader st r { st.readers r with live := false, wire := [], cache := [] }) (.died r e)

/-- `MessageCache._put`: the entry takes the place of the one in its slot (messagecache.py:96-99). -/
def cachePut (n : Nat) (c : List Nat) (m : Nat) : List Nat := c.filter (fun i => decide (i % n ≠ m % n)) ++ [m]

/-- The cached messages are read again from the new segment: messagechannel.py:265-286. -/
def reput (n : Nat) (slot : Nat → Option (Nat × V)) : List Nat → List Nat → Option (List Nat)
  | [], acc => some acc
  | i :: is, acc => match slot (i % n) with
    | some (j, _) => reput n slot is (cachePut n acc j)
    | none => none

/-- One notification is handled: messagechannel.py:257-307. -/
def deliver (n : Nat) (st : St R V) (r : R) (m s : Nat) (rest : List (Nat × Nat)) : St R V :=
  let x := st.readers r
  let attached : Except Err (List Nat) :=
    if s = x.seg then .ok x.cache
    else if st.alive s then match reput n (st.slots s) x.cache [] with
      | some c => .ok c
      | none => .error .uninitialized
    else .error .fileNotFound
  match attached with
  | .error e => die st r e
  | .ok c => match st.slots s (m % n) with
    | none => die st r .uninitialized
    | some (i, _) =>
      if i = m then
        logEv (setReader st r { x with seg := s, wire := rest, cache := cachePut n c m }) (.deliver r m)
      else die st r .assertion

/-- The steps. -/
inductive Act (R V : Type) where
  /-- the publisher replaces its segment before sending its next message -/
  | grow
  | bcast (v : V)
  /-- the server removes a segment nobody holds -/
  | unlink (s : Nat)
  /-- a channel handles the next notification -/
  | deliver (r : R)
  /-- a client looks at a cached message -/
  | read (r : R) (m : Nat)
  /-- the clients are done with it: it leaves the cache and is acknowledged -/
  | done (r : R) (m : Nat)
  /-- the publisher gets an acknowledgement -/
  | ack (r : R)
  /-- a channel attaches to a segment and is accepted, pubclient.py:384-399, messagechannel.py:166-181 -/
  | join (r : R) (s : Nat)
  /-- a channel goes away or is noticed to have ended, pubclient.py:425-437 -/
  | drop (r : R)

/-- The transition function; `none` if the step cannot be taken. -/
def step (n : Nat) (st : St R V) : Act R V → Option (St R V)
  | .grow => if available st (st.next % n) then some (grow st) else none
  | .bcast v => if available st (st.next % n) then some (bcast n st v) else none
  | .unlink s =>
    if st.alive s && decide (s ≠ st.pubSeg) && st.chans.all (fun r => !((st.readers r).live && (st.readers r).seg == s)) then
      some { st with alive := fun s' => st.alive s' && s' != s }
    else none
  | .deliver r =>
    match (st.readers r).live, (st.readers r).wire with
    | true, (m, s) :: rest => some (deliver n st r m s rest)
    | _, _ => none
  | .read r m =>
    if (st.readers r).live && (st.readers r).cache.contains m then
      match st.slots (st.readers r).seg (m % n) with
      | some (_, v) => some (logEv st (.read r m v))
      | none => none
    else none
  | .done r m =>
    if (st.readers r).live && (st.readers r).cache.contains m then
      some (setReader st r { st.readers r with
        cache := (st.readers r).cache.filter (fun i => decide (i ≠ m)), acks := (st.readers r).acks ++ [m] })
    else none
  | .ack r =>
    match (st.readers r).acks with
    | m :: rest => some (setReader { st with leases := st.leases.filter (fun l => decide (l ≠ (r, m % n))) } r
        { st.readers r with acks := rest })
    | [] => none
  | .join r s =>
    if st.alive s && !st.chans.contains r then
      some (logEv (setReader { st with chans := st.chans ++ [r] } r { live := true, seg := s, wire := [], cache := [], acks := [] })
        (.join r))
    else none
  | .drop r =>
    if st.chans.contains r then
      some (logEv (setReader { st with
          chans := st.chans.filter (fun r' => decide (r' ≠ r)), leases := st.leases.filter (fun l => decide (l.1 ≠ r)) } r
        { live := false, seg := (st.readers r).seg, wire := [], cache := [], acks := [] }) (.drop r))
    else none

/-- A list of steps. -/
def run (n : Nat) : List (Act R V) → St R V → Option (St R V)
  | [], st => some st
  | a :: as, st => (step n st a).bind (run n as)

end Growth
end Ez
