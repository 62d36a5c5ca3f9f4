import Verif.Model.Py

/-!
# Messages in use while shared memory grows

A message read from shared memory is not copied: `MessageMarshal.obj_from_mem` (messagemarshal.py:107-147) builds the
object from views of the memory, and what an array in it refers to is the memory itself. A mapping of shared memory
cannot be closed while something refers to it: `SharedMemory.close` raises `BufferError` (shm.py:127). The releases of the
cache (messagecache.py:107-117) do not change that: they release the views made by the cache, not those of the arrays.

Here are one publisher, one channel in another process and its clients: `Publisher.broadcast` (pubclient.py:486-569),
`Channel._publisher_connection`, `get` and `_release_backpressure` (messagechannel.py:250-425), `MessageCache`
(messagecache.py:32-138), `SHMContext._graph_connection` (shm.py:114-128).

* Segments are numbered in the order in which the publisher creates them; every broadcast may be the first one that
  does not fit. Messages with arrays (objects pickled with out-of-band buffers) and without are told apart.
* The channel handles a notification at once (what a lag may do is the subject of `Model/Growth.lean`) and attaching to a
  segment works. The publisher notices at once when the channel ends.
* The clients (subscribers of this process) are fixed. Objects are referred to by blocks (`recv_zero_copy`) and by whatever
  else the program keeps.
-/

namespace Ez
namespace Views

/-- An object made from a message: which one, from which segment, whether it has arrays that refer to the memory of the
segment, and what does not refer to the memory. -/
structure Obj (V : Type) where
  id : Nat
  seg : Nat
  arrays : Bool
  plain : V
  deriving DecidableEq

/-- What happened: a client got a message, or `CacheMiss`; left a block, or `CacheMiss`; the reader task ended. -/
inductive Ev (C : Type) where
  | got (c : C) (m : Nat)
  | missed (c : C) (m : Nat)
  | left (c : C) (m : Nat)
  | leftMissed (c : C) (m : Nat)
  | died
  deriving DecidableEq

structure St (C V : Type) where
  /-- `self._shm` of the publisher -/
  pubSeg : Nat
  /-- `self._msg_id` -/
  next : Nat
  /-- memory: segment, buffer ↦ id, content and whether there are arrays -/
  slots : Nat → Nat → Option (Nat × V × Bool)
  /-- messages for which the publisher waits for this channel -/
  owed : List Nat
  /-- the task `_publisher_connection` of the channel runs -/
  live : Bool
  /-- `self.shm` of the channel -/
  seg : Nat
  /-- `self.cache` -/
  cache : List (Obj V)
  /-- `self.backpressure`: client and buffer -/
  leases : List (C × Nat)
  /-- notifications in the queues of the clients -/
  queue : C → List Nat
  /-- blocks that are open -/
  blocks : List (C × Obj V)
  /-- objects that are referred to otherwise -/
  kept : List (Obj V)
  /-- connections of this process that hold a segment at the server -/
  conns : List Nat
  /-- messages published: content and whether there are arrays -/
  sent : List (V × Bool)
  log : List (Ev C)

variable {C V : Type} [DecidableEq C] [DecidableEq V]

/-- A channel that has just been accepted. -/
def init : St C V :=
  { pubSeg := 0, next := 0, slots := fun _ _ => none, owed := [], live := true, seg := 0, cache := [], leases := []
    queue := fun _ => [], blocks := [], kept := [], conns := [0], sent := [], log := [] }

/-- What the program sees when it looks at an object: arrays show the memory as it is now. -/
def read (n : Nat) (st : St C V) (o : Obj V) : Option V :=
  if o.arrays then (st.slots o.seg (o.id % n)).map (fun x => x.2.1) else some o.plain

/-- Something of the program refers to the memory of the segment. -/
def exported (st : St C V) (s : Nat) : Bool :=
  st.blocks.any (fun b => b.2.arrays && b.2.seg == s) || st.kept.any (fun o => o.arrays && o.seg == s)

/-- `MessageCache._put` (messagecache.py:102-105). -/
def cachePut (n : Nat) (c : List (Obj V)) (o : Obj V) : List (Obj V) :=
  c.filter (fun x => decide (x.id % n ≠ o.id % n)) ++ [o]

/-- `put_from_mem` of a buffer of a segment (messagecache.py:81-100); nothing if the buffer is not initialised. -/
def putFrom (n : Nat) (slots : Nat → Nat → Option (Nat × V × Bool)) (s : Nat) (c : List (Obj V)) (m : Nat) : List (Obj V) :=
  match slots s (m % n) with
  | some (i, v, a) => cachePut n c { id := i, seg := s, arrays := a, plain := v }
  | none => c

/-- The reader task ends with an error: messagechannel.py:312-317; the publisher frees what it had leased
(pubclient.py:433-437). -/
def die (st : St C V) : St C V :=
  { st with live := false, cache := [], owed := [], log := st.log ++ [.died] }

/-- The message is put into the cache and the clients are notified: messagechannel.py:288-307, 337-346. -/
def accept (n : Nat) (cs : List C) (st : St C V) (m : Nat) : St C V :=
  { st with
    cache := putFrom n st.slots st.seg st.cache m
    leases := st.leases ++ cs.map (fun c => (c, m % n))
    queue := fun c => if c ∈ cs then st.queue c ++ [m] else st.queue c
    owed := st.owed ++ [m] }

/-- Changing to another segment, messagechannel.py:265-286: the cache is cleared, the mapping closed, which fails if it is
referred to (shm.py:127; the connection to the server is then not closed, 128), the new segment attached and the
messages put into the cache again. -/
def reattach (n : Nat) (st : St C V) (s : Nat) : Option (St C V) :=
  if exported st st.seg then none
  else some { st with
    seg := s
    conns := st.conns.filter (fun x => decide (x ≠ st.seg)) ++ [s]
    cache := (st.cache.map (·.id)).foldl (putFrom n st.slots s) [] }

/-- `TX_SHM`: messagechannel.py:257-307. -/
def receive (n : Nat) (cs : List C) (st : St C V) (m s : Nat) : St C V :=
  if st.seg ≠ s then
    match reattach n st s with
    | some st' => accept n cs st' m
    | none => die st
  else accept n cs st m

/-- The publisher writes a message, into a new segment (with a copy of the old contents) if it does not fit:
pubclient.py:514-533. -/
def write (n : Nat) (st : St C V) (v : V) (a big : Bool) : St C V :=
  let s := if big then st.pubSeg + 1 else st.pubSeg
  { st with
    pubSeg := s
    next := st.next + 1
    slots := fun s' i =>
      if s' = s then (if i = st.next % n then some (st.next, v, a) else st.slots st.pubSeg i) else st.slots s' i
    sent := st.sent ++ [(v, a)] }

/-- A whole broadcast; the buffer must be free (pubclient.py:488-494). -/
def send (n : Nat) (cs : List C) (st : St C V) (v : V) (a big : Bool) : Option (St C V) :=
  if st.owed.all (fun i => decide (i % n ≠ st.next % n)) then
    let st' := write n st v a big
    some (if st'.live then receive n cs st' st.next st'.pubSeg else st')
  else none

/-- A client takes the next message out of its queue and enters the block: subclient.py:298-311. A message that is not in
the cache raises `CacheMiss`; its buffer is freed, but not acknowledged (messagechannel.py:379-382, 407-410). -/
def take (n : Nat) (st : St C V) (c : C) : Option (St C V) :=
  match st.queue c with
  | [] => none
  | m :: rest =>
    let st' := { st with queue := fun c' => if c' = c then rest else st.queue c' }
    match st.cache.find? (fun o => decide (o.id = m)) with
    | some o => some { st' with blocks := st.blocks ++ [(c, o)], log := st.log ++ [.got c m] }
    | none => some { st' with
        leases := st.leases.filter (fun l => decide (l ≠ (c, m % n)))
        log := st.log ++ [.missed c m] }

/-- A client leaves the block: messagechannel.py:379-382, 398-416, messagecache.py:119-131. -/
def leave (n : Nat) (st : St C V) (c : C) (o : Obj V) : Option (St C V) :=
  if (c, o) ∈ st.blocks then
    let ls := st.leases.filter (fun l => decide (l ≠ (c, o.id % n)))
    let st' := { st with blocks := st.blocks.erase (c, o), leases := ls }
    if ls.all (fun l => decide (l.2 ≠ o.id % n)) then
      if st.cache.any (fun x => decide (x.id = o.id)) then
        some { st' with
          cache := st.cache.filter (fun x => decide (x.id ≠ o.id))
          owed := st.owed.filter (fun i => decide (i ≠ o.id))
          log := st.log ++ [.left c o.id] }
      else some { st' with log := st.log ++ [.leftMissed c o.id] }
    else some { st' with log := st.log ++ [.left c o.id] }
  else none

/-- The steps. A receive with a copy (subclient.py:271-284) is a `take` followed by a `leave`. -/
inductive Act (C V : Type) where
  | send (v : V) (a big : Bool)
  | take (c : C)
  | leave (c : C) (o : Obj V)
  /-- the program keeps an object of an open block -/
  | keep (c : C) (o : Obj V)
  /-- the program forgets an object -/
  | drop (o : Obj V)
  deriving DecidableEq

/-- The transition function; `none` if the step cannot be taken. -/
def step (n : Nat) (cs : List C) (st : St C V) : Act C V → Option (St C V)
  | .send v a big => send n cs st v a big
  | .take c => take n st c
  | .leave c o => leave n st c o
  | .keep c o => if (c, o) ∈ st.blocks then some { st with kept := st.kept ++ [o] } else none
  | .drop o => if o ∈ st.kept then some { st with kept := st.kept.erase o } else none

/-- A list of steps. -/
def run (n : Nat) (cs : List C) : List (Act C V) → St C V → Option (St C V)
  | [], st => some st
  | a :: as, st => match step n cs st a with
    | some st' => run n cs as st'
    | none => none

end Views
end Ez
