import Verif.Model.Marshal

/-!
# Model of `src/ezmsg/core/shm.py` and of the shared memory part of `Publisher.broadcast`

A segment is the list of its bytes, shared by everybody who attached it.
-/

namespace Ez

/-- `SHMInfo.create`, shm.py:217-224. `slack` is the number of bytes by which the operating system
rounds the segment up. `none`: `SharedMemory` refuses size 0, or `uint64_to_bytes` overflows. The fill
byte is the character `"0"`, as in the code. -/
def shmCreate (numBuffers bufSize slack : Nat) : Option Bytes := do
  let bufSize := bufSize + 16 * numBuffers
  if numBuffers * bufSize = 0 then none
  let mem := List.replicate (numBuffers * bufSize + slack) (0x30 : UInt8)
  let n ← uint64ToBytes numBuffers
  let mem ← assign mem 0 8 n
  let b ← uint64ToBytes bufSize
  assign mem 8 16 b

/-- What `SHMContext.__init__` computes from the segment, shm.py:81-94. -/
structure ShmContext where
  numBuffers : Nat
  bufSize : Nat
  segs : List (Nat × Nat)
deriving DecidableEq, Repr

/-- `SHMContext.__init__`, shm.py:71-94. -/
def shmAttach (mem : Bytes) : ShmContext :=
  let numBuffers := bytesToUint (slice mem 0 8)
  let bufSize := bytesToUint (slice mem 8 16)
  let starts := (List.range numBuffers).map (fun i => i * bufSize)
  let stops := starts.map (fun s => s + bufSize)
  let dataStarts := starts.map (fun s => s + 16)
  ⟨numBuffers, bufSize, dataStarts.zip stops⟩

/-- `SHMContext.size`, shm.py:195-202 (Python integers: may be negative). -/
def ShmContext.size (c : ShmContext) : Int := (c.bufSize : Int) - 16

/-- `SHMContext.__getitem__`, shm.py:130-142: the view of slot `idx` (the bytes of the segment
between the slot's bounds); `none` is `IndexError`. Connection loss is not modelled here. -/
def shmView (mem : Bytes) (c : ShmContext) (idx : Nat) : Option Bytes :=
  (c.segs[idx]?).map (fun s => slice mem s.1 s.2)

/-- Storing the contents `v` of the view of slot `idx` back into the segment: a `memoryview` shares
the segment's memory, so a change of the view is a change of these bytes and of nothing else. -/
def shmPut (mem : Bytes) (c : ShmContext) (idx : Nat) (v : Bytes) : Bytes :=
  match c.segs[idx]? with
  | none => mem
  | some s => mem.take s.1 ++ v ++ mem.drop (s.1 + v.length)

/-- Outcome of the shared memory part of a broadcast. -/
inductive PlaceError where
  | valueError   -- `_write` raised `ValueError`
  | overflow     -- a length does not fit 64 bit
  | create       -- the server could not create the segment
  | copy (e : MarshalError)  -- `copy_obj` raised something other than `UninitializedMemory`
  | index        -- no such slot
deriving DecidableEq, Repr

/-- The copy loop over the slots `is`, pubclient.py:520-526. -/
def copySlots {Obj : Type} (c : Codec Obj) (old new : Bytes) : List Nat → Except PlaceError Bytes
  | [] => .ok new
  | i :: is =>
    match shmView old (shmAttach old) i, shmView new (shmAttach new) i with
    | some src, some dst =>
      match copyObj c src dst with
      | (dst', none) => copySlots c old (shmPut new (shmAttach new) i dst') is
      | (dst', some .uninitialized) => copySlots c old (shmPut new (shmAttach new) i dst') is
      | (_, some e) => .error (.copy e)
    | _, _ => .error .index

/-- The shared memory part of `Publisher.broadcast`, pubclient.py:504-532, run without interference:
grow the segment if `buf_size < total_size`, copying every initialised slot, then `_write` the
message into slot `msg_id % num_buffers`. Returns the segment in use afterwards. -/
def placeMessage {Obj : Type} (c : Codec Obj) (slack numBuffers : Nat) (mem : Bytes) (msgId : Nat)
    (obj : Obj) : Except PlaceError Bytes :=
  match serialize msgId (c.dump obj) with
  | .error _ => .error .overflow
  | .ok (total, header) =>
    let grown : Except PlaceError Bytes :=
      if (shmAttach mem).bufSize < total then
        match shmCreate numBuffers (total * 2) slack with
        | none => .error .create
        | some new => copySlots c mem new (List.range numBuffers)
      else .ok mem
    match grown with
    | .error e => .error e
    | .ok mem =>
      match shmView mem (shmAttach mem) (msgId % numBuffers) with
      | none => .error .index
      | some view =>
        match write view header (c.dump obj) with
        | (view', true) => .ok (shmPut mem (shmAttach mem) (msgId % numBuffers) view')
        | (_, false) => .error .valueError

end Ez
