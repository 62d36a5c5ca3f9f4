import Verif.Model.Netprotocol

/-!
# Model of `src/ezmsg/core/messagemarshal.py`

Memory is a list of bytes. pickle is abstracted by a `Codec`: `dump` gives the list of buffers of an
object, `load` rebuilds the object. Where the object does not matter the model works with buffers.
-/

namespace Ez

/-- `mem[a:b]` for `0 ≤ a`, `0 ≤ b` (clamped to the memory). -/
def slice (mem : Bytes) (a b : Nat) : Bytes := (mem.take b).drop a

/-- `mem[a:b] = src` on a memoryview: the new memory, or `none` (`ValueError`) unless the sizes
agree. -/
def assign (mem : Bytes) (a b : Nat) (src : Bytes) : Option Bytes :=
  if (slice mem a b).length = src.length then some (mem.take a ++ src ++ mem.drop (a + src.length))
  else none

/-- `_PREAMBLE`, messagemarshal.py:9 -/
def PREAMBLE : Bytes := [0x45, 0x5a]

/-- `MessageMarshal.load` and `dump`, messagemarshal.py:181-206 (pickle protocol 5). -/
structure Codec (Obj : Type) where
  dump : Obj → List Bytes
  load : List Bytes → Obj

/-- Outcomes of marshalling operations that raise. -/
inductive MarshalError where
  | undersized (req : Nat)  -- `UndersizedMemory`
  | uninitialized           -- `UninitializedMemory`
  | valueError              -- `ValueError`
  | overflow                -- `OverflowError` of `uint64_to_bytes`
deriving DecidableEq, Repr

/-- `Marshal.serialize`, messagemarshal.py:149-179: total size and header; the buffers are passed
through. -/
def serialize (msgId : Nat) (buffers : List Bytes) : Except MarshalError (Nat × Bytes) :=
  match uint64ToBytes buffers.length, buffers.mapM (fun b => uint64ToBytes b.length),
      uint64ToBytes msgId with
  | some n, some lens, some mid =>
    let header := PREAMBLE ++ mid ++ (n ++ lens.flatten)
    .ok (header.length + (buffers.map List.length).sum, header)
  | _, _, _ => .error .overflow

/-- The loop of `Marshal._write`, messagemarshal.py:83-86. The memory reached is returned in any case
with a flag telling whether a `ValueError` was raised. -/
def writeBufs (mem : Bytes) (sidx : Nat) : List Bytes → Bytes × Bool
  | [] => (mem, true)
  | buf :: bufs =>
    match assign mem sidx (sidx + buf.length) buf with
    | none => (mem, false)
    | some mem => writeBufs mem (sidx + buf.length) bufs

/-- `Marshal._write`, messagemarshal.py:79-86. -/
def write (mem header : Bytes) (buffers : List Bytes) : Bytes × Bool :=
  match assign mem 0 header.length header with
  | none => (mem, false)
  | some mem => writeBufs mem header.length buffers

/-- `Marshal.to_mem`, messagemarshal.py:58-77: memory afterwards and the error raised, if any. -/
def toMem (msgId : Nat) (buffers : List Bytes) (mem : Bytes) : Bytes × Option MarshalError :=
  match serialize msgId buffers with
  | .error e => (mem, some e)
  | .ok (total, header) =>
    if total ≥ mem.length then (mem, some (.undersized total))
    else
      let (mem', ok) := write mem header buffers
      (mem', if ok then none else some .valueError)

/-- `Marshal._assert_initialized`, messagemarshal.py:88-91. -/
def initialized (mem : Bytes) : Bool := slice mem 0 2 = PREAMBLE

/-- `Marshal.msg_id`, messagemarshal.py:93-105. -/
def msgIdOf (mem : Bytes) : Except MarshalError Nat :=
  if initialized mem then .ok (bytesToUint (slice mem 2 10)) else .error .uninitialized

/-- First loop of `obj_from_mem`, messagemarshal.py:131-134. -/
def readLens (mem : Bytes) : Nat → Nat → List Nat × Nat
  | 0, sidx => ([], sidx)
  | n + 1, sidx =>
    let r := readLens mem n (sidx + 8)
    (bytesToUint (slice mem sidx (sidx + 8)) :: r.1, r.2)

/-- Second loop of `obj_from_mem`, messagemarshal.py:136-139. -/
def readBufs (mem : Bytes) : List Nat → Nat → List Bytes
  | [], _ => []
  | n :: ns, sidx => slice mem sidx (sidx + n) :: readBufs mem ns (sidx + n)

/-- `Marshal.obj_from_mem` up to the call of `load`, messagemarshal.py:107-141. -/
def bufsFromMem (mem : Bytes) : Except MarshalError (List Bytes) :=
  if initialized mem then
    let n := bytesToUint (slice mem 10 18)
    if n = 0 then .error .valueError
    else
      let (lens, sidx) := readLens mem n 18
      .ok (readBufs mem lens sidx)
  else .error .uninitialized

/-- `Marshal.obj_from_mem`, messagemarshal.py:107-147. -/
def objFromMem {Obj : Type} (c : Codec Obj) (mem : Bytes) : Except MarshalError Obj :=
  (bufsFromMem mem).map c.load

/-- `Marshal.copy_obj`, messagemarshal.py:208-221: the target memory afterwards and the error. -/
def copyObj {Obj : Type} (c : Codec Obj) (src dst : Bytes) : Bytes × Option MarshalError :=
  match msgIdOf src with
  | .error e => (dst, some e)
  | .ok mid =>
    match objFromMem c src with
    | .error e => (dst, some e)
    | .ok obj => toMem mid (c.dump obj) dst

end Ez
