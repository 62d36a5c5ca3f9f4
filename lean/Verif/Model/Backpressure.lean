import Verif.Model.Py

/-!
# Model of `src/ezmsg/core/backpressure.py`

Client UUIDs are an arbitrary type `C` with decidable equality. `asyncio.Event` is a flag. A
buffer index is a natural number (every caller computes it with `%`); an index outside the
buffer list is the Python `IndexError`, modelled by `none`.
-/

namespace Ez

/-- `BufferLease`, backpressure.py:8-67: the lease set and the `empty` event flag. -/
structure BufferLease (C : Type) where
  leases : PySet C
  empty : Bool

namespace BufferLease
variable {C : Type} [DecidableEq C]

/-- backpressure.py:19-27 -/
def init : BufferLease C := { leases := [], empty := true }

/-- backpressure.py:29-37: clear the event, then add the lease. -/
def add (b : BufferLease C) (u : C) : BufferLease C :=
  { leases := b.leases.add u, empty := false }

/-- backpressure.py:39-48: `set.remove` raises `KeyError` (`none`) if absent; afterwards the
event is set if no lease is left. -/
def remove (b : BufferLease C) (u : C) : Option (BufferLease C) :=
  if u ∈ b.leases then
    let l := b.leases.discard u
    some { leases := l, empty := if l.isEmpty then true else b.empty }
  else none

/-- backpressure.py:59-67 -/
def isEmpty (b : BufferLease C) : Bool := b.empty

end BufferLease

/-- `Backpressure`, backpressure.py:70-186. `pressure` is a Python int. -/
structure Backpressure (C : Type) where
  buffers : List (BufferLease C)
  empty : Bool
  pressure : Int

namespace Backpressure
variable {C : Type} [DecidableEq C]

/-- backpressure.py:86-96 -/
def init (n : Nat) : Backpressure C :=
  { buffers := List.replicate n BufferLease.init, empty := true, pressure := 0 }

/-- backpressure.py:98-106 -/
def isEmpty (bp : Backpressure C) : Bool := bp.pressure == 0

/-- backpressure.py:108-117; `none` is `IndexError`. -/
def available (bp : Backpressure C) (i : Nat) : Option Bool :=
  bp.buffers[i]?.map BufferLease.isEmpty

/-- backpressure.py:128-140; `none` is `IndexError`. -/
def lease (bp : Backpressure C) (u : C) (i : Nat) : Option (Backpressure C) :=
  match bp.buffers[i]? with
  | none => none
  | some b => some
      { buffers := bp.buffers.set i (b.add u)
        empty := false
        pressure := if b.isEmpty then bp.pressure + 1 else bp.pressure }

/-- backpressure.py:142-156; the `KeyError` of `remove` is swallowed; `none` is `IndexError`. -/
def free1 (bp : Backpressure C) (u : C) (i : Nat) : Option (Backpressure C) :=
  match bp.buffers[i]? with
  | none => none
  | some b =>
    match b.remove u with
    | none => some bp
    | some b' => some
        { bp with
          buffers := bp.buffers.set i b'
          pressure := if b'.isEmpty then bp.pressure - 1 else bp.pressure }

/-- The loop of backpressure.py:171-172 over the listed indices. -/
def freeList (u : C) : List Nat → Backpressure C → Option (Backpressure C)
  | [], bp => some bp
  | i :: is, bp => match free1 bp u i with
    | none => none
    | some bp' => freeList u is bp'

/-- backpressure.py:176-177 -/
def settle (bp : Backpressure C) : Backpressure C :=
  if bp.isEmpty then { bp with empty := true } else bp

/-- backpressure.py:158-177 -/
def free (bp : Backpressure C) (u : C) (i : Option Nat) : Option (Backpressure C) :=
  match i with
  | none => (freeList u (List.range bp.buffers.length) bp).map settle
  | some i => (free1 bp u i).map settle

/-- `Backpressure.wait` (119-126) can return: the buffer's event is set. -/
def waitReady (bp : Backpressure C) (i : Nat) : Option Bool := bp.buffers[i]?.map (·.empty)

/-- `Backpressure.sync` (179-186) can return: the global event is set. -/
def syncReady (bp : Backpressure C) : Bool := bp.empty

end Backpressure

end Ez
