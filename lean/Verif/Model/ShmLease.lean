import Verif.Model.Py

/-!
# Model of segment leases: `SHMInfo.lease` / `_release` (shm.py) and the server's `SHM_CREATE` /
`SHM_ATTACH` handling (graphserver.py)

A lease is the task waiting for one connection to end (`_wait_for_eof`); leases are numbered in the order
they are made, segments likewise (operating system names are fresh).
-/

namespace Ez

/-- `SHMInfo`, shm.py:205-215. `linked`: the operating system object still exists under its name.
`unlinks`: how often `shm.unlink()` was called (a second call raises `FileNotFoundError`). -/
structure ShmInfo where
  leases : PySet Nat
  linked : Bool
  unlinks : Nat
deriving DecidableEq, Repr

/-- `GraphServer.shms` (entries are never deleted, graphserver.py:117, 277) with the counters for
fresh names. -/
structure ShmServer where
  shms : List ShmInfo
  nextLease : Nat
deriving DecidableEq, Repr

/-- What clients can do. -/
inductive ShmOp where
  | create              -- a client sends SHM_CREATE
  | attach (seg : Nat)  -- a client sends SHM_ATTACH
  | close (lease : Nat) -- the connection of a lease ends
deriving DecidableEq, Repr

namespace ShmInfo

/-- `SHMInfo.lease`, shm.py:226-254 (creation of the lease task). -/
def lease (s : ShmInfo) (l : Nat) : ShmInfo := { s with leases := PySet.add s.leases l }

/-- `SHMInfo._release`, shm.py:256-262, run when a lease task of this segment ends. -/
def release (s : ShmInfo) (l : Nat) : ShmInfo :=
  let s := { s with leases := PySet.discard s.leases l }
  if s.leases.length = 0 then { s with linked := false, unlinks := s.unlinks + 1 } else s

end ShmInfo

namespace ShmServer

def init : ShmServer := ⟨[], 0⟩

/-- One event. Create: graphserver.py:270-278 and 287-300. Attach: graphserver.py:280-300; the reply
(`COMPLETE` with the name) is sent to whoever names an entry of `shms`. The result is the reply:
segment and lease. Close: the lease task ends and its done-callback runs; a lease ends once. -/
def step (s : ShmServer) : ShmOp → ShmServer × Option (Nat × Nat)
  | .create =>
    (⟨s.shms ++ [ShmInfo.lease ⟨[], true, 0⟩ s.nextLease], s.nextLease + 1⟩,
      some (s.shms.length, s.nextLease))
  | .attach i =>
    match s.shms[i]? with
    | none => (s, none)
    | some info => (⟨s.shms.set i (info.lease s.nextLease), s.nextLease + 1⟩,
        some (i, s.nextLease))
  | .close l =>
    (⟨s.shms.map (fun info => if l ∈ info.leases then info.release l else info), s.nextLease⟩, none)

end ShmServer

end Ez
