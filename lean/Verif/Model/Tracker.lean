/-!
# Attaching to shared memory and the resource tracker

Python keeps, for each process, a record of the segments of shared memory and of the semaphores it has
created; what is in the record when the process ends is removed from the system then.  `SharedMemory` puts
also segments into the record to which a process only attaches.  `_untracked_shm` (shm.py:27-40) is there to
prevent that: it replaces the function `resource_tracker.register` while a segment is attached
(shm.py:79-80).

Simplifications, stated: names of resources are never used again; `SharedMemory` either raises before it
calls `register` or calls it once, as do `Lock`, `Event` and so on (CPython: they look the function up in the
module `resource_tracker` when they need it); removing a resource takes it from the record.
-/
set_option linter.unusedSimpArgs false

namespace Ez.Tracker

/-- What can be recorded: segments of shared memory, and anything else, such as semaphores. -/
inductive Kind where
  | segment
  | semaphore
  deriving DecidableEq, Repr

/-- The function `resource_tracker.register` is at the moment: the original one (shm.py:18) or `_ignore_shm`
(shm.py:21-24). -/
inductive Hook where
  | std
  | ignore
  deriving DecidableEq, Repr

/-- What happens.
* `attached n`, `refused n`: attaching to segment `n` succeeds or raises (the segment is gone);
* `created k n`, `raised k n`: some code of the process creates a resource; or raises instead;
* `removed n`: the process removes a resource it has created;
* `swept ns`: the process ends, and these resources are removed for it. -/
inductive Ev (N : Type) where
  | attached (n : N)
  | refused (n : N)
  | created (k : Kind) (n : N)
  | raised (k : Kind) (n : N)
  | removed (n : N)
  | swept (ns : List N)
  deriving DecidableEq, Repr

/-- What a thread does: nothing of interest; it is about to open segment `n` inside `_untracked_shm`; it has
opened it and is about to leave the block. -/
inductive Doing (N : Type) where
  | other
  | opening (n : N)
  | leaving (n : N)
  deriving DecidableEq, Repr

/-- State: the function `register`, the record, the threads, and whether the process has ended. -/
structure St (T N : Type) where
  hook : Hook
  record : List N
  doing : T → Doing N
  over : Bool
  log : List (Ev N)

variable {T N : Type} [DecidableEq T] [DecidableEq N]

/-- The beginning. -/
def init : St T N := { hook := .std, record := [], doing := fun _ => .other, over := false, log := [] }

/-- What thread `t` does now. -/
def setDoing (st : St T N) (t : T) (d : Doing N) : St T N := { st with doing := fun x => if x = t then d else st.doing x }

/-- Append to the log. -/
def note (st : St T N) (e : Ev N) : St T N := { st with log := st.log ++ [e] }

/-- `resource_tracker.register`, whatever it is.  `_ignore_shm` (shm.py:21-24) ignores segments; for anything
else it refers to a name that does not exist, `self`, and raises. -/
def register (st : St T N) (k : Kind) (n : N) : Option (St T N) :=
  match st.hook, k with
  | .std, _ => some { st with record := st.record ++ [n] }
  | .ignore, .segment => some st
  | .ignore, .semaphore => none

/-- `SHMContext.__init__` enters `_untracked_shm` (shm.py:38, 79). -/
def begin_ (st : St T N) (t : T) (n : N) : Option (St T N) :=
  if st.doing t = .other then some (setDoing { st with hook := .ignore } t (.opening n)) else none

/-- `SharedMemory(name=…, create=False)` (shm.py:80) raises: the exception comes out of the `yield`
(shm.py:39), and the line after it is not run. -/
def fail (st : St T N) (t : T) : Option (St T N) :=
  match st.doing t with
  | .opening n => some (note (setDoing st t .other) (.refused n))
  | _ => none

/-- It succeeds, and calls `register`. -/
def open_ (st : St T N) (t : T) : Option (St T N) :=
  match st.doing t with
  | .opening n => (register st .segment n).map (fun st' => setDoing st' t (.leaving n))
  | _ => none

/-- The block is left (shm.py:40). -/
def leave (st : St T N) (t : T) : Option (St T N) :=
  match st.doing t with
  | .leaving n => some (note (setDoing { st with hook := .std } t .other) (.attached n))
  | _ => none

/-- Is the name new? -/
def fresh (n : N) (log : List (Ev N)) : Bool :=
  log.all (fun e => match e with
    | .created _ m => decide (m ≠ n)
    | .raised _ m => decide (m ≠ n)
    | .attached m => decide (m ≠ n)
    | _ => true)

/-- A resource is created: a segment by the graph server if it runs in this process (shm.py:220), or a lock or
an event by any code whatever. -/
def create (st : St T N) (t : T) (k : Kind) (n : N) : Option (St T N) :=
  if st.doing t = .other ∧ fresh n st.log = true then
    match register st k n with
    | some st' => some (note st' (.created k n))
    | none => some (note st (.raised k n))
  else none

/-- Whether a resource was created can be decided. -/
instance (n : N) (l : List (Ev N)) : Decidable (∃ k, Ev.created k n ∈ l) :=
  if h : Ev.created .segment n ∈ l ∨ Ev.created .semaphore n ∈ l then
    .isTrue (by rcases h with h | h <;> exact ⟨_, h⟩)
  else .isFalse (by rintro ⟨k, hk⟩; cases k <;> simp_all)

/-- A resource is removed (shm.py:262). -/
def remove (st : St T N) (t : T) (n : N) : Option (St T N) :=
  if st.doing t = .other ∧ (∃ k, Ev.created k n ∈ st.log) ∧ Ev.removed n ∉ st.log then
    some (note { st with record := st.record.filter (fun x => decide (x ≠ n)) } (.removed n))
  else none

/-- The steps. -/
inductive Act (T N : Type) where
  | begin_ (t : T) (n : N)
  | fail (t : T)
  | open_ (t : T)
  | leave (t : T)
  | create (t : T) (k : Kind) (n : N)
  | remove (t : T) (n : N)
  | exit
  deriving DecidableEq, Repr

/-- One step; `none` if it is not possible. -/
def step (st : St T N) (a : Act T N) : Option (St T N) :=
  if st.over then none
  else match a with
  | .begin_ t n => begin_ st t n
  | .fail t => fail st t
  | .open_ t => open_ st t
  | .leave t => leave st t
  | .create t k n => create st t k n
  | .remove t n => remove st t n
  | .exit => some (note { st with over := true } (.swept st.record))

/-- Several steps. -/
def run : List (Act T N) → St T N → Option (St T N)
  | [], st => some st
  | a :: as, st => match step st a with | some st' => run as st' | none => none

end Ez.Tracker
