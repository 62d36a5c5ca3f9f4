/-!
# Model of `src/ezmsg/core/messagecache.py`

Cached objects have an arbitrary type `V`. A `memoryview` handed to the cache is an opaque token of
type `M`; the cache's only effects on it are "leave the deserialisation context" and "release the
view", which are recorded in an event log in program order.
-/

namespace Ez

/-- `CacheEntry`, messagecache.py:15-19. `mem` stands for the pair `context`/`memory`: both are
`None` for local entries (72-79) and both present for entries made from memory (93-100). -/
structure CacheEntry (V M : Type) where
  object : V
  msgId : Nat
  mem : Option M

/-- Effects on a memory view. -/
inductive MemEvent (M : Type) where
  /-- `ctx.__exit__` -/
  | exitCtx (m : M)
  /-- `mem.release()` -/
  | release (m : M)
deriving DecidableEq

/-- Exceptions raised by the cache. -/
inductive CacheErr where
  | cacheMiss
  /-- `msg_id % 0` when the cache was made with no buffers -/
  | zeroDivision
deriving DecidableEq

/-- `MessageCache`, messagecache.py:22-39, with the log of effects on memory views. -/
structure MessageCache (V M : Type) where
  slots : List (Option (CacheEntry V M))
  log : List (MemEvent M)

namespace MessageCache
variable {V M : Type}

/-- messagecache.py:32-39 -/
def init (n : Nat) : MessageCache V M := { slots := List.replicate n none, log := [] }

/-- messagecache.py:41-42. In Lean `i % 0 = i`, which is outside the empty slot list, so the
lookups below turn it into the `ZeroDivisionError`. -/
def bufIdx (c : MessageCache V M) (id : Nat) : Nat := id % c.slots.length

/-- messagecache.py:44-55 -/
def get (c : MessageCache V M) (id : Nat) : Except CacheErr V :=
  match c.slots[c.bufIdx id]? with
  | none => .error .zeroDivision
  | some none => .error .cacheMiss
  | some (some e) => if e.msgId ≠ id then .error .cacheMiss else .ok e.object

/-- messagecache.py:57-61 -/
def keys (c : MessageCache V M) : List Nat := c.slots.filterMap (fun o => o.map (·.msgId))

/-- messagecache.py:107-117 for a slot index that exists. -/
def releaseSlot (c : MessageCache V M) (i : Nat) : MessageCache V M :=
  match c.slots[i]? with
  | some (some e) =>
    { slots := c.slots.set i none
      log := match e.mem with
        | some m => c.log ++ [.exitCtx m, .release m]
        | none => c.log }
  | _ => c

/-- `_put`, messagecache.py:102-105. -/
def put (c : MessageCache V M) (e : CacheEntry V M) : Except CacheErr (MessageCache V M) :=
  match c.slots[c.bufIdx e.msgId]? with
  | none => .error .zeroDivision
  | some _ =>
    let c' := c.releaseSlot (c.bufIdx e.msgId)
    .ok { c' with slots := c'.slots.set (c.bufIdx e.msgId) (some e) }

/-- messagecache.py:63-79 -/
def putLocal (c : MessageCache V M) (v : V) (id : Nat) : Except CacheErr (MessageCache V M) :=
  c.put { object := v, msgId := id, mem := none }

/-- messagecache.py:81-100 for memory that deserialises to `v` with id `id`
(see `Marshal.objFromMem` for the reading part). -/
def putFromMem (c : MessageCache V M) (m : M) (v : V) (id : Nat) :
    Except CacheErr (MessageCache V M) :=
  c.put { object := v, msgId := id, mem := some m }

/-- messagecache.py:119-131 -/
def release (c : MessageCache V M) (id : Nat) : Except CacheErr (MessageCache V M) :=
  match c.slots[c.bufIdx id]? with
  | none => .error .zeroDivision
  | some none => .error .cacheMiss
  | some (some e) => if e.msgId ≠ id then .error .cacheMiss else .ok (c.releaseSlot (c.bufIdx id))

/-- messagecache.py:133-138 -/
def clear (c : MessageCache V M) : MessageCache V M :=
  (List.range c.slots.length).foldl releaseSlot c

end MessageCache
end Ez
