/-!
# Units that pass messages on

A publisher in one process, a unit in another process that receives its messages through shared memory and
publishes them on an output of its own, and receivers of that output, some of them in the process of the
unit.  What the unit gets is not a copy: arrays in a message refer to the publisher's buffer
(messagemarshal.py:106-146, messagecache.py:80-100).

* The relays of collections copy a message before they publish it (relay.py:37-42) unless they are told not
  to.  A unit with a leaky input gets copies (backendprocess.py:762-770).
* `DebugLog` (debuglog.py:35-44), `MessageGate` (messagegate.py:81-94), `MessageLogger`
  (messagelogger.py:146-158) and `MessageCollector` (messagereplay.py:229-233) publish the very object they
  have got, while they handle it.
* `MessageQueue` (messagequeue.py:63-86) puts the object into a queue and publishes it later.

Simplifications, stated: the unit is the publisher's only client and passes every message on; its process
gets messages in shared memory; all arrays of a message are one value; receivers in other processes are
represented by what is marshalled for them at the moment of publishing.
-/
set_option linter.unusedSimpArgs false

namespace Ez.Forward

/-- An object in the unit's process: one that owns its content, or one whose arrays refer to buffer `i` of
the publisher. -/
inductive Obj (V : Type) where
  | own (v : V)
  | view (i : Nat)
  deriving DecidableEq, Repr

/-- What happens.
* `sent v a`: the publisher publishes a message, with arrays or without;
* `arrived j c`: message number `j` of the unit's output is marshalled for other processes, with content `c`;
* `seen j c`: a receiver in the unit's process looks at message number `j` of that output, while it handles
  it, and sees `c`. -/
inductive Ev (V : Type) where
  | sent (v : V) (arrays : Bool)
  | arrived (j : Nat) (c : Option V)
  | seen (j : Nat) (c : Option V)
  deriving DecidableEq, Repr

/-- The unit: does it copy messages, does it publish them while it handles them or later, and the numbers of
buffers of the publisher (`n`) and of the unit's output (`m`). -/
structure Cfg where
  copy : Bool
  later : Bool
  n : Nat
  m : Nat
  deriving DecidableEq, Repr

/-- State.
* `next`: number of messages published; `slots`: the publisher's buffers; `owed`: messages whose buffer was
  not given back;
* `inq`: notifications of the unit, each with whether the message has arrays;
* `block`: the message the unit handles, and whether it was passed on;
* `store`: the queue of `MessageQueue`;
* `emitted`: number of messages published by the unit; `out`: those the receiver has not yet taken;
* `got`: number of messages the receiver has taken; `cur`: the one it handles. -/
structure St (V : Type) where
  next : Nat
  slots : Nat → Option V
  owed : List Nat
  inq : List (Nat × Obj V)
  block : Option (Nat × Obj V × Bool)
  store : List (Obj V)
  emitted : Nat
  out : List (Obj V)
  got : Nat
  cur : Option (Nat × Obj V)
  log : List (Ev V)

variable {V : Type}

/-- The beginning. -/
def init : St V :=
  { next := 0, slots := fun _ => none, owed := [], inq := [], block := none, store := [], emitted := 0, out := [], got := 0, cur := none, log := [] }

/-- The content of an object at this moment. -/
def content (st : St V) : Obj V → Option V
  | .own v => some v
  | .view i => st.slots i

/-- Append to the log. -/
def note (st : St V) (e : Ev V) : St V := { st with log := st.log ++ [e] }

/-- `broadcast` (pubclient.py:475-580): it waits until its buffer was given back, writes the message into it
and notifies the unit's process.  There, `put_from_mem` (messagecache.py:80-100) makes an object whose
arrays refer to the buffer; one without arrays owns its content. -/
def send (cfg : Cfg) (st : St V) (v : V) (arrays : Bool) : Option (St V) :=
  if st.owed.all (fun k => decide (k % cfg.n ≠ st.next % cfg.n)) then
    some (note { st with
      slots := fun i => if i = st.next % cfg.n then some v else st.slots i
      owed := st.owed ++ [st.next]
      inq := st.inq ++ [(st.next, if arrays then .view (st.next % cfg.n) else .own v)]
      next := st.next + 1 } (.sent v arrays))
  else none

/-- `recv_zero_copy` (subclient.py:298-312): the unit gets the next message. -/
def take (st : St V) : Option (St V) :=
  match st.block, st.inq with
  | none, (k, o) :: q => some { st with inq := q, block := some (k, o, false) }
  | _, _ => none

/-- How many messages the receiver handles. -/
def inUse (st : St V) : Nat := match st.cur with | some _ => 1 | none => 0

/-- `broadcast` of the unit's output (pubclient.py:475-580): if there is a free buffer, the receiver in the
same process is handed the object itself (messagechannel.py:347-361), and the content it has at this moment
is marshalled for the others. -/
def publish (cfg : Cfg) (st : St V) (o : Obj V) : Option (St V) :=
  if st.emitted + inUse st < st.got + cfg.m then
    some (note { st with out := st.out ++ [o], emitted := st.emitted + 1 } (.arrived st.emitted (content st o)))
  else none

/-- `deepcopy` (relay.py:40-41, subclient.py:282-284), if the unit copies. -/
def copied (cfg : Cfg) (st : St V) (o : Obj V) : Obj V :=
  if cfg.copy then
    match content st o with
    | some v => .own v
    | none => o
  else o

/-- The unit handles the message it has: it publishes it (debuglog.py:44) or puts it into its queue
(messagequeue.py:65-66). -/
def handle (cfg : Cfg) (st : St V) : Option (St V) :=
  match st.block with
  | some (k, o, false) =>
    let st1 := { st with block := some (k, o, true) }
    if cfg.later then some { st1 with store := st.store ++ [copied cfg st o] }
    else publish cfg st1 (copied cfg st o)
  | _ => none

/-- The block of the unit ends (subclient.py:311-312, messagechannel.py:379-382, 398-424): the buffer is given
back. -/
def leave (st : St V) : Option (St V) :=
  match st.block with
  | some (k, _, true) => some { st with block := none, owed := st.owed.filter (fun x => decide (x ≠ k)) }
  | _ => none

/-- `send_message` (messagequeue.py:74-86): the oldest message of the queue is published. -/
def emit (cfg : Cfg) (st : St V) : Option (St V) :=
  match st.store with
  | o :: os => publish cfg { st with store := os } o
  | [] => none

/-- The receiver takes the next message of the unit's output (subclient.py:298-312). -/
def get (st : St V) : Option (St V) :=
  match st.cur, st.out with
  | none, o :: os => some { st with out := os, got := st.got + 1, cur := some (st.got, o) }
  | _, _ => none

/-- It looks at the message it handles. -/
def look (st : St V) : Option (St V) :=
  match st.cur with
  | some (j, o) => some (note st (.seen j (content st o)))
  | none => none

/-- The steps; `done` is the end of the receiver's block. -/
inductive Act (V : Type) where
  | send (v : V) (arrays : Bool)
  | take
  | handle
  | leave
  | emit
  | get
  | look
  | done
  deriving DecidableEq, Repr

/-- One step; `none` if it is not possible. -/
def step (cfg : Cfg) (st : St V) : Act V → Option (St V)
  | .send v a => send cfg st v a
  | .take => take st
  | .handle => handle cfg st
  | .leave => leave st
  | .emit => emit cfg st
  | .get => get st
  | .look => look st
  | .done => match st.cur with | some _ => some { st with cur := none } | none => none

/-- Several steps. -/
def run (cfg : Cfg) : List (Act V) → St V → Option (St V)
  | [], st => some st
  | a :: as, st => match step cfg st a with | some st' => run cfg as st' | none => none

end Ez.Forward
