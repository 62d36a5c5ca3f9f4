import Verif.Model.Py

/-!
# Units of `ezmsg.util`

Each unit's handlers are coroutines on one event loop: code between two suspension points is atomic. A
handler with an input gets one message at a time (`handle_subscriber`, backendprocess.py:740-805);
handlers of different inputs interleave at suspension points. Publishing (`yield`) is a suspension point.
-/

namespace Ez

/-! ## MessageGate, `src/ezmsg/util/messagegate.py` -/
namespace Gate

/-- `MessageGateSettings`, messagegate.py:20-35. -/
structure Cfg where
  startOpen : Bool
  defaultOpen : Bool
  defaultAfter : Option Int

/-- `MessageGateState`, messagegate.py:38-40. `inflight`: `on_input` is suspended at its `yield` (or has not yet
done the check after it). `out` is not in the code: what was published, oldest first. -/
structure State (M : Type) where
  gateOpen : Bool
  msgs : Nat
  inflight : Bool
  out : List M

/-- `initialize`, messagegate.py:63-64. -/
def init {M : Type} (c : Cfg) : State M := { gateOpen := c.startOpen, msgs := 0, inflight := false, out := [] }

/-- `set_gate`, messagegate.py:66-75. -/
def setGate {M : Type} (s : State M) (b : Bool) : State M :=
  if s.gateOpen ≠ b then { s with msgs := 0, gateOpen := b } else s

/-- Schedulable steps. -/
inductive Act (M : Type) where
  /-- `on_gate`, messagegate.py:77-79 -/
  | gate (b : Bool)
  /-- `on_input` up to the check, messagegate.py:81-87 -/
  | input (m : M)
  /-- the check at the end of `on_input`, messagegate.py:89-94 -/
  | check

/-- One step; `none`: not possible now. -/
def step {M : Type} (c : Cfg) (s : State M) : Act M → Option (State M)
  | .gate b => some (setGate s b)
  | .input m =>
    if s.inflight then none
    else some { s with msgs := s.msgs + 1, inflight := true, out := if s.gateOpen then s.out ++ [m] else s.out }
  | .check =>
    if s.inflight then
      let s1 := { s with inflight := false }
      match c.defaultAfter with
      | some k => if s.gateOpen ≠ c.defaultOpen ∧ k ≤ (s.msgs : Int) then some (setGate s1 c.defaultOpen) else some s1
      | none => some s1
    else none

end Gate

/-! ## MessageQueue, `src/ezmsg/util/messagequeue.py` -/
namespace MQueue

/-- `MessageQueueSettings`, messagequeue.py:8-21 (without logging and rate). -/
structure Cfg where
  maxsize : Int
  leaky : Bool

/-- The queue; `putter`: the message whose `put` waits (`on_message` handles one message at a time).
`out` is not in the code: what was published, oldest first. -/
structure State (M : Type) where
  queue : List M
  putter : Option M
  out : List M

def init {M : Type} : State M := { queue := [], putter := none, out := [] }

/-- `STATE.leaky`, messagequeue.py:43-48. -/
def Cfg.isLeaky (c : Cfg) : Bool := c.leaky && decide (0 < c.maxsize)

/-- `asyncio.Queue(maxsize).full()`. -/
def full {M : Type} (c : Cfg) (q : List M) : Bool := decide (0 < c.maxsize) && decide (c.maxsize ≤ (q.length : Int))

inductive Act (M : Type) where
  /-- `on_message`, messagequeue.py:63-72; it may suspend in `put` -/
  | input (m : M)
  /-- a waiting `put` finds room -/
  | wake
  /-- `send_message`, messagequeue.py:80-82: `get` and publish -/
  | send

/-- One step; `none`: not possible now. -/
def step {M : Type} (c : Cfg) (s : State M) : Act M → Option (State M)
  | .input m =>
    if s.putter.isSome then none
    else if c.isLeaky then
      if full c s.queue then some { s with queue := s.queue.drop 1 ++ [m] }
      else some { s with queue := s.queue ++ [m] }
    else if full c s.queue then some { s with putter := some m }
    else some { s with queue := s.queue ++ [m] }
  | .wake =>
    match s.putter with
    | some m => if full c s.queue then none else some { s with queue := s.queue ++ [m], putter := none }
    | none => none
  | .send =>
    match s.queue with
    | m :: q => some { s with queue := q, out := s.out ++ [m] }
    | [] => none

end MQueue

/-! ## TerminateOnTotal, `src/ezmsg/util/terminate.py` -/
namespace Total

/-- `TerminateOnTotalState`, terminate.py:63-65. -/
structure State where
  total : Option Int
  n : Nat

/-- `initialize`, terminate.py:86-87. -/
def init (total : Option Int) : State := { total := total, n := 0 }

inductive Event where
  | total (t : Int)
  | message

/-- `maybe_terminate`, terminate.py:99-105: does it raise `NormalTermination`? -/
def maybeTerminate (s : State) : Bool :=
  match s.total with
  | some t => decide (t ≤ (s.n : Int))
  | none => false

/-- `on_total` and `on_message`, terminate.py:89-97. -/
def handle (s : State) : Event → State × Bool
  | .total t => let s1 := { s with total := some t }; (s1, maybeTerminate s1)
  | .message => let s1 := { s with n := s.n + 1 }; (s1, maybeTerminate s1)

/-- A history of events: the final state and which events raised. -/
def run (s : State) : List Event → State × List Bool
  | [] => (s, [])
  | e :: es => let r := handle s e; let q := run r.1 es; (q.1, r.2 :: q.2)

end Total

/-! ## Rate, `src/ezmsg/util/rate.py`

Times are exact (integers in an arbitrarily small unit) instead of floating point. -/
namespace Rate

/-- `Rate.__init__`, rate.py:21-28. -/
structure State where
  last : Int
  dur : Int

/-- `_remaining`, rate.py:30-45: the new `last_time` and the remaining time. -/
def remaining (s : State) (now : Int) : State × Int :=
  let s1 := if now < s.last then { s with last := now } else s
  (s1, s1.dur - (now - s1.last))

/-- `_sleep_logic`, rate.py:57-72. -/
def sleepLogic (s : State) (now : Int) : State × Int :=
  let (s1, rem) := remaining s now
  let s2 := { s1 with last := s1.last + s1.dur }
  let s3 := if s2.dur * 2 < now - s2.last then { s2 with last := now } else s2
  (s3, if 0 < rem then rem else 0)

/-- A history of clock readings: the final state and the computed sleeps. -/
def run (s : State) : List Int → State × List Int
  | [] => (s, [])
  | t :: ts => let r := sleepLogic s t; let q := run r.1 ts; (q.1, r.2 :: q.2)

end Rate

/-! ## MessageLogger, `src/ezmsg/util/messagelogger.py`

Files are lists of lines. Encoding a message (`log_object`) is abstracted: `L` is the type of encoded lines.
Different paths are different files. -/
namespace Logger

/-- A line of a log file: the start marker (messagelogger.py:99-101) or a message. -/
inductive Line (L : Type) where
  | start
  | msg (l : L)
deriving DecidableEq

/-- `MessageLoggerState`, messagelogger.py:44-46, and the files on disk. -/
structure State (P L : Type) where
  openFiles : PySet P
  buffer : List (Line L)
  disk : PyDict P (List (Line L))

variable {P L : Type} [DecidableEq P]

/-- Append lines to a file. -/
def append (d : PyDict P (List (Line L))) (p : P) (ls : List (Line L)) : PyDict P (List (Line L)) :=
  d.modify p (fun c => c ++ ls)

/-- `open_file`, messagelogger.py:86-107 (mode "w" truncates). -/
def openFile (s : State P L) (p : P) : State P L :=
  if p ∈ s.openFiles then s
  else { s with openFiles := PySet.add s.openFiles p, disk := s.disk.set p [.start] }

/-- `close_file`, messagelogger.py:109-125. -/
def closeFile (s : State P L) (p : P) : State P L :=
  if p ∈ s.openFiles then { s with openFiles := PySet.discard s.openFiles p } else s

/-- `initialize`, messagelogger.py:127-130. -/
def init (output : Option P) : State P L :=
  let s0 : State P L := { openFiles := [], buffer := [], disk := [] }
  match output with
  | some p => openFile s0 p
  | none => s0

/-- `for output_f in output_files.values(): output_f.writelines(ls)`. -/
def writeAll (s : State P L) (ls : List (Line L)) : State P L :=
  { s with disk := s.openFiles.foldl (fun d p => append d p ls) s.disk }

inductive Act (P L : Type) where
  | start (p : P)
  | stop (p : P)
  | message (l : L)
  /-- one round of `buffered_write`, messagelogger.py:165-170 -/
  | flush
  | shutdown

/-- One step; `buffered`: `write_period > 0`. -/
def step (buffered : Bool) (s : State P L) : Act P L → State P L
  | .start p => openFile s p
  | .stop p => closeFile s p
  -- messagelogger.py:146-158
  | .message l =>
    if buffered then { s with buffer := s.buffer ++ [.msg l] } else writeAll s [.msg l]
  -- messagelogger.py:160-171
  | .flush => if buffered then { writeAll s s.buffer with buffer := [] } else s
  -- messagelogger.py:173-183
  | .shutdown =>
    let s1 := if s.buffer.isEmpty then s else { writeAll s s.buffer with buffer := [] }
    s1.openFiles.foldl closeFile s1

/-- The state after a history, oldest first. -/
def run (buffered : Bool) (output : Option P) (h : List (Act P L)) : State P L :=
  h.foldl (step buffered) (init output)

end Logger
end Ez
