import Verif.Model.Py

/-!
# Replaying recorded messages (`MessageReplay`, messagereplay.py:67-209)

The unit keeps a queue of files, and its publisher `replay` plays one after the other.  `replay` is
suspended while it waits for a file, while it is paused, while it sleeps and while what it yields is
published; in between the handlers of its three inputs run and time passes.  One step `go` takes
`replay` from one such point to the next.

Simplifications.  A file does not change while it waits or is played, so a file in the queue is its lines.
Decoding a line (messagecodec.py, C61) is done beforehand: a line is one of the forms of `Line`.  Times are
integers; the two readings of the clock at :191 and :194 are the same moment.  Messages are published
at the moment they are yielded.  Files in the queue exist.  The progress bar is left out.  Negative rates act like no rate.
-/

namespace Ez
namespace Replay

/-- A line of a file: not JSON (:171), JSON without the expected entries (`msg["ts"]` raises, :176-177), the
mark at the start of a recording (messagelogger.py:99-101), or a message with the time it was recorded. -/
inductive Line (V : Type) where
  | bad
  | alien
  | start (ts : Option Int)
  | msg (ts : Option Int) (v : V)
deriving DecidableEq

/-- `FileReplayMessage.rate` (:47): none, positive (given by the time between messages), or 0. -/
inductive Rate where
  | asap
  | every (d : Nat)
  | realtime
deriving DecidableEq

/-- A file to play (:35-47). -/
structure File (V : Type) where
  name : String
  rate : Rate
  lines : List (Line V)
deriving DecidableEq

/-- The local variables of `replay` for a file: the number of files taken before (not in the code), the
file, `line_idx`, `pub_msgs`, `last_msg_t`, `playback_t0`, `replay_t0`, `processing_start_time`. -/
structure Cur (V : Type) where
  n : Nat
  file : File V
  idx : Nat := 0
  pub : Nat := 0
  last : Option Int := none
  p0 : Int := 0
  r0 : Int := 0
  begun : Int := 0
deriving DecidableEq

/-- Where `replay` is suspended: waiting for a file (:132), publishing the first status (:139), paused (:160),
woken from being paused but not yet going on, publishing the status of a line (:167), sleeping (:185, :199),
publishing a message (:205), the last status (:208) or the total (:209); or gone because of an exception. -/
inductive Phase (V : Type) where
  | idle
  | announcing (c : Cur V)
  | waiting (c : Cur V)
  | waking (c : Cur V)
  | reading (c : Cur V)
  | sleeping (c : Cur V) (till : Int)
  | publishing (c : Cur V)
  | ending (c : Cur V)
  | totalling (c : Cur V)
  | dead
deriving DecidableEq

/-- What is recorded: what is published (`status`, `message` with the recorded time and the time of
publication, `total`), requests (`queued`, `paused`, `asked` for stops), and what happens inside: a file is `taken`,
a file is `cut` because of a stop, the clocks are related (`anchor`, :178-181). -/
inductive Ev (V : Type) where
  | queued (f : File V)
  | paused (b : Bool)
  | asked (clear : Bool)
  | taken (n : Nat) (f : File V)
  | status (n idx total : Nat) (done : Bool)
  | anchor (n : Nat) (p0 r0 : Int)
  | message (n : Nat) (v : V) (ts : Option Int) (t : Int)
  | cut (n : Nat)
  | total (n k : Nat)
deriving DecidableEq

/-- The state of the unit (:61-64, :100-106), the clock, and what was recorded. -/
structure St (V : Type) where
  queue : List (File V) := []
  running : Bool := true
  stop : Bool := false
  phase : Phase V := .idle
  taken : Nat := 0
  now : Int := 0
  log : List (Ev V) := []
deriving DecidableEq

/-- The inputs, the passing of time, and `replay` going on. -/
inductive Act (V : Type) where
  | file (f : File V)
  | pause (b : Bool)
  | stop (clear : Bool)
  | tick (d : Nat)
  | go

variable {V : Type}

/-- Record an event. -/
def note (st : St V) (e : Ev V) : St V := { st with log := st.log ++ [e] }

/-- After the last line, or after a stop: the last status (:208). -/
def finish (st : St V) (c : Cur V) : St V :=
  note { st with phase := .ending c } (.status c.n c.idx c.file.lines.length true)

/-- A stop is noticed (:162-164), or the status of the line is published (:166-167). -/
def proceed (st : St V) (c : Cur V) : St V :=
  if st.stop then finish (note { st with stop := false } (.cut c.n)) c
  else note { st with phase := .reading c } (.status c.n (c.idx + 1) c.file.lines.length false)

/-- The head of the loop (:156-160). -/
def top (st : St V) (c : Cur V) : St V :=
  if c.idx < c.file.lines.length then
    if st.running then proceed st { c with begun := st.now }
    else { st with phase := .waiting { c with begun := st.now } }
  else finish st c

/-- The first time stamp relates the two clocks (:178-181). -/
def anchored (st : St V) (c : Cur V) (ts : Option Int) : St V × Cur V :=
  match c.last, ts with
  | none, some t =>
    (note st (.anchor c.n t st.now), { c with last := some t, p0 := t, r0 := st.now })
  | _, _ => (st, c)

/-- After sleeping: the mark of the start is skipped, a message is published (:202-205). -/
def emit (st : St V) (c : Cur V) : Line V → St V
  | .msg ts v => note { st with phase := .publishing c } (.message c.n v ts st.now)
  | _ => top st { c with idx := c.idx + 1 }

/-- How long to sleep (:183-199): `none` if there is no sleep.  In real time: not if playing is late, otherwise
for the recorded time since the last message less the time used for this line. -/
def nap (st : St V) (c : Cur V) (ts : Option Int) : Option Int :=
  match c.file.rate, c.last, ts with
  | .asap, _, _ => none
  | .every d, _, _ => some d
  | .realtime, some l, some t =>
    if (st.now - c.r0) - (t - c.p0) < 0 then some (max (t - (l + (st.now - c.begun))) 0) else none
  | .realtime, _, _ => none

/-- `last_msg_t = ts` (:200). -/
def stamp (c : Cur V) (ts : Option Int) : Cur V :=
  match c.file.rate, c.last, ts with
  | .realtime, some _, some t => { c with last := some t }
  | _, _, _ => c

/-- The time stamp of a line. -/
def tsOf : Line V → Option Int
  | .start ts => ts
  | .msg ts _ => ts
  | _ => none

/-- A decoded line (:176-205). -/
def play (st : St V) (c : Cur V) (l : Line V) : St V :=
  match nap (anchored st c (tsOf l)).1 (anchored st c (tsOf l)).2 (tsOf l) with
  | some d => { (anchored st c (tsOf l)).1 with phase := .sleeping (anchored st c (tsOf l)).2 (st.now + d) }
  | none => emit (anchored st c (tsOf l)).1 (stamp (anchored st c (tsOf l)).2 (tsOf l)) l

/-- `replay` goes on; `none` if it cannot. -/
def go (st : St V) : Option (St V) :=
  match st.phase with
  | .idle =>
    match st.queue with
    | [] => none
    | f :: q =>
      some (note (note
          { st with
            queue := q
            taken := st.taken + 1
            phase := .announcing { n := st.taken, file := f } }
          (.taken st.taken f))
        (.status st.taken 0 f.lines.length false))
  | .announcing c => some (top { st with stop := false } c)
  | .waiting _ => none
  | .waking c => some (proceed st c)
  | .reading c =>
    match c.file.lines[c.idx]? with
    | none => none
    | some .bad => some (top st { c with idx := c.idx + 1 })
    | some .alien => some { st with phase := .dead }
    | some l => some (play st c l)
  | .sleeping c till =>
    if till ≤ st.now then
      match c.file.lines[c.idx]? with
      | none => none
      | some l => some (emit st (stamp c (tsOf l)) l)
    else none
  | .publishing c => some (top st { c with idx := c.idx + 1, pub := c.pub + 1 })
  | .ending c => some (note { st with phase := .totalling c } (.total c.n c.pub))
  | .totalling _ => some { st with phase := .idle }
  | .dead => none

/-- `running.set()` wakes a waiting `replay`, which goes on even if it is paused again before it does. -/
def resume : Phase V → Phase V
  | .waiting c => .waking c
  | p => p

/-- The steps: `queue_file` (:108-111), `set_paused` (:113-118), `stop` (:120-125), time, `replay`. -/
def step (st : St V) : Act V → Option (St V)
  | .file f => some (note { st with queue := st.queue ++ [f] } (.queued f))
  | .pause b =>
    some (note { st with running := !b, phase := if b then st.phase else resume st.phase } (.paused b))
  | .stop b =>
    some (note { st with stop := true, queue := (if b then [] else st.queue) } (.asked b))
  | .tick d => some { st with now := st.now + d }
  | .go => go st

/-- A run of steps; `none` if one of them is not possible. -/
def run (st : St V) : List (Act V) → Option (St V)
  | [] => some st
  | a :: as => (step st a).bind (fun st' => run st' as)

end Replay
end Ez
