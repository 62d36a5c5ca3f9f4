/-!
# Commands of the process control client and of a graph context's session

Source: `src/ezmsg/core/processclient.py`: `_write_payload` (188-224), `_io_loop` (226-281);
`src/ezmsg/core/graphcontext.py`: `_session_io_loop` (253-310), `_close_session` (312-331), `_session_command` (333-354).

Both write commands to one connection on which the graph server answers in order.
-/

namespace Ez

/-! ## Process control: acknowledgements -/

namespace Ack

/-- `COMPLETE` or `ERROR`. -/
inductive Answer where
  | complete
  | error
deriving DecidableEq

/-- Commands are numbered in the order they are written.
`sent`: commands written; `writing`: the one whose write holds `_write_lock` and has not reached `_ack_queue.get()`;
`waiting`: those waiting in `get()`, first come first served; `queue`: `_ack_queue`; `answers`: all the server sent;
`lapsed`: commands that timed out; `results`: what the others were told. -/
structure St where
  sent : Nat
  writing : Option Nat
  waiting : List Nat
  queue : List Answer
  answers : List Answer
  lapsed : List Nat
  results : List (Nat × Answer)

/-- A step. -/
inductive Act where
  | write
  | wait
  | answer (a : Answer)
  | timeout (i : Nat)

/-- * `write`: take `_write_lock` and write, processclient.py:203-206
* `wait`: `drain` returns, the lock is released and, with no await between, `_ack_queue.get()` begins, 207-213: it returns at
  once if the queue has an answer
* `answer`: `_io_loop` puts the answer into the queue, 238-240, which wakes the first waiter
* `timeout`: `wait_for` gives up after 5 s, 213-217 -/
def step (a : Act) (s : St) : Option St :=
  match a with
  | .write =>
    match s.writing with
    | none => some { s with writing := some s.sent, sent := s.sent + 1 }
    | some _ => none
  | .wait =>
    match s.writing with
    | none => none
    | some i =>
      match s.queue with
      | [] => some { s with writing := none, waiting := s.waiting ++ [i] }
      | a :: q => some { s with writing := none, queue := q, results := s.results ++ [(i, a)] }
  | .answer a =>
    match s.waiting with
    | [] => some { s with answers := s.answers ++ [a], queue := s.queue ++ [a] }
    | i :: w => some { s with answers := s.answers ++ [a], waiting := w, results := s.results ++ [(i, a)] }
  | .timeout i =>
    if i ∈ s.waiting then
      some { s with waiting := s.waiting.filter (fun j => decide (j ≠ i)), lapsed := s.lapsed ++ [i] }
    else none

/-- A run. -/
def run : List Act → St → Option St
  | [], s => some s
  | a :: as, s => match step a s with | none => none | some s' => run as s'

/-- A new connection. -/
def init : St := { sent := 0, writing := none, waiting := [], queue := [], answers := [], lapsed := [], results := [] }

end Ack

/-! ## Session commands -/

namespace Session

/-- `_SessionResponseKind`. -/
inductive Kind where
  | byte
  | pickled
deriving DecidableEq

/-- What the client reads after a command: a byte, a pickled object followed by `COMPLETE`, one that cannot be unpickled or
is not followed by `COMPLETE`, or the end of the connection. `R`: bytes and objects. -/
inductive Reply (R : Type) where
  | byte (r : R)
  | object (r : R)
  | broken
  | ended
deriving DecidableEq

/-- What `await response_fut` gives: the response, `b""`, or an exception. -/
inductive Outcome (R : Type) where
  | response (r : R)
  | nothing
  | failed
deriving DecidableEq

/-- Commands are numbered in the order they are issued. `queue`: `_session_commands` (`none`: the request to stop);
`current`: the command written and not yet answered; `alive`: `_session_io_loop` is running; `written`, `replies`: commands
written and what was read for them; `done`: futures that are done. -/
structure St (R : Type) where
  issued : Nat
  queue : List (Option (Nat × Kind))
  current : Option (Nat × Kind)
  alive : Bool
  written : List Nat
  replies : List (Reply R)
  done : List (Nat × Outcome R)

/-- A step. -/
inductive Act (R : Type) where
  | issue (k : Kind)
  | close
  | take
  | reply (r : Reply R)
  | lost

variable {R : Type}

/-- The `except` and `finally` clauses, graphcontext.py:288-310: the futures of the queued commands get an exception. -/
def drain (s : St R) : St R :=
  { s with
    queue := []
    current := none
    alive := false
    done := s.done ++ s.queue.filterMap (fun c => c.map (fun c => (c.1, .failed))) }

/-- * `issue`: `_session_command`, graphcontext.py:333-354; with the loop ended it raises
* `close`: `_close_session`, 312-320
* `take`: `commands.get()` and writing the command, 262-273; `none` ends the loop
* `reply`: reading the response, 275-291
* `lost`: `writer.drain()` or `reader.read` raises (connection reset) -/
def step (a : Act R) (s : St R) : Option (St R) :=
  match a with
  | .issue k =>
    if s.alive then some { s with issued := s.issued + 1, queue := s.queue ++ [some (s.issued, k)] }
    else some { s with issued := s.issued + 1, done := s.done ++ [(s.issued, .failed)] }
  | .close => if s.alive then some { s with queue := s.queue ++ [none] } else none
  | .take =>
    match s.alive, s.current, s.queue with
    | true, none, none :: q => some (drain { s with queue := q })
    | true, none, some c :: q => some { s with queue := q, current := some c, written := s.written ++ [c.1] }
    | _, _, _ => none
  | .reply r =>
    match s.current with
    | none => none
    | some (i, .byte) =>
      match r with
      | .byte b => some { s with current := none, replies := s.replies ++ [r], done := s.done ++ [(i, .response b)] }
      | .ended => some { s with current := none, replies := s.replies ++ [r], done := s.done ++ [(i, .nothing)] }
      | _ => none
    | some (i, .pickled) =>
      match r with
      | .object v => some { s with current := none, replies := s.replies ++ [r], done := s.done ++ [(i, .response v)] }
      | .byte _ => none
      | .broken => some (drain { s with replies := s.replies ++ [r] })
      | .ended => some (drain { s with replies := s.replies ++ [r] })
  | .lost => match s.current with | none => none | some _ => some (drain s)

/-- A run. -/
def run : List (Act R) → St R → Option (St R)
  | [], s => some s
  | a :: as, s => match step a s with | none => none | some s' => run as s'

/-- A new session. -/
def init : St R :=
  { issued := 0, queue := [], current := none, alive := true, written := [], replies := [], done := [] }

end Session
end Ez
