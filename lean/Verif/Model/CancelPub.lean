import Verif.Model.System

/-!
# Publishing with a timeout

Sources: `_future_result` and `SyncPublisher.publish`, `src/ezmsg/core/sync.py:20-40`; `Publisher.broadcast`,
`src/ezmsg/core/pubclient.py:475-569`, as a coroutine that can be cancelled at the places where it is suspended. (`asyncio.wait_for`
and the cancelling of tasks at shutdown do the same to a call.)

The system is that of `Model/System.lean`; added are the calling thread, which gives up waiting, and the cancelling of the call, which it
asks for then and which happens later in the thread of the event loop, unless the call has ended before.

Simplifications:
* one call at a time on one publisher (a thread that gave up has its next call started after the old one was cancelled or has ended:
  both are handed to the event loop in order);
* the replacing of the shared memory segment, which also suspends, is left out (`Model/Growth.lean`).
-/

namespace Ez
namespace CancelPub
open Sys

variable {P K S V : Type} [DecidableEq P] [DecidableEq K] [DecidableEq S]

/-- `gaveUp`: the thread that called `publish` has got `TimeoutError`, the call goes on. `outs`: the ended calls of `publish`, oldest
first: publisher, message, and `true` if it returned, `false` if it raised `TimeoutError`. -/
structure CSt (P K S V : Type) where
  base : St P K S V
  gaveUp : P → Bool
  outs : List (P × V × Bool)

def initC (cfg : Cfg P K S) : CSt P K S V := ⟨Sys.init cfg, fun _ => false, []⟩

/-- The message of a call. -/
def Job.val : Job K V → Option V
  | .idle => none
  | .gate v _ => some v
  | .slot v _ => some v
  | .sending v _ => some v

/-- The call is cancelled where it is suspended. In `_running.wait()` (pubclient.py:484) and `_backpressure.wait(buf_idx)` (498) nothing has
happened yet. In `channel.writer.drain()` (557) the message has been written to that channel, but the buffer is not leased (558), the
channels after it get nothing, and the message id is not advanced (569). -/
def cancelled (cfg : Cfg P K S) (st : St P K S V) (p : P) : Option (St P K S V) :=
  let idle := setPub st p { st.pub p with job := .idle }
  match (st.pub p).job with
  | .gate _ _ => some idle
  | .slot _ _ => some idle
  | .sending v (k :: _) =>
    if (st.chan k).closed then some idle
    else some (setChan idle k { st.chan k with
      wire := (st.chan k).wire ++ [((st.pub p).msgId, if cfg.mode k = .shm then .shm else .tcp v)] })
  | .sending _ [] => none
  | .idle => none

/-- `sys a`: a step of the system; if it ends a call whose thread still waits, `publish` returns. `timeout p`: `future.result(timeout)` raises
(sync.py:22-25). `cancel p`: what `future.cancel()` asked for happens. -/
inductive Act (P K S V : Type) where
  | sys (a : Sys.Act P K S V)
  | timeout (p : P)
  | cancel (p : P)

/-- The transition function. -/
def step (cfg : Cfg P K S) (st : CSt P K S V) : Act P K S V → Res (CSt P K S V)
  | .sys a =>
    match Sys.step cfg st.base a with
    | .disabled => .disabled
    | .raised e => .raised e
    | .ok b =>
      match a with
      | .finish p =>
        .ok { base := b, gaveUp := upd st.gaveUp p false
              outs := match st.gaveUp p, Job.val (st.base.pub p).job with
                | false, some v => st.outs ++ [(p, v, true)]
                | _, _ => st.outs }
      | _ => .ok { st with base := b }
  | .timeout p =>
    match st.gaveUp p, Job.val (st.base.pub p).job with
    | false, some v => .ok { st with gaveUp := upd st.gaveUp p true, outs := st.outs ++ [(p, v, false)] }
    | _, _ => .disabled
  | .cancel p =>
    if st.gaveUp p then
      match cancelled cfg st.base p with
      | some b => .ok { st with base := b, gaveUp := upd st.gaveUp p false }
      | none => .disabled
    else .disabled

/-- A list of steps. -/
def run (cfg : Cfg P K S) : List (Act P K S V) → CSt P K S V → Res (CSt P K S V)
  | [], st => .ok st
  | a :: as, st =>
    match step cfg st a with
    | .ok st' => run cfg as st'
    | r => r

end CancelPub
end Ez
