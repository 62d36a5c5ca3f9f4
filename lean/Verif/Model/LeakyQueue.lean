/-!
# Model of `LeakyQueue`, `src/ezmsg/core/messagechannel.py:29-67`

`asyncio.Queue` is a FIFO list, oldest item first; `maxsize` is a Python int and `full()` is false
for `maxsize <= 0`. `put` (59-63) and `put_nowait` (65-69) do the same thing: after the drop the
queue is not full, so the `await super().put(item)` of `put` does not suspend.
-/

namespace Ez
namespace LeakyQueue
variable {α : Type}

/-- `asyncio.Queue.full` -/
def full (maxsize : Int) (q : List α) : Bool :=
  if maxsize ≤ 0 then false else decide (maxsize ≤ (q.length : Int))

/-- `asyncio.Queue.get_nowait`; `none` is `QueueEmpty`. -/
def getNowait : List α → Option (α × List α)
  | [] => none
  | x :: q => some (x, q)

/-- `_drop_oldest`, messagechannel.py:48-55: the item handed to `on_drop` (if any) and the queue. -/
def dropOldest (q : List α) : Option α × List α :=
  match getNowait q with
  | none => (none, q)
  | some (x, q') => (some x, q')

/-- `put_nowait`, messagechannel.py:63-67: the dropped item, if any, and the new queue. -/
def putNowait (maxsize : Int) (q : List α) (x : α) : Option α × List α :=
  if full maxsize q then
    let (d, q') := dropOldest q
    (d, q' ++ [x])
  else (none, q ++ [x])

end LeakyQueue

/-- The loop of `Channel.unregister_client`, messagechannel.py:456-459, run `k` times: take the oldest
notification and put it back at the end unless it comes from `p`. (The queue is never full at the
`put_nowait`, an item was just taken out.) -/
def rotateOut {P : Type} [DecidableEq P] (p : P) : Nat → List (P × Nat) → List (P × Nat)
  | 0, q => q
  | _ + 1, [] => []
  | k + 1, (p', m) :: q => rotateOut p k (if p' ≠ p then q ++ [(p', m)] else q)

end Ez
