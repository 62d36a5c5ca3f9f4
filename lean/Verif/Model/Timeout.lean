import Verif.Model.Py

/-!
# `TerminateOnTimeout` (`src/ezmsg/util/terminate.py:9-50`)

Times are integers (any unit).  `time.time()` is assumed not to go back.  The settings: `limit` is `time`, `period` is
`1.0 / poll_rate`, a positive number.
-/

namespace Ez
namespace Timeout

/-- What happens at a time: a message is handled, or `poll_terminate` wakes up. -/
inductive Ev where
  | msg
  | wake
  deriving DecidableEq

/-- `STATE.last_msg_timestamp`, and when `poll_terminate` raised `NormalTermination`. -/
structure St where
  last : Option Int
  ended : Option Int
  deriving DecidableEq

/-- `keepalive` (:37-40) and the body of the loop of `poll_terminate` after `sleep` (:46-50). -/
def step (limit : Int) (s : St) (t : Int) : Ev → St
  | .msg => { s with last := some t }
  | .wake =>
    match s.ended, s.last with
    | none, some l => if limit ≤ t - l then { s with ended := some t } else s
    | _, _ => s

/-- The state after some events, from the start of the unit (:22-23). -/
def run (limit : Int) (evs : List (Int × Ev)) : St := evs.foldl (fun s x => step limit s x.1 x.2) ⟨none, none⟩

end Timeout
end Ez
