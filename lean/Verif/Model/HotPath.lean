import Verif.Model.Compare
import Verif.Model.Transport

/-!
# The benchmark of round trips

`util/perf/hotpath.py`: for every combination of interface, transport and size of the messages a publisher and a subscriber are
opened in one process, some messages are sent and received, and the time of further ones is taken.

Simplifications: floating point numbers are rational numbers; the square root is given. Every operation (starting the server,
opening publisher and subscriber, sending, receiving, closing) takes the time and has the outcome that the environment gives
it. Sizes and numbers are not negative. `stable_perf` around each sample is in `Model/Steady.lean`; the text that is printed
and the file of results are left out.
-/

namespace Ez.HotPath
open AB (sort mean median medianOfMeans Err)

/-- `HotPathCase` (hotpath.py:61-66) -/
structure Case where
  api : String
  transport : String
  payload : Nat
  buffers : Nat
  deriving DecidableEq, Repr

/-- `case_id` (hotpath.py:68-73) -/
def Case.id (c : Case) : String :=
  c.api ++ "/" ++ c.transport ++ "/payload=" ++ toString c.payload ++ "/buffers=" ++ toString c.buffers

/-- The order of `sorted(…, key=lambda case: case.case_id)` (hotpath.py:140) -/
def idLe (a b : Case) : Bool := decide (a.id ≤ b.id)

/-- `build_cases` (hotpath.py:122-140) -/
def buildCases (apis transports : List String) (sizes : List Nat) (buffers : Nat) : List Case :=
  sort idLe (apis.flatMap (fun a => transports.flatMap (fun t => sizes.filterMap (fun p =>
    if a ∈ ["async", "sync"] ∧ t ∈ ["local", "shm", "tcp"] then some ⟨a, t, p, buffers⟩ else none))))

/-- The publisher of a case: `_publisher_transport_kwargs` (hotpath.py:50-58); `Publisher.create` has the argument
`allow_local` (pubclient.py:136), so `_validate_transport_support` (37-47) does not raise. -/
def publisher (pid : Nat) (envForce envAllow : String) (c : Case) : Transport.Pub :=
  Transport.Pub.create pid envForce envAllow (some (decide (c.transport = "tcp"))) (some (decide (c.transport = "local")))

/-- `HotPathSummary` (hotpath.py:76-88) -/
structure Summary where
  samples : Nat
  secondsMedian : Rat
  secondsMean : Rat
  secondsMin : Rat
  secondsMax : Rat
  secondsMedianOfMeans : Option Rat
  secondsCv : Rat
  usMedian : Rat
  usMean : Rat
  rateMedian : Rat
  rateMean : Rat
  deriving DecidableEq, Repr

/-- `coef_var` (util.py:230-238) with `statistics.pstdev` -/
def coefVar (sqrt : Rat → Rat) (l : List Rat) : Rat :=
  if l.length < 2 then 0
  else if mean l = 0 then 0
  else sqrt (mean (l.map (fun x => (x - mean l) * (x - mean l)))) / mean l

/-- `min(…)` of a list that is not empty -/
def least (x : Rat) (l : List Rat) : Rat := l.foldl (fun a b => if b < a then b else a) x

/-- `max(…)` of a list that is not empty -/
def greatest (x : Rat) (l : List Rat) : Rat := l.foldl (fun a b => if a < b then b else a) x

/-- `summarize_samples` (hotpath.py:143-158). Dividing by no messages or by no time raises; so does the median of no
samples (`StatisticsError`, a `ValueError`). -/
def summarize (sqrt : Rat → Rat) (samples : List Rat) (count : Nat) : Except Err Summary :=
  if count = 0 ∧ samples ≠ [] then .error .zeroDivision
  else if (0 : Rat) ∈ samples then .error .zeroDivision
  else
    let us := samples.map (fun s => s / (count : Rat) * 1000000)
    let rates := samples.map (fun s => (count : Rat) / s)
    match samples, median samples, median us, median rates with
    | x :: l, .ok m, .ok mu, .ok mr =>
      .ok { samples := samples.length, secondsMedian := m, secondsMean := mean samples, secondsMin := least x l
            secondsMax := greatest x l, secondsMedianOfMeans := medianOfMeans samples, secondsCv := coefVar sqrt samples
            usMedian := mu, usMean := mean us, rateMedian := mr, rateMean := mean rates }
    | _, _, _, _ => .error .valueError

/-- What happens in the end, in order.
* `served`, `stopped`: the graph server is started (hotpath.py:264-265) and stopped (279)
* `opened c`, `closed`: context, publisher and subscriber are opened (171-173, 196-198), and the context is left
* `sent c`, `received`: one message of the case (176-177, 181-182, 201-202, 206-207) -/
inductive Ev where
  | served
  | opened (c : Case)
  | sent (c : Case)
  | received
  | closed
  | stopped
  deriving DecidableEq, Repr

/-- What the operations do: how long each takes, and which raise. -/
structure Env where
  dur : Nat → Rat
  fails : Nat → Bool

/-- `time.perf_counter()`, how many operations there were, the level of the logger, and what happened. -/
structure W where
  clock : Rat
  ops : Nat
  level : Nat
  log : List Ev

/-- One operation; `false` if it raises. -/
def op (env : Env) (e : Ev) (w : W) : Bool × W :=
  if env.fails w.ops then (false, { w with clock := w.clock + env.dur w.ops, ops := w.ops + 1 })
  else (true, { w with clock := w.clock + env.dur w.ops, ops := w.ops + 1, log := w.log ++ [e] })

/-- `for _ in range(n): await pub.broadcast(payload); await sub.recv()` (hotpath.py:175-177, 180-182, 200-202, 205-207) -/
def trips (env : Env) (c : Case) : Nat → W → Bool × W
  | 0, w => (true, w)
  | n + 1, w =>
    match op env (.sent c) w with
    | (false, w1) => (false, w1)
    | (true, w1) =>
      match op env .received w1 with
      | (false, w2) => (false, w2)
      | (true, w2) => trips env c n w2

/-- The context is left. -/
def close (env : Env) (w : W) : W :=
  { w with clock := w.clock + env.dur w.ops, ops := w.ops + 1, log := w.log ++ [.closed] }

/-- `_async_roundtrip`, `_sync_roundtrip` (hotpath.py:161-208): the time of `count` messages after `warmup` others; `none` if
something raises. -/
def sample (env : Env) (c : Case) (count warmup : Nat) (w : W) : Option Rat × W :=
  match op env (.opened c) w with
  | (false, w1) => (none, w1)
  | (true, w1) =>
    match trips env c warmup w1 with
    | (false, w2) => (none, close env w2)
    | (true, w2) =>
      match trips env c count w2 with
      | (false, w3) => (none, close env w3)
      | (true, w3) => (some (w3.clock - w2.clock), close env w3)

/-- The loop of `run_hotpath_case` (hotpath.py:218-228) -/
def samplesOf (env : Env) (c : Case) (count warmup : Nat) : Nat → W → Option (List Rat) × W
  | 0, w => (some [], w)
  | n + 1, w =>
    match sample env c count warmup w with
    | (none, w1) => (none, w1)
    | (some t, w1) =>
      match samplesOf env c count warmup n w1 with
      | (none, w2) => (none, w2)
      | (some ts, w2) => (some (t :: ts), w2)

/-- `HotPathCaseResult` (hotpath.py:91-97) -/
structure Result where
  case : Case
  seconds : List Rat
  summary : Summary

/-- `run_hotpath_case` (hotpath.py:211-236) -/
def runCase (env : Env) (sqrt : Rat → Rat) (count warmup samples : Nat) (c : Case) (w : W) : Option Result × W :=
  match samplesOf env c count warmup samples w with
  | (none, w1) => (none, w1)
  | (some ts, w1) =>
    match summarize sqrt ts count with
    | .error _ => (none, w1)
    | .ok s => (some ⟨c, ts, s⟩, w1)

/-- The results of the cases in the order given (hotpath.py:268-277) -/
def runCases (env : Env) (sqrt : Rat → Rat) (count warmup samples : Nat) : List Case → W → Option (List Result) × W
  | [], w => (some [], w)
  | c :: cs, w =>
    match runCase env sqrt count warmup samples c w with
    | (none, w1) => (none, w1)
    | (some r, w1) =>
      match runCases env sqrt count warmup samples cs w1 with
      | (none, w2) => (none, w2)
      | (some rs, w2) => (some (r :: rs), w2)

/-- `run_hotpath_suite` (hotpath.py:249-282) for the cases in the order `shuffled`: `_quiet_ezmsg_logs` (108-119) sets the level
of the logger to `WARNING` and back, the server is stopped at the end in any case, and the results are sorted. -/
def suite (env : Env) (sqrt : Rat → Rat) (count warmup samples : Nat) (quiet : Bool) (shuffled : List Case) (w : W) :
    Option (List Result) × W :=
  match op env .served w with
  | (false, w1) => (none, w1)
  | (true, w1) =>
    let (r, w2) := runCases env sqrt count warmup samples shuffled (if quiet then { w1 with level := 30 } else w1)
    (r.map (sort (fun a b => idLe a.case b.case)),
      { w2 with level := if quiet then w1.level else w2.level, log := w2.log ++ [.stopped] })

end Ez.HotPath
