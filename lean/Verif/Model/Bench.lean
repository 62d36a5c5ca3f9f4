import Verif.Model.Compare
import Verif.Model.Py

/-!
# Benchmarks: the log and the report

`benchmark` (`util/perf/run.py`) runs every test asked for and writes a log; `load_perf` (`util/perf/analysis.py`) reads such
logs, also several of them in one file, and reports one number for every combination; two reports are compared.

Simplifications: an entry of the log has one metric, as all are treated alike and independently; numbers are rational, not
floating point; what a test measures is any function of how many were performed before; tests do not raise.
-/

namespace Ez.Bench

/-- What is raised. -/
inductive Err where
  | valueError
  | keyError
  | stopIteration
  deriving DecidableEq, Repr

/-- An element of `test_list` (run.py:168-172). -/
structure Test where
  size : Int
  clients : Int
  config : String
  comms : String
  deriving DecidableEq, Repr

/-- `TestParameters`, impl.py:366-374 -/
structure Params where
  test : Test
  numMsgs : Int
  maxDuration : Rat
  buffers : Int
  deriving DecidableEq, Repr

/-- A line of the log: `TestEnvironmentInfo` or `TestLogEntry` (one of its metrics). -/
inductive Line where
  | info
  | entry (p : Params) (r : Rat)
  deriving DecidableEq, Repr

/-- The arguments of `benchmark`, run.py:110-124. -/
structure Args where
  maxDuration : Rat
  numMsgs : Int
  buffers : Int
  iters : Int
  repeats : Int
  sizes : Option (List Int)
  clients : Option (List Int)
  comms : Option (List String)
  configs : Option (List String)
  grid : Bool

/-- `DEFAULT_MSG_SIZES`, `DEFAULT_N_CLIENTS`, `DEFAULT_COMMS`, run.py:19-21 -/
def defaultSizes : List Int := [2 ^ 4, 2 ^ 20]
def defaultClients : List Int := [1, 16]
def defaultComms : List String := ["local", "shm", "tcp", "shm_spread", "tcp_spread"]

/-- `CONFIGS`, impl.py:236-238 -/
def knownConfigs : List String := ["fanin", "fanout", "relay"]

/-- `Communication`, impl.py:241-246 -/
def knownComms : List String := ["local", "shm", "shm_spread", "tcp", "tcp_spread"]

/-- `subitr(msg_sizes, n_clients)` with `itertools.product` or `zip`, run.py:166-170 -/
def combine (grid : Bool) (xs ys : List Int) : List (Int × Int) :=
  if grid then xs.flatMap (fun x => ys.map (fun y => (x, y))) else xs.zip ys

/-- `benchmark`: the arguments are checked and the tests listed (run.py:129-172). An unknown configuration is looked up in a
dictionary, which raises `KeyError`; the code catches `ValueError`. -/
def tests (a : Args) : Except Err (List Test) :=
  let clients := a.clients.getD defaultClients
  let sizes := a.sizes.getD defaultSizes
  if ∃ c ∈ clients, c < 0 then .error .valueError
  else if ∃ s ∈ sizes, s < 0 then .error .valueError
  else
    let comms := a.comms.getD defaultComms
    let configs := a.configs.getD knownConfigs
    if ∃ c ∈ comms, c ∉ knownComms then .error .valueError
    else if ∃ c ∈ configs, c ∉ knownConfigs then .error .keyError
    else
      .ok (List.replicate a.iters.toNat ((combine a.grid sizes clients).flatMap (fun sc =>
        configs.flatMap (fun conf => comms.map (fun comm => ⟨sc.1, sc.2, conf, comm⟩))))).flatten

/-- `TestParameters(…)`, run.py:224-232 -/
def params (a : Args) (t : Test) : Params := ⟨t, a.numMsgs, a.maxDuration, a.buffers⟩

/-- The loop over the tests, run.py:211-245: the lines written, whether it was quit, and how often it was asked. `n` is how often
it was asked before. -/
def once (a : Args) (quit : Nat → Bool) (meas : Nat → Test → Rat) : Nat → List Test → List Line × Bool × Nat
  | n, [] => ([], false, n)
  | n, t :: ts =>
    if quit n then ([], true, n + 1)
    else
      let (ls, q, m) := once a quit meas (n + 1) ts
      (.entry (params a t) (meas n t) :: ls, q, m)

/-- `for _ in range(repeats)`, run.py:206-248 -/
def log (a : Args) (quit : Nat → Bool) (meas : Nat → Test → Rat) (ts : List Test) : Nat → Nat → List Line
  | 0, _ => []
  | k + 1, n =>
    let (ls, q, m) := once a quit meas n ts
    .info :: ls ++ (if q then [] else log a quit meas ts k m)

/-- `benchmark`: the file written (run.py:110-248). `shuffle` is `random.shuffle`. -/
def benchmark (a : Args) (shuffle : List Test → List Test) (quit : Nat → Bool) (meas : Nat → Test → Rat) :
    Except Err (List Line) :=
  match tests a with
  | .error e => .error e
  | .ok ts => .ok (log a quit meas (shuffle ts) a.repeats.toNat 0)

/-- The parts of the wall clock time that are shown, run.py:252-255. -/
def wallclock (seconds : Nat) : List Nat :=
  [seconds / 86400, seconds / 3600 % 24, seconds / 60 % 60, seconds % 60].filter (fun n => decide (n ≠ 0))

/-- `all_results`, analysis.py:140 -/
abbrev Table := PyDict Params (PyDict Nat (List Rat))

/-- The loop over the lines, analysis.py:145-154. -/
def read : Table → Nat → List Line → Table
  | t, _, [] => t
  | t, i, .info :: ls => read t (i + 1) ls
  | t, i, .entry p r :: ls =>
    let runs := (PyDict.get? t p).getD []
    let metrics := (PyDict.get? runs i).getD []
    read (PyDict.set t p (PyDict.set runs i (metrics ++ [r]))) i ls

/-- `np.median([np.mean(…) for run in runs.values()])`, analysis.py:188-190 -/
def summary (runs : PyDict Nat (List Rat)) : Option Rat :=
  match AB.median (runs.map (fun r => AB.mean r.2)) with
  | .ok m => some m
  | .error _ => none

/-- `metric_values` of one combination, analysis.py:169-190: `none` is NaN; whatever comes later overwrites it. -/
def value (t : Table) (c : Test) : Option Rat :=
  t.foldl (fun v e => if e.1.test = c then summary e.2 else v) none

/-- `load_perf`, analysis.py:134-193: the first line is the description, of an empty file `next` raises. -/
def load : List Line → Except Err (Test → Option Rat)
  | [] => .error .stopIteration
  | _ :: ls => .ok (value (read [] 0 ls))

/-! ### Comparison -/

/-- A number of a comparison. -/
inductive Val where
  | num (q : Rat)
  | inf
  | nan
  deriving DecidableEq, Repr

/-- `(candidate / baseline) * 100.0` for one combination, analysis.py:372 -/
def relative (c b : Option Rat) : Val :=
  match c, b with
  | some x, some y => if y = 0 then (if x = 0 then .nan else .inf) else .num (x / y * 100)
  | _, _ => .nan

/-- `DISPLAY_METRICS`, analysis.py:74-80 -/
inductive Metric where
  | sampleRateMean
  | sampleRateMedian
  | dataRate
  | latencyMean
  | latencyMedian
  deriving DecidableEq, Repr

def metrics : List Metric := [.sampleRateMean, .sampleRateMedian, .dataRate, .latencyMean, .latencyMedian]

/-- `"latency" in metric`, analysis.py:228 -/
def Metric.latency : Metric → Bool
  | .latencyMean => true
  | .latencyMedian => true
  | _ => false

/-- `_metric_score`, analysis.py:225-230 -/
def score (m : Metric) : Val → Rat
  | .num q => if m.latency then 100 - q else q - 100
  | _ => 0

/-- What is said of a metric. -/
inductive Said where
  | improvement
  | neutral
  | regression
  deriving DecidableEq, Repr

/-- `_classify_metric`, analysis.py:233-237 -/
def classify (band : Rat) (m : Metric) (v : Val) : Said :=
  if score m v ≤ band ∧ -band ≤ score m v then .neutral
  else if score m v > 0 then .improvement else .regression

/-- `MetricDelta`, analysis.py:106-114, without the score, which is a function of it. -/
structure Delta where
  cell : Test
  metric : Metric
  val : Val
  deriving DecidableEq, Repr

/-- The rows of the comparison (`_frame_from_dataset`, analysis.py:208-212): those where not all metrics are NaN, of the
combinations of both. -/
def rows (cells : List Test) (c b : Metric → Test → Option Rat) : List Test :=
  cells.filter (fun t => metrics.any (fun m => decide (relative (c m t) (b m t) ≠ .nan)))

/-- The loops of `_collect_metric_deltas`, analysis.py:250-252: every metric of every row. -/
def deltas (rs : List Test) (c b : Metric → Test → Option Rat) : List Delta :=
  rs.flatMap (fun t => metrics.map (fun m => ⟨t, m, relative (c m t) (b m t)⟩))

/-- The result of `_collect_metric_deltas`, analysis.py:240-283. -/
structure Overview where
  improved : Nat := 0
  neutral : Nat := 0
  regressed : Nat := 0
  improvements : List Delta := []
  regressions : List Delta := []

/-- One metric of a row, analysis.py:252-279. -/
def note (band : Rat) (o : Overview) (d : Delta) : Overview :=
  match classify band d.metric d.val with
  | .improvement => { o with improved := o.improved + 1, improvements := o.improvements ++ [d] }
  | .neutral => { o with neutral := o.neutral + 1 }
  | .regression => { o with regressed := o.regressed + 1, regressions := o.regressions ++ [d] }

/-- `_collect_metric_deltas`, analysis.py:240-283 -/
def overview (band : Rat) (ds : List Delta) : Overview :=
  let o := ds.foldl (note band) {}
  { o with
    improvements := AB.sort (fun x y => decide (score y.metric y.val ≤ score x.metric x.val)) o.improvements
    regressions := AB.sort (fun x y => decide (score x.metric x.val ≤ score y.metric y.val)) o.regressions }

end Ez.Bench
