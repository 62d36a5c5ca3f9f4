import Verif.Model.Py

/-!
# A steady environment for measurements

`stable_perf` (`util/perf/util.py`) changes the process for the time of a measurement: environment variables, priority, the
processors it may use, the resolution of the timer, the garbage collector, and keeps the machine awake.

Simplifications: every host is described by what it permits; the warm-up changes nothing; reading the priority and the
processors does not fail; exceptions are told apart only as those of the body and the one of setting the processors. What the
body does is any function of what it finds.
-/

namespace Ez.Steady

/-- Operating systems. -/
inductive Os where
  | linux
  | mac
  | win
  deriving DecidableEq, Repr

/-- Priority classes of Windows. -/
inductive Cls where
  | normal
  | aboveNormal
  | high
  deriving DecidableEq, Repr

/-- What the host permits.
* `privileged`: to lower `nice` (raise the priority)
* `mayUse`: to set the processors to these
* `caffeinate`: to start this program
* `mayHigh`, `mayAbove`: to set the priority class -/
structure Host where
  os : Os
  psutil : Bool
  privileged : Bool
  mayUse : List Nat → Bool
  caffeinate : Bool
  mayHigh : Bool
  mayAbove : Bool

/-- The state of the process.
* `timer`: requests for a finer timer
* `awake`: running `caffeinate` processes -/
structure World where
  env : PyDict String String
  nice : Int
  cls : Cls := .normal
  cpus : List Nat
  gc : Bool
  timer : Nat := 0
  awake : Nat := 0
  deriving DecidableEq, Repr

/-- How it ends. -/
inductive Ended where
  | returned
  | raised
  | notAllowed
  deriving DecidableEq, Repr

/-- Code that runs and ends. -/
abbrev Code := World → World × Ended

/-- `PerfOptions`, util.py:244-251 -/
structure Options where
  singleThread : Bool := true
  isolated : Bool := true
  priority : Bool := true
  timer : Bool := true
  awake : Bool := true

/-- util.py:28-32 -/
def threadVars : List String :=
  ["OMP_NUM_THREADS", "MKL_NUM_THREADS", "VECLIB_MAXIMUM_THREADS", "OPENBLAS_NUM_THREADS", "NUMEXPR_NUM_THREADS"]

/-- `_set_env_threads(single_thread)`, util.py:23-34 -/
def setEnv (single : Bool) (w : World) : World :=
  let e := if single then threadVars.foldl (fun e v => PyDict.setdefault e v "1") w.env else w.env
  { w with env := PyDict.setdefault e "PYTHONHASHSEED" "0" }

/-- `p.nice(n)`: a lower value needs privileges; `none` is an exception. -/
def setNice (h : Host) (n : Int) (w : World) : Option World :=
  if h.privileged = true ∨ w.nice ≤ n then some { w with nice := n } else none

/-- `for nice_val in (-10, -5, 0): try ... break except: continue`, util.py:71-76 -/
def tryNice (h : Host) : List Int → World → World
  | [], w => w
  | n :: ns, w =>
    match setNice h n w with
    | some w' => w'
    | none => tryNice h ns w

/-- `_process_priority`, util.py:40-87, around `k`. -/
def priority (h : Host) (k : Code) : Code := fun w =>
  if h.psutil = false then k w
  else if h.os = .win then
    k (if h.mayHigh then { w with cls := .high } else if h.mayAbove then { w with cls := .aboveNormal } else w)
  else
    let r := k (tryNice h [-10, -5, 0] w)
    ((setNice h w.nice r.1).getD r.1, r.2)

/-- `_win_timer_resolution`, util.py:146-172, around `k`. -/
def timer (h : Host) (k : Code) : Code := fun w =>
  if h.os = .win then
    let r := k { w with timer := w.timer + 1 }
    ({ r.1 with timer := r.1.timer - 1 }, r.2)
  else k w

/-- The processors to be used, util.py:105-109. -/
def pick (cpus : List Nat) : List Nat :=
  if cpus.length > 2 then
    let mid := cpus.length / 2
    [(cpus[mid - 1]?).getD 0, (cpus[mid]?).getD 0]
  else cpus

/-- `p.cpu_affinity(cpus)`; `none` is an exception. -/
def setCpus (h : Host) (cpus : List Nat) (w : World) : Option World :=
  if h.mayUse cpus = true then some { w with cpus := cpus } else none

/-- `_cpu_affinity(True)`, util.py:90-117, around `k`. -/
def affinity (h : Host) (k : Code) : Code := fun w =>
  if h.psutil = false ∨ h.os = .mac then k w
  else
    let r := match setCpus h (pick w.cpus) w with
      | some w' => k w'
      | none => (w, .notAllowed)
    ((setCpus h w.cpus r.1).getD r.1, r.2)

/-- `_mac_caffeinate`, util.py:123-143, around `k`. -/
def keepAwake (h : Host) (k : Code) : Code := fun w =>
  if h.os = .mac then
    if h.caffeinate then
      let r := k { w with awake := w.awake + 1 }
      ({ r.1 with awake := r.1.awake - 1 }, r.2)
    else k w
  else k w

/-- `gc_pause`, util.py:196-208, around `k`. -/
def gcPause (k : Code) : Code := fun w =>
  let r := k { w with gc := false }
  ((if w.gc then { r.1 with gc := true } else r.1), r.2)

/-- `stable_perf(opts)`, util.py:254-278, around a body: the context managers asked for, one inside the other. -/
def stablePerf (h : Host) (o : Options) (body : Code) : Code := fun w =>
  let k := gcPause body
  let k := if o.awake then keepAwake h k else k
  let k := if o.isolated then affinity h k else k
  let k := if o.timer then timer h k else k
  let k := if o.priority then priority h k else k
  k (setEnv o.singleThread w)

end Ez.Steady
