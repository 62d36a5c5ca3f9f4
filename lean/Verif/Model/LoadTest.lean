import Verif.Model.Py

/-!
# The load test of `ezmsg perf`

Source: `src/ezmsg/util/perf/impl.py:79-180` (`LoadTestSource`, `LoadTestRelay`, `LoadTestReceiver`, `LoadTestSink`), 183-238
(`fanout`, `fanin`, `relay`), 314-363 (`calculate_metrics`).

Simplifications, stated: times are rational numbers; a source whose time is up sends fewer messages (102-121), which is
left to the callers of `receive`; the components and their placement in processes (249-311) are not modelled.
-/
set_option linter.unusedSimpArgs false

namespace Ez.LoadTest

/-- A message (impl.py:79-84): when it was sent, its number, and the name of its source. -/
structure Sample (K : Type) where
  sent : Rat
  counter : Nat
  key : K
  deriving DecidableEq, Repr

/-- What a receiver keeps (impl.py:139-144): for every message when it was sent and received, and its number; and for every
source the last number. -/
structure RSt (K : Type) where
  data : List (Rat × Rat × Nat)
  counters : PyDict K Int

variable {K : Type} [DecidableEq K]

/-- The beginning. -/
def RSt.init : RSt K := { data := [], counters := [] }

/-- `LoadTestReceiver.receive` (impl.py:156-163), and the number in the warning, if there is one. -/
def receive (st : RSt K) (s : Sample K) (now : Rat) : RSt K × Option Int :=
  let counter : Int := (st.counters.get? s.key).getD (-1)
  let warn := if (s.counter : Int) ≠ counter + 1 then some ((s.counter : Int) - counter - 1) else none
  ({ data := st.data ++ [(s.sent, now, s.counter)], counters := st.counters.set s.key s.counter }, warn)

/-- Many messages: the state at the end, and the warnings with the source concerned. -/
def receiveAll : RSt K → List (Sample K × Rat) → RSt K × List (K × Int)
  | st, [] => (st, [])
  | st, (s, now) :: xs =>
    let r := receive st s now
    let t := receiveAll r.1 xs
    (t.1, (match r.2 with | some n => [(s.key, n)] | none => []) ++ t.2)

/-- `LoadTestSink.receive` (impl.py:170-173): the test ends with the message that makes up the number expected.  What is
left of the messages, and the state. -/
def sinkAll (expected : Nat) : RSt K → List (Sample K × Rat) → RSt K × List (Sample K × Rat) × Bool
  | st, [] => (st, [], false)
  | st, (s, now) :: xs =>
    let st' := (receive st s now).1
    if st'.data.length = expected then (st', xs, true) else sinkAll expected st' xs

/-- A component of the test. -/
inductive Node where
  | source
  | client (i : Nat)
  | sink
  deriving DecidableEq, Repr

/-- A configuration: the connections, the components that publish messages of their own, and the number the sink waits
for. -/
structure Config where
  edges : List (Node × Node)
  sources : List Node
  expected : Nat

/-- `fanout` (impl.py:198-205). -/
def fanout (n msgs : Nat) : Config :=
  { edges := (.source, .sink) :: (List.range n).map (fun i => (.source, .client i)), sources := [.source], expected := msgs }

/-- `fanin` (impl.py:208-217). -/
def fanin (n msgs : Nat) : Config :=
  { edges := (.source, .sink) :: (List.range n).map (fun i => (.client i, .sink)),
    sources := .source :: (List.range n).map .client, expected := msgs * (1 + n) }

/-- `relay` (impl.py:220-234). -/
def relay (n msgs : Nat) : Config :=
  { edges :=
      if n = 0 then [(.source, .sink)]
      else (.source, .client 0) :: ((List.range (n - 1)).map (fun i => (.client i, .client (i + 1))) ++ [(.client (n - 1), .sink)]),
    sources := [.source], expected := msgs }

/-- Exceptions of `calculate_metrics`. -/
inductive Exc where
  | valueError
  | zeroDivision
  deriving DecidableEq, Repr

/-- The results (impl.py:60-68); `rateMedian` is `none` where numpy gives `nan`.  `dropped` and `share` are only
logged. -/
structure Metrics where
  num : Nat
  rateMean : Rat
  rateMedian : Option Rat
  latencyMean : Rat
  latencyMedian : Rat
  latencyTotal : Rat
  dataRate : Rat
  dropped : Nat
  share : Rat
  deriving DecidableEq, Repr

/-- Put an element where it belongs in a sorted list. -/
def insert {α : Type} (le : α → α → Bool) (a : α) : List α → List α
  | [] => [a]
  | b :: l => if le a b then a :: b :: l else b :: insert le a l

/-- `sorted`, whatever the algorithm. -/
def isort {α : Type} (le : α → α → Bool) : List α → List α
  | [] => []
  | a :: l => insert le a (isort le l)

/-- `sorted` of times. -/
def sorted (l : List Rat) : List Rat := isort (fun a b => decide (a ≤ b)) l

/-- The differences of neighbours. -/
def diffs : List Rat → List Rat
  | a :: b :: l => (b - a) :: diffs (b :: l)
  | _ => []

/-- `np.median`, of the sorted list. -/
def median (l : List Rat) : Option Rat :=
  let s := sorted l
  if s.length = 0 then none
  else if s.length % 2 = 1 then s[s.length / 2]?
  else match s[s.length / 2 - 1]?, s[s.length / 2]? with
    | some a, some b => some ((a + b) / 2)
    | _, _ => none

/-- The sum of the gaps between neighbours, which are numbers of a sorted list (impl.py:325-327). -/
def gaps : List Nat → Nat
  | a :: b :: l => (b - a - 1) + gaps (b :: l)
  | _ => 0

/-- The number of messages dropped (impl.py:324-327). -/
def dropped (counters : List Nat) : Nat := gaps (isort (fun a b => decide (a ≤ b)) counters)

/-- `min` and `max` of a list that is not empty. -/
def least (a : Rat) (l : List Rat) : Rat := l.foldl min a
def greatest (a : Rat) (l : List Rat) : Rat := l.foldl max a

/-- `calculate_metrics` (impl.py:314-363). -/
def metrics (data : List (Rat × Rat × Nat)) (size : Nat) : Except Exc Metrics :=
  match data with
  | [] => .error .valueError
  | x :: xs =>
    let lo := least x.1 (xs.map (·.1))
    let hi := greatest x.1 (xs.map (·.1))
    let latency := data.map (fun d => d.2.1 - d.1)
    let total := latency.sum.abs
    let drop := dropped (data.map (·.2.2))
    let runtime := hi - lo
    let n := data.length
    if runtime = 0 then .error .zeroDivision
    else
      let ds := (diffs (sorted (data.map (·.2.1)))).filter (fun d => decide (d ≠ 0))
      .ok { num := n, rateMean := n / runtime, rateMedian := (median ds).map (fun d => 1 / d), latencyMean := total / n,
            latencyMedian := (sorted latency).getD (latency.length / 2) 0, latencyTotal := total, dataRate := (n * size : Nat) / runtime,
            dropped := drop, share := drop / ((drop + n : Nat) : Rat) }

end Ez.LoadTest
