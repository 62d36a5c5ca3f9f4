import Verif.Model.Py

/-!
# Profiling counters and traces of a process

Source: `src/ezmsg/core/profiling.py` (`_PublisherMetrics`, `_SubscriberMetrics`, `ProfileRegistry`).

`I`: ids of publishers and subscribers (UUIDs), `T`: topics, `L`: labels of user spans. Time is in nanoseconds; what
`PROFILE_TIME()` returns is an argument `now`. `endpoint_id` is `f"{topic}:{id}"`, modelled by the pair.

Simplifications: `trace_enabled` and `trace_metrics` of a metric are written but never read, they are left out; a
sample's `channel_kind` is left out; timestamps and values are converted to `float` by the code, here they stay exact.
-/

namespace Ez
namespace Prof

inductive Metric where
  | publishDelta | backpressureWait | leaseTime | userSpan
deriving DecidableEq

/-- `ProfilingTraceSample`, graphmeta.py. `label`: the suffix of the topic of a user span. -/
structure Sample (I T L : Type) where
  ts : Nat
  ep : T × I
  label : Option L
  metric : Metric
  value : Int
  seq : Option Int

/-- `ProfilingTraceControl`, graphmeta.py. `none` and `[]` mean "no filter" for topics and endpoints. `ttl` in
nanoseconds (`int(ttl_seconds * 1e9)`). -/
structure Control (I T : Type) where
  enabled : Bool
  mod : Int := 1
  pubTopics : List T := []
  subTopics : List T := []
  pubEps : List (T × I) := []
  subEps : List (T × I) := []
  metrics : Option (List Metric) := none
  ttl : Option Int := none

/-- `_PublisherMetrics`, profiling.py:32-49. `last`: `_last_snapshot_total`; `lastPub`: `_last_publish_ts_ns`;
`deltaOn`, `waitOn`: the two `_trace_…_enabled` flags. -/
structure PubM (I T L : Type) where
  topic : T
  nb : Nat
  total : Nat := 0
  inflight : Int := 0
  last : Nat := 0
  lastPub : Option Nat := none
  mod : Int := 1
  counter : Nat := 0
  deltaOn : Bool := false
  waitOn : Bool := false
  samples : List (Sample I T L) := []

/-- `_SubscriberMetrics`, profiling.py:127-144. -/
structure SubM (I T L : Type) where
  topic : T
  total : Nat := 0
  last : Nat := 0
  mod : Int := 1
  counter : Nat := 0
  leaseOn : Bool := false
  spanOn : Bool := false
  samples : List (Sample I T L) := []

variable {I T L : Type} [DecidableEq I] [DecidableEq T]

/-- `deque(maxlen=cap).append(x)`. -/
def push {α : Type} (cap : Nat) (q : List α) (x : α) : List α := (q ++ [x]).drop (q.length + 1 - cap)

/-- `n % max(1, mod) == 0`. -/
def due (n : Nat) (mod : Int) : Bool := ((n : Int) % max 1 mod) == 0

/-- profiling.py:51-75. -/
def PubM.publish (cap : Nat) (id : I) (m : PubM I T L) (now : Nat) (inflight : Int) (seq : Option Int) : PubM I T L :=
  let m := { m with total := m.total + 1, inflight := inflight }
  if m.deltaOn then
    let m := { m with counter := m.counter + 1 }
    if due m.counter m.mod then
      { m with
        lastPub := some now
        samples := push cap m.samples
          { ts := now, ep := (m.topic, id), label := none, metric := .publishDelta,
            value := (m.lastPub.map (fun t => (now : Int) - t)).getD 0, seq := seq } }
    else m
  else m

/-- profiling.py:77-91. -/
def PubM.wait (cap : Nat) (id : I) (m : PubM I T L) (now : Nat) (ns : Int) (seq : Option Int) : PubM I T L :=
  if m.waitOn then
    { m with
      samples := push cap m.samples
        { ts := now, ep := (m.topic, id), label := none, metric := .backpressureWait, value := ns, seq := seq } }
  else m

/-- profiling.py:142-150: the new metric and whether the message is sampled. -/
def SubM.begin (m : SubM I T L) : SubM I T L × Bool :=
  let m := { m with total := m.total + 1 }
  if m.leaseOn || m.spanOn then
    let m := { m with counter := m.counter + 1 }
    (m, due m.counter m.mod)
  else (m, false)

/-- profiling.py:166-189. -/
def SubM.lease (cap : Nat) (id : I) (m : SubM I T L) (now : Nat) (ns : Option Int) (seq : Option Int) (sampled : Bool) :
    SubM I T L :=
  match ns with
  | none => m
  | some ns =>
    if m.leaseOn && sampled then
      { m with
        samples := push cap m.samples
          { ts := now, ep := (m.topic, id), label := none, metric := .leaseTime, value := ns, seq := seq } }
    else m

/-- profiling.py:191-214. -/
def SubM.span (cap : Nat) (id : I) (m : SubM I T L) (now : Nat) (ns : Int) (label : Option L) (seq : Option Int)
    (sampled : Bool) : SubM I T L :=
  if m.spanOn && sampled then
    { m with
      samples := push cap m.samples
        { ts := now, ep := (m.topic, id), label := label, metric := .userSpan, value := ns, seq := seq } }
  else m

/-- `ProfileRegistry`, profiling.py:236-246. -/
structure Reg (I T L : Type) where
  pubs : PyDict I (PubM I T L) := []
  subs : PyDict I (SubM I T L) := []
  control : Control I T := { enabled := false }
  expires : Option Int := none
  lastTs : Option Nat := none

/-- profiling.py:390-415. -/
def applyPub (c : Control I T) (id : I) (m : PubM I T L) : PubM I T L :=
  let on := c.enabled && (c.pubTopics.isEmpty || decide (m.topic ∈ c.pubTopics)) &&
    (c.pubEps.isEmpty || decide ((m.topic, id) ∈ c.pubEps))
  { m with
    mod := max 1 c.mod, counter := 0, lastPub := none
    deltaOn := on && (match c.metrics with | none => true | some ms => decide (Metric.publishDelta ∈ ms))
    waitOn := on && (match c.metrics with | none => true | some ms => decide (Metric.backpressureWait ∈ ms)) }

/-- profiling.py:417-441. -/
def applySub (c : Control I T) (id : I) (m : SubM I T L) : SubM I T L :=
  let on := c.enabled && (c.subTopics.isEmpty || decide (m.topic ∈ c.subTopics)) &&
    (c.subEps.isEmpty || decide ((m.topic, id) ∈ c.subEps))
  { m with
    mod := max 1 c.mod, counter := 0
    leaseOn := on && (match c.metrics with | none => true | some ms => decide (Metric.leaseTime ∈ ms))
    spanOn := on && (match c.metrics with | none => true | some ms => decide (Metric.userSpan ∈ ms)) }

/-- profiling.py:314-330. -/
def setControl (r : Reg I T L) (now : Nat) (c : Control I T) : Reg I T L :=
  { r with
    control := c
    expires := match c.enabled, c.ttl with
      | true, some t => some ((now : Int) + max 0 t)
      | _, _ => none
    pubs := r.pubs.map (fun p => (p.1, applyPub c p.1 { p.2 with samples := [] }))
    subs := r.subs.map (fun p => (p.1, applySub c p.1 { p.2 with samples := [] })) }

/-- profiling.py:380-387. -/
def expire (r : Reg I T L) (now : Nat) : Reg I T L :=
  match r.expires with
  | none => r
  | some e => if (now : Int) < e then r else setControl r now { enabled := false }

/-- `PublisherProfileSnapshot` / `SubscriberProfileSnapshot`: the counters. `rate`: numerator and denominator (in
nanoseconds) of `publish_rate_hz_window`, `none` for 0. -/
structure Counts where
  total : Nat
  window : Nat
  inflight : Int
  nb : Nat
  rate : Option (Nat × Int)
deriving DecidableEq

/-- `window_count`: nothing without a previous snapshot. `last`: `_last_snapshot_ts_ns`. -/
def window (last : Option Nat) (total lastTotal : Nat) : Nat := if last.isSome then total - lastTotal else 0

/-- profiling.py:96-122. -/
def PubM.counts (m : PubM I T L) (last : Option Nat) (now : Nat) : Counts :=
  { total := m.total, window := window last m.total m.last, inflight := m.inflight, nb := m.nb
    rate := match last with
      | none => none
      | some t => if t < now then some (window last m.total m.last, (now : Int) - t) else none }

/-- profiling.py:216-232. -/
def SubM.counts (m : SubM I T L) (last : Option Nat) : Counts :=
  { total := m.total, window := window last m.total m.last, inflight := 0, nb := 0, rate := none }

/-- profiling.py:279-311: new registry and the counters of all publishers and subscribers. -/
def snapshot (r : Reg I T L) (now : Nat) : Reg I T L × PyDict I Counts × PyDict I Counts :=
  ({ r with
     lastTs := some now
     pubs := r.pubs.map (fun p => (p.1, { p.2 with last := p.2.total }))
     subs := r.subs.map (fun p => (p.1, { p.2 with last := p.2.total })) },
   r.pubs.map (fun p => (p.1, p.2.counts r.lastTs now)),
   r.subs.map (fun p => (p.1, p.2.counts r.lastTs)))

/-- The key under which a queue is on the heap: timestamp and sequence number of its first sample, number of the queue
(profiling.py:351-355). -/
def key (s : Sample I T L) (idx : Nat) : Nat × Int × Nat := (s.ts, s.seq.getD (-1), idx)

/-- Python's order of such tuples. -/
def keyLt (a b : Nat × Int × Nat) : Bool :=
  decide (a.1 < b.1) || (decide (a.1 = b.1) && (decide (a.2.1 < b.2.1) || (decide (a.2.1 = b.2.1) && decide (a.2.2 < b.2.2))))

/-- `heapq.heappop`: the least element. -/
def popMin : List (Nat × Int × Nat) → Option ((Nat × Int × Nat) × List (Nat × Int × Nat))
  | [] => none
  | x :: xs =>
    match popMin xs with
    | none => some (x, [])
    | some (y, ys) => if keyLt y x then some (y, x :: ys) else some (x, xs)

/-- profiling.py:366-369: the new front of a queue is put on the heap. -/
def repush (heap : List (Nat × Int × Nat)) (idx : Nat) : List (Sample I T L) → List (Nat × Int × Nat)
  | [] => heap
  | n :: _ => heap ++ [key n idx]

/-- The loop 357-369. The first argument bounds the number of rounds; `merge` gives it enough. -/
def mergeLoop : Nat → Nat → List (Nat × Int × Nat) → List (List (Sample I T L)) → List (Sample I T L) →
    List (Sample I T L) × List (List (Sample I T L))
  | 0, _, _, qs, out => (out, qs)
  | fuel + 1, limit, heap, qs, out =>
    if limit ≤ out.length then (out, qs)
    else match popMin heap with
      | none => (out, qs)
      | some (e, heap) =>
        match qs.getD e.2.2 [] with
        | [] => mergeLoop fuel limit heap qs out
        | s :: q =>
          mergeLoop fuel limit (repush heap e.2.2 q) (qs.set e.2.2 q) (out ++ [s])

/-- profiling.py:337-369 on the non-empty queues: what is returned and what stays in the queues. -/
def merge (limit : Nat) (qs : List (List (Sample I T L))) : List (Sample I T L) × List (List (Sample I T L)) :=
  match qs with
  | [q] => (q.take limit, [q.drop limit])
  | qs => mergeLoop ((qs.map List.length).sum + 1) limit
      (qs.zipIdx.filterMap (fun (q, i) => q.head?.map (fun s => key s i))) qs []

/-- Write the queues back, in the order in which they were collected; empty ones had been skipped. -/
def refill {α : Type} : List (List α) → List (List α) → List (List α)
  | [], _ => []
  | [] :: qs, rs => [] :: refill qs rs
  | _ :: qs, r :: rs => r :: refill qs rs
  | q :: qs, [] => q :: qs

/-- `trace_batch`, profiling.py:332-374. -/
def batch (r : Reg I T L) (now : Nat) (maxSamples : Int) : Reg I T L × List (Sample I T L) :=
  let r := expire r now
  let all := r.pubs.map (·.2.samples) ++ r.subs.map (·.2.samples)
  let out := merge (max 1 maxSamples).toNat (all.filter (fun q => !q.isEmpty))
  let back := refill all out.2
  ({ r with
     pubs := (r.pubs.zip back).map (fun x => (x.1.1, { x.1.2 with samples := x.2 }))
     subs := (r.subs.zip (back.drop r.pubs.length)).map (fun x => (x.1.1, { x.1.2 with samples := x.2 })) }, out.1)

/-- What happens to the registry of a process, in order. -/
inductive Act (I T L : Type) where
  | regPub (id : I) (topic : T) (nb : Int)
  | unregPub (id : I)
  | regSub (id : I) (topic : T)
  | unregSub (id : I)
  | publish (id : I) (now : Nat) (inflight : Int) (seq : Option Int)
  | wait (id : I) (now : Nat) (ns : Int) (seq : Option Int)
  /-- `sample_inflight`, profiling.py:93-94 -/
  | inflight (id : I) (n : Int)
  | receive (id : I)
  | lease (id : I) (now : Nat) (ns : Option Int) (seq : Option Int) (sampled : Bool)
  | span (id : I) (now : Nat) (ns : Int) (label : Option L) (seq : Option Int) (sampled : Bool)
  /-- `set_process_id`, profiling.py:248-255 -/
  | setProcess (reset : Bool)
  | snapshot (now : Nat)
  | control (now : Nat) (c : Control I T)
  | batch (now : Nat) (maxSamples : Int)
  | enabled (now : Nat)

/-- What the caller gets. -/
inductive Out (I T L : Type) where
  | none
  | sampled (b : Bool)
  | counts (pubs subs : PyDict I Counts)
  | samples (l : List (Sample I T L))
  | enabled (b : Bool)

/-- A metric is used by the publisher that registered it, also after it was removed from the registry; such uses have no
effect on the registry, so they are ignored here. -/
def step (cap : Nat) (r : Reg I T L) : Act I T L → Reg I T L × Out I T L
  | .regPub id topic nb =>
    ({ r with pubs := r.pubs.set id (applyPub r.control id { topic := topic, nb := (max 1 nb).toNat }) }, .none)
  | .unregPub id => ({ r with pubs := r.pubs.pop id }, .none)
  | .regSub id topic => ({ r with subs := r.subs.set id (applySub r.control id { topic := topic }) }, .none)
  | .unregSub id => ({ r with subs := r.subs.pop id }, .none)
  | .publish id now n seq => ({ r with pubs := r.pubs.modify id (fun m => m.publish cap id now n seq) }, .none)
  | .wait id now ns seq => ({ r with pubs := r.pubs.modify id (fun m => m.wait cap id now ns seq) }, .none)
  | .inflight id n => ({ r with pubs := r.pubs.modify id (fun m => { m with inflight := n }) }, .none)
  | .receive id =>
    ({ r with subs := r.subs.modify id (fun m => m.begin.1) },
      .sampled (match r.subs.get? id with | some m => m.begin.2 | none => false))
  | .lease id now ns seq b => ({ r with subs := r.subs.modify id (fun m => m.lease cap id now ns seq b) }, .none)
  | .span id now ns label seq b => ({ r with subs := r.subs.modify id (fun m => m.span cap id now ns label seq b) }, .none)
  | .setProcess reset => (if reset then {} else { r with lastTs := none }, .none)
  | .snapshot now => ((snapshot r now).1, .counts (snapshot r now).2.1 (snapshot r now).2.2)
  | .control now c => (setControl r now c, .none)
  | .batch now k => ((batch r now k).1, .samples (batch r now k).2)
  | .enabled now => (expire r now, .enabled (expire r now).control.enabled)

end Prof
end Ez
