import Verif.Model.Profiling

/-!
# The profiling stream of the graph server

Source: `src/ezmsg/core/graphserver.py:132-134, 737-739, 911-1043`. Processes push batches of trace samples
(`PROCESS_PROFILING_TRACE_UPDATE`); the server keeps the newest samples of each process, numbered; a follower
(`SESSION_PROFILING_SUBSCRIBE`) collects in intervals what it has not seen yet.

`Q` are the ids of process connections (`_process_key` is the client id), `F` those of followers, `A` are samples. The
intervals are not modelled: a follower collects at any time. `sorted(..., key=str)` is not modelled: the processes are
visited in the order of their connection, or of the filter. Only the part of the server's state that concerns trace
samples is here; the rest is in `Model/GraphServer.lean`.
-/

namespace Ez.TStream
open PyDict

variable {F Q A : Type} [DecidableEq F] [DecidableEq Q]

/-- `ProfilingStreamControl`, graphmeta.py:347-352. -/
structure Control (Q : Type) where
  maxSamples : Int := 1000
  only : Option (List Q) := none
  includeEmpty : Bool := false

/-- `ProcessProfilingTraceBatch`, graphmeta.py:332-338 (without the time). -/
structure Batch (A : Type) where
  pid : Int
  host : String
  samples : List A
deriving DecidableEq

/-- graphserver.py:132-134; `procs` are the `ProcessInfo`s of `clients` with `pid` and `host`; `followers` the running
`_handle_profiling_subscriber` tasks with `stream_control` and `last_seq_by_process`. -/
structure St (F Q A : Type) where
  procs : PyDict Q (Option Int × Option String) := []
  buffers : PyDict Q (List (Nat × A)) := []
  info : PyDict Q (Int × String) := []
  seq : PyDict Q Nat := []
  followers : PyDict F (Control Q × PyDict Q Nat) := []

inductive Act (F Q A : Type) where
  /-- a process connects (graphserver.py:410-427: `clients[id] = ProcessInfo(...)`) -/
  | connect (q : Q)
  /-- `PROCESS_REGISTER` (1045-1091) -/
  | register (q : Q) (pid : Int) (host : String)
  /-- `PROCESS_PROFILING_TRACE_UPDATE` (1021-1043) -/
  | push (q : Q) (pid : Int) (host : String) (samples : List A)
  /-- the connection of a process ends (710-748) -/
  | leave (q : Q)
  /-- `SESSION_PROFILING_SUBSCRIBE` (391-408, 976-984) -/
  | follow (f : F) (c : Control Q)
  | unfollow (f : F)
  /-- one round of the loop of a follower (985-1005) -/
  | poll (f : F)

/-- The loop 1039-1041: number the samples and append them to the deque. -/
def append (limit : Nat) : List A → List (Nat × A) → Nat → List (Nat × A) × Nat
  | [], b, n => (b, n)
  | x :: xs, b, n => append limit xs (Prof.push limit b (n + 1, x)) (n + 1)

/-- The loop 950-956. -/
def scan (mx : Nat) : List (Nat × A) → Nat → List A → Nat × List A
  | [], last, out => (last, out)
  | (s, x) :: rest, last, out =>
    if s ≤ last then scan mx rest last out
    else if mx ≤ out.length + 1 then (s, out ++ [x])
    else scan mx rest s (out ++ [x])

/-- Lines 943-957 for one process: the new entry of `last_seq_by_process` (none: unchanged) and the samples. -/
def collectOne (st : St F Q A) (mx : Nat) (last : PyDict Q Nat) (q : Q) : Option Nat × List A :=
  match st.buffers.get? q with
  | some (b :: bs) =>
    let l := (last.get? q).getD 0
    let l := if l < b.1 - 1 then b.1 - 1 else l
    let r := scan mx (b :: bs) l []
    (some r.1, r.2)
  | _ => (none, [])

/-- Line 957. -/
def setLast (last : PyDict Q Nat) (q : Q) : Option Nat → PyDict Q Nat
  | some l => last.set q l
  | none => last

/-- `pid, host` of a batch, 929-931, 962-965. -/
def identity (st : St F Q A) (q : Q) : Int × String :=
  match st.procs.get? q with
  | some (pid, host) => (pid.getD (-1), host.getD "")
  | none => (st.info.get? q).getD (-1, "")

/-- The loop 942-972 over the process ids. -/
def collectLoop (st : St F Q A) (c : Control Q) : List Q → PyDict Q Nat → PyDict Q (Batch A) →
    PyDict Q Nat × PyDict Q (Batch A)
  | [], last, out => (last, out)
  | q :: qs, last, out =>
    let r := collectOne st (max 1 c.maxSamples).toNat last q
    let last := setLast last q r.1
    if r.2.isEmpty && !c.includeEmpty then collectLoop st c qs last out
    else collectLoop st c qs last (out.set q
      { pid := (identity st q).1, host := (identity st q).2, samples := r.2 })

/-- The processes a follower looks at, 917-921, 936-940. -/
def selected (st : St F Q A) (c : Control Q) : List Q :=
  match c.only with
  | some ids => ids.foldl PySet.add []
  | none => st.procs.keys

/-- One step; the second component is the batch written to the follower (nothing is written if it is empty). -/
def step (limit : Nat) (st : St F Q A) : Act F Q A → St F Q A × PyDict Q (Batch A)
  | .connect q => ({ st with procs := st.procs.set q (none, none) }, [])
  | .register q pid host => ({ st with procs := st.procs.modify q (fun _ => (some pid, some host)) }, [])
  | .push q pid host xs =>
    let r := append limit xs ((st.buffers.get? q).getD []) ((st.seq.get? q).getD 0)
    ({ st with
       buffers := st.buffers.set q r.1
       seq := st.seq.set q r.2
       info := st.info.set q (pid, host) }, [])
  | .leave q =>
    ({ st with
       procs := st.procs.pop q
       buffers := st.buffers.pop q
       seq := st.seq.pop q
       info := st.info.pop q }, [])
  | .follow f c => ({ st with followers := st.followers.set f (c, []) }, [])
  | .unfollow f => ({ st with followers := st.followers.pop f }, [])
  | .poll f =>
    match st.followers.get? f with
    | none => (st, [])
    | some (c, last) =>
      let r := collectLoop st c (selected st c) last []
      ({ st with followers := st.followers.set f (c, r.1) }, r.2)

def run (limit : Nat) (st : St F Q A) (h : List (Act F Q A)) : St F Q A := h.foldl (fun s a => (step limit s a).1) st

end Ez.TStream
