import Verif.Model.Dag
import Verif.Model.EventLog

/-!
# The graph server

Source: `src/ezmsg/core/graphserver.py`. The state of `GraphServer` and its request handlers.

`T` topics, `I` client ids and request ids (`uuid1()`, never repeated), `A` component/unit addresses,
`V` settings values and response contents.

A step is a piece of a handler without suspension. Handlers run under `_command_lock`; several hold
the lock over an `await`. The model does not have the lock: it allows every interleaving of the pieces,
in particular those that the lock permits, so what is proved for all runs of the model holds for the
runs of the server. Counterexamples are chosen so that they respect the lock.

Simplifications:
* `GraphMetadata` is reduced to its components' addresses and initial settings (`components` is keyed
  by the component's address); `pid`, `host`, timestamps and the profiling data are left out (the
  profiling trace buffers have their own model);
* a client's handler ends only when its connection ends; malformed payloads are not modelled;
* pausing, syncing and shared memory requests: see `Model/System.lean` and `Model/ShmLease.lean`;
* writing to a client whose connection broke has no effect other than the client being removed later.
-/

namespace Ez
namespace Srv

/-- `ClientInfo` and its subclasses, netprotocol.py:98-192. For a subscriber, `waiting` are the
publisher lists of `UPDATE`s that wait for `sync_writer`, oldest first, and `sent` the `UPDATE`s
written to it, oldest first. -/
inductive Client (T I A V : Type) where
  | pub (topic : T)
  | sub (topic : T) (waiting sent : List (List I))
  | chan (pub : I)
  | session (edges : PySet (T × T)) (md : Option (PyDict A V))
  | process (units : PySet A)

/-- `_SettingsState`, graphserver.py:74-78. -/
structure SettingsState (I V : Type) where
  value : V
  metadataSession : Option I
  sourceProcess : Option I

inductive SettingsKind where
  | initial | updated
deriving DecidableEq

/-- `SettingsChangedEvent` without `seq` and timestamp. -/
structure SettingsEvent (I A V : Type) where
  kind : SettingsKind
  address : A
  value : V
  session : Option I
  process : Option I
deriving DecidableEq

/-- `TopologyChangedEvent` without `seq` and timestamp. -/
inductive TopologyEvent (T I : Type) where
  | graphChanged (topics : List T) (session : Option I)
  | processChanged (process : I)
deriving DecidableEq

/-- `ProcessControlResponse`: an answer of a process, or one of the server's error codes
(graphmeta.py:225-233). -/
inductive Response (I V : Type) where
  | answer (process : I) (v : V)
  | unroutable
  | writeFailed
  | timeout
  | disconnected
  | invalid
deriving DecidableEq

/-- The future a request waits for. -/
inductive Fut (I V : Type) where
  | waiting
  | result (r : Response I V)
  | cancelled
deriving DecidableEq

/-- `if not fut.done(): fut.set_result(x)`. -/
def Fut.complete {I V : Type} : Fut I V → Response I V → Fut I V
  | .waiting, x => .result x
  | f, _ => f

/-- `fut.cancel()`. -/
def Fut.cancel {I V : Type} : Fut I V → Fut I V
  | .waiting => .cancelled
  | f => f

/-- Where `_route_process_request` is: waiting for the future, or timed out and about to clean up, or
finished. -/
inductive Task (I V : Type) where
  | waiting
  | timedOut
  | finished (r : Response I V)
deriving DecidableEq

/-- A request made by `_route_process_request`. -/
structure Req (I V : Type) where
  fut : Fut I V
  task : Task I V
deriving DecidableEq

/-- A suspended `_notify_downstream_for_topic` loop: subscribers still to be notified, then topics whose
downstream subscribers are still to be notified. -/
structure Job (T I : Type) where
  subs : List I
  topics : List T
deriving DecidableEq

/-- What the retention policy and queue bounds are (graphserver.py:81-91, 869, 889). -/
structure Cfg where
  settingsLimit : Int
  topologyLimit : Int
  queueSize : Int

/-- `GraphServer`, graphserver.py:111-163. `requests` are the running or finished
`_route_process_request` calls. Not in the code: `used`, all ids handed out so far; `answers`, the
responses returned by `_route_process_request`, oldest first. -/
structure Server (T I A V : Type) where
  graph : DAG T (Option I)
  clients : PyDict I (Client T I A V)
  settings : PyDict A (SettingsState I V)
  owned : PyDict I (PySet A)
  slog : EventLog I (SettingsEvent I A V)
  tlog : EventLog I (TopologyEvent T I)
  pending : PyDict I I
  requests : PyDict I (Req I V)
  jobs : List (Job T I)
  used : List I
  answers : List (I × Response I V)

inductive Reply where
  | complete | cyclic | error
deriving DecidableEq

section
variable {T I A V : Type} [DecidableEq T] [DecidableEq I] [DecidableEq A]

/-- `GraphServer.__init__`, graphserver.py:137-163. -/
def init : Server T I A V :=
  { graph := DAG.init, clients := [], settings := [], owned := [], slog := EventLog.init
    tlog := EventLog.init, pending := [], requests := [], jobs := [], used := [], answers := [] }

/-- `_session_info`, graphserver.py:1367-1371. -/
def sessionInfo (sv : Server T I A V) (s : I) : Option (PySet (T × T) × Option (PyDict A V)) :=
  match sv.clients.get? s with
  | some (.session es md) => some (es, md)
  | _ => none

/-- `_process_info`, graphserver.py:642-646. -/
def processInfo (sv : Server T I A V) (p : I) : Option (PySet A) :=
  match sv.clients.get? p with
  | some (.process us) => some us
  | _ => none

/-- `_publishers`, graphserver.py:1760-1763, with their topics. -/
def publishers (sv : Server T I A V) : List (I × T) :=
  sv.clients.filterMap (fun c => match c.2 with | .pub t => some (c.1, t) | _ => none)

/-- `_subscribers`, graphserver.py:1765-1768, with their topics. -/
def subscribers (sv : Server T I A V) : List (I × T) :=
  sv.clients.filterMap (fun c => match c.2 with | .sub t _ _ => some (c.1, t) | _ => none)

/-- `_upstream_pubs`, graphserver.py:1773-1776. -/
def upstreamPubs (sv : Server T I A V) (t : T) : List I :=
  ((publishers sv).filter (fun p => decide (p.2 ∈ sv.graph.upstream t))).map (·.1)

/-- `_downstream_subs`, graphserver.py:1778-1781. -/
def downstreamSubs (sv : Server T I A V) (t : T) : List I :=
  ((subscribers sv).filter (fun s => decide (s.2 ∈ sv.graph.downstream t))).map (·.1)

/-- Start `for topic in topics: await self._notify_downstream_for_topic(topic)`: the subscribers of the
first topic are determined at once, later ones when the loop gets there. -/
def startJob (sv : Server T I A V) : List T → Server T I A V
  | [] => sv
  | t :: ts => { sv with jobs := sv.jobs ++ [{ subs := downstreamSubs sv t, topics := ts }] }

/-- The synchronous part of `_notify_subscriber`, graphserver.py:1736-1747: the publisher list is
determined, then the update waits for `sync_writer`. -/
def prepareUpdate (sv : Server T I A V) (s : I) : Server T I A V :=
  match sv.clients.get? s with
  | some (.sub t w sent) =>
    { sv with clients := sv.clients.set s (.sub t (w ++ [upstreamPubs sv t]) sent) }
  | _ => sv

def setSession (sv : Server T I A V) (s : I) (es : PySet (T × T)) (md : Option (PyDict A V)) : Server T I A V :=
  { sv with clients := sv.clients.set s (.session es md) }

/-- `_append_settings_event_locked`. -/
def logSettings (cfg : Cfg) (sv : Server T I A V) (e : SettingsEvent I A V) : Server T I A V :=
  { sv with slog := sv.slog.append cfg.settingsLimit cfg.queueSize e }

/-- `_append_topology_event_locked`; `sorted(set(changed_topics))` is the list without repetitions. -/
def logTopology (cfg : Cfg) (sv : Server T I A V) (e : TopologyEvent T I) : Server T I A V :=
  { sv with tlog := sv.tlog.append cfg.topologyLimit cfg.queueSize e }

/-- `_connect_owner`, graphserver.py:1347-1355. -/
def connectOwner (sv : Server T I A V) (a b : T) (o : Option I) : Server T I A V × AddResult :=
  let r := sv.graph.addEdge a b o
  let sv1 := { sv with graph := r.1 }
  match r.2 with
  | .cyclic => (sv1, .cyclic)
  | .returned ch =>
    match o with
    | none => (sv1, .returned ch)
    | some s =>
      match sessionInfo sv1 s with
      | some (es, md) => (setSession sv1 s (PySet.add es (a, b)) md, .returned ch)
      | none => (sv1, .returned ch)

/-- `_disconnect_owner`, graphserver.py:1357-1365. -/
def disconnectOwner (sv : Server T I A V) (a b : T) (o : Option I) : Server T I A V × Bool :=
  let r := sv.graph.removeEdge a b o
  let sv1 := { sv with graph := r.1 }
  match o with
  | none => (sv1, r.2)
  | some s =>
    match sessionInfo sv1 s with
    | some (es, md) => (setSession sv1 s (PySet.discard es (a, b)) md, r.2)
    | none => (sv1, r.2)

/-- CONNECT and SESSION_CONNECT, graphserver.py:462-489, 1532-1566. -/
def connect (cfg : Cfg) (sv : Server T I A V) (a b : T) (o : Option I) : Server T I A V × Reply :=
  match connectOwner sv a b o with
  | (sv1, .cyclic) => (sv1, .cyclic)
  | (sv1, .returned true) => (startJob (logTopology cfg sv1 (.graphChanged [b] o)) [b], .complete)
  | (sv1, .returned false) => (sv1, .complete)

/-- DISCONNECT and SESSION_DISCONNECT. -/
def disconnect (cfg : Cfg) (sv : Server T I A V) (a b : T) (o : Option I) : Server T I A V × Reply :=
  match disconnectOwner sv a b o with
  | (sv1, true) => (startJob (logTopology cfg sv1 (.graphChanged [b] o)) [b], .complete)
  | (sv1, false) => (sv1, .complete)

/-- The loop over `list(session.edges)`, graphserver.py:1641-1643, 1662-1664. -/
def dropEdges (s : I) : List (T × T) → Server T I A V → PySet T → Server T I A V × PySet T
  | [], sv, acc => (sv, acc)
  | e :: es, sv, acc =>
    let r := disconnectOwner sv e.1 e.2 (some s)
    dropEdges s es r.1 (if r.2 then PySet.add acc e.2 else acc)

/-- One address in the loop of `_remove_settings_for_session_locked`, graphserver.py:1431-1437. -/
def releaseSetting (s : I) (st : PyDict A (SettingsState I V)) (a : A) : PyDict A (SettingsState I V) :=
  match st.get? a with
  | none => st
  | some x =>
    if x.metadataSession ≠ some s then st
    else if x.sourceProcess = none then st.pop a
    else st.modify a (fun x => { x with metadataSession := none })

/-- `_remove_settings_for_session_locked`, graphserver.py:1428-1437. -/
def removeSessionSettings (sv : Server T I A V) (s : I) : Server T I A V :=
  { sv with
    settings := ((sv.owned.get? s).getD []).foldl (releaseSetting s) sv.settings
    owned := sv.owned.pop s }

/-- `_clear_session_state`, graphserver.py:1635-1654, and `_drop_session`, 1656-1676 (`gone`): the
topics to notify. -/
def clearSession (cfg : Cfg) (sv : Server T I A V) (s : I) (gone : Bool) : Server T I A V × PySet T :=
  match sessionInfo sv s with
  | none => (sv, [])
  | some (es, _) =>
    let (sv1, topics) := dropEdges s es sv []
    let sv2 := removeSessionSettings sv1 s
    let sv3 := match sessionInfo sv2 s with
      | some (es', _) => setSession sv2 s es' none
      | none => sv2
    let sv4 := if gone then { sv3 with clients := sv3.clients.pop s } else sv3
    (if topics.isEmpty then sv4 else logTopology cfg sv4 (.graphChanged topics (some s)), topics)

/-- `_session_owner_for_component_locked`, graphserver.py:1439-1447. -/
def sessionOwner (sv : Server T I A V) (a : A) : Option I :=
  sv.clients.findSome? (fun c => match c.2 with
    | .session _ (some md) => if (PyDict.get? md a).isSome then some c.1 else none
    | _ => none)

/-- `_initial_settings_for_component_locked`, graphserver.py:1449-1464. -/
def initialSettings (sv : Server T I A V) (s : I) (a : A) : Option V :=
  match sessionInfo sv s with
  | some (_, some md) => PyDict.get? md a
  | _ => none

/-- One component in the loop of `_apply_session_metadata_settings_locked`, graphserver.py:1504-1528. -/
def applyComponent (cfg : Cfg) (s : I) (sv : Server T I A V) (c : A × V) : Server T I A V :=
  let st' := match sv.settings.get? c.1 with
    | some x =>
      if x.sourceProcess ≠ none then sv.settings.set c.1 { x with metadataSession := some s }
      else sv.settings.set c.1 { value := c.2, metadataSession := some s, sourceProcess := none }
    | none => sv.settings.set c.1 { value := c.2, metadataSession := some s, sourceProcess := none }
  logSettings cfg { sv with settings := st' }
    { kind := .initial, address := c.1, value := c.2, session := some s, process := none }

/-- `_apply_session_metadata_settings_locked`, graphserver.py:1500-1530. -/
def applyMetadata (cfg : Cfg) (sv : Server T I A V) (s : I) (md : PyDict A V) : Server T I A V :=
  let sv1 := md.foldl (applyComponent cfg s) sv
  { sv1 with owned := sv1.owned.set s (md.foldl (fun acc c => PySet.add acc c.1) []) }

/-- `_metadata_collisions`, graphserver.py:1243-1257: does another session have one of the
components? -/
def collides (sv : Server T I A V) (s : I) (md : PyDict A V) : Bool :=
  sv.clients.any (fun c => match c.2 with
    | .session _ (some md') => decide (c.1 ≠ s) && md.any (fun x => (PyDict.get? md' x.1).isSome)
    | _ => false)

/-- `_handle_session_register_request`, graphserver.py:1585-1600. -/
def registerSession (cfg : Cfg) (sv : Server T I A V) (s : I) (md : PyDict A V) : Server T I A V × Reply :=
  match sessionInfo sv s with
  | none => (sv, .complete)
  | some (es, _) =>
    if collides sv s md then (sv, .error)
    else (applyMetadata cfg (setSession (removeSessionSettings sv s) s es (some md)) s md, .complete)

/-- `_process_owner_for_unit`, graphserver.py:1237-1241, and `_process_for_unit`, 1231-1235. -/
def processOwner (sv : Server T I A V) (u : A) : Option I :=
  sv.clients.findSome? (fun c => match c.2 with
    | .process us => if u ∈ us then some c.1 else none
    | _ => none)

/-- The units of `us` owned by a process other than `p`, graphserver.py:1060-1069, 1109-1118. -/
def conflicts (sv : Server T I A V) (p : I) (us : List A) : List A :=
  us.filter (fun u => match processOwner sv u with
    | some q => decide (q ≠ p)
    | none => false)

/-- `a == b` for sets. -/
def sameSet (a b : PySet A) : Bool := a.all (fun x => decide (x ∈ b)) && b.all (fun x => decide (x ∈ a))

/-- The common end of registration and ownership update, graphserver.py:1079-1089, 1127-1136: the new
units are stored and the change is logged. -/
def setUnits (cfg : Cfg) (sv : Server T I A V) (p : I) (old new : PySet A) : Server T I A V :=
  let sv1 := { sv with clients := sv.clients.set p (.process new) }
  if sameSet old new then sv1 else logTopology cfg sv1 (.processChanged p)

/-- `_handle_process_register_request`, graphserver.py:1045-1091. -/
def registerProcess (cfg : Cfg) (sv : Server T I A V) (p : I) (units : List A) : Server T I A V × Reply :=
  match processInfo sv p with
  | none => (sv, .error)
  | some old =>
    if (conflicts sv p units).isEmpty then
      (setUnits cfg sv p old (units.foldl PySet.add []), .complete)
    else (sv, .error)

/-- `_handle_process_update_ownership_request`, graphserver.py:1093-1138. -/
def updateOwnership (cfg : Cfg) (sv : Server T I A V) (p : I) (added removed : List A) :
    Server T I A V × Reply :=
  match processInfo sv p with
  | none => (sv, .error)
  | some old =>
    if (conflicts sv p added).isEmpty then
      (setUnits cfg sv p old (removed.foldl PySet.discard (added.foldl PySet.add old)), .complete)
    else (sv, .error)

/-- `_handle_process_settings_update_request`, graphserver.py:1140-1187. -/
def updateSettings (cfg : Cfg) (sv : Server T I A V) (p : I) (a : A) (v : V) : Server T I A V × Reply :=
  match processInfo sv p with
  | none => (sv, .error)
  | some us =>
    if a ∉ us then (sv, .error)
    else
      let ms := match sessionOwner sv a with
        | some s => some s
        | none => match sv.settings.get? a with
          | some x => x.metadataSession
          | none => none
      let x := { value := v, metadataSession := ms, sourceProcess := some p }
      (logSettings cfg { sv with settings := sv.settings.set a x }
        { kind := .updated, address := a, value := v, session := ms, process := some p }, .complete)

/-- One address in the loop of `_remove_settings_for_process_locked`, graphserver.py:1475-1498. -/
def restoreSetting (cfg : Cfg) (sv : Server T I A V) (a : A) : Server T I A V :=
  match sv.settings.get? a with
  | none => sv
  | some x =>
    match x.metadataSession with
    | none => { sv with settings := sv.settings.pop a }
    | some s =>
      match initialSettings sv s a with
      | none => { sv with settings := sv.settings.pop a }
      | some v =>
        logSettings cfg
          { sv with settings := sv.settings.set a { x with value := v, sourceProcess := none } }
          { kind := .updated, address := a, value := v, session := some s, process := none }

/-- `_remove_settings_for_process_locked`, graphserver.py:1466-1498. -/
def removeProcessSettings (cfg : Cfg) (sv : Server T I A V) (p : I) : Server T I A V :=
  ((sv.settings.filter (fun x => decide (x.2.sourceProcess = some p))).map (·.1)).foldl
    (restoreSetting cfg) sv

/-- `set_result` unless the future is done, graphserver.py:1211, 1228, 715. -/
def setResult (sv : Server T I A V) (r : I) (x : Response I V) : Server T I A V :=
  { sv with requests := sv.requests.modify r (fun q => { q with fut := q.fut.complete x }) }

/-- The end of `_handle_process`, graphserver.py:705-748: pending requests of the process are answered,
its settings are removed, the client is dropped. -/
def processGone (cfg : Cfg) (sv : Server T I A V) (p : I) : Server T I A V :=
  let rs := (sv.pending.filter (fun x => decide (x.2 = p))).map (·.1)
  let sv1 := rs.foldl (fun sv r => setResult { sv with pending := sv.pending.pop r } r .disconnected) sv
  let sv2 := removeProcessSettings cfg sv1 p
  let sv3 := match processInfo sv p with
    | some _ => logTopology cfg sv2 (.processChanged p)
    | none => sv2
  { sv3 with clients := sv3.clients.pop p }

/-- A `_route_process_request` call returns. -/
def finish (sv : Server T I A V) (r : I) (x : Response I V) : Server T I A V :=
  { sv with
    requests := sv.requests.modify r (fun q => { q with task := .finished x })
    answers := sv.answers ++ [(r, x)] }

/-- `_route_process_request`, graphserver.py:1259-1303, up to waiting for the response; `ok`: the request
could be written. (No other locked section runs between registering the request and a write
failure.) -/
def route (sv : Server T I A V) (r : I) (u : A) (ok : Bool) : Server T I A V :=
  let sv1 := { sv with requests := sv.requests.set r { fut := .waiting, task := .waiting }
                       used := r :: sv.used }
  match processOwner sv1 u with
  | none => finish sv1 r .unroutable
  | some p =>
    if ok then { sv1 with pending := sv1.pending.set r p } else finish sv1 r .writeFailed

/-- `_handle_process_route_response_request`, graphserver.py:1201-1229: process `p` answered `v` to
request `r`. -/
def routeResponse (sv : Server T I A V) (p r : I) (v : V) : Server T I A V :=
  match sv.pending.get? r with
  | none => sv
  | some owner =>
    let sv1 := { sv with pending := sv.pending.pop r }
    if owner ≠ p then setResult sv1 r .invalid else setResult sv1 r (.answer p v)

/-- Schedulable steps. -/
inductive Act (T I A V : Type) where
  | subscribe (i : I) (t : T)
  | publish (i : I) (t : T)
  | channel (i : I) (p : I)
  | openSession (i : I)
  | openProcess (i : I)
  /-- connection of a publisher, subscriber or channel ended, graphserver.py:561-566 -/
  | gone (i : I)
  | connect (a b : T)
  | disconnect (a b : T)
  | sessionConnect (s : I) (a b : T)
  | sessionDisconnect (s : I) (a b : T)
  | sessionClear (s : I)
  | sessionGone (s : I)
  | sessionRegister (s : I) (md : PyDict A V)
  | registerProcess (p : I) (units : List A)
  | updateOwnership (p : I) (added removed : List A)
  | updateSettings (p : I) (a : A) (v : V)
  | processGone (p : I)
  /-- a session asks for a request to the process of `u`; the request gets the id `r` -/
  | request (r : I) (u : A) (ok : Bool)
  | response (p r : I) (v : V)
  /-- the timeout of `r` expires -/
  | timeout (r : I)
  /-- the task of `r` continues: with the result, or cleaning up after the timeout -/
  | resume (r : I)
  | watchSettings (i : I) (after : Nat)
  | watchTopology (i : I) (after : Nat)
  | sendSettings (i : I)
  | sendTopology (i : I)
  | unwatchSettings (i : I)
  | unwatchTopology (i : I)
  /-- the `j`-th suspended notification loop goes on -/
  | notify (j : Nat)
  /-- the `j`-th update waiting for subscriber `s` is written -/
  | write (s : I) (j : Nat)

/-- A new client gets a fresh id. -/
def addClient (sv : Server T I A V) (i : I) (c : Client T I A V) : Server T I A V :=
  { sv with clients := sv.clients.set i c, used := i :: sv.used }

/-- One step; `none`: the step is not possible now. -/
def step (cfg : Cfg) (sv : Server T I A V) : Act T I A V → Option (Server T I A V × Reply)
  -- graphserver.py:434-441
  | .subscribe i t =>
    if i ∈ sv.used then none
    else
      let sv1 := addClient sv i (.sub t [] [])
      some ({ sv1 with jobs := sv1.jobs ++ [{ subs := [i], topics := [] }] }, .complete)
  -- graphserver.py:443-452
  | .publish i t =>
    if i ∈ sv.used then none else some (startJob (addClient sv i (.pub t)) [t], .complete)
  -- graphserver.py:302-343
  | .channel i p =>
    if i ∈ sv.used then none
    else match sv.clients.get? p with
      | some (.pub _) => some (addClient sv i (.chan p), .complete)
      | _ => some (sv, .error)
  -- graphserver.py:345-357
  | .openSession i => if i ∈ sv.used then none else some (addClient sv i (.session [] none), .complete)
  -- graphserver.py:409-421
  | .openProcess i => if i ∈ sv.used then none else some (addClient sv i (.process []), .complete)
  | .gone i =>
    match sv.clients.get? i with
    | some (.pub _) => some ({ sv with clients := sv.clients.pop i }, .complete)
    | some (.sub _ _ _) => some ({ sv with clients := sv.clients.pop i }, .complete)
    | some (.chan _) => some ({ sv with clients := sv.clients.pop i }, .complete)
    | _ => none
  | .connect a b => some (connect cfg sv a b none)
  | .disconnect a b => some (disconnect cfg sv a b none)
  | .sessionConnect s a b =>
    match sessionInfo sv s with
    | some _ => some (connect cfg sv a b (some s))
    | none => none
  | .sessionDisconnect s a b =>
    match sessionInfo sv s with
    | some _ => some (disconnect cfg sv a b (some s))
    | none => none
  -- graphserver.py:1568-1574
  | .sessionClear s =>
    match sessionInfo sv s with
    | some _ => let r := clearSession cfg sv s false; some (startJob r.1 r.2, .complete)
    | none => none
  -- graphserver.py:632-637
  | .sessionGone s =>
    match sessionInfo sv s with
    | some _ => let r := clearSession cfg sv s true; some (startJob r.1 r.2, .complete)
    | none => none
  | .sessionRegister s md =>
    match sessionInfo sv s with
    | some _ => if md.keys.Nodup then some (registerSession cfg sv s md) else none
    | none => none
  | .registerProcess p units =>
    match processInfo sv p with
    | some _ => some (registerProcess cfg sv p units)
    | none => none
  | .updateOwnership p added removed =>
    match processInfo sv p with
    | some _ => some (updateOwnership cfg sv p added removed)
    | none => none
  | .updateSettings p a v =>
    match processInfo sv p with
    | some _ => some (updateSettings cfg sv p a v)
    | none => none
  | .processGone p =>
    match processInfo sv p with
    | some _ => some (processGone cfg sv p, .complete)
    | none => none
  | .request r u ok => if r ∈ sv.used then none else some (route sv r u ok, .complete)
  | .response p r v =>
    match processInfo sv p with
    | some _ => some (routeResponse sv p r v, .complete)
    | none => none
  -- `asyncio.wait_for` cancels the future, graphserver.py:1305-1307
  | .timeout r =>
    match sv.requests.get? r with
    | some { fut := f, task := .waiting } =>
      some ({ sv with requests := sv.requests.set r { fut := f.cancel, task := .timedOut } }, .complete)
    | _ => none
  -- graphserver.py:1306, 1308-1321
  | .resume r =>
    match sv.requests.get? r with
    | some { fut := .result x, task := .waiting } => some (finish sv r x, .complete)
    | some { fut := _, task := .timedOut } =>
      some (finish { sv with pending := sv.pending.pop r } r .timeout, .complete)
    | _ => none
  | .watchSettings i after =>
    if i ∈ sv.used then none
    else some ({ sv with slog := sv.slog.subscribe cfg.queueSize i after, used := i :: sv.used }, .complete)
  | .watchTopology i after =>
    if i ∈ sv.used then none
    else some ({ sv with tlog := sv.tlog.subscribe cfg.queueSize i after, used := i :: sv.used }, .complete)
  | .sendSettings i => some ({ sv with slog := sv.slog.sendNext i }, .complete)
  | .sendTopology i => some ({ sv with tlog := sv.tlog.sendNext i }, .complete)
  | .unwatchSettings i => some ({ sv with slog := sv.slog.unsubscribe i }, .complete)
  | .unwatchTopology i => some ({ sv with tlog := sv.tlog.unsubscribe i }, .complete)
  -- graphserver.py:1732-1734
  | .notify j =>
    match sv.jobs[j]? with
    | some { subs := s :: ss, topics := ts } =>
      let sv1 := prepareUpdate sv s
      some ({ sv1 with jobs := sv1.jobs.set j { subs := ss, topics := ts } }, .complete)
    | some { subs := [], topics := t :: ts } =>
      some ({ sv with jobs := sv.jobs.set j { subs := downstreamSubs sv t, topics := ts } }, .complete)
    | _ => none
  -- graphserver.py:1743-1747
  | .write s j =>
    match sv.clients.get? s with
    | some (.sub t w sent) =>
      match w[j]? with
      | some ids => some ({ sv with clients := sv.clients.set s (.sub t (w.eraseIdx j) (sent ++ [ids])) }, .complete)
      | none => none
    | _ => none

/-- `_handle_session_settings_snapshot_request`, graphserver.py:1612-1623 (order of the keys aside). -/
def settingsSnapshot (sv : Server T I A V) : PyDict A V := sv.settings.map (fun x => (x.1, x.2.value))

end
end Srv
end Ez
