import Verif.Model.GraphServer

/-!
# Snapshots of the graph server and what clients make of them

Sources: `GraphServer._snapshot`, `src/ezmsg/core/graphserver.py:1678-1730`; `GraphContext.register_metadata`,
`settings_input_topic`, `update_settings` and `profiling_snapshot_all`, `src/ezmsg/core/graphcontext.py:356-394, 428-483,
696-713`.

The server is that of `Model/GraphServer.lean`; a snapshot is taken under `_command_lock`, without suspension.

Simplifications: `process_id` is the key of the process (`_process_key`, graphserver.py:648); `pid` and `host` are left out; ids are
not turned into strings; what `update_settings` awaits either returns or raises.
-/

namespace Ez
namespace Srv

/-- `GraphSnapshot`, graphmeta.py; an owner `none` is shown as `"persistent"`. -/
structure Snapshot (T I A V : Type) where
  graph : List (T × List T)
  owners : List ((T × T) × List (Option I))
  sessions : List (I × List (T × T) × Option (PyDict A V))
  processes : List (I × List A)

/-- The orders that `sorted` uses. -/
structure Orders (T I A : Type) where
  topic : T → T → Bool
  id : I → I → Bool
  unit : A → A → Bool

section
variable {T I A V : Type} [DecidableEq T] [DecidableEq I] [DecidableEq A]

/-- The key `(from_topic, to_topic)`: graphserver.py:1687, 1696. -/
def Orders.edge (le : Orders T I A) (x y : T × T) : Bool :=
  if x.1 = y.1 then le.topic x.2 y.2 else le.topic x.1 y.1

/-- The key `"" if owner is None else str(owner)`: graphserver.py:1684. -/
def Orders.owner (le : Orders T I A) : Option I → Option I → Bool
  | none, _ => true
  | some _, none => false
  | some x, some y => le.id x y

/-- The session of a client, if it is one: graphserver.py:1704-1706. -/
def sessionEntry : I × Client T I A V → Option (I × PySet (T × T) × Option (PyDict A V))
  | (i, .session es md) => some (i, es, md)
  | _ => none

/-- The process of a client, if it is one: graphserver.py:1719-1721. -/
def processEntry : I × Client T I A V → Option (I × PySet A)
  | (i, .process us) => some (i, us)
  | _ => none

/-- `_snapshot`, graphserver.py:1678-1730. -/
def snapshot (le : Orders T I A) (sv : Server T I A V) : Snapshot T I A V where
  graph := sv.graph.graph.map fun x => (x.1, x.2.mergeSort le.topic)
  owners := (sv.graph.owners.mergeSort fun x y => le.edge x.1 y.1).map fun x => (x.1, x.2.mergeSort le.owner)
  sessions := ((sv.clients.filterMap sessionEntry).mergeSort fun x y => le.id x.1 y.1).map fun x =>
    (x.1, x.2.1.mergeSort le.edge, x.2.2)
  processes := ((sv.clients.filterMap processEntry).mergeSort fun x y => le.id x.1 y.1).map fun x =>
    (x.1, x.2.mergeSort le.unit)

/-! ## Registering metadata -/

/-- How `register_metadata` ends. -/
inductive Registered (A : Type) where
  | returned
  | rejected (collisions : List A)
  | rejectedPlain
deriving DecidableEq

/-- The components of `md` that other sessions than `own` have registered: graphcontext.py:365-380. -/
def collisions (own : Option I) (md : PyDict A V) (snap : Snapshot T I A V) : List A :=
  (snap.sessions.flatMap fun s =>
    if own = some s.1 then []
    else match s.2.2 with
      | none => []
      | some md' => md.keys.filter fun a => decide (a ∈ md'.keys)).foldl PySet.add []

/-- `register_metadata` after the answer of the server, graphcontext.py:363-390. `snap` is the snapshot, `none` if taking it
raises; answers other than COMPLETE and ERROR do not occur. -/
def registerMetadata (le : Orders T I A) (own : Option I) (md : PyDict A V) (r : Reply) (snap : Option (Snapshot T I A V)) :
    Registered A :=
  match r with
  | .complete => .returned
  | _ =>
    let cs := if md.keys.isEmpty then [] else match snap with
      | some snap => collisions own md snap
      | none => []
    if cs.isEmpty then .rejectedPlain else .rejected (cs.mergeSort le.unit)

/-! ## Updating settings -/

/-- How `settings_input_topic` ends. -/
inductive Found (T : Type) where
  | topic (t : T)
  | conflict (ts : List T)
  | missing
deriving DecidableEq

/-- The set `topics`: graphcontext.py:437-449. `dyn` gives `dynamic_settings.input_topic` of a component if its dynamic
settings are enabled. -/
def topics (dyn : V → Option T) (a : A) (snap : Snapshot T I A V) : PySet T :=
  snap.sessions.foldl (fun ts s => match s.2.2 with
    | none => ts
    | some md => match PyDict.get? md a with
      | none => ts
      | some c => match dyn c with
        | some t => PySet.add ts t
        | none => ts) []

/-- `settings_input_topic`, graphcontext.py:436-458. -/
def settingsInputTopic (le : Orders T I A) (dyn : V → Option T) (a : A) (snap : Snapshot T I A V) : Found T :=
  match topics dyn a snap with
  | [t] => .topic t
  | [] => .missing
  | ts => .conflict (ts.mergeSort le.topic)

/-- What `update_settings` does with the publisher it makes. -/
inductive UpdateEv (T W : Type) where
  /-- `publisher(topic)` returned; the context tracks it -/
  | made (t : T)
  /-- `broadcast(value)` returned -/
  | sent (t : T) (w : W)
  /-- `close()` -/
  | closed
  /-- `_clients.discard(pub)` -/
  | dropped
deriving DecidableEq

/-- How a call ends. -/
inductive UpdateEnd (T : Type) where
  | returned
  /-- what `settings_input_topic` raised -/
  | noTopic (f : Found T)
  /-- what `publisher`, `broadcast` or `wait_closed` raised -/
  | raised
deriving DecidableEq

/-- `update_settings`, graphcontext.py:460-483; `pubOk`, `sendOk`, `closeOk`: whether `publisher`, `broadcast` and
`wait_closed` return. -/
def updateSettingsCall {W : Type} (found : Found T) (input : Option T) (w : W) (pubOk sendOk closeOk : Bool) :
    List (UpdateEv T W) × UpdateEnd T :=
  let go (t : T) : List (UpdateEv T W) × UpdateEnd T :=
    if pubOk then
      ([.made t] ++ (if sendOk then [.sent t w] else []) ++ [.closed] ++ (if closeOk then [.dropped] else []),
        if sendOk && closeOk then .returned else .raised)
    else ([], .raised)
  match input with
  | some t => go t
  | none => match found with
    | .topic t => go t
    | f => ([], .noTopic f)

/-! ## Profiling snapshots of all processes -/

/-- `profiling_snapshot_all`, graphcontext.py:701-713: the loop over the processes of the snapshot. `at n`: the server when the `n`-th
request is routed; `reply n p`: the profiling snapshot that process `p` sends back then, `none` if there is none in time. -/
def profileAll {W : Type} (at' : Nat → Server T I A V) (reply : Nat → I → Option W) : List (I × List A) → Nat → PyDict I W → PyDict I W
  | [], _, out => out
  | (p, us) :: ps, n, out =>
    match us with
    | [] => profileAll at' reply ps n out
    | u :: _ =>
      match (processOwner (at' n) u).bind (reply n) with
      | some w => profileAll at' reply ps (n + 1) (out.set p w)
      | none => profileAll at' reply ps (n + 1) out

end
end Srv
end Ez
