import Verif.Model.Py

/-!
# Routing updates while messages are in use

The subscribers of one process and the channels they share: `Subscriber._graph_connection` (subclient.py:180-269),
`ChannelManager._register/unregister` (channelmanager.py:81-129), `Channel.close/wait_closed`
(messagechannel.py:209-225), `SHMContext.wait_closed` (shm.py:174-182).

When a channel is left by its last client it is closed, and `wait_closed` waits for its memory to be closed; that raises
`BufferError` if an array made from a message of the channel is in use (see `Model/Views.lean`).

* A channel is known by its publisher. `held` are the channels whose memory is referred to by objects in use; only
  channels that read shared memory can be among them.
* An update is handled in one step. New channels can always be made. Sets are gone through in any order.
-/

namespace Ez
namespace Unsub

/-- The exceptions: `BufferError` of closing memory in use, `KeyError` of a channel that is not registered. -/
inductive Err where
  | buffer
  | key
  deriving DecidableEq

/-- A subscriber: `self._channels` (keys in order), whether `_graph_task` runs and whether its connection to the server is
open. -/
structure Sub (P : Type) where
  chans : List P
  running : Bool
  conn : Bool
  deriving DecidableEq

/-- What the server sees and what ended: an update was sent, was confirmed with `COMPLETE`, the task ended. -/
inductive Ev (P S : Type) where
  | sent (s : S) (ps : List P)
  | confirmed (s : S) (ps : List P)
  | ended (s : S) (e : Option Err)
  deriving DecidableEq

structure St (P S : Type) where
  subs : S → Sub P
  /-- `CHANNELS._registry`: the clients of a channel -/
  reg : P → Option (List S)
  held : List P
  log : List (Ev P S)

variable {P S : Type} [DecidableEq P] [DecidableEq S]

/-- Subscribers that have just been created and know no publisher. -/
def init : St P S :=
  { subs := fun _ => { chans := [], running := true, conn := true }, reg := fun _ => none, held := [], log := [] }

def setSub (st : St P S) (s : S) (x : Sub P) : St P S := { st with subs := fun s' => if s' = s then x else st.subs s' }

def setReg (st : St P S) (p : P) (x : Option (List S)) : St P S := { st with reg := fun p' => if p' = p then x else st.reg p' }

def logEv (st : St P S) (e : Ev P S) : St P S := { st with log := st.log ++ [e] }

/-- `CHANNELS.register`, channelmanager.py:81-98, and `self._channels[pub_id] = channel`, subclient.py:246. -/
def register (st : St P S) (s : S) (p : P) : St P S :=
  let cl := (st.reg p).getD []
  let st' := setReg st p (some (if s ∈ cl then cl else cl ++ [s]))
  setSub st' s { st.subs s with chans := (st.subs s).chans ++ [p] }

/-- `CHANNELS.unregister`, channelmanager.py:100-129, with messagechannel.py:216-225, 445-467. The state changes also if
an exception is raised. The memory of a channel that is gone is not that of a later channel to the publisher. -/
def unregister (st : St P S) (s : S) (p : P) : St P S × Option Err :=
  match st.reg p with
  | none => (st, some .key)
  | some cl =>
    if s ∈ cl then
      if cl.filter (fun x => decide (x ≠ s)) = [] then
        ({ setReg st p none with held := st.held.filter (fun q => decide (q ≠ p)) },
          if p ∈ st.held then some .buffer else none)
      else (setReg st p (some (cl.filter (fun x => decide (x ≠ s)))), none)
    else (st, some .key)

/-- `for pub_id in self._channels: await CHANNELS.unregister(...)`, subclient.py:267-268: stops at the first exception. -/
def unregisterAll (st : St P S) (s : S) : List P → St P S × Option Err
  | [] => (st, none)
  | p :: ps => match unregister st s p with
    | (st', none) => unregisterAll st' s ps
    | (st', some e) => (st', some e)

/-- The `finally` part of the task, subclient.py:266-269; the connection is closed only if it gets so far. `e` is the
exception under way. -/
def finish (st : St P S) (s : S) (e : Option Err) : St P S :=
  match unregisterAll st s (st.subs s).chans with
  | (st', none) => logEv (setSub st' s { st'.subs s with running := false, conn := false }) (.ended s e)
  | (st', some e') => logEv (setSub st' s { st'.subs s with running := false }) (.ended s (some e'))

/-- Leaving the channels of the publishers that are gone, subclient.py:248-251. -/
def leaveAll (st : St P S) (s : S) : List P → St P S × Option Err
  | [] => (st, none)
  | p :: ps => match unregister st s p with
    | (st', none) => leaveAll (setSub st' s { st'.subs s with chans := (st'.subs s).chans.filter (fun q => decide (q ≠ p)) }) s ps
    | (st', some e) => (st', some e)

/-- An update: subclient.py:225-254; `new` and `old` are the two differences of sets in the order they are gone through. -/
def update (st : St P S) (s : S) (ps new old : List P) : St P S :=
  let st1 := new.foldl (fun st p => register st s p) st
  match leaveAll st1 s old with
  | (st2, none) => logEv st2 (.confirmed s ps)
  | (st2, some e) => finish st2 s (some e)

/-- The steps. -/
inductive Act (P S : Type) where
  /-- the server sends the publishers of a subscriber -/
  | update (s : S) (ps new old : List P)
  /-- an array made from a message of a channel comes into use, or no such array is in use any more -/
  | hold (p : P)
  | free (p : P)
  /-- `Subscriber.close` -/
  | close (s : S)
  deriving DecidableEq

/-- The transition function; `none` if the step cannot be taken. The server sends updates as long as the connection is
open; nobody handles them if the task has ended. -/
def step (st : St P S) : Act P S → Option (St P S)
  | .update s ps new old =>
    if (st.subs s).conn then
      let st0 := logEv st (.sent s ps)
      if (st.subs s).running then
        if decide new.Nodup && decide old.Nodup && new.all (fun p => decide (p ∈ ps ∧ p ∉ (st.subs s).chans)) &&
            ps.all (fun p => decide (p ∈ new ∨ p ∈ (st.subs s).chans)) &&
            old.all (fun p => decide (p ∈ (st.subs s).chans ∧ p ∉ ps)) &&
            (st.subs s).chans.all (fun p => decide (p ∈ old ∨ p ∈ ps)) then
          some (update st0 s ps new old)
        else none
      else some st0
    else none
  | .hold p => if (st.reg p).isSome then some { st with held := p :: st.held } else none
  | .free p => some { st with held := st.held.filter (fun q => decide (q ≠ p)) }
  | .close s => if (st.subs s).running then some (finish st s none) else none

/-- A list of steps. -/
def run : List (Act P S) → St P S → Option (St P S)
  | [], st => some st
  | a :: as, st => match step st a with
    | some st' => run as st'
    | none => none

end Unsub
end Ez
