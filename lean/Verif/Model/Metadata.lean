import Verif.Model.Py

/-!
# The metadata of a system

Source: `GraphRunner._component_metadata`, `src/ezmsg/core/backend.py:441-620`; `crawl_components` (75-87); the classes of
`src/ezmsg/core/stream.py` and `src/ezmsg/core/graphmeta.py:1-150`.

Simplifications:
* The fields that are worked out from the component without its streams, tasks and components (`component_type`, `settings_type`,
  `initial_settings`, `settings_schema`: 553-570) are one value `W`. The settings schema is `Model/SettingsMeta.lean`.
* `_stream_type_name` is left out: the type of messages is shown as it is.
* A task names the streams it subscribes to and publishes on; that a stream object may have no attribute `name` is left out.
* Addresses and names are ordered by functions given to the model.
-/

namespace Ez
namespace Meta

/-- The classes of `stream.py`. -/
inductive Cls where
  | stream | topic | inputTopic | outputTopic | inputRelay | outputRelay | inputStream | outputStream
  deriving DecidableEq, Repr

/-- The base class: stream.py:7, 29, 41, 50, 59, 92, 133, 214. -/
def Cls.base : Cls → Option Cls
  | .stream => none
  | .topic => some .stream
  | .inputTopic => some .topic
  | .outputTopic => some .topic
  | .inputRelay => some .inputTopic
  | .outputRelay => some .outputTopic
  | .inputStream => some .stream
  | .outputStream => some .stream

/-- `isinstance(stream, d)` for a stream of class `c`; no class has more than three bases above it. -/
def Cls.isa (c d : Cls) : Bool :=
  c = d || c.base = some d || (c.base.bind Cls.base) = some d || ((c.base.bind Cls.base).bind Cls.base) = some d

/-- `leaky`, `max_queue`. -/
structure In where
  leaky : Bool
  maxQueue : Option Nat
  deriving DecidableEq, Repr

/-- `host`, `port`, `num_buffers`, `buf_size`, `force_tcp`. -/
structure Out where
  host : Option String
  port : Option Nat
  numBuffers : Option Nat
  bufSize : Option Nat
  forceTcp : Option Bool
  deriving DecidableEq, Repr

/-- A stream object. The parameters that its class does not have are not looked at. -/
structure Strm (A Y : Type) where
  cls : Cls
  addr : A
  msgType : Y
  inp : In
  out : Out
  copy : Bool

/-- A metadata entry of a stream: graphmeta.py:15-80. `cls` says which of the classes it is. -/
structure Entry (A Y : Type) where
  cls : Cls
  name : String
  addr : A
  msgType : Y
  inp : Option In
  out : Option Out
  copy : Option Bool
  deriving DecidableEq, Repr

/-- Which of the three dictionaries an entry goes to. -/
inductive Slot where
  | streams | topics | relays
  deriving DecidableEq, Repr

variable {A Y W : Type}

/-- The body of the loop over streams: backend.py:466-535. -/
def describe (isCollection : Bool) (name : String) (s : Strm A Y) : Slot × Entry A Y :=
  let e (c : Cls) (i : Option In) (o : Option Out) (b : Option Bool) : Entry A Y := ⟨c, name, s.addr, s.msgType, i, o, b⟩
  if s.cls.isa .inputRelay then (.relays, e .inputRelay (some s.inp) none (some s.copy))
  else if s.cls.isa .outputRelay then (.relays, e .outputRelay none (some s.out) (some s.copy))
  else if s.cls.isa .inputTopic then (.topics, e .inputTopic none none none)
  else if s.cls.isa .outputTopic then (.topics, e .outputTopic none none none)
  else if s.cls.isa .topic then (.topics, e .topic none none none)
  else if s.cls.isa .inputStream then
    if isCollection then (.topics, e .inputTopic none none none) else (.streams, e .inputStream (some s.inp) none none)
  else if s.cls.isa .outputStream then
    if isCollection then (.topics, e .outputTopic none none none) else (.streams, e .outputStream none (some s.out) none)
  else
    if isCollection then (.topics, e .topic none none none) else (.streams, e .stream none none none)

/-- The three dictionaries. -/
structure Dicts (A Y : Type) where
  streams : PyDict String (Entry A Y) := []
  topics : PyDict String (Entry A Y) := []
  relays : PyDict String (Entry A Y) := []

/-- `x_entries[stream_name] = …` -/
def Dicts.put (d : Dicts A Y) (n : String) : Slot × Entry A Y → Dicts A Y
  | (.streams, e) => { d with streams := d.streams.set n e }
  | (.topics, e) => { d with topics := d.topics.set n e }
  | (.relays, e) => { d with relays := d.relays.set n e }

/-- A task: its name, the stream it subscribes to, the streams it publishes on (`none`: no attribute). -/
structure Tsk where
  subscribes : Option String
  publishes : Option (List String)

inductive Kind where
  | unit | collection | other
  deriving DecidableEq, Repr

/-- A component. -/
inductive Comp (A Y W : Type) where
  | mk (addr : A) (name : String) (kind : Kind) (common : W) (streams : PyDict String (Strm A Y)) (tasks : PyDict String Tsk)
      (main : Option String) (threads : List String) (children : List (Comp A Y W))

def Comp.addr : Comp A Y W → A | .mk a _ _ _ _ _ _ _ _ => a
def Comp.name : Comp A Y W → String | .mk _ n _ _ _ _ _ _ _ => n
def Comp.kind : Comp A Y W → Kind | .mk _ _ k _ _ _ _ _ _ => k
def Comp.common : Comp A Y W → W | .mk _ _ _ w _ _ _ _ _ => w
def Comp.streams : Comp A Y W → PyDict String (Strm A Y) | .mk _ _ _ _ s _ _ _ _ => s
def Comp.tasks : Comp A Y W → PyDict String Tsk | .mk _ _ _ _ _ t _ _ _ => t
def Comp.main : Comp A Y W → Option String | .mk _ _ _ _ _ _ m _ _ => m
def Comp.threads : Comp A Y W → List String | .mk _ _ _ _ _ _ _ t _ => t
def Comp.children : Comp A Y W → List (Comp A Y W) | .mk _ _ _ _ _ _ _ _ c => c

mutual
/-- The number of components in a tree. -/
def size : Comp A Y W → Nat
  | .mk _ _ _ _ _ _ _ _ cs => sizes cs + 1
/-- The number of components in a list of trees. -/
def sizes : List (Comp A Y W) → Nat
  | [] => 0
  | c :: cs => size c + sizes cs
end

theorem size_eq (c : Comp A Y W) : size c = sizes c.children + 1 := by
  cases c with
  | mk _ _ _ _ _ _ _ _ cs => simp only [size, Comp.children]

theorem sizes_append (a b : List (Comp A Y W)) : sizes (a ++ b) = sizes a + sizes b := by
  induction a with
  | nil => simp [sizes]
  | cons x a ih => simp only [List.cons_append, sizes, ih]; omega

theorem sizes_reverse (a : List (Comp A Y W)) : sizes a.reverse = sizes a := by
  induction a with
  | nil => rfl
  | cons x a ih => simp only [List.reverse_cons, sizes_append, ih, sizes]; omega

/-- The loop of `crawl_components`, backend.py:79-87; the list is `search` from its end. -/
def crawl : List (Comp A Y W) → List (Comp A Y W)
  | [] => []
  | c :: search => c :: crawl (c.children.reverse ++ search)
termination_by search => sizes search
decreasing_by
  simp only [sizes_append, sizes_reverse, sizes, size_eq c]
  omega

/-- `TaskMetadata`, graphmeta.py:83-87. -/
structure TaskEntry (A : Type) where
  name : String
  subscribes : Option A
  publishes : List A
  deriving DecidableEq, Repr

/-- backend.py:537-551. -/
def taskEntry (streams : PyDict String (Strm A Y)) (name : String) (t : Tsk) : TaskEntry A where
  name := name
  subscribes := t.subscribes.bind fun n => (streams.get? n).map (·.addr)
  publishes := (t.publishes.getD []).filterMap fun n => (streams.get? n).map (·.addr)

/-- What is special about the kinds of components: graphmeta.py:127-140. -/
inductive Special (A Y : Type) where
  | collection (topics relays : PyDict String (Entry A Y)) (children : List A)
  | unit (streams : PyDict String (Entry A Y)) (tasks : List (TaskEntry A)) (main : Option String) (threads : List String)
  | other
  deriving DecidableEq, Repr

/-- `ComponentMetadata` and its subclasses, graphmeta.py:115-140. `dynamic`: `input_topic` and `settings_type` of
`DynamicSettingsMetadata`, if it is enabled. -/
structure CompEntry (A Y W : Type) where
  addr : A
  name : String
  common : W
  dynamic : Option (A × Y)
  special : Special A Y
  deriving DecidableEq, Repr

/-- The orders that `sorted` uses. -/
structure Orders (A : Type) where
  addr : A → A → Bool
  name : String → String → Bool

/-- The body of the loop over components: backend.py:446-605. -/
def entry (le : Orders A) (c : Comp A Y W) : CompEntry A Y W :=
  let dicts := c.streams.foldl (fun d x => d.put x.1 (describe (c.kind = .collection) x.1 x.2)) ({} : Dicts A Y)
  { addr := c.addr
    name := c.name
    common := c.common
    dynamic :=
      match c.streams.get? "INPUT_SETTINGS" with
      | some s => if s.cls.isa .inputStream then some (s.addr, s.msgType) else none
      | none => none
    special :=
      match c.kind with
      | .collection => .collection dicts.topics dicts.relays ((c.children.map (·.addr)).mergeSort le.addr)
      | .unit => .unit dicts.streams ((c.tasks.map fun x => taskEntry c.streams x.1 x.2).mergeSort fun x y => le.name x.name y.name)
          c.main (c.threads.mergeSort le.name)
      | .other => .other }

/-- `components`, backend.py:442-607. -/
def collect [DecidableEq A] (le : Orders A) (roots : List (Comp A Y W)) : PyDict A (CompEntry A Y W) :=
  roots.foldl (fun d r => (crawl [r]).foldl (fun d c => d.set c.addr (entry le c)) d) []

/-- `_component_metadata`, backend.py:441-612: `{address: components[address] for address in sorted(components)}`. -/
def metadata [DecidableEq A] (le : Orders A) (roots : List (Comp A Y W)) : PyDict A (CompEntry A Y W) :=
  let d := collect le roots
  ((PyDict.keys d).mergeSort le.addr).filterMap fun a => (d.get? a).map fun e => (a, e)

end Meta
end Ez
