import Verif.Model.Py

/-!
# Names, locations and addresses of components and streams
(`src/ezmsg/core/addressable.py`, `component.py`, and the first half of `ExecutionContext.setup`, `backend.py`)

* Components and streams are objects with an identity of type `K`. What `_name` and `_location` hold is the state;
  which streams and components a component has is a tree. A node carries the key under which the dictionary of
  its parent (or the mapping given to `setup`) holds it.
* Names are lists of characters.
* Not modelled: an object in the tree that is replaced while `setup` runs. The relay units are added to the
  collections from the top down and in order (the code takes the last component first); this affects the order of
  the relays' connections only. The locations used while adding relay units are read off the tree; `C82_placed`
  proves that the objects hold the same ones.
-/

namespace Ez
namespace Address
variable {K : Type} [DecidableEq K]

/-- A name: a Python `str`. -/
abbrev Name := List Char

/-- `SEPARATOR`: addressable.py:1. -/
def sep : Char := '/'

/-- `"/".join(...)`: addressable.py:75. -/
def join : List Name → List Char
  | [] => []
  | [n] => n
  | n :: m :: ns => n ++ sep :: join (m :: ns)

/-- What `setup` distinguishes among streams: `InputRelay`, `OutputRelay`, all others (stream.py). -/
inductive Kind where
  | inputRelay | outputRelay | other
deriving DecidableEq

/-- An entry of `Component._streams`: component.py:131. -/
structure Strm (K : Type) where
  name : Name
  kind : Kind
  id : K
deriving DecidableEq

/-- A component with its streams and components: component.py:98-133, collection.py:61-66. -/
inductive Comp (K : Type) where
  | mk (name : Name) (id : K) (isCollection : Bool) (streams : List (Strm K)) (components : List (Comp K))

/-- The key under which a component is held. -/
def Comp.name : Comp K → Name
  | .mk n _ _ _ _ => n

/-- The identity of a component. -/
def Comp.id : Comp K → K
  | .mk _ i _ _ _ => i

/-- `_name` and `_location` of all objects: addressable.py:12-13. -/
structure St (K : Type) where
  names : K → Option Name
  locs : K → Option (List Name)

/-- Assignment to an attribute of one object. -/
def upd {α : Type} (f : K → Option α) (k : K) (v : α) : K → Option α := fun x => if x = k then some v else f x

/-- `Addressable._set_name`; `false` for an `AssertionError`: addressable.py:26-30. -/
def setName (k : K) (n : Name) (st : St K) : St K × Bool :=
  if (st.names k).isSome then (st, false) else ({ st with names := upd st.names k n }, true)

/-- `Addressable._set_location`: addressable.py:32-36. -/
def setLoc1 (k : K) (loc : List Name) (st : St K) : St K × Bool :=
  if (st.locs k).isSome then (st, false) else ({ st with locs := upd st.locs k loc }, true)

/-- `self.location + [self.name]`; `none` for an `AssertionError`: addressable.py:38-62. -/
def St.path (st : St K) (k : K) : Option (List Name) :=
  match st.locs k, st.names k with
  | some l, some n => some (l ++ [n])
  | _, _ => none

/-- `Addressable.address`: addressable.py:64-75. -/
def St.address (st : St K) (k : K) : Option (List Char) := (st.path k).map join

/-- The loop over the streams of component `k`: component.py:189-190. -/
def setStreams (k : K) : List (Strm K) → St K → St K × Bool
  | [], st => (st, true)
  | s :: ss, st =>
    match st.path k with
    | none => (st, false)
    | some p =>
      let r := setLoc1 s.id p st
      if r.2 then setStreams k ss r.1 else r

mutual
/-- `Component._set_location`: component.py:183-190. -/
def setLoc (loc : List Name) : Comp K → St K → St K × Bool
  | .mk _ i _ ss cs, st =>
    let r := setLoc1 i loc st
    if r.2 then
      let r := setComps i cs r.1
      if r.2 then setStreams i ss r.1 else r
    else r
/-- The loop over the components of component `k`: component.py:187-188. -/
def setComps (k : K) : List (Comp K) → St K → St K × Bool
  | [], st => (st, true)
  | c :: cs, st =>
    match st.path k with
    | none => (st, false)
    | some p =>
      let r := setLoc p c st
      if r.2 then setComps k cs r.1 else r
end

/-- The loop over the components given to `setup`: backend.py:164-166. -/
def place (root : Option Name) : List (Comp K) → St K → St K × Bool
  | [], st => (st, true)
  | c :: cs, st =>
    let r := setName c.id c.name st
    if r.2 then
      let r := setLoc root.toList c r.1
      if r.2 then place root cs r.1 else r
    else r

/-! ## Relay units -/

/-- Objects of a graph after adding relay units: those of the user, and for the relay endpoint `k` the unit made
for it and the two streams of that unit (relay.py:22-26). -/
inductive Obj (K : Type) where
  | user (k : K) | relay (k : K) | relayIn (k : K) | relayOut (k : K)
deriving DecidableEq

/-- `relay_name`: backend.py:212, 234. -/
def relayName (s : Strm K) : Name :=
  match s.kind with
  | .inputRelay => "__relay_in_".toList ++ s.name
  | _ => "__relay_out_".toList ++ s.name

/-- `INPUT` of `_CollectionRelayUnit`: relay.py:25. -/
def inputName : Name := "INPUT".toList
/-- `OUTPUT` of `_CollectionRelayUnit`: relay.py:26. -/
def outputName : Name := "OUTPUT".toList

/-- `relay_unit`: backend.py:218-222, 240-244. -/
def relayUnit (s : Strm K) : Comp (Obj K) :=
  .mk (relayName s) (.relay s.id) false
    [⟨inputName, .other, .relayIn s.id⟩, ⟨outputName, .other, .relayOut s.id⟩] []

/-- `_RelayBinding`, without the objects: backend.py:90-98. -/
structure Binding where
  isInput : Bool
  endpoint : List Char
  relayIn : List Char
  relayOut : List Char
deriving DecidableEq

/-- The binding of relay endpoint `s` of the collection at `path`: backend.py:224-231, 246-253. -/
def binding (path : List Name) (s : Strm K) : Binding where
  isInput := decide (s.kind = .inputRelay)
  endpoint := join (path ++ [s.name])
  relayIn := join (path ++ [relayName s] ++ [inputName])
  relayOut := join (path ++ [relayName s] ++ [outputName])

/-- `relay_bindings`: backend.py:162. -/
abbrev Bindings := PyDict (List Char) Binding

/-- The loop of `add_collection_relay_units` over the streams of the collection at `path`, which so far has
components with the names `have`; `none` for a `ValueError`: backend.py:206-253. -/
def addUnits (path : List Name) : List (Strm K) → List Name → Bindings → Option (List (Comp (Obj K)) × Bindings)
  | [], _, bs => some ([], bs)
  | s :: ss, names, bs =>
    if s.kind = .other then addUnits path ss names bs
    else if relayName s ∈ names then none
    else
      let b := binding path s
      match addUnits path ss (names ++ [relayName s]) (bs.set b.endpoint b) with
      | none => none
      | some (us, bs) => some (relayUnit s :: us, bs)

mutual
/-- `crawl_components(component, add_collection_relay_units)` for a component at `loc`: backend.py:75-87, 206-257. -/
def addRelays (loc : List Name) : Comp K → Bindings → Option (Comp (Obj K) × Bindings)
  | .mk n i coll ss cs, bs =>
    match (if coll then addUnits (loc ++ [n]) ss (cs.map Comp.name) bs else some ([], bs)) with
    | none => none
    | some (us, bs) =>
      match addRelaysAll (loc ++ [n]) cs bs with
      | none => none
      | some (cs, bs) => some (.mk n (.user i) coll (ss.map fun s => ⟨s.name, s.kind, .user s.id⟩) (cs ++ us), bs)
/-- The same for several components, e.g. all given to `setup`: backend.py:255-257. -/
def addRelaysAll (loc : List Name) : List (Comp K) → Bindings → Option (List (Comp (Obj K)) × Bindings)
  | [], bs => some ([], bs)
  | c :: cs, bs =>
    match addRelays loc c bs with
    | none => none
    | some (c, bs) =>
      match addRelaysAll loc cs bs with
      | none => none
      | some (cs, bs) => some (c :: cs, bs)
end

end Address
end Ez
