import Verif.Model.System

/-!
# Choice of transport, `src/ezmsg/core/pubclient.py:41-70, 231-287, 508-563, 571-582`

Channel ids are `C`, process ids are natural numbers. Environment variables are given by their values
(`""` also stands for "not set", `os.environ.get(.., "")`). Only ASCII letters are lowered; no other
character lowers to a letter of the accepted words.
-/

namespace Ez.Transport

/-- pubclient.py:49, 56: `value.lower() in ("1", "true", "yes", "on")`. -/
def truthy (value : String) : Bool :=
  value.toList.map Char.toLower ∈ [['1'], ['t', 'r', 'u', 'e'], ['y', 'e', 's'], ['o', 'n']]

/-- `_process_allow_local_default`, pubclient.py:45-49. -/
def allowLocalDefault (env : String) : Bool := if env = "" then true else truthy env

/-- `_process_force_tcp_default`, pubclient.py:52-56. -/
def forceTcpDefault (env : String) : Bool := if env = "" then false else truthy env

/-- `_resolve_force_tcp`, pubclient.py:59-62. -/
def resolveForceTcp (env : String) : Option Bool → Bool
  | none => forceTcpDefault env
  | some b => b

/-- `_resolve_allow_local`, pubclient.py:65-70. -/
def resolveAllowLocal (env : String) (forceTcp : Bool) (allowLocal : Option Bool) : Bool :=
  let resolved := match allowLocal with
    | none => allowLocalDefault env
    | some b => b
  if forceTcp && resolved then false else resolved

/-- The settings of a publisher that matter here (pubclient.py:269-284). -/
structure Pub where
  pid : Nat
  forceTcp : Bool
  allowLocal : Bool

/-- What `create` (167-183) and `__init__` (282-283) make of the arguments and the environment; `create`
resolves `force_tcp` and `__init__` resolves the result again. -/
def Pub.create (pid : Nat) (envForce envAllow : String) (forceTcp allowLocal : Option Bool) : Pub :=
  let f := resolveForceTcp envForce (some (resolveForceTcp envForce forceTcp))
  { pid := pid, forceTcp := f, allowLocal := resolveAllowLocal envAllow f allowLocal }

/-- `PubChannelInfo`, the part that matters: `shmOk` is true iff the channel answered `SHM_OK`
(messagechannel.py:167-173), i.e. attached the publisher's segment. -/
structure Chan (C : Type) where
  id : C
  pid : Nat
  shmOk : Bool

/-- `_can_deliver_locally`, pubclient.py:574-575. -/
def canLocal {C : Type} (p : Pub) (c : Chan C) : Bool := p.allowLocal && (p.pid == c.pid) && c.shmOk

/-- `_can_deliver_via_shm`, pubclient.py:577-582. -/
def canShm {C : Type} (p : Pub) (c : Chan C) : Bool := !p.forceTcp && c.shmOk && !canLocal p c

/-- The hand-overs of one `broadcast` call, pubclient.py:508-563: in-process delivery to `_local_channel`
if some channel allows it, then the loop over `_channels`. -/
def handOvers {C : Type} (p : Pub) (localChannel : C) (chans : List (Chan C)) : List (C × Sys.Mode) :=
  (if chans.any (canLocal p) then [(localChannel, .local)] else []) ++
    (if chans.any (fun c => !canLocal p c) then
      chans.filterMap (fun c =>
        if canLocal p c then none
        else if canShm p c then some (c.id, .shm)
        else some (c.id, .tcp))
    else [])

end Ez.Transport
