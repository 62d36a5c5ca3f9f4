/-!
# How programs find or start the graph server

Sources: `src/ezmsg/core/graphserver.py`: `GraphServer.start` (170-185), `run` (191-198), `_amain` (219-241), `GraphService.default_address` (1793-1796),
`address` (1798-1800), `create_server` (1802-1806), `ensure` (1808-1831); `src/ezmsg/core/netprotocol.py`: `create_socket` (379-405) and the
constants (19-34); `src/ezmsg/core/graphcontext.py`: `graph_address` (120-125), `_ensure_servers` (218-221).

Several programs (callers), on one host, call `ensure`. Sockets are those of the whole host.

Simplifications:
* Between two steps here other programs may run: `connect`, `bind` and `listen` are calls of the operating system.
* `bind` and `listen` fail as on Linux: a socket cannot be bound to an address that another one has, unless both have `SO_REUSEADDR` and the other does not listen; two
  sockets cannot listen at one address.
* Addresses are compared as given: names and wildcards are not resolved. What listens at an address is a graph server.
* The timeout of connecting, and failures of the network, are left out.
-/

namespace Ez
namespace Start

/-- Host and port. -/
abbrev Addr := String × Nat

/-- `DEFAULT_HOST`, `GRAPHSERVER_PORT_DEFAULT`: netprotocol.py:19-22. -/
def defaultAddr : Addr := ("127.0.0.1", 25978)

/-- The environment of a program: `EZMSG_GRAPHSERVER_ADDR` and `EZMSG_SERVER_PORT_START` (10000 if it is not set), netprotocol.py:21-27. -/
structure Env where
  addr : Option Addr
  start : Nat

/-- A socket; `owner`: the caller, `none` for sockets of other programs. -/
structure Sock where
  addr : Addr
  reuse : Bool
  listening : Bool
  owner : Option Nat
deriving DecidableEq

/-- Where a caller of `ensure` is. -/
inductive Phase where
  /-- before `open_connection`, graphserver.py:1825 -/
  | connecting
  /-- in `create_server` with an address, before `bind`: graphserver.py:171-172, netprotocol.py:387 -/
  | binding (a : Addr)
  /-- in `create_server` without address, before the attempt with this port: netprotocol.py:391 -/
  | scanning (p : Nat)
  /-- the socket is bound; `start` waits for `_server_up`: graphserver.py:184 -/
  | bound (a : Addr)
  /-- `ensure` has returned a server at this address -/
  | up (a : Addr)
  /-- `ensure` has returned `None` -/
  | found
  /-- `ensure` has raised because nobody listens: graphserver.py:1828-1829 -/
  | refused
  /-- `create_socket` has raised -/
  | noSocket
  /-- the server's thread has ended with an exception before `_server_up` was set -/
  | failed
  /-- the server was stopped -/
  | stopped
deriving DecidableEq

/-- One `GraphService`: the address and `auto_start` it is given. -/
structure Caller where
  env : Env
  address : Option Addr
  auto : Option Bool
  phase : Phase

/-- The sockets of the host, and the callers. -/
structure St where
  socks : List Sock
  callers : Nat → Caller

/-- `GraphService.address`, graphserver.py:1793-1800. -/
def Caller.target (c : Caller) : Addr := c.address.getD (c.env.addr.getD defaultAddr)

/-- `ensure_server`, graphserver.py:1815-1821. -/
def Caller.mayStart (c : Caller) : Bool :=
  match c.auto with
  | some b => b
  | none => c.address.isNone && c.env.addr.isNone

/-- Somebody listens at the address. -/
def listens (ss : List Sock) (a : Addr) : Bool := ss.any fun s => s.addr == a && s.listening

/-- `bind` succeeds. -/
def canBind (ss : List Sock) (a : Addr) (reuse : Bool) : Bool := ss.all fun s => s.addr != a || (s.reuse && reuse && !s.listening)

/-- The caller's phase is changed. -/
def St.to (st : St) (i : Nat) (p : Phase) : St :=
  { st with callers := fun j => if j = i then { st.callers j with phase := p } else st.callers j }

/-- What happens: a caller `i` does its next step (`connect`, `bind`, `listen`), its server is stopped, or another program makes (`opened`) or closes
(`closed`) a socket. -/
inductive Act where
  | next (i : Nat)
  | stop (i : Nat)
  | opened (s : Sock)
  | closed (s : Sock)
deriving DecidableEq

/-- The next step of a caller; `none` if there is none. -/
def next (st : St) (i : Nat) : Option St :=
  let c := st.callers i
  match c.phase with
  | .connecting =>
    some (if listens st.socks c.target then st.to i .found
      else if c.mayStart then st.to i (match c.address with | some a => .binding a | none => .scanning c.env.start)
      else st.to i .refused)
  | .binding a =>
    some (if canBind st.socks a true then { st with socks := ⟨a, true, false, some i⟩ :: st.socks }.to i (.bound a)
      else st.to i .noSocket)
  | .scanning p =>
    some (if 65535 < p then st.to i .noSocket
      else if p = defaultAddr.2 then st.to i (.scanning (p + 1))
      else if canBind st.socks (defaultAddr.1, p) false then
        { st with socks := ⟨(defaultAddr.1, p), false, false, some i⟩ :: st.socks }.to i (.bound (defaultAddr.1, p))
      else st.to i (.scanning (p + 1)))
  | .bound a =>
    some (if listens st.socks a then st.to i .failed
      else { st with socks := st.socks.map fun (s : Sock) => if s.owner = some i ∧ s.addr = a then { s with listening := true } else s }.to i (.up a))
  | _ => none

/-- One step; `none` if it is not possible. -/
def step (st : St) : Act → Option St
  | .next i => next st i
  | .stop i => match (st.callers i).phase with
    | .up _ => some ({ st with socks := st.socks.filter fun (s : Sock) => s.owner != some i }.to i .stopped)
    | _ => none
  | .opened s =>
    if s.owner = none ∧ canBind st.socks s.addr s.reuse = true ∧ (s.listening = true → listens st.socks s.addr = false) then
      some { st with socks := s :: st.socks } else none
  | .closed s => if s.owner = none then some { st with socks := st.socks.filter (· != s) } else none

/-- Several steps. -/
def run (st : St) : List Act → Option St
  | [] => some st
  | a :: as => match step st a with
    | some st' => run st' as
    | none => none

/-- `GraphContext.graph_address` after `_ensure_servers`, graphcontext.py:120-125: what the processes of a run are given, backend.py:714-716. -/
def Caller.contextAddress (c : Caller) : Option Addr :=
  match c.phase with
  | .up a => some a
  | _ => c.address

end Start
end Ez
