/-!
# The commands `start`, `serve` and `shutdown`

Sources: `src/ezmsg/core/commands/start.py`: `handle_start` (19-43); `src/ezmsg/core/commands/serve.py`: `handle_serve` (16-40);
`src/ezmsg/core/commands/shutdown.py`: `handle_shutdown` (10-20); `src/ezmsg/core/commands/dashboard.py`: `add_dashboard_argument` (24-36),
`default_graph_address` (39-43), `dashboard_address` (46-57), `start_dashboard` (68-77); `src/ezmsg/core/command.py`: `run_command` (71-112);
`src/ezmsg/core/graphserver.py`: `GraphServer.start` (170-185), `stop` (187-189), `_amain` (219-241), `api` (243-266), `GraphService.create_server`
(1802-1806), `shutdown` (1882-1886); `src/ezmsg/core/netprotocol.py`: `create_socket` (379-389).

One call of `start` for one address, its child (which runs `serve`), the other programs of the host as far as they use that address, and calls of `shutdown`.

Simplifications:
* Between two steps here any of the others may run: `connect`, `bind` and `listen` are calls of the operating system, and fail as on Linux (see `Model/ServerStart.lean`).
* A server that is asked to stop, stops: that its open connections end is not modelled here.
* Ending a server after its dashboard failed, or after an interrupt, is one step (`serve.py:33-40`). Interrupts before `join` are left out.
* What a program prints other than the lines named here, and how numbers are written on the command line, is left out.
-/

namespace Ez
namespace Cmd

/-- `args.dashboard`: `None`, a `bool`, or an `int`. -/
inductive Dash where
  | none
  | bool (b : Bool)
  | port (n : Int)
deriving DecidableEq

/-- Words of the command line of `serve`. -/
inductive Tok where
  | address (a : String × Int)
  | dashboard
  | int (n : Int)
deriving DecidableEq

/-- The arguments of the child: start.py:22-31. -/
def childArgs (a : String × Int) (d : Dash) : List Tok :=
  match d with
  | .none => [.address a]
  | .bool _ => [.address a, .dashboard]
  | .port n => [.address a, .dashboard, .int n]

/-- What `argparse` makes of them: `--address` (commands/common.py), `--dashboard` with `nargs="?"`, `const=True`, `type=int` (dashboard.py:24-36). `none`: refused. -/
def parse : List Tok → Option (String × Int) → Dash → Option (Option (String × Int) × Dash)
  | [], a, d => some (a, d)
  | .address a :: ts, _, d => parse ts (some a) d
  | .dashboard :: .int n :: ts, a, _ => parse ts a (.port n)
  | .dashboard :: ts, a, _ => parse ts a (.bool true)
  | .int _ :: _, _, _ => none

/-- `dashboard_port`, serve.py:27. -/
def Dash.given : Dash → Option Int
  | .port n => Option.some n
  | _ => Option.none

/-- `args.dashboard is not None`, serve.py:26, start.py:23. -/
def Dash.asked : Dash → Bool
  | .none => false
  | _ => true

/-- `dashboard_address`, dashboard.py:46-57; `env`: `EZMSG_DASHBOARD_ADDR`. -/
def dashboardAddress (env : Option (String × Int)) (graph : String × Int) (port : Option Int) : String × Int :=
  let address := match env with
    | some a => a
    | none => (graph.1, graph.2 + 1)
  match port with
  | some p => (address.1, p)
  | none => address

/-- What `start` is given: the port, `--dashboard`, and whether the dashboard package can be imported. -/
structure Cfg where
  port : Nat
  dash : Dash
  installed : Bool

/-- What the other programs have at the address: nothing, sockets with `SO_REUSEADDR` that do not listen, one without it that does not listen, a server. -/
inductive Others where
  | free
  | shared
  | taken
  | served
deriving DecidableEq

/-- Where the main thread of a child with a server is: before `start_dashboard` (serve.py:28), in `join` (serve.py:33). -/
inductive Main where
  | dash
  | join
deriving DecidableEq

/-- The child. -/
inductive Child where
  /-- there is none -/
  | none
  /-- before `bind`, netprotocol.py:387 -/
  | starting
  /-- in `GraphServer.start`, before `listen` -/
  | bound
  /-- its server listens; `asked`: it has been told to shut down -/
  | up (asked : Bool) (m : Main)
  /-- its server has stopped, the process is still there -/
  | down (m : Main)
  /-- `listen` failed in the server's thread, and the main thread waits for `_server_up` (graphserver.py:184) -/
  | stuck
  /-- the process has ended -/
  | ended
deriving DecidableEq

/-- The command `start`: in its loop (start.py:35-41); has printed "Forked ezmsg servers in PID" (43); has printed a warning and returned (26-28). -/
inductive Starter where
  | begun
  | polling
  | reported
  | declined
deriving DecidableEq

/-- The answer of a call of `shutdown`: shutdown.py:15-20. -/
inductive Said where
  | issued
  | warned
deriving DecidableEq

structure St where
  starter : Starter
  child : Child
  others : Others
  said : List Said

/-- Before `start`. -/
def init (o : Others) : St := ⟨.begun, .none, o, []⟩

inductive Act where
  /-- start.py:20-33 -/
  | fork
  /-- one round of the loop, start.py:36-41 -/
  | poll
  /-- the child's `bind` -/
  | bind
  /-- the child's `listen` -/
  | listen
  /-- the child's `start_dashboard` returns, or raises -/
  | dash (ok : Bool)
  /-- the child's server stops because it was told to -/
  | stop
  /-- the child's `join` returns, and the process ends -/
  | exit
  /-- the child is interrupted in `join` -/
  | interrupt
  /-- a call of `shutdown` -/
  | shutdown
  /-- the other programs change what they have at the address -/
  | others (o : Others)
deriving DecidableEq

/-- The child's server listens. -/
def Child.up? : Child → Bool
  | .up _ _ => true
  | _ => false

/-- The child listens at the address it was given: with port 0 the operating system chooses another one. -/
def childAt (c : Cfg) (st : St) : Bool := st.child.up? && c.port != 0

/-- A connection to the address is accepted. -/
def accepted (c : Cfg) (st : St) : Bool := childAt c st || st.others == .served

/-- The other programs can have this at the address, as long as the child has what it has. Nobody has port 0. -/
def canHave (c : Cfg) (st : St) (o : Others) : Bool :=
  match o with
  | .free => true
  | .shared => c.port != 0 && !st.child.up?
  | .taken => c.port != 0 && !st.child.up? && st.child != .bound
  | .served => c.port != 0 && !st.child.up?

/-- The first main state of a child with a server, serve.py:26. -/
def Cfg.main (c : Cfg) : Main := if c.dash.asked then .dash else .join

/-- One step; `none`: not possible. -/
def step (c : Cfg) (st : St) : Act → Option St
  | .fork =>
    match st.starter with
    | .begun =>
      -- start.py:23-28
      if c.dash.asked && !c.installed then some { st with starter := .declined }
      else some { st with starter := .polling, child := .starting }
    | _ => none
  | .poll =>
    match st.starter with
    | .polling => some (if accepted c st then { st with starter := .reported } else st)
    | _ => none
  | .bind =>
    match st.child with
    | .starting => some (if st.others == .served || st.others == .taken then { st with child := .ended } else { st with child := .bound })
    | _ => none
  | .listen =>
    match st.child with
    | .bound => some (if st.others == .served then { st with child := .stuck } else { st with child := .up false c.main })
    | _ => none
  | .dash ok =>
    match st.child with
    | .up a .dash => some { st with child := if ok then .up a .join else .ended }
    | .down .dash => some { st with child := if ok then .down .join else .ended }
    | _ => none
  | .stop =>
    match st.child with
    | .up true m => some { st with child := .down m }
    | _ => none
  | .exit =>
    match st.child with
    | .down .join => some { st with child := .ended }
    | _ => none
  | .interrupt =>
    match st.child with
    | .up _ .join => some { st with child := .ended }
    | _ => none
  | .shutdown =>
    if accepted c st then
      some { st with
        said := .issued :: st.said
        child := match st.child with
          | .up a m => if c.port != 0 then .up true m else .up a m
          | ch => ch }
    else some { st with said := .warned :: st.said }
  | .others o => if canHave c st o then some { st with others := o } else none

def run (c : Cfg) (st : St) : List Act → Option St
  | [] => some st
  | a :: as => (step c st a).bind fun st' => run c st' as

end Cmd
end Ez
