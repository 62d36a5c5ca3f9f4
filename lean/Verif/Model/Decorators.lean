import Verif.Model.Coordinates

/-!
# The decorators that profile methods and tasks

Source: `src/ezmsg/util/profiler.py:28-183`: `_setup_logger` (its file), `_process_obj`, `profile_method`, `profile_subpub`.

Simplifications: lines of the log are their fields; the number of digits of the elapsed time is left out. The clock is exact. A task that
publishes is the list of what it yields, with the time each takes, and how it ends; the time that reading it takes is the consumer's.
Lines of a file are given without white space at their end (`rstrip`, 35).
-/

namespace Ez.Deco
open Ez.AA

variable {α R A : Type} [Add R] [Sub R] [Mul R] [Div R] [NatCast R]

/-- `HEADER`, profiler.py:11. -/
def HEADER : String := "Time,Source,Topic,SampleTime,PerfCounter,Elapsed"

/-- The file after `_setup_logger(append)`, profiler.py:28-74; `debug`: `EZMSG_LOGLEVEL` is `DEBUG`; `none`: there is no such file. The file
is opened for appending, which makes it if it is not there. The header is logged before the format is set, so it is written as it is. -/
def setupFile (append debug : Bool) (file : Option (List String)) : List String :=
  let (kept, writeHeader) : List String × Bool :=
    match file with
    | none => ([], true)
    | some lines =>
      if append then
        match lines with
        | [] => ([], true)
        | first :: rest =>
          if first ≠ "" then (if first = HEADER then (first :: rest, false) else ([], true))
          else (first :: rest, true)
      else ([], true)
  if writeHeader ∧ debug then kept ++ [HEADER] else kept

/-- What a method returns or a task yields: with the attribute `axes`, an array; or without it. -/
inductive Obj (α R A : Type) where
  | plain
  | array (aa : AxisArray α R A)

/-- `ax.data[idx]` and `ax.value(idx)`, profiler.py:86-89. A number is an array without dimensions. -/
def axisValue (ax : Axis R) (idx : Nat) : Except Err (NArr R) :=
  match ax with
  | .coord _ data _ =>
    match data.shape with
    | [] => .error .indexError
    | n :: rest => if idx < n then .ok ⟨rest, fun r => data.get (idx :: r)⟩ else .error .indexError
  | .linear _ g o => .ok ⟨[], fun _ => linValue g o idx⟩

/-- `ax == name` for an axis object and a string, profiler.py:90: neither class of axes is ever equal to a string (axisarray.py:50, 145-152). -/
def eqName (_ : Axis R) (_ : String) : Bool := false

/-- `_process_obj`, profiler.py:77-95. `KeyError` cannot happen: "time" is looked up only if it is there. -/
def processObj (oldest : Bool) : Obj α R A → Except Err (Option (NArr R))
  | .plain => .ok none
  | .array aa =>
    if (aa.axes.get? "time").isSome ∨ (aa.axes.get? "win").isSome then
      let axis := if (aa.axes.get? "win").isSome then "win" else "time"
      match aa.getAxis axis with
      | .error e => .error e
      | .ok ax =>
        match aa.getAxisIdx axis with
        | .error e => .error e
        | .ok i =>
          match aa.data.shape[i]? with
          | none => .error .indexError
          | some len =>
            if len = 0 then .ok none
            else
              let idx := if oldest then 0 else len - 1
              match axisValue ax idx with
              | .error e => .error e
              | .ok v =>
                match eqName ax "win", aa.axes.get? "time" with
                | true, some t =>
                  match axisValue t idx with
                  | .error e => .error e
                  | .ok w => .ok (some ⟨v.shape, fun r => v.get r + w.get r⟩)
                | _, _ => .ok (some v)
    else .ok none

/-- A line of the log, profiler.py:125-133, 171-179: sample time, clock, elapsed time in milliseconds. -/
structure Line (R : Type) where
  sample : Option (NArr R)
  stop : Rat
  elapsed : Rat

/-- How a call ends: as the method or task itself does, `TypeError` for the wrong arguments, or an exception of `_process_obj`. -/
inductive End (E : Type) where
  | returned
  | raised (e : E)
  | typeError
  | profiler (e : Err)
deriving DecidableEq

/-- One message that a task yields: to which stream, what, the time it took, and the time until the consumer asks for the next. -/
structure Item (S α R A : Type) where
  stream : S
  obj : Obj α R A
  work : Rat
  hold : Rat

/-- What an asynchronous generator yields, and how it ends. -/
structure Gen (S E α R A : Type) where
  items : List (Item S α R A)
  fin : End E

/-- A task that publishes: with a message (`@ez.subscriber`) or without. -/
inductive Task (S E Msg α R A : Type) where
  | sub (f : Msg → Gen S E α R A)
  | pub (g : Gen S E α R A)

/-- What comes of a call: what was yielded, the lines of the log, the end. -/
structure Result (S E α R A : Type) where
  out : List (S × Obj α R A)
  log : List (Line R)
  fin : End E

/-- A call of the task as it is; `none`: without a message. -/
def plainCall {S E Msg : Type} : Task S E Msg α R A → Option Msg → Result S E α R A
  | .sub f, some m => let g := f m; ⟨g.items.map (fun x => (x.stream, x.obj)), [], g.fin⟩
  | .pub g, none => ⟨g.items.map (fun x => (x.stream, x.obj)), [], g.fin⟩
  | _, _ => ⟨[], [], .typeError⟩

/-- The loop of `wrapped_task`, profiler.py:167-181; `now`: the clock when `start` is set. -/
def loop {S E : Type} (oldest : Bool) (fin : End E) : List (Item S α R A) → Rat → Result S E α R A
  | [], _ => ⟨[], [], fin⟩
  | x :: xs, now =>
    let start := now
    let stop := now + x.work
    match processObj oldest x.obj with
    | .error e => ⟨[], [], .profiler e⟩
    | .ok s =>
      let r := loop oldest fin xs (stop + x.hold)
      ⟨(x.stream, x.obj) :: r.out, ⟨s, stop, (stop - start) * 1000⟩ :: r.log, r.fin⟩

/-- `wrapped_task`, profiler.py:162-181: `func(unit, msg)`, with `msg` `None` if there is none. -/
def wrappedTask {S E Msg : Type} (oldest : Bool) (pyNone : Msg) (now : Rat) : Task S E Msg α R A → Option Msg → Result S E α R A
  | .sub f, m => let g := f (m.getD pyNone); loop oldest g.fin g.items now
  | .pub _, _ => ⟨[], [], .typeError⟩

/-- `profile_subpub`, profiler.py:141-183. -/
def profileSubpub {S E Msg : Type} (debug oldest : Bool) (pyNone : Msg) (now : Rat) (t : Task S E Msg α R A) (m : Option Msg) :
    Result S E α R A :=
  if debug then wrappedTask oldest pyNone now t m else plainCall t m

/-- A call of a method: the time it takes, and what it returns or raises. -/
structure Method (E Args α R A : Type) where
  work : Args → Rat
  call : Args → Except E (Obj α R A)

/-- What comes of it: a value or the way it failed, and the lines of the log. -/
structure MResult (E α R A : Type) where
  value : Except (End E) (Obj α R A)
  log : List (Line R)

/-- `profile_method`, profiler.py:100-138. -/
def profileMethod {E Args : Type} (debug oldest : Bool) (now : Rat) (m : Method E Args α R A) (a : Args) : MResult E α R A :=
  if debug then
    let start := now
    match m.call a with
    | .error e => ⟨.error (.raised e), []⟩
    | .ok res =>
      let stop := now + m.work a
      match processObj oldest res with
      | .error e => ⟨.error (.profiler e), []⟩
      | .ok s => ⟨.ok res, [⟨s, stop, (stop - start) * 1000⟩]⟩
  else
    match m.call a with
    | .error e => ⟨.error (.raised e), []⟩
    | .ok res => ⟨.ok res, []⟩

end Ez.Deco
