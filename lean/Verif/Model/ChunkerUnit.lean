import Verif.Model.AxisArray

/-!
# The unit `ArrayChunker`

Source: `src/ezmsg/util/messages/chunker.py:65-155`. `array_chunker` itself is `arrayChunker` (`Model/AxisArray.lean`).

The task that publishes runs `send_chunk`, a loop which takes the next chunk from `STATE.gen` and publishes it; between two turns of
the loop settings may come. Publishing does not raise.
-/

namespace Ez.AA.ChunkerUnit

variable {α R A : Type} [Add R] [Sub R] [Mul R] [Div R] [NatCast R] [Inhabited A]

/-- `ArrayChunkerSettings`, chunker.py:83-87. -/
structure Settings (α R : Type) where
  data : NArr α
  chunkLen : Nat
  axis : Int
  fs : R
  tzero : R

/-- What `next(self.STATE.gen)` gives one after the other, until it raises: `construct_generator`, 112-124. An exception in the
generator is raised by the first `next`; the unit treats it like the end, 152-155. -/
def chunksOf (s : Settings α R) : List (AxisArray α R A) :=
  match arrayChunker s.data s.chunkLen s.axis s.fs s.tzero with
  | .ok cs => cs
  | .error _ => []

/-- `gen`: what is left of `STATE.gen`; `alive`: `send_chunk` has not returned; `out`: published on `OUTPUT_SIGNAL`. -/
structure St (α R A : Type) where
  gen : List (AxisArray α R A)
  alive : Bool
  out : List (AxisArray α R A)

/-- `initialize`, 104-110, and the start of the task. -/
def init (s : Settings α R) : St α R A := ⟨chunksOf s, true, []⟩

/-- `settings`: a message on `INPUT_SETTINGS`; `turn`: one turn of the loop in `send_chunk`. -/
inductive Act (α R : Type) where
  | settings (s : Settings α R)
  | turn

/-- `on_settings`, 126-135, and the loop, 148-155. -/
def step (st : St α R A) : Act α R → Option (St α R A)
  | .settings s => some { st with gen := chunksOf s }
  | .turn =>
    if st.alive then
      match st.gen with
      | c :: cs => some { st with gen := cs, out := st.out ++ [c] }
      | [] => some { st with alive := false }
    else none

/-- A run. -/
def run : List (Act α R) → St α R A → Option (St α R A)
  | [], st => some st
  | a :: as, st => match step st a with | none => none | some st' => run as st'

end Ez.AA.ChunkerUnit
