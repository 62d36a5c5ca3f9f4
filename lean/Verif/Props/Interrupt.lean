import Verif.Model.Interrupt

/-!
# C99: an interrupt shuts a run down, a second one ends it by force

The specification: after an interrupt the run comes to its end when the processes have come to theirs; after a further one it comes to its end whatever they do. In the end no process that the run has started is left, and neither
is the thread of its event loop. The program ends by `SIGINT` only after an interrupt, and it does so if a second one was needed or something went wrong.
-/

set_option linter.unusedSectionVars false
set_option linter.unusedSimpArgs false

namespace Ez
namespace Interrupt

/-! ## Specification -/

/-- The number of interrupts. -/
def interruptsIn (as : List Act) : Nat := as.count .interrupt

/-- Nothing of a certain kind happens where the main thread is in a certain place. -/
def Spares (p : Act → Pc → Prop) : St → List Act → Prop
  | _, [] => True
  | st, a :: as => ¬ p a st.pc ∧ match step st a with
    | some st' => Spares p st' as
    | none => True

/-- An interrupt that the runner hears of: not one that `process` ignores at the stop barrier or answers by trying again, and not one that ends the wait for the loop's tasks. -/
def Heard : Act → Pc → Prop
  | .interrupt, pc => match pc with
    | .atStop _ | .units _ false | .revert _ false | .tasks _ => False
    | _ => True
  | _, _ => False

/-- In `_cleanup`. -/
def Pc.cleaning : Pc → Prop
  | .context _ | .tasks _ | .thread _ => True
  | _ => False

/-- An interrupt in `_cleanup` or between starting a process and making a note of it; or an exception in `_cleanup`. -/
def Mishap : Act → Pc → Prop
  | .interrupt, pc => pc.cleaning ∨ pc = .listing
  | .fails, pc => pc.cleaning
  | _, _ => False

/-- Nothing is left: the processes are over, the graph context is closed, the loop's thread has been stopped. -/
def St.Clean (st : St) : Prop := (∀ p ∈ st.procs, p.ph = .over) ∧ st.context = false ∧ st.loop = false

/-! ## Lemmas -/

theorem run_append {st : St} {as bs : List Act} : run st (as ++ bs) = (run st as).bind fun s => run s bs := by
  induction as generalizing st with
  | nil => rfl
  | cons a as ih => simp only [List.cons_append, run]; cases step st a <;> simp [ih]

def Pc.early : Pc → Bool
  | .starting | .listing | .setup | .atStart | .running | .atStop _ | .units .. | .revert .. | .client _ | .joining => true
  | _ => false

def Pc.inProcess : Pc → Bool
  | .setup | .atStart | .running | .atStop _ | .units .. | .revert .. | .client _ | .joining => true
  | _ => false

structure Inv (st : St) : Prop where
  early : st.pc.early = true → st.forced = false ∧ st.pending = none ∧ st.cleanup = false ∧ st.context = true ∧ st.loop = true ∧ st.unclean = false ∧ st.stopBroken = false ∧ st.interrupts = 0
  joining2 : st.pc = .joining2 → st.forced = false ∧ st.pending = none ∧ st.cleanup = false ∧ st.context = true ∧ st.loop = true ∧ st.unclean = false ∧ st.stopBroken = false ∧ st.interrupts = 1
  last : st.pc = .last → st.cleanup = false → st.loop = true ∧ st.unclean = false
  forced : (∀ r, st.pc ≠ .ended r) → (st.forced = true ↔ 2 ≤ st.interrupts)
  todo : st.pc.inProcess = true → st.todo = 0
  pending : st.pending ≠ some .keyboard
  final : ∀ f, st.pc = .context f ∨ st.pc = .tasks f ∨ st.pc = .thread f → st.cleanup = true ∧ (f = true → st.forced = true)
  sigint : st.pc = .ended .sigint → 2 ≤ st.interrupts ∨ (st.interrupts = 1 ∧ st.unclean = true)
  returned : st.pc = .ended .returned → st.interrupts = 0 ∨ (st.interrupts = 1 ∧ st.unclean = false)
  raised : st.pc = .ended (.raised .keyboard) → 2 ≤ st.interrupts

theorem init_inv (n : Nat) : Inv (init n) := by
  constructor <;> simp [init, Pc.early, Pc.inProcess]

theorem opensStart_pc (st : St) : st.opensStart = { st with startOpen := st.opensStart.startOpen } := by
  unfold St.opensStart; split <;> rfl

theorem opensStop_pc (st : St) : st.opensStop = { st with stopOpen := st.opensStop.stopOpen } := by
  unfold St.opensStop; split <;> rfl

/-- The fields that the invariant speaks of. -/
theorem Inv.congr {st st' : St} (h : Inv st) (h1 : st'.pc = st.pc) (h2 : st'.forced = st.forced) (h3 : st'.pending = st.pending) (h4 : st'.cleanup = st.cleanup) (h5 : st'.context = st.context)
    (h6 : st'.loop = st.loop) (h7 : st'.unclean = st.unclean) (h8 : st'.stopBroken = st.stopBroken) (h9 : st'.interrupts = st.interrupts) (h10 : st'.todo = st.todo) : Inv st' := by
  obtain ⟨a1, a2, a3, a4, a5, a6, a7, a8, a9, a10⟩ := h
  constructor <;> simp only [h1, h2, h3, h4, h5, h6, h7, h8, h9, h10] <;> assumption

theorem Inv.opensStart {st : St} (h : Inv st) : Inv st.opensStart := by
  rw [opensStart_pc]; exact h.congr rfl rfl rfl rfl rfl rfl rfl rfl rfl rfl

theorem Inv.opensStop {st : St} (h : Inv st) : Inv st.opensStop := by
  rw [opensStop_pc]; exact h.congr rfl rfl rfl rfl rfl rfl rfl rfl rfl rfl

theorem child_inv {st st' : St} {i : Nat} (h : Inv st) (hs : child st i = some st') : Inv st' := by
  unfold child at hs
  have hat : ∀ c, Inv (st.at i c) := fun c => h.congr rfl rfl rfl rfl rfl rfl rfl rfl rfl rfl
  cases hp : st.procs[i]? with
  | none => simp [hp] at hs
  | some p =>
    simp only [hp] at hs
    split at hs
    · cases hs; exact (hat _).opensStart
    · split at hs
      · cases hs; exact hat _
      · split at hs
        · cases hs; exact (hat _).opensStop
        · cases hs
    · cases hs; exact (hat _).opensStop
    · split at hs
      · cases hs; exact (hat .over).congr rfl rfl rfl rfl rfl rfl rfl rfl rfl rfl
      · split at hs
        · cases hs; exact hat _
        · cases hs
    · cases hs

theorem decide_inv {st : St} (hf : st.forced = true ↔ 2 ≤ st.interrupts) (hp : st.pending ≠ some .keyboard) : Inv st.decide := by
  have hpc : st.decide.pc = .ended (if (st.forced || (st.interrupts != 0 && st.unclean)) then .sigint else match st.pending with | some e => .raised e | none => .returned) := rfl
  have e1 : st.decide.interrupts = st.interrupts := rfl
  have e2 : st.decide.unclean = st.unclean := rfl
  have e3 : st.decide.pending = st.pending := rfl
  generalize st.decide = d at *
  constructor <;> simp only [hpc, e1, e2, e3, Pc.early, Pc.inProcess] <;> try (first | (intro h; cases h; done) | exact hp | (intro _ h; simp at h; done))
  · intro h; exact absurd rfl (h _)
  · cases hf' : st.forced <;> simp [hf'] at hf ⊢
    · intro h; split at h <;> simp at h <;> grind
    · omega
  · cases hf' : st.forced <;> simp [hf'] at hf ⊢
    grind
  · cases hf' : st.forced <;> simp [hf'] at hf ⊢
    grind

theorem late_inv {st : St} (hc : st.cleanup = false → st.loop = true ∧ st.unclean = false) (hp : st.pending ≠ some .keyboard) (hf : st.forced = true ↔ 2 ≤ st.interrupts) : Inv st.late := by
  unfold St.late
  simp only
  split
  · rename_i h2
    split
    · exact decide_inv (by simpa [St.force] using h2) hp
    · constructor <;> simp [St.force, St.clean, Pc.early, Pc.inProcess] <;> first | exact hp | exact h2 | omega
  · rename_i h2
    constructor <;> simp [Pc.early, Pc.inProcess] <;> first | exact hp | (cases hf' : st.forced <;> simp [hf'] at hf ⊢ <;> omega) | exact hc

theorem throw_inv {st : St} (h : Inv st) (he : st.pc.early = true) (e : Exc) : Inv (st.throw e) := by
  obtain ⟨b1, b2, b3, b4, b5, b6, b7, b8⟩ := h.early he
  cases e <;> constructor <;> simp [St.throw, Pc.early, Pc.inProcess, *]

theorem interrupt_inv {st st' : St} (h : Inv st) (hs : interrupt st = some st') : Inv st' := by
  have h' := h
  obtain ⟨a1, a2, a3, a4, a5, a6, a7, a8, a9, a10⟩ := h
  unfold interrupt at hs
  split at hs <;> rename_i hpc <;> simp only [hpc, Pc.early, Pc.inProcess] at a1 a2 a3 a4 a5 a7 a8 a9 a10 <;> (try cases hs) <;>
    first
    | exact throw_inv h' (by rw [hpc]; rfl) _
    | exact h'
    | exact late_inv (by grind) a6 (by grind)
    | (apply Inv.opensStop; constructor <;> simp only [Pc.early, Pc.inProcess] <;> grind)
    | (constructor <;> simp only [Pc.early, Pc.inProcess, St.force] <;> grind)

theorem next_inv {st st' : St} (h : Inv st) (hs : next st = some st') : Inv st' := by
  have h' := h
  obtain ⟨a1, a2, a3, a4, a5, a6, a7, a8, a9, a10⟩ := h
  unfold next at hs
  split at hs <;> rename_i hpc <;> simp only [hpc, Pc.early, Pc.inProcess] at a1 a2 a3 a4 a5 a7 a8 a9 a10 <;> (repeat' split at hs) <;> (try cases hs) <;>
    first
    | (apply Inv.opensStop; constructor <;> simp only [Pc.early, Pc.inProcess] <;> grind)
    | (apply Inv.opensStart; constructor <;> simp only [Pc.early, Pc.inProcess] <;> grind)
    | exact decide_inv (a4 (by simp)) a6
    | (constructor <;> simp only [Pc.early, Pc.inProcess, St.clean] <;> grind)
    | skip
  · rename_i e
    cases e with
    | some e => exact throw_inv h' (by rw [hpc]; rfl) _
    | none => constructor <;> simp only [St.processEnds, Pc.early, Pc.inProcess] <;> grind

theorem step_inv {st st' : St} {a : Act} (h : Inv st) (hs : step st a = some st') : Inv st' := by
  cases a with
  | interrupt => exact interrupt_inv h hs
  | next => exact next_inv h hs
  | child i => exact child_inv h hs
  | fails =>
    obtain ⟨a1, a2, a3, a4, a5, a6, a7, a8, a9, a10⟩ := h
    simp only [step] at hs
    split at hs <;> rename_i hpc <;> simp only [hpc, Pc.early, Pc.inProcess] at a1 a2 a3 a4 a5 a7 a8 a9 a10 <;> (try cases hs) <;> (try apply Inv.opensStop) <;>
      constructor <;> simp only [St.throw, Pc.early, Pc.inProcess] <;> grind
  | unclean =>
    obtain ⟨a1, a2, a3, a4, a5, a6, a7, a8, a9, a10⟩ := h
    simp only [step] at hs
    split at hs <;> rename_i hpc <;> simp only [hpc, Pc.early, Pc.inProcess] at a1 a2 a3 a4 a5 a7 a8 a9 a10 <;> (try cases hs) <;>
      constructor <;> simp only [Pc.early, Pc.inProcess] <;> grind
  | childFails i =>
    simp only [step] at hs
    split at hs
    · split at hs
      · cases hs; exact h.congr rfl rfl rfl rfl rfl rfl rfl rfl rfl rfl
      · cases hs
    · cases hs
  | childInterrupt i =>
    have hat : ∀ c, Inv (st.at i c) := fun c => h.congr rfl rfl rfl rfl rfl rfl rfl rfl rfl rfl
    simp only [step] at hs
    split at hs
    · split at hs <;> cases hs
      · exact hat _
      · exact (hat _).opensStop
      · exact (hat _).opensStop
      · exact h
    · cases hs
  | childDies i =>
    simp only [step] at hs
    split at hs
    · split at hs
      · cases hs; exact h.congr rfl rfl rfl rfl rfl rfl rfl rfl rfl rfl
      · cases hs
    · cases hs
  | closes =>
    obtain ⟨a1, a2, a3, a4, a5, a6, a7, a8, a9, a10⟩ := h
    simp only [step] at hs
    split at hs
    · cases hs; constructor <;> grind [Pc.early, Pc.inProcess]
    · cases hs

theorem run_inv {st st' : St} {as : List Act} (h : Inv st) (hr : run st as = some st') : Inv st' := by
  induction as generalizing st with
  | nil => cases hr; exact h
  | cons a as ih =>
    simp only [run] at hr
    split at hr
    · rename_i hs; exact ih (step_inv h hs) hr
    · cases hr

/-- An interrupt that the end of `process` passes on. -/
def Pc.carries : Pc → Nat
  | .atStop (some .keyboard) | .units (some .keyboard) _ | .revert (some .keyboard) _ | .client (some .keyboard) => 1
  | _ => 0

theorem opensStop_fields (st : St) : st.opensStop.pc = st.pc ∧ st.opensStop.interrupts = st.interrupts ∧ st.opensStop.procs = st.procs := by
  rw [opensStop_pc]; exact ⟨rfl, rfl, rfl⟩

theorem opensStart_fields (st : St) : st.opensStart.pc = st.pc ∧ st.opensStart.interrupts = st.interrupts ∧ st.opensStart.procs = st.procs := by
  rw [opensStart_pc]; exact ⟨rfl, rfl, rfl⟩

theorem late_count (st : St) : st.late.interrupts + st.late.pc.carries = st.interrupts + 1 := by
  unfold St.late; simp only; split
  · split <;> rfl
  · rfl

theorem throw_count (st : St) (e : Exc) : (st.throw e).interrupts + (st.throw e).pc.carries ≤ st.interrupts + (if e = .keyboard then 1 else 0) := by
  cases e <;> simp [St.throw, Pc.carries]

/-- A step of a process changes little. -/
theorem child_fields {st st' : St} {i : Nat} (hs : child st i = some st') : st'.pc = st.pc ∧ st'.interrupts = st.interrupts := by
  unfold child at hs
  split at hs
  · cases hs
  · (repeat' split at hs) <;> cases hs <;> simp [opensStart_fields, opensStop_fields, St.at]

theorem step_count {st st' : St} {a : Act} (hs : step st a = some st') : st'.interrupts + st'.pc.carries ≤ st.interrupts + st.pc.carries + if a = .interrupt then 1 else 0 := by
  cases a with
  | interrupt =>
    simp only [step, interrupt] at hs
    simp only [if_true]
    split at hs <;> rename_i hpc <;> cases hs <;> simp only [hpc, opensStop_fields, late_count] <;> try (simp [Pc.carries, St.throw, St.force]; done)
    all_goals (first | (rename_i e; cases e with | none => simp [Pc.carries] | some e => cases e <;> simp [Pc.carries]) | omega)
  | next =>
    simp only [step, next] at hs
    simp only [reduceCtorEq, if_false]
    split at hs <;> rename_i hpc <;> (repeat' split at hs) <;> cases hs <;> simp only [hpc, opensStop_fields, opensStart_fields] <;>
      try (simp [Pc.carries, St.clean, St.decide]; done)
    · rename_i e _; cases e with
      | none => simp [Pc.carries]
      | some e => cases e <;> simp [Pc.carries]
    · rename_i e _; cases e with
      | none => simp [Pc.carries]
      | some e => cases e <;> simp [Pc.carries]
    · rename_i e _; cases e with
      | none => simp [Pc.carries]
      | some e => cases e <;> simp [Pc.carries]
    · rename_i e; cases e with
      | none => simp [Pc.carries, St.processEnds]
      | some e => cases e <;> simp [Pc.carries, St.processEnds, St.throw]
  | child i => obtain ⟨h1, h2⟩ := child_fields hs; simp [h1, h2]
  | fails =>
    simp only [step] at hs
    split at hs <;> cases hs <;> simp [opensStop_fields, Pc.carries, St.throw]
  | unclean =>
    simp only [step] at hs
    split at hs <;> cases hs; simp [Pc.carries]
  | childFails i =>
    simp only [step] at hs
    (repeat' split at hs) <;> cases hs; simp [St.at]
  | childInterrupt i =>
    simp only [step] at hs
    (repeat' split at hs) <;> cases hs <;> simp [St.at, opensStop_fields]
  | childDies i =>
    simp only [step] at hs
    (repeat' split at hs) <;> cases hs; simp [St.at]
  | closes =>
    simp only [step] at hs
    split at hs <;> cases hs; simp

theorem run_count {st st' : St} {as : List Act} (hr : run st as = some st') : st'.interrupts + st'.pc.carries ≤ st.interrupts + st.pc.carries + interruptsIn as := by
  induction as generalizing st with
  | nil => cases hr; simp [interruptsIn]
  | cons a as ih =>
    simp only [run] at hr
    split at hr
    · rename_i hs
      have h1 := ih hr
      have h2 := step_count hs
      have h3 : interruptsIn (a :: as) = interruptsIn as + if a = .interrupt then 1 else 0 := by
        simp only [interruptsIn, List.count_cons]; by_cases h : a = .interrupt <;> simp [h]
      omega
    · cases hr

/-- **C99**: the program ends by `SIGINT` only if it was interrupted, and if that was twice or something did not end well; the interrupt itself goes on to the caller only if there were two. A run that nobody interrupts returns, or raises what went wrong. -/
theorem C99_status {n : Nat} {as : List Act} {st : St} (h : run (init n) as = some st) :
    (st.pc = .ended .sigint → 1 ≤ interruptsIn as ∧ (2 ≤ interruptsIn as ∨ st.unclean = true)) ∧
    (st.pc = .ended (.raised .keyboard) → 2 ≤ interruptsIn as) ∧
    (∀ r, interruptsIn as = 0 → st.pc = .ended r → r = .returned ∨ r = .raised .other) := by
  have hc := run_count h
  have hi := run_inv (init_inv n) h
  have h0 : (init n).interrupts + (init n).pc.carries = 0 := rfl
  have a : st.pc = .ended .sigint → 1 ≤ interruptsIn as ∧ (2 ≤ interruptsIn as ∨ st.unclean = true) := by
    intro hp
    rcases hi.sigint hp with h2 | ⟨h2, h3⟩
    · exact ⟨by omega, .inl (by omega)⟩
    · exact ⟨by omega, .inr h3⟩
  have b : st.pc = .ended (.raised .keyboard) → 2 ≤ interruptsIn as := by
    intro hp; have := hi.raised hp; omega
  refine ⟨a, b, ?_⟩
  intro r h1 hp
  cases r with
  | returned => exact .inl rfl
  | raised e => cases e with
    | keyboard => have := b hp; omega
    | other => exact .inr rfl
  | sigint => have := (a hp).1; omega

theorem step_mono {st st' : St} {a : Act} (hs : step st a = some st') : st.interrupts + st.pc.carries ≤ st'.interrupts + st'.pc.carries := by
  have hce : ∀ pc : Pc, pc.carries ≤ 1 := by intro pc; unfold Pc.carries; split <;> omega
  cases a with
  | interrupt =>
    simp only [step, interrupt] at hs
    split at hs <;> rename_i hpc <;> cases hs <;> simp only [hpc, opensStop_fields, late_count] <;> (try (simp [Pc.carries, St.throw, St.force]; done))
    all_goals (try (rename_i e; cases e with | none => simp [Pc.carries, St.throw] | some e => cases e <;> simp [Pc.carries, St.throw]))
    all_goals (first | omega | exact Nat.le_refl _)
  | next =>
    simp only [step, next] at hs
    split at hs <;> rename_i hpc <;> (repeat' split at hs) <;> cases hs <;> simp only [hpc, opensStop_fields, opensStart_fields] <;>
      try (simp [Pc.carries, St.clean, St.decide]; done)
    · rename_i e _; cases e with
      | none => simp [Pc.carries]
      | some e => cases e <;> simp [Pc.carries]
    · rename_i e _; cases e with
      | none => simp [Pc.carries]
      | some e => cases e <;> simp [Pc.carries]
    · rename_i e _; cases e with
      | none => simp [Pc.carries]
      | some e => cases e <;> simp [Pc.carries]
    · rename_i e; cases e with
      | none => simp [Pc.carries, St.processEnds]
      | some e => cases e <;> simp [Pc.carries, St.processEnds, St.throw]
  | child i => obtain ⟨h1, h2⟩ := child_fields hs; simp [h1, h2]
  | fails =>
    simp only [step] at hs
    split at hs <;> rename_i hpc <;> cases hs <;> simp [opensStop_fields, Pc.carries, St.throw, hpc]
  | unclean =>
    simp only [step] at hs
    split at hs <;> rename_i hpc <;> cases hs; simp [Pc.carries, hpc]
  | childFails i =>
    simp only [step] at hs
    (repeat' split at hs) <;> cases hs; simp [St.at]
  | childInterrupt i =>
    simp only [step] at hs
    (repeat' split at hs) <;> cases hs <;> simp [St.at, opensStop_fields]
  | childDies i =>
    simp only [step] at hs
    (repeat' split at hs) <;> cases hs; simp [St.at]
  | closes =>
    simp only [step] at hs
    split at hs <;> cases hs; simp

theorem heard_step {st st' : St} {a : Act} (h : Inv st) (ha : Heard a st.pc) (hs : step st a = some st') : 1 ≤ st'.interrupts + st'.pc.carries := by
  cases a <;> try (simp [Heard] at ha; done)
  obtain ⟨_, _, _, a4, _, _, a7, _, _, _⟩ := h
  simp only [step, interrupt] at hs
  split at hs <;> rename_i hpc <;> simp only [hpc, Heard] at ha a4 a7 <;> cases hs <;> (try simp only [opensStop_fields, late_count]) <;>
    first
    | (simp [Pc.carries, St.throw, St.force]; done)
    | (have h1 := a4 (by simp); have h2 := (a7 true (by simp)).2 rfl; have h3 := h1.1 h2; omega)
    | omega

theorem heard_run {st st' : St} {as : List Act} (h : Inv st) (hh : ¬ Spares Heard st as ∨ 1 ≤ st.interrupts + st.pc.carries) (hr : run st as = some st') : 1 ≤ st'.interrupts + st'.pc.carries := by
  induction as generalizing st with
  | nil =>
    cases hr
    rcases hh with hh | hh
    · exact absurd trivial hh
    · exact hh
  | cons a as ih =>
    simp only [run] at hr
    split at hr
    · rename_i hs
      refine ih (step_inv h hs) ?_ hr
      rcases hh with hh | hh
      · by_cases ha : Heard a st.pc
        · exact .inr (heard_step h ha hs)
        · refine .inl fun hsp => hh ?_
          simp only [Spares, hs]
          exact ⟨ha, hsp⟩
      · exact .inr (Nat.le_trans hh (step_mono hs))
    · cases hr

/-- **C99**: if the runner has heard of an interrupt and something did not end well, the run does not just return. -/
theorem C99_unclean {n : Nat} {as : List Act} {st : St} (h : run (init n) as = some st) (hh : ¬ Spares Heard (init n) as) (hu : st.unclean = true) : st.pc ≠ .ended .returned := by
  intro hp
  have h1 := heard_run (init_inv n) (.inl hh) h
  have h2 := (run_inv (init_inv n) h).returned hp
  simp only [hp, Pc.carries, hu] at h1 h2
  rcases h2 with h2 | ⟨_, h2⟩
  · omega
  · cases h2

/-- Something has gone wrong. -/
def St.trouble (st : St) : Bool := match st.pc with
  | .atStop e | .units e _ | .revert e _ | .client e => st.pending.isSome || e.isSome
  | .ended (.raised _) => true
  | .ended _ => false
  | _ => st.pending.isSome

theorem trouble_opensStop (st : St) : st.opensStop.trouble = st.trouble := by rw [opensStop_pc]; rfl

theorem trouble_opensStart (st : St) : st.opensStart.trouble = st.trouble := by rw [opensStart_pc]; rfl

theorem decide_trouble {st : St} {b : Bool} (hf : st.forced = false) (h0 : st.interrupts = 0) (hb : b = st.pending.isSome) : st.decide.trouble = (b || (Act.next == .fails)) := by
  subst hb
  cases hp : st.pending <;> simp [St.decide, St.trouble, hf, h0, hp] <;> rfl

theorem step_trouble {st st' : St} {a : Act} (h : Inv st) (ha : a ≠ .interrupt) (h0 : st.interrupts + st.pc.carries = 0) (hs : step st a = some st') : st'.trouble = (st.trouble || (a == .fails)) := by
  obtain ⟨a1, a2, a3, a4, a5, a6, a7, a8, a9, a10⟩ := h
  cases a with
  | interrupt => exact absurd rfl ha
  | next =>
    simp only [step, next] at hs
    split at hs <;> rename_i hpc <;> simp only [hpc, Pc.early] at a1 a2 a4 h0 <;> (repeat' split at hs) <;> cases hs <;> (try rw [trouble_opensStop]) <;> (try rw [trouble_opensStart]) <;>
      (try simp [St.trouble, hpc, St.clean]; done)
    · rename_i e; cases e with
      | none => simp [St.trouble, hpc, St.processEnds]
      | some e => cases e <;> simp [St.trouble, hpc, St.processEnds, St.throw, Pc.carries] at h0 ⊢
    · exact decide_trouble (by cases hf : st.forced <;> simp_all [Pc.carries]) (by omega) (by simp [St.trouble, hpc])
    · exact decide_trouble (by cases hf : st.forced <;> simp_all [Pc.carries]) (by simp only; omega) (by simp [St.trouble, hpc])
  | child i =>
    simp only [step, child] at hs
    (repeat' split at hs) <;> cases hs <;> (try rw [trouble_opensStop]) <;> (try rw [trouble_opensStart]) <;> simp [St.at, St.trouble]
  | fails =>
    simp only [step] at hs
    split at hs <;> rename_i hpc <;> cases hs <;> (try rw [trouble_opensStop]) <;> simp [St.trouble, St.throw]
  | unclean =>
    simp only [step] at hs
    split at hs <;> rename_i hpc <;> cases hs; simp [St.trouble, hpc]
  | childFails i =>
    simp only [step] at hs
    (repeat' split at hs) <;> cases hs; simp [St.at, St.trouble]
  | childInterrupt i =>
    simp only [step] at hs
    (repeat' split at hs) <;> cases hs <;> (try rw [trouble_opensStop]) <;> simp [St.at, St.trouble]
  | childDies i =>
    simp only [step] at hs
    (repeat' split at hs) <;> cases hs; simp [St.at, St.trouble]
  | closes =>
    simp only [step] at hs
    split at hs <;> cases hs; simp [St.trouble]

theorem run_trouble {st st' : St} {as : List Act} (h : Inv st) (ha : interruptsIn as = 0) (h0 : st.interrupts + st.pc.carries = 0) (hr : run st as = some st') :
    st'.trouble = (st.trouble || as.contains .fails) := by
  induction as generalizing st with
  | nil => cases hr; simp
  | cons a as ih =>
    simp only [run] at hr
    simp only [interruptsIn, List.count_cons] at ha
    split at hr
    · rename_i hs
      have hne : a ≠ .interrupt := by rintro rfl; simp at ha
      have hc := step_count hs
      simp only [hne, if_false] at hc
      rw [ih (step_inv h hs) (by simp only [interruptsIn]; omega) (by omega) hr, step_trouble h hne h0 hs, List.contains_cons, Bool.or_assoc]
      congr 2
      cases a <;> rfl
    · cases hr

/-- **C99**: a run that nobody interrupts raises if something has failed, and returns if nothing has. -/
theorem C99_raises {n : Nat} {as : List Act} {st : St} {r : End} (h : run (init n) as = some st) (h0 : interruptsIn as = 0) (hp : st.pc = .ended r) :
    (r = .raised .other ↔ .fails ∈ as) ∧ (r = .returned ↔ .fails ∉ as) := by
  have ht := run_trouble (init_inv n) h0 rfl h
  have hi := (C99_status h).2.2 r h0 hp
  simp only [St.trouble, hp, init] at ht
  rcases hi with rfl | rfl
  · simp at ht; simp [ht]
  · simp at ht; simp [ht]

theorem joined_terminate (ps : List Proc) : joined (terminate ps) = true := by
  simp only [joined, terminate, List.all_map, List.all_eq_true]
  intro p _
  by_cases h : p.listed = true <;> simp [h]

/-- The end of `_cleanup`. -/
theorem run_clean {st : St} {f : Bool} (hp : st.pc = .context f) :
    run st (List.replicate 3 .next) = some ({ st with context := false, loop := false, procs := st.procs.map fun (p : Proc) => { p with listed := false }, pc := .thread f } : St).decide := by
  simp only [List.replicate, run, step, next, hp]

/-- **C99**: while it waits for the processes after an interrupt, a further one ends them and the run: the program ends by `SIGINT`, without anything left to wait for but the closing of the graph context and of the loop. -/
theorem C99_force {n : Nat} {as : List Act} {st : St} (h : run (init n) as = some st) (hp : st.pc = .joining2 ∨ (st.pc = .last ∧ st.cleanup = false ∧ 1 ≤ st.interrupts)) :
    ∃ k st', k ≤ 4 ∧ run st (.interrupt :: List.replicate k .next) = some st' ∧ st'.pc = .ended .sigint ∧ st'.context = false ∧ st'.loop = false ∧
      ∀ (i : Nat) (p : Proc), st.procs[i]? = some p → p.listed = true → ∃ p', st'.procs[i]? = some p' ∧ p'.ph = .over := by
  have hi := run_inv (init_inv n) h
  have hover : ∀ (ps : List Proc) (i : Nat) (p : Proc), ps[i]? = some p → p.listed = true →
      ∃ p', ((terminate ps).map fun (p : Proc) => { p with listed := false })[i]? = some p' ∧ p'.ph = Child.over := by
    intro ps i p hpi hl
    refine ⟨⟨.over, false⟩, ?_, rfl⟩
    simp [terminate, hpi, hl]
  rcases hp with hp | ⟨hp, hc, hn⟩
  · obtain ⟨b1, b2, b3, b4, b5, b6, b7, b8⟩ := hi.joining2 hp
    have e1 : step st .interrupt = some { st.force with interrupts := st.interrupts + 1, pc := .last } := by simp only [step, interrupt, hp]
    have e2 : step { st.force with interrupts := st.interrupts + 1, pc := .last } .next = some (St.clean { st.force with interrupts := st.interrupts + 1, pc := .last } false) := by
      simp [step, next, St.force, joined_terminate, b3]
    refine ⟨4, ?w, by omega, ?a, ?b⟩
    case a =>
      rw [show List.replicate 4 Act.next = .next :: List.replicate 3 .next from rfl]
      simp only [run, e1, e2]
      exact run_clean (st := St.clean { st.force with interrupts := st.interrupts + 1, pc := .last } false) (f := false) rfl
    case b => exact ⟨rfl, rfl, rfl, hover st.procs⟩
  · have e1 : step st .interrupt = some (St.clean { st.force with interrupts := st.interrupts + 1 } true) := by
      simp only [step, interrupt, hp]; unfold St.late; simp only [hc]; rw [if_pos (by omega)]; rfl
    refine ⟨3, ?w, by omega, ?a, ?b⟩
    case a =>
      simp only [run, e1]
      exact run_clean (st := St.clean { st.force with interrupts := st.interrupts + 1 } true) (f := true) rfl
    case b => exact ⟨rfl, rfl, rfl, hover st.procs⟩

/-! ## Ending well -/

/-- When everybody is at the stop barrier, it is open. -/
def Meets (st : St) : Prop := st.pc.isAtStop = true → st.todo = 0 → (∀ p ∈ st.procs, p.ph = .atStop) → st.stopBroken = false → st.stopOpen = true

theorem meets_opensStop (st : St) : Meets st.opensStop := by
  intro h1 h2 h3 h4
  rw [opensStop_pc] at h1 h2 h3 h4
  simp only at h1 h2 h3 h4
  unfold St.opensStop
  rw [if_pos (by simpa [h1, h2, h4] using h3)]

theorem meets_pc {st : St} (h : st.pc.isAtStop = false) : Meets st := by
  intro h1; simp [h] at h1

theorem late_pc (st : St) : st.late.pc.isAtStop = false := by
  unfold St.late; simp only; split
  · split <;> rfl
  · rfl

theorem throw_pc (st : St) (e : Exc) : (st.throw e).pc.isAtStop = false := by cases e <;> rfl

theorem mem_at {st : St} {i : Nat} {c : Child} {p : Proc} (hp : st.procs[i]? = some p) : ∃ q ∈ (st.at i c).procs, q.ph = c := by
  refine ⟨{ p with ph := c }, ?_, rfl⟩
  simp only [St.at]
  apply List.mem_of_getElem? (i := i)
  simp [List.getElem?_modify, hp]

theorem meets_at {st st' : St} {i : Nat} {c : Child} {p : Proc} (hp : st.procs[i]? = some p) (hc : c ≠ .atStop) (he : st'.procs = (st.at i c).procs) : Meets st' := by
  intro _ _ h3 _
  obtain ⟨q, hq, e⟩ := mem_at (c := c) hp
  rw [← he] at hq
  exact absurd (h3 q hq) (by rw [e]; exact hc)

theorem step_meets {st st' : St} {a : Act} (h : Meets st) (hs : step st a = some st') : Meets st' := by
  cases a with
  | interrupt =>
    simp only [step, interrupt] at hs
    split at hs <;> cases hs <;> first | exact meets_opensStop _ | exact h | exact meets_pc (late_pc _) | exact meets_pc (throw_pc _ _) | exact meets_pc rfl
  | next =>
    simp only [step, next] at hs
    split at hs <;> rename_i hpc <;> (repeat' split at hs) <;> cases hs <;>
      first | exact meets_opensStop _ | (rw [opensStart_pc]; exact meets_pc rfl) | exact meets_pc rfl | skip
    rename_i e; cases e with
      | none => exact meets_pc rfl
      | some e => exact meets_pc (throw_pc _ _)
  | fails =>
    simp only [step] at hs
    split at hs <;> cases hs <;> first | exact meets_opensStop _ | exact meets_pc rfl
  | unclean =>
    simp only [step] at hs
    split at hs <;> cases hs; exact meets_pc rfl
  | child i =>
    simp only [step, child] at hs
    split at hs
    · cases hs
    · rename_i hp
      (repeat' split at hs) <;> cases hs <;>
        first | exact meets_opensStop _ | exact meets_at (c := .atStart) hp (by simp) (opensStart_fields _).2.2 | exact meets_at (c := .running) hp (by simp) rfl | exact meets_at (c := .over) hp (by simp) rfl
  | childFails i =>
    simp only [step] at hs
    split at hs
    · rename_i hp
      split at hs <;> cases hs; exact meets_at (c := .over) hp (by simp) rfl
    · cases hs
  | childInterrupt i =>
    simp only [step] at hs
    split at hs
    · rename_i hp
      split at hs <;> cases hs <;> first | exact meets_opensStop _ | exact h | exact meets_at (c := .over) hp (by simp) rfl
    · cases hs
  | childDies i =>
    simp only [step] at hs
    split at hs
    · rename_i hp
      split at hs <;> cases hs; exact meets_at (c := .over) hp (by simp) rfl
    · cases hs
  | closes =>
    simp only [step] at hs
    split at hs <;> cases hs; exact h

theorem run_meets {st st' : St} {as : List Act} (h : Meets st) (hr : run st as = some st') : Meets st' := by
  induction as generalizing st with
  | nil => cases hr; exact h
  | cons a as ih =>
    simp only [run] at hr
    split at hr
    · rename_i hs; exact ih (step_meets h hs) hr
    · cases hr

/-- The first `k` processes are at `c`. -/
def upTo (ps : List Proc) (k : Nat) (c : Child) : List Proc := (ps.take k).map (fun (p : Proc) => { p with ph := c }) ++ ps.drop k

theorem upTo_get {ps : List Proc} {k : Nat} {c : Child} (hk : k < ps.length) : (upTo ps k c)[k]? = some ps[k] := by
  unfold upTo
  rw [List.getElem?_append_right (by simp; omega)]
  simp [Nat.min_eq_left (Nat.le_of_lt hk), hk]

theorem upTo_succ {ps : List Proc} {k : Nat} {c : Child} (hk : k < ps.length) : (upTo ps k c).modify k (fun (p : Proc) => { p with ph := c }) = upTo ps (k + 1) c := by
  apply List.ext_getElem?
  intro j
  unfold upTo
  rw [List.getElem?_modify]
  simp only [List.getElem?_append, List.getElem?_map, List.getElem?_drop, List.length_map, List.length_take, List.getElem?_take]
  by_cases h1 : j < k
  · simp [show j < min k ps.length by omega, show j < min (k+1) ps.length by omega, show k ≠ j by omega, h1, show j < k + 1 by omega]
  · by_cases h2 : j = k
    · subst h2; simp [Nat.min_eq_left (Nat.le_of_lt hk), Nat.min_eq_left (show j + 1 ≤ ps.length from hk), hk]
    · simp [show ¬ j < min k ps.length by omega, show ¬ j < min (k+1) ps.length by omega, show k ≠ j by omega, show ¬ j < k + 1 by omega, Nat.min_eq_left (Nat.le_of_lt hk), Nat.min_eq_left (show k + 1 ≤ ps.length from hk)]
      rw [if_neg h1, show k + (j - k) = k + 1 + (j - (k + 1)) by omega]

theorem upTo_all (ps : List Proc) (c : Child) : upTo ps ps.length c = ps.map fun (p : Proc) => { p with ph := c } := by simp [upTo]

/-- The processes leave the stop barrier. -/
theorem run_leave {st : St} (ho : st.stopOpen = true) (ht : st.term = true) (h : ∀ p ∈ st.procs, p.ph = .atStop) {k : Nat} (hk : k ≤ st.procs.length) :
    run st ((List.range k).map .child) = some { st with procs := upTo st.procs k .over } := by
  induction k with
  | zero => simp [run, upTo]
  | succ k ih =>
    rw [List.range_succ, List.map_append, run_append, ih (by omega)]
    have hp : st.procs[k].ph = .atStop := h _ (List.getElem_mem (by omega))
    simp only [List.map_cons, List.map_nil, Option.bind_some, run, step, child, upTo_get (show k < st.procs.length by omega), hp, ho, if_true, St.at, upTo_succ (show k < st.procs.length by omega)]
    simp [ht]

/-- They are interrupted. -/
theorem run_interrupted {st : St} (h : ∀ p ∈ st.procs, p.ph = .running ∨ p.ph = .atStop) {k : Nat} (hk : k ≤ st.procs.length) :
    ∃ b, run st ((List.range k).map .childInterrupt) = some { st with procs := upTo st.procs k .atStop, stopOpen := b } := by
  induction k with
  | zero => exact ⟨st.stopOpen, by simp [run, upTo]⟩
  | succ k ih =>
    obtain ⟨b, ih⟩ := ih (by omega)
    rw [List.range_succ, List.map_append, run_append, ih]
    have hl : k < st.procs.length := by omega
    rcases h _ (List.getElem_mem hl) with hp | hp
    · refine ⟨?w, ?a⟩
      case a =>
        simp only [List.map_cons, List.map_nil, Option.bind_some, run, step, upTo_get hl, hp, St.at, upTo_succ hl]
        rw [opensStop_pc]
    · refine ⟨b, ?_⟩
      simp only [List.map_cons, List.map_nil, Option.bind_some, run, step, upTo_get hl, hp]
      have : upTo st.procs (k + 1) .atStop = upTo st.procs k .atStop := by
        rw [← upTo_succ hl]
        apply List.ext_getElem?
        intro j
        rw [List.getElem?_modify]
        by_cases hj : k = j
        · subst hj
          rw [upTo_get hl]; simp [← hp]
        · simp [hj]
      rw [this]

/-- **C99**: if all processes are interrupted while they run, each of them once, and they come to their end, so does the run: it returns, and nothing is left. -/
theorem C99_graceful {n : Nat} {as : List Act} {st : St} (h : run (init n) as = some st) (hp : st.pc = .running) (hr : ∀ p ∈ st.procs, p.ph = .running ∨ p.ph = .atStop) :
    ∃ st', run st (.interrupt :: (List.range st.procs.length).map .childInterrupt ++ List.replicate 4 .next ++ (List.range st.procs.length).map .child ++ List.replicate 5 .next) = some st' ∧
      st'.pc = .ended .returned ∧ st'.Clean := by
  have hi := run_inv (init_inv n) h
  obtain ⟨b1, b2, b3, b4, b5, b6, b7, b8⟩ := hi.early (by rw [hp]; rfl)
  have ht := hi.todo (by rw [hp]; rfl)
  have hm0 : Meets (init n) := meets_pc rfl
  have e1 : step st .interrupt = some { st with pc := .atStop (some .keyboard), stopOpen := (St.opensStop { st with pc := .atStop (some .keyboard) }).stopOpen } := by
    simp only [step, interrupt, hp]; rw [opensStop_pc]
  generalize hb0 : (St.opensStop { st with pc := .atStop (some .keyboard) }).stopOpen = b0 at e1
  obtain ⟨b, e2⟩ := run_interrupted (st := { st with pc := .atStop (some .keyboard), stopOpen := b0 }) hr (Nat.le_refl _)
  rw [upTo_all] at e2
  simp only at e2
  generalize hps : st.procs.map (fun (p : Proc) => { p with ph := .atStop }) = ps at e2
  have hall : ∀ p ∈ ps, p.ph = .atStop := by
    subst hps; intro p hm; simp only [List.mem_map] at hm; obtain ⟨q, _, rfl⟩ := hm; rfl
  have hlen : ps.length = st.procs.length := by subst hps; simp
  have hb : b = true := by
    have hm := run_meets (run_meets hm0 h) (show run st (.interrupt :: (List.range st.procs.length).map .childInterrupt) = _ by simp only [run, e1]; exact e2)
    exact hm rfl ht hall b7
  subst hb
  have e3 : run { st with pc := .atStop (some .keyboard), stopOpen := true, procs := ps } (List.replicate 4 .next) =
      some { st with pc := .joining2, stopOpen := true, procs := ps, term := true, interrupts := st.interrupts + 1 } := by
    simp [List.replicate, run, step, next, St.processEnds, St.throw]
  have e4 := run_leave (st := { st with pc := .joining2, stopOpen := true, procs := ps, term := true, interrupts := st.interrupts + 1 }) rfl rfl hall (Nat.le_refl _)
  rw [upTo_all] at e4
  simp only [hlen] at e4
  have hj : joined (ps.map fun (p : Proc) => { p with ph := .over }) = true := by simp [joined]
  have e5 : run { st with pc := .joining2, stopOpen := true, procs := ps.map fun (p : Proc) => { p with ph := .over }, term := true, interrupts := st.interrupts + 1 } [.next, .next] =
      some { st with pc := .context false, stopOpen := true, procs := ps.map fun (p : Proc) => { p with ph := .over }, term := true, interrupts := st.interrupts + 1, cleanup := true } := by
    simp only [run, step, next, hj, if_true, b3, Bool.false_eq_true, if_false, St.clean]
  have e6 := run_clean (st := { st with pc := .context false, stopOpen := true, procs := ps.map fun (p : Proc) => { p with ph := .over }, term := true, interrupts := st.interrupts + 1, cleanup := true }) (f := false) rfl
  refine ⟨?fin, ?steps, ?rest⟩
  case steps =>
    rw [show List.replicate 5 Act.next = [.next, .next] ++ List.replicate 3 .next from rfl, ← List.append_assoc]
    simp only [List.cons_append]
    simp only [run, e1]
    rw [run_append, run_append, run_append, run_append, e2]
    simp only [Option.bind_some]
    rw [e3]
    simp only [Option.bind_some]
    rw [e4]
    simp only [Option.bind_some]
    rw [e5]
    exact e6
  case rest =>
    refine ⟨?_, ?_, rfl, rfl⟩
    · simp [St.decide, b1, b2, b6]
    · intro p hm
      simp only [St.decide, List.mem_map] at hm
      obtain ⟨q, ⟨q', _, rfl⟩, rfl⟩ := hm
      rfl

/-! ## Nothing is left -/

structure Tidy (st : St) : Prop where
  last : st.pc = .last ∨ st.pc = .joining2 ∨ st.pc.early = true → st.cleanup = false
  tasks : ∀ f, st.pc = .tasks f → st.context = false
  thread : ∀ f, st.pc = .thread f → st.context = false ∧ st.loop = false
  ended : ∀ r, st.pc = .ended r → st.context = false ∧ st.loop = false
  listed : st.pc ≠ .listing → (∀ r, st.pc ≠ .ended r) → ∀ p ∈ st.procs, p.listed = true
  over : st.pc.cleaning ∨ (∃ r, st.pc = .ended r) → ∀ p ∈ st.procs, p.ph = .over

theorem over_of_joined {ps : List Proc} (h : joined ps = true) (hl : ∀ p ∈ ps, p.listed = true) : ∀ p ∈ ps, p.ph = .over := by
  intro p hp
  simp only [joined, List.all_eq_true] at h
  have := h p hp
  simpa [hl p hp] using this

theorem over_terminate {ps : List Proc} (hl : ∀ p ∈ ps, p.listed = true) : (∀ p ∈ terminate ps, p.ph = .over) ∧ ∀ p ∈ terminate ps, p.listed = true := by
  simp only [terminate, List.mem_map]
  constructor
  · rintro p ⟨q, hq, rfl⟩; simp [hl q hq]
  · rintro p ⟨q, hq, rfl⟩; simp [hl q hq]

/-- What only the processes do. -/
theorem Tidy.procs {st st' : St} (h : Tidy st) (h1 : st'.pc = st.pc) (h2 : st'.cleanup = st.cleanup) (h3 : st'.context = st.context) (h4 : st'.loop = st.loop)
    (h5 : ∀ p ∈ st'.procs, p ∈ st.procs ∨ ((∃ q ∈ st.procs, q.ph ≠ .over) ∧ ∃ q ∈ st.procs, q.listed = p.listed)) : Tidy st' := by
  obtain ⟨a1, a2, a3, a4, a5, a6⟩ := h
  constructor <;> simp only [h1, h2, h3, h4] <;> try assumption
  · intro c1 c2 p hp
    rcases h5 p hp with h | ⟨_, q, hq, e⟩
    · exact a5 c1 c2 p h
    · rw [← e]; exact a5 c1 c2 q hq
  · intro c p hp
    rcases h5 p hp with h | ⟨⟨q, hq, e⟩, _⟩
    · exact a6 c p h
    · exact absurd (a6 c q hq) e

theorem at_procs {st : St} {i : Nat} {c : Child} {p : Proc} (hp : st.procs[i]? = some p) (ho : p.ph ≠ .over) :
    ∀ q ∈ (st.at i c).procs, q ∈ st.procs ∨ ((∃ q ∈ st.procs, q.ph ≠ .over) ∧ ∃ q' ∈ st.procs, q'.listed = q.listed) := by
  intro q hq
  simp only [St.at] at hq
  obtain ⟨j, hj⟩ := List.mem_iff_getElem?.1 hq
  rw [List.getElem?_modify] at hj
  have hmem := List.mem_of_getElem? hp
  by_cases hij : i = j
  · subst hij
    simp only [hp, if_true, Option.map_eq_map, Option.map_some, Option.some.injEq] at hj
    subst hj
    exact .inr ⟨⟨p, hmem, ho⟩, p, hmem, rfl⟩
  · simp only [hij, if_false, Option.map_eq_map, id, Option.map_id'] at hj
    exact .inl (List.mem_of_getElem? hj)

theorem opensStop_tidy {st : St} : (st.opensStop.pc = st.pc ∧ st.opensStop.cleanup = st.cleanup) ∧ st.opensStop.context = st.context ∧ st.opensStop.loop = st.loop ∧ st.opensStop.procs = st.procs := by
  rw [opensStop_pc]; exact ⟨⟨rfl, rfl⟩, rfl, rfl, rfl⟩

theorem opensStart_tidy {st : St} : (st.opensStart.pc = st.pc ∧ st.opensStart.cleanup = st.cleanup) ∧ st.opensStart.context = st.context ∧ st.opensStart.loop = st.loop ∧ st.opensStart.procs = st.procs := by
  rw [opensStart_pc]; exact ⟨⟨rfl, rfl⟩, rfl, rfl, rfl⟩

theorem Tidy.opensStop {st : St} (h : Tidy st) : Tidy st.opensStop :=
  h.procs opensStop_tidy.1.1 opensStop_tidy.1.2 opensStop_tidy.2.1 opensStop_tidy.2.2.1 (by rw [opensStop_tidy.2.2.2]; exact fun p hp => .inl hp)

theorem Tidy.opensStart {st : St} (h : Tidy st) : Tidy st.opensStart :=
  h.procs opensStart_tidy.1.1 opensStart_tidy.1.2 opensStart_tidy.2.1 opensStart_tidy.2.2.1 (by rw [opensStart_tidy.2.2.2]; exact fun p hp => .inl hp)

theorem Tidy.at {st : St} (h : Tidy st) {i : Nat} {c : Child} {p : Proc} (hp : st.procs[i]? = some p) (ho : p.ph ≠ .over) : Tidy (st.at i c) :=
  h.procs rfl rfl rfl rfl (at_procs hp ho)

theorem late_tidy {st : St} (h : Tidy st) (hp : st.pc = .last) : Tidy st.late := by
  obtain ⟨a1, a2, a3, a4, a5, a6⟩ := h
  have hc := a1 (.inl hp)
  have hl := a5 (by simp [hp]) (by simp [hp])
  have ho := over_terminate hl
  unfold St.late
  simp only [hc, Bool.false_eq_true, if_false]
  split
  · constructor <;> simp [St.force, St.clean, Pc.early]
    · exact ho.2
    · exact fun _ => ho.1
  · constructor <;> simp [Pc.early, Pc.cleaning, hc]
    exact hl

theorem throw_tidy {st : St} (h : Tidy st) (he : st.pc.early = true) (hn : st.pc ≠ .listing) (e : Exc) : Tidy (st.throw e) := by
  obtain ⟨a1, a2, a3, a4, a5, a6⟩ := h
  have hc := a1 (.inr (.inr he))
  have hl := a5 hn (by intro r hr; simp [hr, Pc.early] at he)
  cases e <;> constructor <;> simp [St.throw, Pc.early, Pc.cleaning, hc] <;> exact hl

theorem decide_tidy {st : St} (h1 : st.context = false) (h2 : st.loop = false) (h3 : ∀ p ∈ st.procs, p.ph = .over) : Tidy st.decide := by
  constructor <;> simp [St.decide, Pc.early, h1, h2]
  intros; apply h3; assumption

theorem step_tidy {st st' : St} {a : Act} (h : Tidy st) (hm : ¬ Mishap a st.pc) (hs : step st a = some st') : Tidy st' := by
  have h' := h
  obtain ⟨a1, a2, a3, a4, a5, a6⟩ := h
  cases a with
  | interrupt =>
    simp only [step, interrupt] at hs
    simp only [Mishap] at hm
    split at hs <;> rename_i hpc <;> simp only [hpc, Pc.early, Pc.cleaning, not_or, not_true_eq_false, and_false, false_and] at a1 a2 a3 a4 a5 a6 hm <;> (try cases hs) <;>
      first
      | exact throw_tidy h' (by rw [hpc]; rfl) (by rw [hpc]; simp) _
      | exact h'
      | exact late_tidy h' hpc
      | exact absurd trivial hm.1
      | (apply Tidy.opensStop; constructor <;> simp only [Pc.early, Pc.cleaning] <;> grind)
      | (constructor <;> simp only [Pc.early, Pc.cleaning] <;> grind)
      | skip
    have ho := over_terminate (a5 (by simp) (by simp))
    constructor <;> simp only [St.force, Pc.early, Pc.cleaning] <;> grind
  | next =>
    simp only [step, next] at hs
    split at hs <;> rename_i hpc <;> simp only [hpc, Pc.early, Pc.cleaning] at a1 a2 a3 a4 a5 a6 <;> (repeat' split at hs) <;> (try cases hs) <;>
      first
      | (apply Tidy.opensStop; constructor <;> simp only [Pc.early, Pc.cleaning] <;> grind)
      | (apply Tidy.opensStart; constructor <;> simp only [Pc.early, Pc.cleaning] <;> grind)
      | (constructor <;> simp only [Pc.early, Pc.cleaning] <;> grind)
      | skip
    · rename_i e; cases e with
      | some e => exact throw_tidy h' (by rw [hpc]; rfl) (by rw [hpc]; simp) e
      | none => constructor <;> simp only [St.processEnds, Pc.early, Pc.cleaning] <;> grind
    · rename_i hc; have := a1 (by simp); simp [this] at hc
    · rename_i hj _
      have ho := over_of_joined hj (a5 (by simp) (by simp))
      constructor <;> simp only [St.clean, Pc.early, Pc.cleaning] <;> grind
    · rename_i f
      obtain ⟨c1, c2⟩ := a3 f rfl
      refine decide_tidy c1 c2 ?_
      simp only [List.mem_map]
      rintro p ⟨q, hq, rfl⟩
      exact a6 (.inl trivial) q hq
  | fails =>
    simp only [step] at hs
    simp only [Mishap] at hm
    split at hs <;> rename_i hpc <;> simp only [hpc, Pc.cleaning, not_true_eq_false] at hm <;> cases hs
    · refine throw_tidy (st := { st with startBroken := true }) (h'.procs rfl rfl rfl rfl (fun p hp => .inl hp)) (by simp [hpc, Pc.early]) (by simp [hpc]) _
    · simp only [hpc, Pc.early, Pc.cleaning] at a1 a2 a3 a4 a5 a6
      apply Tidy.opensStop; constructor <;> simp only [Pc.early, Pc.cleaning] <;> grind
  | unclean =>
    simp only [step] at hs
    split at hs <;> rename_i hpc <;> cases hs
    simp only [hpc, Pc.early, Pc.cleaning] at a1 a2 a3 a4 a5 a6
    constructor <;> simp only [Pc.early, Pc.cleaning] <;> grind
  | child i =>
    simp only [step, child] at hs
    split at hs
    · cases hs
    · rename_i hp
      split at hs <;> rename_i hph
      · cases hs; exact (h'.at hp (by simp [hph])).opensStart
      · (repeat' split at hs) <;> cases hs
        · exact h'.at hp (by simp [hph])
        · exact (h'.at hp (by simp [hph])).opensStop
      · cases hs; exact (h'.at hp (by simp [hph])).opensStop
      · (repeat' split at hs) <;> cases hs
        · exact (h'.at (c := .over) hp (by simp [hph])).procs rfl rfl rfl rfl (fun p hp => .inl hp)
        · exact h'.at hp (by simp [hph])
      · cases hs
  | childFails i =>
    simp only [step] at hs
    split at hs
    · rename_i hp
      split at hs <;> rename_i hph <;> cases hs
      exact (h'.at (c := .over) hp (by simp [hph])).procs rfl rfl rfl rfl (fun p hp => .inl hp)
    · cases hs
  | childInterrupt i =>
    simp only [step] at hs
    split at hs
    · rename_i hp
      split at hs <;> rename_i hph <;> cases hs
      · exact h'.at hp (by simp [hph])
      · exact (h'.at hp (by simp [hph])).opensStop
      · exact (h'.at hp (by simp [hph])).opensStop
      · exact h'
    · cases hs
  | childDies i =>
    simp only [step] at hs
    split at hs
    · rename_i hp
      split at hs <;> rename_i hph <;> cases hs
      exact h'.at hp (by rcases hph with e | e <;> simp [e])
    · cases hs
  | closes =>
    simp only [step] at hs
    split at hs <;> cases hs
    constructor <;> grind

theorem run_tidy {st st' : St} {as : List Act} (h : Tidy st) (hm : Spares Mishap st as) (hr : run st as = some st') : Tidy st' := by
  induction as generalizing st with
  | nil => cases hr; exact h
  | cons a as ih =>
    simp only [run] at hr
    simp only [Spares] at hm
    split at hr
    · rename_i hs
      rw [hs] at hm
      exact ih (step_tidy h hm.1 hs) hm.2 hr
    · cases hr

/-- **C99** (partial): a run that has ended has left nothing behind: no process that it has started runs, the graph context is closed, the thread of the loop is told to stop. Missing: interrupts that come during the cleanup, or between the start of
a process and the note that is made of it, and exceptions during the cleanup: `C99_left_running`, `C99_left_process`. -/
theorem C99_cleaned_partial {n : Nat} {as : List Act} {st : St} {r : End} (h : run (init n) as = some st) (hm : Spares Mishap (init n) as) (hp : st.pc = .ended r) : st.Clean := by
  have ht : Tidy (init n) := by constructor <;> simp [init, Pc.cleaning]
  have hi := run_tidy ht hm h
  exact ⟨hi.over (.inr ⟨r, hp⟩), (hi.ended r hp).1, (hi.ended r hp).2⟩

/-! ## Violations -/

/-- **C99** (the code violates the claim that nothing is left): one interrupt during the cleanup, and `run` returns while the thread of its loop runs on: the second call of `_cleanup` finds that the first one was made. The thread is not a daemon: the program does not end. -/
theorem C99_left_running : ∃ st, run (init 0) (List.replicate 10 .next ++ [.interrupt, .next]) = some st ∧ st.pc = .ended .returned ∧ st.loop = true :=
  ⟨_, rfl, rfl, rfl⟩

/-- **C99** (the code violates it likewise for processes): an interrupt between the start of a process and the note that is made of it, and the run returns while the process waits at the start barrier, for ever. -/
theorem C99_left_process : ∃ st, run (init 1) ([.next, .interrupt, .child 0] ++ List.replicate 5 .next) = some st ∧ st.pc = .ended .returned ∧
    ∃ p, st.procs[0]? = some p ∧ p.ph = .atStart ∧ child st 0 = none :=
  ⟨_, rfl, rfl, _, rfl, rfl, rfl⟩

/-- A process that is over stays so, and keeps the stop barrier closed. -/
theorem deaf_step {st st' : St} {a : Act} {e : Option Exc} {i : Nat} {p : Proc} (hp : st.pc = .atStop e) (hi : st.procs[i]? = some p) (ho : p.ph = .over) (hc : st.stopOpen = false)
    (hs : step st a = some st') : st'.pc = .atStop e ∧ (∃ p, st'.procs[i]? = some p ∧ p.ph = .over) ∧ st'.stopOpen = false := by
  have key : ∀ s : St, (∃ p, s.procs[i]? = some p ∧ p.ph = .over) → s.stopOpen = false → s.opensStop = s := by
    rintro s ⟨q, hq, hqo⟩ _
    unfold St.opensStop
    rw [if_neg]
    intro h
    simp only [Bool.and_eq_true, List.all_eq_true] at h
    have := h.1.2 q (List.mem_of_getElem? hq)
    simp [hqo] at this
  have hat : ∀ (j : Nat) (c : Child) (q : Proc), st.procs[j]? = some q → q.ph ≠ .over → ∃ p, (st.at j c).procs[i]? = some p ∧ p.ph = .over := by
    intro j c q hq hn
    have hne : j ≠ i := by rintro rfl; rw [hi] at hq; cases hq; exact hn ho
    exact ⟨p, by simp [St.at, List.getElem?_modify, hne, hi], ho⟩
  cases a with
  | interrupt => simp only [step, interrupt, hp] at hs; cases hs; exact ⟨hp, ⟨p, hi, ho⟩, hc⟩
  | next => simp [step, next, hp, hc] at hs
  | fails => simp [step, hp] at hs
  | unclean => simp [step, hp] at hs
  | child j =>
    simp only [step, child] at hs
    split at hs
    · cases hs
    · rename_i q hq
      split at hs <;> rename_i hph
      · cases hs
        have hne : ¬ (st.at j .atStart).pc = .atStart := by simp [St.at, hp]
        have : (st.at j .atStart).opensStart = st.at j .atStart := by unfold St.opensStart; rw [if_neg (by simp [hne])]
        rw [this]; exact ⟨hp, hat j _ q hq (by simp [hph]), hc⟩
      · (repeat' split at hs) <;> cases hs
        · exact ⟨hp, hat j _ q hq (by simp [hph]), hc⟩
        · rw [key _ (hat j _ q hq (by simp [hph])) hc]; exact ⟨hp, hat j _ q hq (by simp [hph]), hc⟩
      · cases hs; rw [key _ (hat j _ q hq (by simp [hph])) hc]; exact ⟨hp, hat j _ q hq (by simp [hph]), hc⟩
      · (repeat' split at hs) <;> cases hs
        · rename_i h; simp [hc] at h
        · exact ⟨hp, hat j _ q hq (by simp [hph]), hc⟩
      · cases hs
  | childFails j =>
    simp only [step] at hs
    split at hs
    · rename_i q hq
      split at hs <;> rename_i hph <;> cases hs
      exact ⟨hp, hat j _ q hq (by simp [hph]), hc⟩
    · cases hs
  | childInterrupt j =>
    simp only [step] at hs
    split at hs
    · rename_i q hq
      split at hs <;> rename_i hph <;> cases hs
      · exact ⟨hp, hat j _ q hq (by simp [hph]), hc⟩
      · rw [key _ (hat j _ q hq (by simp [hph])) hc]; exact ⟨hp, hat j _ q hq (by simp [hph]), hc⟩
      · rw [key _ (hat j _ q hq (by simp [hph])) hc]; exact ⟨hp, hat j _ q hq (by simp [hph]), hc⟩
      · exact ⟨hp, ⟨p, hi, ho⟩, hc⟩
    · cases hs
  | childDies j =>
    simp only [step] at hs
    split at hs
    · rename_i q hq
      split at hs <;> rename_i hph <;> cases hs
      exact ⟨hp, hat j _ q hq (by rcases hph with e | e <;> simp [e]), hc⟩
    · cases hs
  | closes =>
    simp only [step] at hs
    split at hs <;> cases hs; exact ⟨hp, ⟨p, hi, ho⟩, hc⟩

theorem deaf_run {st st' : St} {as : List Act} {e : Option Exc} {i : Nat} (hp : st.pc = .atStop e) (hi : ∃ p, st.procs[i]? = some p ∧ p.ph = .over) (hc : st.stopOpen = false)
    (hr : run st as = some st') : st'.pc = .atStop e := by
  induction as generalizing st with
  | nil => cases hr; exact hp
  | cons a as ih =>
    simp only [run] at hr
    obtain ⟨p, hi, ho⟩ := hi
    split at hr
    · rename_i hs
      obtain ⟨h1, h2, h3⟩ := deaf_step hp hi ho hc hs
      exact ih h1 h2 h3 hr
    · cases hr

/-- **C99** (the code violates "interrupt again to force quit"): when a process has died, an interrupt makes the main process wait at the stop barrier for ever: however often it is interrupted, and whatever else happens. -/
theorem C99_deaf : ∃ st, run (init 1) [.next, .next, .next, .next, .child 0, .next, .child 0, .childDies 0, .interrupt] = some st ∧ (∀ k, run st (List.replicate k .interrupt) = some st) ∧
    ∀ bs st', run st bs = some st' → ∀ r, st'.pc ≠ .ended r := by
  refine ⟨⟨0, [⟨.over, true⟩], .atStop (some .keyboard), 0, false, none, false, true, false, false, false, false, true, true, false⟩, rfl, ?_, ?_⟩
  · intro k
    induction k with
    | zero => rfl
    | succ k ih => rw [List.replicate_succ]; exact ih
  · intro bs st' h r hr
    have := deaf_run (i := 0) (e := some .keyboard) rfl ⟨_, rfl, rfl⟩ rfl h
    rw [this] at hr; cases hr

/-- A listed process waits at a barrier while the main thread waits for it. -/
theorem stuck_step {st st' : St} {a : Act} {i : Nat} {p : Proc} (ha : a ≠ .interrupt) (hp : st.pc = .joining2) (hi : st.procs[i]? = some p) (hl : p.listed = true) (ho : p.ph = .atStart ∨ p.ph = .atStop)
    (hs : st.startOpen = false) (hc : st.stopOpen = false) (hb : st.stopBroken = false) (h : step st a = some st') :
    st'.pc = .joining2 ∧ (∃ p, st'.procs[i]? = some p ∧ p.listed = true ∧ (p.ph = .atStart ∨ p.ph = .atStop)) ∧ st'.startOpen = false ∧ st'.stopOpen = false ∧ st'.stopBroken = false := by
  have key : ∀ s : St, s.pc = .joining2 → s.opensStop = s ∧ s.opensStart = s := by
    intro s h; constructor
    · unfold St.opensStop; rw [if_neg (by simp [h, Pc.isAtStop])]
    · unfold St.opensStart; rw [if_neg (by simp [h])]
  have hat : ∀ (j : Nat) (c : Child) (q : Proc), st.procs[j]? = some q → (q.ph ≠ .atStart ∧ q.ph ≠ .atStop) ∨ c = .atStart ∨ c = .atStop →
      ∃ p, (st.at j c).procs[i]? = some p ∧ p.listed = true ∧ (p.ph = .atStart ∨ p.ph = .atStop) := by
    intro j c q hq hn
    by_cases hne : j = i
    · subst hne
      rw [hi] at hq; cases hq
      refine ⟨{ p with ph := c }, by simp [St.at, List.getElem?_modify, hi], hl, ?_⟩
      rcases hn with ⟨h1, h2⟩ | hn
      · rcases ho with e | e
        · exact absurd e h1
        · exact absurd e h2
      · exact hn
    · exact ⟨p, by simp [St.at, List.getElem?_modify, hne, hi], hl, ho⟩
  have hk : ∀ (j : Nat) (c : Child), (st.at j c).opensStop = st.at j c ∧ (st.at j c).opensStart = st.at j c := fun j c => key _ hp
  cases a with
  | interrupt => exact absurd rfl ha
  | next =>
    simp only [step, next, hp] at h
    split at h
    · rename_i hj
      simp only [joined, List.all_eq_true] at hj
      have := hj p (List.mem_of_getElem? hi)
      rcases ho with e | e <;> simp [hl, e] at this
    · cases h
  | fails => simp [step, hp] at h
  | unclean => simp [step, hp] at h
  | child j =>
    simp only [step, child] at h
    split at h
    · cases h
    · rename_i q hq
      split at h <;> rename_i hph
      · cases h; rw [(hk _ _).2]; exact ⟨hp, hat j _ q hq (by simp), hs, hc, hb⟩
      · (repeat' split at h) <;> cases h
        · rename_i h; simp [hs] at h
        · rw [(hk _ _).1]; exact ⟨hp, hat j _ q hq (by simp), hs, hc, hb⟩
      · cases h; rw [(hk _ _).1]; exact ⟨hp, hat j _ q hq (by simp), hs, hc, hb⟩
      · simp [hc, hb] at h
      · cases h
  | childFails j =>
    simp only [step] at h
    split at h
    · rename_i q hq
      split at h <;> rename_i hph <;> cases h
      exact ⟨hp, hat j _ q hq (by simp [hph]), hs, hc, hb⟩
    · cases h
  | childInterrupt j =>
    simp only [step] at h
    split at h
    · rename_i q hq
      split at h <;> rename_i hph <;> cases h
      · exact ⟨hp, hat j _ q hq (by simp [hph]), hs, hc, hb⟩
      · rw [(hk _ _).1]; exact ⟨hp, hat j _ q hq (by simp), hs, hc, hb⟩
      · rw [(hk _ _).1]; exact ⟨hp, hat j _ q hq (by simp), hs, hc, hb⟩
      · exact ⟨hp, ⟨p, hi, hl, ho⟩, hs, hc, hb⟩
    · cases h
  | childDies j =>
    simp only [step] at h
    split at h
    · rename_i q hq
      split at h <;> rename_i hph <;> cases h
      exact ⟨hp, hat j _ q hq (by rcases hph with e | e <;> simp [e]), hs, hc, hb⟩
    · cases h
  | closes =>
    simp only [step] at h
    split at h <;> cases h; exact ⟨hp, ⟨p, hi, hl, ho⟩, hs, hc, hb⟩

theorem stuck_run {st st' : St} {as : List Act} {i : Nat} (ha : interruptsIn as = 0) (hp : st.pc = .joining2) (hi : ∃ p, st.procs[i]? = some p ∧ p.listed = true ∧ (p.ph = .atStart ∨ p.ph = .atStop))
    (hs : st.startOpen = false) (hc : st.stopOpen = false) (hb : st.stopBroken = false) (hr : run st as = some st') : st'.pc = .joining2 := by
  induction as generalizing st with
  | nil => cases hr; exact hp
  | cons a as ih =>
    simp only [run] at hr
    obtain ⟨p, hi, hl, ho⟩ := hi
    simp only [interruptsIn, List.count_cons] at ha
    split at hr
    · rename_i h
      obtain ⟨h1, h2, h3, h4, h5⟩ := stuck_step (by rintro rfl; simp at ha) hp hi hl ho hs hc hb h
      exact ih (by simp only [interruptsIn]; omega) h1 h2 h3 h4 h5 hr
    · cases hr

/-- **C99** (the code violates "graceful shutdown" when it is asked for early): if the main process is interrupted while it sets up, the processes that wait for it at the start barrier are never told, and the run never ends without a further interrupt. -/
theorem C99_start_hangs : ∃ st, run (init 1) [.next, .next, .next, .child 0, .interrupt] = some st ∧ st.term = true ∧
    ∀ bs st', interruptsIn bs = 0 → run st bs = some st' → ∀ r, st'.pc ≠ .ended r := by
  refine ⟨_, rfl, rfl, ?_⟩
  intro bs st' hb h r hr
  have := stuck_run (i := 0) hb rfl ⟨_, rfl, rfl, .inl rfl⟩ rfl rfl rfl h
  rw [this] at hr; cases hr

/-! ## Examples -/

/-- Two processes besides the main one, everybody is interrupted while they run. -/
example : ∃ as st, run (init 2) as = some st ∧ st.pc = .running ∧ st.procs.length = 2 ∧ (∀ p ∈ st.procs, p.ph = .running ∨ p.ph = .atStop) :=
  ⟨List.replicate 6 .next ++ [.child 0, .child 1, .child 0, .child 1, .next, .child 1], _, rfl, rfl, rfl, by decide⟩

/-- A process does not come to its end: a second interrupt ends it and the run. -/
example : ∃ as st, run (init 1) as = some st ∧ st.pc = .joining2 ∧ joined st.procs = false ∧ ∃ st', run st [.interrupt, .next, .next, .next, .next] = some st' ∧ st'.pc = .ended .sigint :=
  ⟨[.next, .next, .next, .next, .child 0, .next, .child 0, .interrupt, .child 0, .next, .next, .next, .next], _, rfl, rfl, by decide, _, rfl, rfl⟩

/-- Setting up fails; the processes do not end; two interrupts. -/
example : ∃ as st, run (init 1) as = some st ∧ st.pc = .last ∧ st.cleanup = false ∧ st.interrupts = 1 ∧ joined st.procs = false :=
  ⟨[.next, .next, .next, .child 0, .fails, .child 0, .interrupt], _, rfl, rfl, rfl, rfl, by decide⟩

/-- A thread that does not end: after an interrupt the program ends by `SIGINT`; without one it returns. -/
example : (∃ st, run (init 0) ([.next, .next, .next, .interrupt] ++ List.replicate 7 .next ++ [.unclean, .next]) = some st ∧ st.pc = .ended .sigint ∧ st.Clean) ∧
    ∃ st, run (init 0) ([.next, .next, .next, .next] ++ List.replicate 7 .next ++ [.unclean, .next]) = some st ∧ st.pc = .ended .returned ∧ st.Clean :=
  ⟨⟨_, rfl, rfl, by decide, rfl, rfl⟩, _, rfl, rfl, by decide, rfl, rfl⟩

/-- The runner hears of an interrupt while it runs. -/
example : ¬ Spares Heard (init 0) [.next, .next, .next, .interrupt] := by
  intro h; exact h.2.2.2.1 trivial

/-- Setting up fails without other processes. -/
example : ∃ st, run (init 0) [.next, .fails, .next, .next, .next, .next] = some st ∧ st.pc = .ended (.raised .other) ∧ st.Clean :=
  ⟨_, rfl, rfl, by decide, rfl, rfl⟩

/-- A run with an interrupt that spares the cleanup. -/
example : Spares Mishap (init 1) [.next, .next, .next, .next, .child 0, .next, .child 0, .interrupt, .childInterrupt 0, .next, .next] := by
  simp [Spares, Mishap, Pc.cleaning, init, step, next, interrupt, child, St.at, St.opensStart, St.opensStop, Pc.isAtStop]

end Interrupt
end Ez
