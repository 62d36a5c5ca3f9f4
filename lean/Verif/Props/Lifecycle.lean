import Verif.Model.Lifecycle

/-!
# C70: starting and stopping the processes of a system
-/

namespace Ez
namespace Procs

set_option linter.unusedSectionVars false
set_option linter.unusedSimpArgs false

variable {P : Type} [DecidableEq P]

/-- A process which has set up all its units. -/
def Ready (x : Proc) : Prop := x.status ≠ .setup ∧ x.status ≠ .failed

/-- A process with a coroutine or a main function which is still running. -/
def Active (x : Proc) : Prop := 0 < x.tasks ∨ 0 < x.endless ∨ x.main = true

/-- A process which has come to the stop barrier. -/
def Stopped (x : Proc) : Prop := x.status = .waitStop ∨ x.status = .closing ∨ x.status = .gone

/-- What the barriers ensure in every run. -/
structure Inv (cfg : Cfg P) (st : St P) : Prop where
  opened : st.startOpen = true → (∀ q ∈ cfg.ps, Ready (st.procs q)) ∧ st.runner ≠ .busy
  active : ∀ p, Active (st.procs p) → st.startOpen = true
  running : ∀ p, (st.procs p).status = .running → st.startOpen = true
  stopped : st.stopOpen = true → ∀ q ∈ cfg.ps, Stopped (st.procs q)
  closing : ∀ p, (st.procs p).status = .closing ∨ (st.procs p).status = .gone → st.stopOpen = true
  busy : cfg.runner = false → st.runner ≠ .busy
  joined : st.runner = .joined →
    ∀ q ∈ cfg.ps, (st.procs q).status = .gone ∨ (st.procs q).status = .failed
  started : st.runner = .started → st.startOpen = true

theorem Inv.init (cfg : Cfg P) : Inv cfg (Procs.init cfg) := by
  constructor <;> simp [Procs.init, Active] <;> split <;> simp

theorem Inv.step {cfg : Cfg P} {st st' : St P} {a : Act P} (h : Inv cfg st)
    (e : Procs.step cfg st a = some st') : Inv cfg st' := by
  obtain ⟨h1, h2, h3, h4, h5, h6, h7, h8⟩ := h
  cases a <;> simp only [Procs.step, Option.ite_none_right_eq_some, Option.some.injEq] at e <;>
    obtain ⟨g, rfl⟩ := e <;>
    (try simp only [checkStart, checkStop, setProc]) <;>
    (try split) <;>
    constructor <;>
    simp only [Active, Ready, Stopped] at * <;>
    grind

/-- Nothing goes wrong: no set-up fails, no main function raises an exception other than
`NormalTermination`, no process is interrupted. -/
def Calm : Act P → Prop
  | .setupFails _ | .mainFails _ | .interrupt _ => False
  | _ => True

/-- What holds in addition when nothing goes wrong. -/
structure Smooth (cfg : Cfg P) (st : St P) : Prop where
  whole : st.startBroken = false
  nofail : ∀ p, (st.procs p).status ≠ .failed
  late : ∀ p, (st.procs p).status ≠ .setup → (st.procs p).status ≠ .waitStart → st.startOpen = true
  waits : cfg.runner = true → st.startOpen = false → st.runner = .busy ∨ st.runner = .waiting
  opens : ∀ p ∈ cfg.ps, (∀ q ∈ cfg.ps, (st.procs q).status ≠ .setup) → st.runner ≠ .busy →
    st.startOpen = true
  idle : ∀ p, Active (st.procs p) → (st.procs p).status = .running
  stops : ∀ p ∈ cfg.ps, (∀ q ∈ cfg.ps, Stopped (st.procs q)) → st.stopOpen = true
  endless : ∀ p, (st.procs p).endless ≤ cfg.endless p

theorem Smooth.init (cfg : Cfg P) : Smooth cfg (Procs.init cfg) := by
  constructor <;> simp [Procs.init, Active, Stopped]
  · intro h; simp [h]
  · intro p hp h; exact absurd hp (h p)
  · intro p hp; exact ⟨p, hp⟩

theorem Smooth.step {cfg : Cfg P} {st st' : St P} {a : Act P} (i : Inv cfg st) (h : Smooth cfg st)
    (c : Calm a) (e : Procs.step cfg st a = some st') : Smooth cfg st' := by
  obtain ⟨i1, i2, i3, i4, i5, i6, i7, i8⟩ := i
  obtain ⟨h1, h2, h3, h4, h5, h6, h7, h8⟩ := h
  cases a <;> simp only [Calm] at c <;>
    simp only [Procs.step, Option.ite_none_right_eq_some, Option.some.injEq] at e <;>
    obtain ⟨g, rfl⟩ := e <;>
    (try simp only [checkStart, checkStop, setProc]) <;>
    (try split) <;>
    constructor <;>
    simp only [Active, Ready, Stopped] at * <;>
    grind

theorem run_append (cfg : Cfg P) (as bs : List (Act P)) (st : St P) :
    run cfg st (as ++ bs) = (run cfg st as).bind (fun st' => run cfg st' bs) := by
  induction as generalizing st with
  | nil => rfl
  | cons a as ih =>
    simp only [List.cons_append, run]
    cases Procs.step cfg st a with
    | none => rfl
    | some st' => simpa using ih st'

theorem run_inv {cfg : Cfg P} {as : List (Act P)} {st st' : St P} (h : Inv cfg st)
    (e : run cfg st as = some st') : Inv cfg st' := by
  induction as generalizing st with
  | nil => simp only [run, Option.some.injEq] at e; exact e ▸ h
  | cons a as ih =>
    simp only [run, Option.bind_eq_some_iff] at e
    obtain ⟨st1, e1, e2⟩ := e
    exact ih (h.step e1) e2

theorem run_smooth {cfg : Cfg P} {as : List (Act P)} {st st' : St P} (h : Inv cfg st)
    (s : Smooth cfg st) (c : ∀ a ∈ as, Calm a) (e : run cfg st as = some st') : Smooth cfg st' := by
  induction as generalizing st with
  | nil => simp only [run, Option.some.injEq] at e; exact e ▸ s
  | cons a as ih =>
    simp only [run, Option.bind_eq_some_iff] at e
    obtain ⟨st1, e1, e2⟩ := e
    exact ih (h.step e1) (s.step h (c a (by simp)) e1) (fun x hx => c x (by simp [hx])) e2

/-- **C70.**  No coroutine and no main function runs before every process has set up all of its
units, with all their publishers and subscribers, and before the caller of `start` waits for them. -/
theorem C70_setup_first {cfg : Cfg P} {as : List (Act P)} {st : St P}
    (e : run cfg (Procs.init cfg) as = some st) {p : P} (a : Active (st.procs p)) :
    (∀ q ∈ cfg.ps, Ready (st.procs q)) ∧ st.runner ≠ .busy :=
  have i := run_inv (Inv.init cfg) e
  i.opened (i.active p a)

/-- **C70.**  `start` returns without an exception only if every process has set up all of its units. -/
theorem C70_started {cfg : Cfg P} {as : List (Act P)} {st : St P}
    (e : run cfg (Procs.init cfg) as = some st) (h : st.runner = .started) :
    ∀ q ∈ cfg.ps, Ready (st.procs q) :=
  have i := run_inv (Inv.init cfg) e
  (i.opened (i.started h)).1

/-- **C70.**  `stop` and `run_blocking` return only when every process has ended. -/
theorem C70_returns {cfg : Cfg P} {as : List (Act P)} {st : St P}
    (e : run cfg (Procs.init cfg) as = some st) (h : st.runner = .joined) :
    ∀ q ∈ cfg.ps, (st.procs q).status = .gone ∨ (st.procs q).status = .failed :=
  (run_inv (Inv.init cfg) e).joined h

/-- **C70.**  No process shuts down its units before every process has stopped. -/
theorem C70_stop_together {cfg : Cfg P} {as : List (Act P)} {st : St P}
    (e : run cfg (Procs.init cfg) as = some st) {p : P}
    (c : (st.procs p).status = .closing ∨ (st.procs p).status = .gone) :
    ∀ q ∈ cfg.ps, Stopped (st.procs q) :=
  have i := run_inv (Inv.init cfg) e
  i.stopped (i.closing p c)

/-- **C70** (partial: as long as nothing goes wrong).  When a process shuts down its units, no
coroutine and no main function of any process is running any more.  Missing: main functions which raise
exceptions and interrupts (`Example.C70_main_raises_fails`). -/
theorem C70_quiet_partial {cfg : Cfg P} {as : List (Act P)} {st : St P}
    (e : run cfg (Procs.init cfg) as = some st) (calm : ∀ a ∈ as, Calm a) {p : P}
    (c : (st.procs p).status = .closing ∨ (st.procs p).status = .gone) :
    ∀ q ∈ cfg.ps, ¬ Active (st.procs q) := by
  intro q hq ha
  have s := run_smooth (Inv.init cfg) (Smooth.init cfg) calm e
  have h1 := C70_stop_together e c q hq
  have h2 := s.idle q ha
  simp [Stopped, h2] at h1

/-- The steps which end a system: a coroutine or main function raises `NormalTermination`, or
`GraphRunner.stop` is called. -/
def Ends : Act P → Prop
  | .terminates _ | .terminatesLoop _ | .mainTerminates _ | .stop => True
  | _ => False

/-- The steps which the program takes by itself, given that coroutines which end by themselves do,
that coroutines which are cancelled end, and that main functions return. -/
def Own : Act P → Prop
  | .setupDone _ | .runnerArrives | .pass _ | .runnerPass | .taskEnds _ | .cancel _ | .mainEnds _
  | .finish _ | .passStop _ | .close _ | .joins => True
  | _ => False

theorem Own.calm {a : Act P} (h : Own a) : Calm a := by cases a <;> simp_all [Own, Calm]

theorem checkStart_term (cfg : Cfg P) (st : St P) : (checkStart cfg st).term = st.term := by
  unfold checkStart; split <;> rfl

theorem checkStop_term (cfg : Cfg P) (st : St P) : (checkStop cfg st).term = st.term := by
  unfold checkStop; split <;> rfl

theorem step_term {cfg : Cfg P} {st st' : St P} {a : Act P} (e : Procs.step cfg st a = some st')
    (h : st.term = true ∨ Ends a) : st'.term = true := by
  cases a <;> simp only [Ends, or_true, or_false] at h <;>
    simp only [Procs.step, Option.ite_none_right_eq_some, Option.some.injEq] at e <;>
    obtain ⟨g, rfl⟩ := e <;>
    simp_all [checkStart_term, checkStop_term, setProc]

theorem run_term {cfg : Cfg P} {as : List (Act P)} {st st' : St P} (e : run cfg st as = some st')
    (h : st.term = true ∨ ∃ a ∈ as, Ends a) : st'.term = true := by
  induction as generalizing st with
  | nil => simp only [run, Option.some.injEq] at e; subst e; simpa using h
  | cons a as ih =>
    simp only [run, Option.bind_eq_some_iff] at e
    obtain ⟨st1, e1, e2⟩ := e
    refine ih e2 ?_
    rcases h with h | ⟨x, hx, h⟩
    · exact .inl (step_term e1 (.inl h))
    · rcases List.mem_cons.mp hx with rfl | hx
      · exact .inl (step_term e1 (.inr h))
      · exact .inr ⟨x, hx, h⟩

/-- How many steps of its own a process has left. -/
def work (cfg : Cfg P) (p : P) (x : Proc) : Nat :=
  match x.status with
  | .setup => 6 + cfg.tasks p + cfg.endless p
  | .waitStart => 5 + cfg.tasks p + cfg.endless p
  | .running => 3 + x.tasks + x.endless + x.main.toNat
  | .waitStop => 2
  | .closing => 1
  | _ => 0

/-- How many steps of its own the runner has left. -/
def rank : Runner → Nat
  | .busy => 4
  | .waiting => 3
  | .started => 2
  | .joining => 1
  | .joined => 0

/-- How many steps a system takes by itself at most. -/
def budget (cfg : Cfg P) (st : St P) : Nat :=
  (cfg.ps.map (fun p => work cfg p (st.procs p))).sum + rank st.runner

theorem sum_le {f g : P → Nat} (l : List P) (h : ∀ p ∈ l, f p ≤ g p) :
    (l.map f).sum ≤ (l.map g).sum := by
  induction l with
  | nil => simp
  | cons x l ih =>
    have h1 := h x (by simp)
    have h2 := ih (fun p hp => h p (by simp [hp]))
    simp only [List.map_cons, List.sum_cons]; omega

theorem sum_lt {f g : P → Nat} (l : List P) (h : ∀ p ∈ l, f p ≤ g p) {p : P} (hp : p ∈ l)
    (hl : f p < g p) : (l.map f).sum < (l.map g).sum := by
  induction l with
  | nil => simp at hp
  | cons x l ih =>
    have h1 := h x (by simp)
    have h2 := sum_le l (fun p hp => h p (by simp [hp]))
    simp only [List.map_cons, List.sum_cons]
    rcases List.mem_cons.mp hp with rfl | hp
    · omega
    · have := ih (fun p hp => h p (by simp [hp])) hp; omega

theorem budget_proc {cfg : Cfg P} {st st' : St P} {p : P} (hp : p ∈ cfg.ps)
    (hq : ∀ q, q ≠ p → st'.procs q = st.procs q) (hr : st'.runner = st.runner)
    (hl : work cfg p (st'.procs p) < work cfg p (st.procs p)) : budget cfg st' < budget cfg st := by
  unfold budget
  rw [hr]
  have := sum_lt (f := fun p => work cfg p (st'.procs p)) (g := fun p => work cfg p (st.procs p))
    cfg.ps (by
      intro q _
      by_cases h : q = p
      · subst h; exact Nat.le_of_lt hl
      · simp [hq q h]) hp hl
  omega

theorem checkStart_procs (cfg : Cfg P) (st : St P) : (checkStart cfg st).procs = st.procs := by
  unfold checkStart; split <;> rfl

theorem checkStart_runner (cfg : Cfg P) (st : St P) : (checkStart cfg st).runner = st.runner := by
  unfold checkStart; split <;> rfl

theorem checkStop_procs (cfg : Cfg P) (st : St P) : (checkStop cfg st).procs = st.procs := by
  unfold checkStop; split <;> rfl

theorem checkStop_runner (cfg : Cfg P) (st : St P) : (checkStop cfg st).runner = st.runner := by
  unfold checkStop; split <;> rfl

theorem budget_step {cfg : Cfg P} {st st' : St P} {a : Act P} (s : Smooth cfg st) (o : Own a)
    (e : Procs.step cfg st a = some st') : budget cfg st' < budget cfg st := by
  have idle := s.idle
  cases a <;> simp only [Own] at o <;>
    simp only [Procs.step, Option.ite_none_right_eq_some, Option.some.injEq] at e <;>
    obtain ⟨g, rfl⟩ := e
  case runnerArrives => simp [budget, checkStart_procs, checkStart_runner, g, rank]
  case runnerPass => simp [budget, g, rank]
  case joins => simp [budget, g, rank]
  all_goals
    refine budget_proc (p := ‹P›) g.1 (fun q hq => ?_) ?_ ?_ <;>
    simp_all [checkStart_procs, checkStart_runner, checkStop_procs, checkStop_runner, setProc, work,
      Active] <;> grind [Bool.toNat_le]

theorem progress {cfg : Cfg P} {st : St P} (s : Smooth cfg st)
    (hd : st.term = true ∨ ∀ p ∈ cfg.ps, cfg.endless p = 0)
    (hn : ∀ a, Own a → Procs.step cfg st a = none) :
    (∀ p ∈ cfg.ps, (st.procs p).status = .gone) ∧ (cfg.ps ≠ [] → st.runner = .started ∨ st.runner = .joined) := by
  have no (a : Act P) (o : Own a) (h : (Procs.step cfg st a).isSome = true) : False := by
    rw [hn a o] at h; simp at h
  have h1 : ∀ p ∈ cfg.ps, (st.procs p).status ≠ .setup := fun p hp e =>
    no (.setupDone p) trivial (by simp [Procs.step, hp, e])
  have h2 : st.runner ≠ .busy := fun e => no .runnerArrives trivial (by simp [Procs.step, e])
  have h3 : ∀ p ∈ cfg.ps, (st.procs p).status ≠ .waitStart := fun p hp e =>
    no (.pass p) trivial (by simp [Procs.step, hp, e, s.opens p hp h1 h2])
  have h4 : ∀ p ∈ cfg.ps, (st.procs p).tasks = 0 := fun p hp => Nat.eq_zero_of_not_pos fun e =>
    no (.taskEnds p) trivial (by simp [Procs.step, hp, e])
  have h5 : ∀ p ∈ cfg.ps, (st.procs p).endless = 0 := fun p hp => Nat.eq_zero_of_not_pos fun e => by
    rcases hd with hd | hd
    · exact no (.cancel p) trivial (by simp [Procs.step, hp, e, hd])
    · have := s.endless p
      have := hd p hp
      omega
  have h6 : ∀ p ∈ cfg.ps, (st.procs p).status ≠ .running := fun p hp e => by
    cases hm : (st.procs p).main with
    | true => exact no (.mainEnds p) trivial (by simp [Procs.step, hp, e, hm])
    | false => exact no (.finish p) trivial (by simp [Procs.step, hp, e, hm, h4 p hp, h5 p hp])
  have h7 : ∀ p ∈ cfg.ps, Stopped (st.procs p) := fun p hp => by
    have e1 := h1 p hp
    have e3 := h3 p hp
    have e6 := h6 p hp
    have e7 := s.nofail p
    unfold Stopped
    cases h : (st.procs p).status <;> simp_all
  have h8 : ∀ p ∈ cfg.ps, (st.procs p).status = .gone := fun p hp => by
    rcases h7 p hp with e | e | e
    · exact (no (.passStop p) trivial (by simp [Procs.step, hp, e, s.stops p hp h7])).elim
    · exact (no (.close p) trivial (by simp [Procs.step, hp, e])).elim
    · exact e
  refine ⟨h8, fun hne => ?_⟩
  obtain ⟨p, hp⟩ := List.exists_mem_of_ne_nil _ hne
  have h9 := s.opens p hp h1 h2
  cases hr : st.runner with
  | busy => exact (h2 hr).elim
  | waiting => exact (no .runnerPass trivial (by simp [Procs.step, hr, h9])).elim
  | started => exact .inl rfl
  | joining => exact (no .joins trivial (by simp +contextual [Procs.step, hr, h8])).elim
  | joined => exact .inr rfl

theorem run_budget {cfg : Cfg P} {bs : List (Act P)} {st st' : St P} (i : Inv cfg st)
    (s : Smooth cfg st) (own : ∀ b ∈ bs, Own b) (e : run cfg st bs = some st') :
    bs.length + budget cfg st' ≤ budget cfg st := by
  induction bs generalizing st with
  | nil => simp only [run, Option.some.injEq] at e; subst e; simp
  | cons b bs ih =>
    simp only [run, Option.bind_eq_some_iff] at e
    obtain ⟨st1, e1, e2⟩ := e
    have o := own b (by simp)
    have h1 := budget_step s o e1
    have h2 := ih (i.step e1) (s.step i o.calm e1) (fun x hx => own x (by simp [hx])) e2
    simp only [List.length_cons]; omega

/-- **C70** (partial: as long as nothing goes wrong).  When a coroutine or main function has raised
`NormalTermination`, or `stop` has been called, or no coroutine runs until it is cancelled, then the
system ends: the number of steps it takes by itself is bounded, and when it takes no more, every process
has gone, and the call of `stop` or `run_blocking` has returned.  Missing: failing set-ups
(`C70_failed_setup_hangs`) and single interrupts (`Example.C70_interrupt_fails`). -/
theorem C70_ends_partial {cfg : Cfg P} {as bs : List (Act P)} {st st' : St P}
    (e : run cfg (Procs.init cfg) as = some st) (calm : ∀ a ∈ as, Calm a)
    (hd : (∃ a ∈ as, Ends a) ∨ ∀ p ∈ cfg.ps, cfg.endless p = 0)
    (e' : run cfg st bs = some st') (own : ∀ b ∈ bs, Own b) :
    bs.length ≤ budget cfg st ∧
      ((∀ b, Own b → Procs.step cfg st' b = none) →
        (∀ p ∈ cfg.ps, (st'.procs p).status = .gone) ∧
          (cfg.ps ≠ [] → st'.runner = .started ∨ st'.runner = .joined)) := by
  have i := run_inv (Inv.init cfg) e
  have s := run_smooth (Inv.init cfg) (Smooth.init cfg) calm e
  have hb := run_budget i s own e'
  refine ⟨by omega, progress (run_smooth i s (fun b hb => (own b hb).calm) e') ?_⟩
  rcases hd with hd | hd
  · exact .inl (run_term e' (.inl (run_term e (.inr hd))))
  · exact .inr hd

theorem step_failed {cfg : Cfg P} {st st' : St P} {a : Act P} (e : Procs.step cfg st a = some st')
    {p : P} (h : (st.procs p).status = .failed) : (st'.procs p).status = .failed := by
  cases a <;> simp only [Procs.step, Option.ite_none_right_eq_some, Option.some.injEq] at e <;>
    obtain ⟨g, rfl⟩ := e <;>
    simp only [checkStart_procs, checkStop_procs, setProc] <;> grind

theorem run_failed {cfg : Cfg P} {as : List (Act P)} {st st' : St P} (e : run cfg st as = some st')
    {p : P} (h : (st.procs p).status = .failed) : (st'.procs p).status = .failed := by
  induction as generalizing st with
  | nil => simp only [run, Option.some.injEq] at e; exact e ▸ h
  | cons a as ih =>
    simp only [run, Option.bind_eq_some_iff] at e
    obtain ⟨st1, e1, e2⟩ := e
    exact ih e2 (step_failed e1 h)

/-- **C70** (negative).  If the set-up of one process fails, no process whose set-up did not fail ever
ends, and, if there is such a process, neither `start` nor `stop` nor `run_blocking` ever returns. -/
theorem C70_failed_setup_hangs {cfg : Cfg P} {as bs : List (Act P)} {st st' : St P}
    (e : run cfg (Procs.init cfg) as = some st) {p : P} (hp : p ∈ cfg.ps)
    (hf : (st.procs p).status = .failed) (e' : run cfg st bs = some st') :
    (∀ q, (st'.procs q).status ≠ .closing ∧ (st'.procs q).status ≠ .gone) ∧
      ∀ q ∈ cfg.ps, (st'.procs q).status ≠ .failed → st'.runner ≠ .joined := by
  have i := run_inv (run_inv (Inv.init cfg) e) e'
  have hf' := run_failed e' hf
  have h1 : ∀ q, ¬ ((st'.procs q).status = .closing ∨ (st'.procs q).status = .gone) := fun q hq => by
    have := i.stopped (i.closing q hq) p hp
    simp [Stopped, hf'] at this
  refine ⟨fun q => not_or.mp (h1 q), fun q hq hn hj => ?_⟩
  rcases i.joined hj q hq with h | h
  · exact h1 q (.inr h)
  · exact hn h

/-- **C70.**  A system of one process whose set-up fails ends. -/
theorem C70_single_setup_failure {cfg : Cfg P} {p : P} (hps : cfg.ps = [p]) (hr : cfg.runner = false) :
    ∃ st, run cfg (Procs.init cfg) [.setupFails p, .joins] = some st ∧ st.runner = .joined := by
  simp [run, Procs.step, Procs.init, hps, hr, setProc]

namespace Example

/-- Two processes with one coroutine of each kind; process 0 has a main function. -/
def two : Cfg Nat where
  ps := [0, 1]
  tasks := fun _ => 1
  endless := fun _ => 1
  main := fun p => p == 0
  runner := false

/-- The same, started with `start`. -/
def started : Cfg Nat := { two with runner := true }

/-- What is observed of a state. -/
def look (cfg : Cfg Nat) (as : List (Act Nat)) : Option (List (Status × Nat × Nat × Bool) × Runner × Bool) :=
  (run cfg (Procs.init cfg) as).map (fun st =>
    (cfg.ps.map (fun p => ((st.procs p).status, (st.procs p).tasks, (st.procs p).endless, (st.procs p).main)),
      st.runner, st.term))

/-- A whole life, ended by `stop`. -/
example : look started
    [.setupDone 1, .setupDone 0, .runnerArrives, .pass 0, .runnerPass, .pass 1, .taskEnds 0, .mainEnds 0,
      .taskEnds 1, .stop, .cancel 1, .finish 1, .cancel 0, .finish 0, .passStop 0, .passStop 1, .close 1,
      .close 0, .joins]
    = some ([(.gone, 0, 0, false), (.gone, 0, 0, false)], .joined, true) := by decide +kernel

/-- Nothing runs before the runner has arrived. -/
example : look started [.setupDone 1, .setupDone 0, .pass 0] = none := by decide +kernel

/-- A system ended by a coroutine, on the way. -/
example : look two [.setupDone 1, .setupDone 0, .pass 0, .pass 1, .terminates 1, .cancel 1, .finish 1,
      .mainEnds 0, .taskEnds 0]
    = some ([(.running, 0, 1, false), (.waitStop, 0, 0, false)], .joining, true) := by decide +kernel

/-- A step of a process which does not exist is not possible. -/
theorem no_other {cfg : Cfg Nat} (hps : cfg.ps = [0, 1]) (st : St Nat) (p : Nat) (f : Nat → Act Nat)
    (hf : f = .setupDone ∨ f = .setupFails ∨ f = .pass ∨ f = .broken ∨ f = .taskEnds ∨ f = .cancel ∨
      f = .terminates ∨ f = .terminatesLoop ∨ f = .mainEnds ∨ f = .mainTerminates ∨ f = .mainFails ∨
      f = .interrupt ∨ f = .finish ∨ f = .passStop ∨ f = .close) :
    Procs.step cfg st (f (p + 2)) = none := by
  rcases hf with h | h | h | h | h | h | h | h | h | h | h | h | h | h | h <;> subst h <;>
    simp [Procs.step, hps]

/-- The set-up of process 0 fails; process 1 and the runner take notice. -/
def failing : List (Act Nat) := [.setupDone 1, .setupFails 0, .runnerArrives, .runnerBroken, .broken 1]

/-- **C70** (negative).  The set-up of a process fails: the other one and the caller of `start` wait, and
nothing can happen any more. -/
theorem C70_setup_fails : look started failing
      = some ([(.failed, 0, 0, false), (.waitStop, 0, 0, false)], .joining, true) ∧
    ∀ st, run started (Procs.init started) failing = some st → ∀ a, Procs.step started st a = none := by
  refine ⟨by decide +kernel, fun st h a => ?_⟩
  have key : ∀ a : Act Nat, (run started (Procs.init started) failing).bind
      (fun st => Procs.step started st a) = Procs.step started st a := fun a => by rw [h]; rfl
  cases a with
  | runnerArrives | runnerPass | runnerBroken | stop | joins => rw [← key]; decide +kernel
  | setupDone p | setupFails p | pass p | broken p | taskEnds p | cancel p | terminates p
  | terminatesLoop p | mainEnds p | mainTerminates p | mainFails p | interrupt p | finish p | passStop p
  | close p =>
    match p with
    | 0 => rw [← key]; decide +kernel
    | 1 => rw [← key]; decide +kernel
    | p + 2 => exact no_other rfl st p _ (by simp)

/-- **C70** (negative).  A main function raises an exception: the units of its process are shut down while
its coroutines are still running. -/
theorem C70_main_raises_fails :
    look { two with ps := [0] } [.setupDone 0, .pass 0, .mainFails 0, .passStop 0]
      = some ([(.closing, 1, 1, false)], .joining, true) := by decide +kernel

/-- One process is interrupted. -/
def interrupted : List (Act Nat) := [.setupDone 0, .setupDone 1, .pass 0, .pass 1, .taskEnds 0, .taskEnds 1,
  .interrupt 0]

/-- **C70** (negative).  Process 0, the one of the caller of `run_blocking`, is interrupted: it waits at the
stop barrier, `term_ev` is not set, and the program does nothing any more by itself. -/
theorem C70_interrupt_fails : look two interrupted
      = some ([(.waitStop, 0, 1, false), (.running, 0, 1, false)], .joining, false) ∧
    ∀ st, run two (Procs.init two) interrupted = some st → ∀ a, Own a → Procs.step two st a = none := by
  refine ⟨by decide +kernel, fun st h a o => ?_⟩
  have key : ∀ a : Act Nat, (run two (Procs.init two) interrupted).bind
      (fun st => Procs.step two st a) = Procs.step two st a := fun a => by rw [h]; rfl
  cases a with
  | runnerArrives | runnerPass | joins => rw [← key]; decide +kernel
  | setupDone p | pass p | taskEnds p | cancel p | mainEnds p | finish p | passStop p | close p =>
    match p with
    | 0 => rw [← key]; decide +kernel
    | 1 => rw [← key]; decide +kernel
    | p + 2 => exact no_other rfl st p _ (by simp)
  | _ => exact o.elim

end Example

end Procs
end Ez
