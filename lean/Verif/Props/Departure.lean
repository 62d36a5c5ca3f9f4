import Verif.Lemmas.DepartureStep
import Verif.Props.Delivery
import Verif.Props.MessageCache

/-!
# C62: a publisher that leaves

A publisher may be closed at any time. Its subscribers are not told; each of its channels notices the end
of the connection some time later and empties its cache.

* If every channel notices it only when its subscribers are done with all messages they were notified of
  (`Orderly`), then the rest of the system cannot tell: nothing raises, what each subscriber received
  is still a gap-free prefix of what was broadcast, and whatever the publishers that stayed, the subscribers
  and the channels could do without the departures they can do now, with the same outcome.
* Otherwise subscribers lose messages and calls raise `CacheMiss`: `recv` of a message that had already
  arrived, leaving the block of a message being read, and – with a leaky subscriber – the `broadcast` of
  *another* publisher, or the task that receives the messages of another publisher.
-/

set_option linter.unusedSectionVars false
set_option linter.unusedSimpArgs false

namespace Ez.Depart
open Sys
variable {P K S V : Type} [DecidableEq P] [DecidableEq K] [DecidableEq S]
variable {cfg : Cfg P K S}

/-- Reachable in a way that every channel notices the departure of its publisher only after its
subscribers are done with the messages they were notified of. -/
inductive Orderly (cfg : Cfg P K S) : St P K S V → Prop where
  | init : Orderly cfg (Depart.init cfg)
  | step {d d' : St P K S V} {a : Act P K S V} : Orderly cfg d →
      (∀ k, a = .hangup k → ∀ s m, ¬ Unfinished cfg d.sys k s m) → step cfg d a = .ok d' → Orderly cfg d'

/-- The steps of a run that are steps of the system: everything but the departures themselves. -/
def systemSteps : List (Act P K S V) → List (Sys.Act P K S V)
  | [] => []
  | .sys a :: as => a :: systemSteps as
  | .leave _ :: as => systemSteps as
  | .hangup _ :: as => systemSteps as

/-- A run in which every channel notices the departure of its publisher only after its subscribers are done
with the messages they were notified of. -/
inductive OrderlyRun (cfg : Cfg P K S) : List (Act P K S V) → St P K S V → Prop where
  | init : OrderlyRun cfg [] (Depart.init cfg)
  | step {as : List (Act P K S V)} {d d' : St P K S V} {a : Act P K S V} : OrderlyRun cfg as d →
      (∀ k, a = .hangup k → ∀ s m, ¬ Unfinished cfg d.sys k s m) → step cfg d a = .ok d' →
      OrderlyRun cfg (as ++ [a]) d'

/-- What publisher `p` does itself: its calls, and what it does on its connections to channels. -/
inductive ByPublisher (cfg : Cfg P K S) (p : P) : Sys.Act P K S V → Prop where
  | bcast (v : V) : ByPublisher cfg p (.bcast p v)
  | gateResume : ByPublisher cfg p (.gateResume p)
  | slotResume : ByPublisher cfg p (.slotResume p)
  | send (ok : Bool) : ByPublisher cfg p (.send p ok)
  | finish : ByPublisher cfg p (.finish p)
  | pause : ByPublisher cfg p (.pause p)
  | resume : ByPublisher cfg p (.resume p)
  | sync : ByPublisher cfg p (.sync p)
  | syncReturn : ByPublisher cfg p (.syncReturn p)
  | ack {k : K} (h : cfg.pubOf k = p) : ByPublisher cfg p (.ack k)
  | connect {k : K} (h : cfg.pubOf k = p) : ByPublisher cfg p (.connect k)
  | eof {k : K} (h : cfg.pubOf k = p) : ByPublisher cfg p (.eof k)

theorem byPublisher_iff {p : P} {a : Sys.Act P K S V} : ByPublisher cfg p a ↔ owner cfg a = some p := by
  constructor
  · intro h
    cases h <;> simp_all [owner]
  · intro h
    cases a <;> simp only [owner, Option.some.injEq, reduceCtorEq] at h <;>
      (subst h; constructor) <;> rfl

/-- The rest of the system is in the state `st`. -/
structure Sim (cfg : Cfg P K S) (d : St P K S V) (st : Sys.St P K S V) : Prop where
  reach : Reachable cfg st
  clean : Clean d.hung st
  gone : ∀ k, d.hung k = true → d.left (cfg.pubOf k) = true
  eq : ∃ W X, (∀ k, d.hung k = true → W k = []) ∧ d.sys = over d.hung W X st

theorem Sim.unfinished {d : St P K S V} {st : Sys.St P K S V} (h : Sim cfg d st) (k : K) (s : S) (m : Nat) :
    Unfinished cfg d.sys k s m ↔ Unfinished cfg st k s m := by
  obtain ⟨W, X, _, e⟩ := h.eq
  unfold Unfinished
  rw [e, over_sub]

/-- One step of the system in a simulated state. -/
theorem sim_step (hwf : cfg.WF) {d : St P K S V} {st : Sys.St P K S V} (h : Sim cfg d st)
    {a : Act P K S V} (ha : ∀ k, a = .hangup k → ∀ s m, ¬ Unfinished cfg d.sys k s m) :
    step cfg d a = .disabled ∨ ∃ d' st', step cfg d a = .ok d' ∧ Sim cfg d' st' ∧
      Sys.run cfg st (systemSteps [a]) = .ok st' := by
  obtain ⟨W, X, hw, e⟩ := h.eq
  have hi := (h.reach.inv hwf).1
  cases a with
  | leave p =>
    simp only [step]
    split
    · exact Or.inl rfl
    · refine Or.inr ⟨_, st, rfl, ⟨h.reach, h.clean, ?_, W, X, hw, e⟩, rfl⟩
      intro k hk
      have := h.gone k hk
      simp only [upd]
      split
      · rfl
      · exact this
  | hangup k =>
    simp only [step]
    split
    · rename_i hcond
      simp only [Bool.and_eq_true, Bool.not_eq_true'] at hcond
      obtain ⟨⟨⟨h1, h2⟩, h3⟩, h4⟩ := hcond
      refine Or.inr ⟨_, st, rfl, ⟨h.reach, ?_, ?_, upd W k [], upd X k ((d.sys.chan k).cache.clear), ?_, ?_⟩, rfl⟩
      · intro s p k' m hk' hh
        by_cases e' : k' = k
        · subst e'
          have hp := (hi.sub s).chanPub p k' hk'
          subst hp
          have := ha k' rfl s m
          rw [h.unfinished] at this
          exact ⟨fun hx => this ⟨hk', Or.inl hx⟩, fun hx => this ⟨hk', Or.inr hx⟩⟩
        · simp only [upd_ne _ _ e'] at hh
          exact h.clean s p k' m hk' hh
      · intro k' hh
        by_cases e' : k' = k
        · subst e'; exact h1
        · simp only [upd_ne _ _ e'] at hh
          exact h.gone k' hh
      · intro k' hh
        by_cases e' : k' = k
        · subst e'; simp
        · simp only [upd_ne _ _ e'] at hh ⊢
          exact hw k' hh
      · have h5 : d.sys.chan k = st.chan k := by rw [e, over_chan h4]
        simp only [hangup, h5]
        rw [e]
        unfold over setChan
        simp only [Sys.St.mk.injEq, true_and, and_true]
        funext k'
        by_cases e' : k' = k
        · subst e'; simp [upd]
        · simp [upd, e']
    · exact Or.inl rfl
  | sys a =>
    simp only [step]
    split
    · exact Or.inl rfl
    · rename_i hown
      have ho : ∀ k, d.hung k = true → owner cfg a ≠ some (cfg.pubOf k) := by
        intro k hk he
        unfold blocked at hown
        rw [he] at hown
        exact hown (h.gone k hk)
      by_cases hd : ∃ k, d.hung k = true ∧ a = .deliver k
      · obtain ⟨k, hk, rfl⟩ := hd
        have : (d.sys.chan k).wire = [] := by rw [e]; simp [over, hk, hw k hk]
        simp only [Sys.step, this]
        exact Or.inl trivial
      have hs := over_step (X := X) hi h.clean hw a ho (fun k hk ha => hd ⟨k, hk, ha⟩)
      rw [← e] at hs
      have hnr := step_ok hwf hi a (fun _ => False.elim)
      generalize hr : Sys.step cfg d.sys a = r at hs
      generalize hr' : Sys.step cfg st a = r' at hs hnr
      cases hs with
      | disabled => exact Or.inl rfl
      | raised e =>
        rcases hnr with h1 | ⟨st1, h1, _⟩ <;> cases h1
      | ok X' hc =>
        exact Or.inr ⟨_, _, rfl, ⟨h.reach.step hr', hc, h.gone, W, X', hw, rfl⟩,
          by simp only [systemSteps, Sys.run, hr']⟩

theorem Orderly.sim (hwf : cfg.WF) {d : St P K S V} (h : Orderly cfg d) : ∃ st, Sim cfg d st := by
  induction h with
  | init =>
    exact ⟨Sys.init cfg, ⟨[], rfl⟩, (by intro s p k m _ h; cases h), (by intro k h; cases h),
      fun _ => [], fun k => MessageCache.init (cfg.n (cfg.pubOf k)), (by intro k h; cases h), rfl⟩
  | step _ ha hs ih =>
    obtain ⟨st, h⟩ := ih
    rcases sim_step hwf h ha with h1 | ⟨d', st', h1, h2, _⟩
    · rw [h1] at hs; cases hs
    · rw [h1] at hs; cases hs; exact ⟨st', h2⟩

/-- **C62** (partial), the others do not notice: after orderly departures the publishers, the subscribers,
the log of everything observable and the channels that have not noticed a departure are in a state of
the system without any departures. -/
theorem C62_undisturbed_partial (hwf : cfg.WF) {d : St P K S V} (h : Orderly cfg d) :
    ∃ st, Reachable cfg st ∧ st.log = d.sys.log ∧ st.sub = d.sys.sub ∧ st.pub = d.sys.pub ∧
      ∀ k, d.hung k = false → st.chan k = d.sys.chan k := by
  obtain ⟨st, hs⟩ := h.sim hwf
  obtain ⟨W, X, _, e⟩ := hs.eq
  rw [e]
  exact ⟨st, hs.reach, rfl, rfl, rfl, fun k hk => (over_chan hk).symm⟩

theorem run_append (st : Sys.St P K S V) (as bs : List (Sys.Act P K S V)) :
    Sys.run cfg st (as ++ bs) = match Sys.run cfg st as with
      | .disabled => .disabled
      | .raised e => .raised e
      | .ok st' => Sys.run cfg st' bs := by
  induction as generalizing st with
  | nil => rfl
  | cons a as ih =>
    simp only [List.cons_append, Sys.run]
    cases Sys.step cfg st a with
    | disabled => rfl
    | raised e => rfl
    | ok st' => exact ih st'

theorem systemSteps_append (as bs : List (Act P K S V)) :
    systemSteps (as ++ bs) = systemSteps as ++ systemSteps bs := by
  induction as with
  | nil => rfl
  | cons a as ih => cases a <;> simp [systemSteps, ih]

theorem OrderlyRun.orderly {as : List (Act P K S V)} {d : St P K S V} (h : OrderlyRun cfg as d) : Orderly cfg d := by
  induction h with
  | init => exact .init
  | step _ ha hs ih => exact ih.step ha hs

theorem OrderlyRun.sim (hwf : cfg.WF) {as : List (Act P K S V)} {d : St P K S V} (h : OrderlyRun cfg as d) :
    ∃ st, Sim cfg d st ∧ Sys.run cfg (Sys.init cfg) (systemSteps as) = .ok st := by
  induction h with
  | init =>
    exact ⟨Sys.init cfg, ⟨⟨[], rfl⟩, (by intro s p k m _ h; cases h), (by intro k h; cases h),
      fun _ => [], fun k => MessageCache.init (cfg.n (cfg.pubOf k)), (by intro k h; cases h), rfl⟩, rfl⟩
  | step _ ha hs ih =>
    obtain ⟨st, h, hr⟩ := ih
    rcases sim_step hwf h ha with h1 | ⟨d', st', h1, h2, h3⟩
    · rw [h1] at hs; cases hs
    · rw [h1] at hs; cases hs
      refine ⟨st', h2, ?_⟩
      rw [systemSteps_append, run_append, hr]
      exact h3

/-- Who has left, and which channels have noticed. -/
theorem OrderlyRun.gone {as : List (Act P K S V)} {d : St P K S V} (h : OrderlyRun cfg as d) :
    (∀ p, d.left p = true ↔ .leave p ∈ as) ∧ (∀ k, d.hung k = true ↔ .hangup k ∈ as) := by
  induction h with
  | init => simp [Depart.init]
  | @step as d d' a _ _ hs ih =>
    obtain ⟨h1, h2⟩ := ih
    cases a with
    | sys a =>
      simp only [Depart.step] at hs
      split at hs
      · cases hs
      · split at hs <;> cases hs
        simpa using ⟨h1, h2⟩
    | leave p =>
      simp only [Depart.step] at hs
      split at hs
      · cases hs
      · cases hs
        simp only [List.mem_append, List.mem_singleton, Act.leave.injEq, reduceCtorEq, or_false]
        refine ⟨fun p' => ?_, h2⟩
        rw [← h1]
        simp only [upd]
        split <;> simp [*]
    | hangup k =>
      simp only [Depart.step] at hs
      split at hs
      · cases hs
        simp only [List.mem_append, List.mem_singleton, Act.hangup.injEq, reduceCtorEq, or_false]
        refine ⟨h1, fun k' => ?_⟩
        rw [← h2]
        simp only [upd]
        split <;> simp [*]
      · cases hs

/-- Two states that subscribers, publishers and the channels not listed cannot tell apart. -/
def Alike (noticed : K → Prop) (st st' : Sys.St P K S V) : Prop :=
  st.log = st'.log ∧ st.sub = st'.sub ∧ st.pub = st'.pub ∧ ∀ k, ¬ noticed k → st.chan k = st'.chan k

/-- **C62** (partial), everybody else goes on: leave the departures out of an orderly run, and what remains is
a run of the system without departures. It ends in a state that differs only in the channels that noticed a
departure. Every next step has the same outcome there and here, except those of the publishers that left and
the arrival of further messages at the channels that noticed. -/
theorem C62_goes_on_partial (hwf : cfg.WF) {as : List (Act P K S V)} {d : St P K S V} (h : OrderlyRun cfg as d) :
    ∃ st, Sys.run cfg (Sys.init cfg) (systemSteps as) = .ok st ∧ Alike (fun k => .hangup k ∈ as) st d.sys ∧
      ∀ a : Sys.Act P K S V, (∀ p, .leave p ∈ as → ¬ ByPublisher cfg p a) → (∀ k, .hangup k ∈ as → a ≠ .deliver k) →
        (Sys.step cfg st a = .disabled ∧ step cfg d (.sys a) = .disabled) ∨
        ∃ st' d', Sys.step cfg st a = .ok st' ∧ step cfg d (.sys a) = .ok d' ∧
          Alike (fun k => .hangup k ∈ as) st' d'.sys := by
  obtain ⟨st, hs, hr⟩ := h.sim hwf
  obtain ⟨hl, hh⟩ := h.gone
  obtain ⟨W, X, hw, e⟩ := hs.eq
  have hi := (hs.reach.inv hwf).1
  have alike : ∀ (X : K → MessageCache (Obj V) Unit) (st : Sys.St P K S V),
      Alike (fun k => .hangup k ∈ as) st (over d.hung W X st) := by
    intro X st
    refine ⟨rfl, rfl, rfl, fun k hk => (over_chan ?_).symm⟩
    cases hk' : d.hung k with
    | false => rfl
    | true => exact absurd ((hh k).1 hk') hk
  refine ⟨st, hr, by rw [e]; exact alike X st, ?_⟩
  intro a hp hd
  have ho : ∀ p, d.left p = true → owner cfg a ≠ some p :=
    fun p hp' he => hp p ((hl p).1 hp') (byPublisher_iff.2 he)
  have hb : blocked cfg d a = false := by
    unfold blocked
    split
    · rename_i p hp'
      cases hx : d.left p with
      | false => rfl
      | true => exact absurd hp' (ho p hx)
    · rfl
  have hs' := over_step (X := X) hi hs.clean hw a (fun k hk => ho _ (hs.gone k hk)) (fun k hk => hd k ((hh k).1 hk))
  rw [← e] at hs'
  have hnr := step_ok hwf hi a (fun _ => False.elim)
  simp only [step, hb, Bool.false_eq_true, if_false]
  generalize Sys.step cfg d.sys a = r at hs'
  generalize Sys.step cfg st a = r' at hs' hnr
  cases hs' with
  | disabled => exact Or.inl ⟨rfl, rfl⟩
  | raised e => rcases hnr with h1 | ⟨st1, h1, _⟩ <;> cases h1
  | ok X' hc => exact Or.inr ⟨_, _, rfl, rfl, alike X' _⟩

/-- **C62** (partial), nothing raises as long as channels notice departures in an orderly way. -/
theorem C62_never_raises_partial (hwf : cfg.WF) {d : St P K S V} (h : Orderly cfg d) (a : Act P K S V)
    (e : Err) : step cfg d a ≠ .raised e := by
  obtain ⟨st, hs⟩ := h.sim hwf
  cases a with
  | leave p => simp only [step]; split <;> exact fun h => by cases h
  | hangup k => simp only [step]; split <;> exact fun h => by cases h
  | sys a =>
    intro hr
    rcases sim_step hwf hs (a := .sys a) (by intro k hk; cases hk) with h1 | ⟨d', st', h1, _⟩ <;>
      (rw [h1] at hr; cases hr)

/-- **C62** (partial), and what a non-leaky subscriber received – from publishers that left and from those
that stayed – is a gap-free prefix of what was broadcast since it was linked. -/
theorem C62_received_prefix_partial (hwf : cfg.WF) {d : St P K S V} (h : Orderly cfg d) {s : S} {k : K}
    (hs : cfg.maxq s = none) (hk : (d.sys.sub s).chans (cfg.pubOf k) = some k) :
    ∃ a, a ≤ sentBeforeLink cfg s k d.sys.log ∧
      (recvd s k d.sys.log).map (·.1) = List.range' a (recvd s k d.sys.log).length ∧
      (recvd s k d.sys.log).map (·.2) <+: (bcasts (cfg.pubOf k) d.sys.log).drop a := by
  obtain ⟨st, h1, h2, h3, _⟩ := C62_undisturbed_partial hwf h
  rw [← h2]
  exact C19_received_prefix hwf h1 hs (by rw [h3]; exact hk)

theorem get_clear {M : Type} (c : MessageCache V M) (m : Nat) : ∃ e, c.clear.get m = .error e := by
  unfold MessageCache.get MessageCache.bufIdx
  rw [MessageCache.clear_length, MessageCache.clear_get]
  split <;> simp_all

/-- **C62**, what is lost: when a channel notices the departure, the next `recv` of every subscriber whose
next notification comes from that channel raises `CacheMiss`, although the message had arrived. -/
theorem C62_next_message_lost {d d' : St P K S V} {k : K} {s : S} {m : Nat} {q : List (P × Nat)}
    (hh : step cfg d (.hangup k) = .ok d') (hq : (d.sys.sub s).queue = (cfg.pubOf k, m) :: q)
    (hk : (d.sys.sub s).chans (cfg.pubOf k) = some k) :
    step cfg d' (.sys (.recv s)) = .raised .cacheMiss := by
  simp only [step] at hh
  split at hh
  · cases hh
    obtain ⟨e, he⟩ := get_clear (d.sys.chan k).cache m
    have hl : lookup cfg (hangup d.sys k) k m = .error .cacheMiss := by
      unfold lookup
      simp [hangup, setChan, he]
    have h1 : ((hangup d.sys k).sub s).queue = (cfg.pubOf k, m) :: q := hq
    have h2 : ((hangup d.sys k).sub s).chans (cfg.pubOf k) = some k := hk
    simp [step, blocked, owner, Sys.step, h1, h2, hl]
  · cases hh

/-! ## Examples

Two publishers; channel 0 leads from the first one, through TCP, to both subscribers; channels 1 (TCP) and
2 (in-process) come from the second one. Subscriber 1 is leaky with `max_queue = 1`. -/

namespace Example

def two : Cfg (Fin 2) (Fin 3) (Fin 2) where
  pubOf k := if k = 0 then 0 else 1
  n _ := 2
  mode k := if k = 2 then .local else .tcp
  direct k := decide (k = 2)
  maxq s := if s = 1 then some 1 else none
  startPaused _ := false

theorem two_wf : two.WF where
  pos _ := Nat.zero_lt_succ 1
  localDirect := by decide
  localOne := by decide

abbrev A := Act (Fin 2) (Fin 3) (Fin 2) Char

/-- Publisher 0 sends `a`, which arrives at channel 0. -/
def first : List A :=
  [.sys (.bcast 0 'a'), .sys (.send 0 true), .sys (.finish 0), .sys (.deliver 0)]

/-- Publisher 0 leaves and channel 0 notices. -/
def gone : List A := [.leave 0, .hangup 0]

/-- The outcome of a run, without the state. -/
def raised {α : Type} : Res α → Option Err
  | .raised e => some e
  | _ => none

theorem eq_raised {α : Type} {r : Res α} {e : Err} (h : raised r = some e) : r = .raised e := by
  cases r with
  | raised e' => simp only [raised, Option.some.injEq] at h; rw [h]
  | disabled => cases h
  | ok a => cases h

/-- The state after a run; the initial state if the run is not possible. -/
def after (as : List A) : St (Fin 2) (Fin 3) (Fin 2) Char :=
  match run two (init two) as with
  | .ok d => d
  | _ => init two

/-- **C62** does not hold of the code: a message that has arrived cannot be received any more after its
publisher left. -/
theorem C62_negation_recv : run two (init two)
    ([.sys (.connect 0), .sys (.link 0 0)] ++ first ++ gone ++ [.sys (.recv 0)] : List A) =
    .raised .cacheMiss := eq_raised (by decide +kernel)

/-- And leaving the block of a message that is being read raises. -/
theorem C62_negation_held : run two (init two)
    ([.sys (.connect 0), .sys (.link 0 0)] ++ first ++ [.sys (.recv 0)] ++ gone ++ [.sys (.release 0 0)] : List A) =
    .raised .cacheMiss := eq_raised (by decide +kernel)

/-- The departure of publisher 0 makes the task fail that receives the messages of publisher 1, when the
leaky subscriber drops the notification from publisher 0. -/
theorem C62_negation_other : run two (init two)
    ([.sys (.connect 0), .sys (.connect 1), .sys (.link 1 0), .sys (.link 1 1)] ++ first ++ gone ++
      [.sys (.bcast 1 'b'), .sys (.send 1 true), .sys (.finish 1), .sys (.deliver 1)] : List A) =
    .raised .cacheMiss := eq_raised (by decide +kernel)

/-- Or it makes `broadcast` of publisher 1 raise, if that lives in the subscriber's process. -/
theorem C62_negation_broadcast : run two (init two)
    ([.sys (.connect 0), .sys (.connect 2), .sys (.link 1 0), .sys (.link 1 2)] ++ first ++ gone ++
      [.sys (.bcast 1 'b')] : List A) =
    .raised .cacheMiss := eq_raised (by decide +kernel)

/-- An orderly departure: the message was received and finished with before the channel noticed; publisher
1 goes on. -/
def orderlyRun : List A :=
  [.sys (.connect 0), .sys (.connect 1), .sys (.link 0 0), .sys (.link 0 1)] ++ first ++
    [.leave 0, .sys (.recv 0), .sys (.release 0 0), .hangup 0,
      .sys (.bcast 1 'b'), .sys (.send 1 true), .sys (.finish 1), .sys (.deliver 1), .sys (.recv 0)]

/-- The condition of `Orderly`, checked along a run. -/
def orderlyB (d : St (Fin 2) (Fin 3) (Fin 2) Char) : List A → Bool
  | [] => true
  | a :: as =>
    (match a with
      | .hangup k => ([0, 1] : List (Fin 2)).all fun s =>
          !(decide ((d.sys.sub s).chans (two.pubOf k) = some k) &&
            ((d.sys.sub s).queue.any (fun x => decide (x.1 = two.pubOf k)) ||
              (d.sys.sub s).held.any (fun x => decide (x.1 = two.pubOf k))))
      | _ => true) &&
    match step two d a with
    | .ok d' => orderlyB d' as
    | _ => false

theorem orderly_run (as : List A) : ∀ {d : St (Fin 2) (Fin 3) (Fin 2) Char} {bs : List A}, OrderlyRun two bs d →
    orderlyB d as = true → ∃ d', run two d as = .ok d' ∧ OrderlyRun two (bs ++ as) d' := by
  induction as with
  | nil => intro d bs h _; exact ⟨d, rfl, by simpa using h⟩
  | cons a as ih =>
    intro d bs h hb
    simp only [orderlyB, Bool.and_eq_true] at hb
    obtain ⟨h1, h2⟩ := hb
    simp only [run]
    cases hs : step two d a with
    | disabled => rw [hs] at h2; cases h2
    | raised e => rw [hs] at h2; cases h2
    | ok d' =>
      rw [hs] at h2
      rw [show bs ++ a :: as = (bs ++ [a]) ++ as by simp]
      refine ih (h.step ?_ hs) h2
      rintro k rfl s m ⟨hk, hm⟩
      simp only [List.all_eq_true] at h1
      have h3 := h1 s ((by decide : ∀ s : Fin 2, s ∈ ([0, 1] : List (Fin 2))) s)
      rw [hk] at h3
      simp only [decide_true, Bool.true_and, Bool.not_eq_true', Bool.or_eq_false_iff, List.any_eq_false,
        decide_eq_true_eq] at h3
      rcases hm with hm | hm
      · exact h3.1 _ hm rfl
      · exact h3.2 _ hm rfl

/-- The hypotheses of the partial theorems are met after `orderlyRun`, where a publisher has left, its
channel has noticed, and the subscriber has received from both publishers. -/
example : Orderly two (after orderlyRun) ∧ (after orderlyRun).hung 0 = true ∧
    recvd 0 0 (after orderlyRun).sys.log = [(0, 'a')] ∧ recvd 0 1 (after orderlyRun).sys.log = [(0, 'b')] ∧
    ((after orderlyRun).sys.sub 0).chans (two.pubOf 0) = some 0 ∧ two.maxq 0 = none := by
  refine ⟨?_, by decide +kernel⟩
  obtain ⟨d, h1, h2⟩ := orderly_run orderlyRun (d := init two) .init (by decide +kernel)
  unfold after
  rw [h1]
  exact h2.orderly

/-- The hypotheses of `C62_goes_on_partial` are met, and it says something about a publisher, a channel and a
subscriber that are still there: they can broadcast, be sent the message and receive it. -/
example : (∃ d, OrderlyRun two orderlyRun d) ∧ .leave 0 ∈ orderlyRun ∧ .hangup 0 ∈ orderlyRun ∧
    (∀ p, .leave p ∈ orderlyRun → ¬ ByPublisher two p (.bcast 1 'c' : Sys.Act (Fin 2) (Fin 3) (Fin 2) Char)) ∧
    (∀ k, .hangup k ∈ orderlyRun → (.deliver 1 : Sys.Act (Fin 2) (Fin 3) (Fin 2) Char) ≠ .deliver k) := by
  refine ⟨?_, by simp [orderlyRun], by simp [orderlyRun], ?_, ?_⟩
  · obtain ⟨d, _, h2⟩ := orderly_run orderlyRun (d := init two) .init (by decide +kernel)
    exact ⟨d, h2⟩
  · intro p hp h
    simp [orderlyRun, first] at hp
    subst hp
    cases h
  · intro k hk h
    simp [orderlyRun, first] at hk
    subst hk
    cases h

/-- The hypotheses of `C62_next_message_lost` are met. -/
example : ((after ([.sys (.connect 0), .sys (.link 0 0)] ++ first ++ [.leave 0])).sys.sub 0).queue = [(0, 0)] ∧
    ((after ([.sys (.connect 0), .sys (.link 0 0)] ++ first ++ [.leave 0])).sys.sub 0).chans 0 = some 0 ∧
    (after ([.sys (.connect 0), .sys (.link 0 0)] ++ first ++ gone)).hung 0 = true := by decide +kernel

end Example

end Ez.Depart
