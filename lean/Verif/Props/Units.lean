import Verif.Lemmas.Py
import Verif.Model.Units
import Verif.Props.Backpressure

/-! # C40, C41, C46, C50: MessageGate, MessageQueue, Rate, TerminateOnTotal -/

set_option linter.unusedSectionVars false
set_option linter.unusedSimpArgs false

namespace Ez

/-! ## C40 -/
namespace Gate
variable {M : Type}

/-- The state after a sequence of steps, oldest first; `none` if one of them is not possible. -/
def exec (c : Cfg) (s : State M) : List (Act M) → Option (State M)
  | [] => some s
  | a :: as => (step c s a).bind (fun s' => exec c s' as)

theorem exec_append (c : Cfg) (s : State M) (a b : List (Act M)) :
    exec c s (a ++ b) = (exec c s a).bind (fun s' => exec c s' b) := by
  induction a generalizing s with
  | nil => rfl
  | cons x a ih =>
    simp only [List.cons_append, exec]
    cases step c s x with
    | none => rfl
    | some s1 => simp [ih]

/-- Specification: the messages that arrived. -/
def inputs (h : List (Act M)) : List M := h.filterMap (fun a => match a with | .input m => some m | _ => none)

/-- Specification: no gate command. -/
def NoCommand (h : List (Act M)) : Prop := ∀ b, Act.gate b ∉ h

@[simp] theorem setGate_out (s : State M) (b : Bool) : (setGate s b).out = s.out := by
  unfold setGate; split <;> rfl

@[simp] theorem setGate_open (s : State M) (b : Bool) : (setGate s b).gateOpen = b := by
  unfold setGate; split
  · rfl
  · rename_i h; simpa using h

/-- What is still let through (`true`) or held back before the gate returns to its default. -/
def left (k : Int) (s : State M) : Nat :=
  if s.inflight then (k - s.msgs).toNat else max 1 (k - s.msgs).toNat

/-- What the messages `l` lead to from state `s` if no command comes. -/
def passed (c : Cfg) (s : State M) (l : List M) : List M :=
  if s.gateOpen = c.defaultOpen then (if s.gateOpen then l else [])
  else match c.defaultAfter with
    | none => if s.gateOpen then l else []
    | some k => if s.gateOpen then l.take (left k s) else l.drop (left k s)

theorem segment (c : Cfg) (seg : List (Act M)) (hseg : NoCommand seg) (s s' : State M)
    (h : exec c s seg = some s') : s'.out = s.out ++ passed c s (inputs seg) := by
  induction seg generalizing s with
  | nil =>
    cases h
    unfold passed inputs
    split
    · split <;> simp
    · split <;> split <;> simp
  | cons a seg ih =>
    have hseg' : NoCommand seg := fun b hb => hseg b (List.mem_cons_of_mem _ hb)
    simp only [exec] at h
    obtain ⟨s1, h1, h2⟩ := Option.bind_eq_some_iff.1 h
    rw [ih hseg' s1 h2]
    cases a with
    | gate b => exact absurd (List.mem_cons_self ..) (hseg b)
    | input m =>
      simp only [step] at h1
      split at h1
      · cases h1
      · rename_i hin
        cases h1
        have e : inputs (Act.input m :: seg) = m :: inputs seg := rfl
        rw [e]
        simp only [passed, left, hin, Bool.false_eq_true, if_false, if_true]
        by_cases hd : s.gateOpen = c.defaultOpen
        · simp only [hd, if_true]
          cases c.defaultOpen <;> simp
        · simp only [hd, if_false]
          cases c.defaultAfter with
          | none => cases s.gateOpen <;> simp
          | some k =>
            simp only
            have hk : max 1 (k - (s.msgs : Int)).toNat = (k - ((s.msgs + 1 : Nat) : Int)).toNat + 1 := by
              omega
            rw [hk]
            cases s.gateOpen <;> simp
    | check =>
      simp only [step] at h1
      split at h1
      · rename_i hin
        have e : inputs (Act.check :: seg) = inputs seg := rfl
        rw [e]
        cases hk : c.defaultAfter with
        | none =>
          simp only [hk] at h1; cases h1
          simp [passed, hk]
        | some k =>
          simp only [hk] at h1
          split at h1
          · rename_i hc
            cases h1
            rw [setGate_out]
            congr 1
            simp only [passed, setGate_open, if_true, hc.1, if_false, hk, left, hin]
            have : (k - (s.msgs : Int)).toNat = 0 := by have := hc.2; omega
            rw [this]
            cases hg : s.gateOpen <;> cases hd : c.defaultOpen <;> simp [hg, hd] at hc ⊢
          · rename_i hc
            cases h1
            simp only
            congr 1
            simp only [passed, hk, left, hin, if_true]
            by_cases hd : s.gateOpen = c.defaultOpen
            · simp [hd]
            · simp only [hd, if_false]
              have hlt : ¬ k ≤ (s.msgs : Int) := fun hle => hc ⟨hd, hle⟩
              have : max 1 (k - (s.msgs : Int)).toNat = (k - (s.msgs : Int)).toNat := by omega
              rw [this]
              simp
      · cases h1

/-- **C40 (what passes).** From any reachable moment at which no message is being handled, as long as no
command comes: if the gate is in its default state or no `default_after` is set, everything passes or
everything is discarded; otherwise the gate's state applies to exactly the messages missing to
`default_after` since the last change (at least one), and its default state to all later ones. Messages
that pass are unchanged, in order, and not repeated. -/
theorem C40_passes_exactly (c : Cfg) (pre seg : List (Act M)) (s s' : State M)
    (_hr : exec c (init c) pre = some s) (hidle : s.inflight = false) (hseg : NoCommand seg)
    (h : exec c s seg = some s') :
    s'.out = s.out ++
      (if s.gateOpen = c.defaultOpen ∨ c.defaultAfter = none then (if s.gateOpen then inputs seg else [])
       else
        let n := max 1 (c.defaultAfter.getD 0 - s.msgs).toNat
        if s.gateOpen then (inputs seg).take n else (inputs seg).drop n) := by
  rw [segment c seg hseg s s' h]
  congr 1
  unfold passed left
  by_cases hd : s.gateOpen = c.defaultOpen
  · simp [hd]
  · cases hk : c.defaultAfter <;> simp [hd, hk, hidle]

/-- **C40 (never stuck).** In every reachable state a command is taken, and so is the next message, at once or
after the check that belongs to the one before. -/
theorem C40_never_stuck (c : Cfg) (h : List (Act M)) (s : State M) (hr : exec c (init c) h = some s) :
    (∀ b, ∃ s', exec c (init c) (h ++ [.gate b]) = some s') ∧
    ∀ m, (∃ s', exec c (init c) (h ++ [.input m]) = some s') ∨
      ∃ s', exec c (init c) (h ++ [.check] ++ [.input m]) = some s' := by
  refine ⟨fun b => ⟨setGate s b, by rw [exec_append, hr]; rfl⟩, fun m => ?_⟩
  cases hi : s.inflight with
  | false =>
    left
    rw [exec_append, hr]
    simp [exec, step, hi]
  | true =>
    right
    rw [exec_append, exec_append, hr]
    simp only [Option.bind_some, exec, step, hi, if_true]
    cases c.defaultAfter with
    | none => simp
    | some k =>
      simp only
      split
      · unfold setGate
        split <;> simp
      · simp

/-- The gate has value `b` in every state of the execution of `seg` from `s`. -/
def Constant (c : Cfg) (s : State M) (b : Bool) (seg : List (Act M)) : Prop :=
  ∀ p q s1, seg = p ++ q → exec c s p = some s1 → s1.gateOpen = b

/-- **C40 (what is counted).** The counter is the number of messages since the gate last changed: the
history splits where the gate last changed (or at the start), and the counter is the number of messages
after that. -/
theorem C40_counts_since_change (c : Cfg) (h : List (Act M)) (s : State M) (hr : exec c (init c) h = some s) :
    ∃ p1 p2 s1, h = p1 ++ p2 ∧ exec c (init c) p1 = some s1 ∧ exec c s1 p2 = some s ∧
      Constant c s1 s.gateOpen p2 ∧ s.msgs = (inputs p2).length ∧
      (p1 = [] ∨ ∃ p0 a s0, p1 = p0 ++ [a] ∧ exec c (init c) p0 = some s0 ∧ s0.gateOpen ≠ s1.gateOpen) := by
  induction h using list_snoc_induction generalizing s with
  | h0 =>
    cases hr
    refine ⟨[], [], init c, rfl, rfl, rfl, ?_, rfl, Or.inl rfl⟩
    intro p q s1 h1 h2
    obtain ⟨rfl, rfl⟩ := List.append_eq_nil_iff.1 h1.symm
    cases h2; rfl
  | hs h a ih =>
    have hr' := hr
    rw [exec_append] at hr'
    obtain ⟨s0, h0, h1⟩ := Option.bind_eq_some_iff.1 hr'
    simp only [exec] at h1
    obtain ⟨s', h1, h2⟩ := Option.bind_eq_some_iff.1 h1
    cases h2
    obtain ⟨p1, p2, s1, e1, e2, e3, e4, e5, e6⟩ := ih s0 h0
    -- the gate keeps its value
    have keep : s.gateOpen = s0.gateOpen → s.msgs = (inputs (p2 ++ [a])).length →
      ∃ p1 p2 s1, h ++ [a] = p1 ++ p2 ∧ exec c (init c) p1 = some s1 ∧ exec c s1 p2 = some s ∧
        Constant c s1 s.gateOpen p2 ∧ s.msgs = (inputs p2).length ∧
        (p1 = [] ∨ ∃ p0 a s0, p1 = p0 ++ [a] ∧ exec c (init c) p0 = some s0 ∧ s0.gateOpen ≠ s1.gateOpen) := by
      intro hg hm
      have hex : exec c s1 (p2 ++ [a]) = some s := by
        rw [exec_append, e3]
        simp [exec, h1]
      refine ⟨p1, p2 ++ [a], s1, by rw [e1]; simp, e2, hex, ?_, hm, e6⟩
      intro p q t hpq ht
      rcases List.append_eq_append_iff.1 hpq with ⟨z, hz1, hz2⟩ | ⟨z, hz1, hz2⟩
      · cases z with
        | nil =>
          simp only [List.append_nil] at hz1
          rw [hz1, e3] at ht; cases ht; exact hg.symm
        | cons y z =>
          simp only [List.cons_append, List.cons.injEq] at hz2
          obtain ⟨rfl, hz2⟩ := hz2
          obtain ⟨rfl, rfl⟩ := List.append_eq_nil_iff.1 hz2.symm
          rw [hz1, hex] at ht; cases ht; rfl
      · rw [hg]; exact e4 p z t hz1 ht
    -- the gate changes and the counter is reset
    have change : s.gateOpen ≠ s0.gateOpen → s.msgs = 0 →
      ∃ p1 p2 s1, h ++ [a] = p1 ++ p2 ∧ exec c (init c) p1 = some s1 ∧ exec c s1 p2 = some s ∧
        Constant c s1 s.gateOpen p2 ∧ s.msgs = (inputs p2).length ∧
        (p1 = [] ∨ ∃ p0 a s0, p1 = p0 ++ [a] ∧ exec c (init c) p0 = some s0 ∧ s0.gateOpen ≠ s1.gateOpen) := by
      intro hg hm
      refine ⟨h ++ [a], [], s, by simp, hr, rfl, ?_, by simp [hm, inputs], Or.inr ⟨h, a, s0, rfl, h0, Ne.symm hg⟩⟩
      intro p q t hpq ht
      obtain ⟨rfl, rfl⟩ := List.append_eq_nil_iff.1 hpq.symm
      cases ht; rfl
    have hset : ∀ (t : State M) b, (setGate t b).gateOpen = t.gateOpen ∧ (setGate t b).msgs = t.msgs ∨
        (setGate t b).gateOpen ≠ t.gateOpen ∧ (setGate t b).msgs = 0 := by
      intro t b
      unfold setGate
      by_cases hb : t.gateOpen ≠ b
      · rw [if_pos hb]; exact Or.inr ⟨Ne.symm hb, rfl⟩
      · rw [if_neg hb]; exact Or.inl ⟨rfl, rfl⟩
    have hin : ∀ b : Act M, (∀ m, b ≠ .input m) → inputs (p2 ++ [b]) = inputs p2 := by
      intro b hb
      cases b with
      | input m => exact absurd rfl (hb m)
      | _ => simp [inputs, List.filterMap_append]
    cases a with
    | gate b =>
      simp only [step, Option.some.injEq] at h1
      subst h1
      rcases hset s0 b with ⟨g1, g2⟩ | ⟨g1, g2⟩
      · exact keep g1 (by rw [g2, e5, hin _ (by simp)])
      · exact change g1 g2
    | input m =>
      simp only [step] at h1
      split at h1
      · cases h1
      · cases h1
        exact keep rfl (by simp only [e5]; simp [inputs, List.filterMap_append])
    | check =>
      simp only [step] at h1
      split at h1
      · split at h1
        · split at h1
          · cases h1
            rcases hset { s0 with inflight := false } c.defaultOpen with ⟨g1, g2⟩ | ⟨g1, g2⟩
            · exact keep g1 (by rw [g2, hin _ (by simp)]; exact e5)
            · exact change g1 g2
          · cases h1; exact keep rfl (by rw [hin _ (by simp)]; exact e5)
        · cases h1; exact keep rfl (by rw [hin _ (by simp)]; exact e5)
      · cases h1

/-- **C40 (when the gate changes).** A command gives the gate the commanded state; otherwise the state
changes only after a message was handled, to the default, and only if at least `default_after` messages
arrived since the last change; then it always does. -/
theorem C40_changes_exactly (c : Cfg) (s s' : State M) (a : Act M) (h : step c s a = some s') :
    (∀ b, a = .gate b → s'.gateOpen = b) ∧
    (∀ m, a = .input m → s'.gateOpen = s.gateOpen) ∧
    (a = .check → s'.gateOpen =
      if c.defaultAfter.isSome ∧ c.defaultAfter.getD 0 ≤ s.msgs then c.defaultOpen else s.gateOpen) := by
  refine ⟨?_, ?_, ?_⟩
  · rintro b rfl; simp only [step, Option.some.injEq] at h; subst h; simp
  · rintro m rfl; simp only [step] at h
    split at h <;> cases h; rfl
  · rintro rfl
    simp only [step] at h
    split at h
    · split at h
      · rename_i k hk
        simp only [hk, Option.isSome_some, true_and, Option.getD_some]
        split at h
        · rename_i hc
          cases h; rw [if_pos hc.2]; simp
        · rename_i hc
          cases h
          by_cases hle : k ≤ (s.msgs : Int)
          · rw [if_pos hle]
            apply Classical.byContradiction
            intro hne; exact hc ⟨hne, hle⟩
          · rw [if_neg hle]
      · rename_i hk; cases h; simp [hk]
    · cases h

/-- A gate that starts open and closes after two messages, is opened by a command while a message is being
handled, and closes again. -/
example :
    let c : Cfg := { startOpen := true, defaultOpen := false, defaultAfter := some 2 }
    (exec c (init c) [.input 1, .check, .input 2, .check, .input 3, .gate true, .check, .input 4, .check,
      .input 5, .check, .input 6, .check]).map (fun s => (s.out, s.gateOpen, s.msgs)) =
    some ([1, 2, 4, 5], false, 1) := by decide

end Gate

/-! ## C41 -/
namespace MQueue
variable {M : Type}

/-- The state after a sequence of steps, oldest first; `none` if one of them is not possible. -/
def exec (c : Cfg) (s : State M) : List (Act M) → Option (State M)
  | [] => some s
  | a :: as => (step c s a).bind (fun s' => exec c s' as)

/-- Specification: the messages that arrived. -/
def inputs (h : List (Act M)) : List M := h.filterMap (fun a => match a with | .input m => some m | _ => none)

theorem exec_snoc (c : Cfg) (s : State M) (h : List (Act M)) (a : Act M) :
    exec c s (h ++ [a]) = (exec c s h).bind (fun s' => step c s' a) := by
  induction h generalizing s with
  | nil => simp only [List.nil_append, exec, Option.bind_some]; cases step c s a <;> rfl
  | cons x h ih =>
    simp only [List.cons_append, exec]
    cases step c s x with
    | none => rfl
    | some s1 => simp [ih]

theorem inputs_snoc (h : List (Act M)) (a : Act M) : inputs (h ++ [a]) = inputs h ++ inputs [a] := by
  simp [inputs, List.filterMap_append]

theorem full_iff {c : Cfg} {q : List M} : full c q = true ↔ 0 < c.maxsize ∧ c.maxsize ≤ (q.length : Int) := by
  simp [full]

/-- **C41 (not leaky).** A queue that is not leaky (or has no positive `maxsize`) loses nothing: what was
published, what is queued and what waits to be queued are the arrivals, in order. -/
theorem C41_lossless (c : Cfg) (hc : c.leaky = false ∨ c.maxsize ≤ 0) (h : List (Act M)) (s : State M)
    (hr : exec c init h = some s) : s.out ++ s.queue ++ s.putter.toList = inputs h := by
  have hl : c.isLeaky = false := by
    unfold Cfg.isLeaky
    rcases hc with hc | hc
    · simp [hc]
    · have : ¬ 0 < c.maxsize := by omega
      simp [this]
  induction h using list_snoc_induction generalizing s with
  | h0 => cases hr; rfl
  | hs h a ih =>
    rw [exec_snoc] at hr
    obtain ⟨s0, h0, h1⟩ := Option.bind_eq_some_iff.1 hr
    have ih := ih s0 h0
    rw [inputs_snoc, ← ih]
    cases a with
    | input m =>
      simp only [step, hl, Bool.false_eq_true, if_false] at h1
      split at h1
      · cases h1
      · rename_i hp
        have hp : s0.putter = none := by cases hq : s0.putter <;> simp_all
        split at h1 <;> cases h1 <;> simp [inputs, hp]
    | wake =>
      simp only [step] at h1
      split at h1
      · rename_i m hm
        split at h1
        · cases h1
        · cases h1; simp [inputs, hm]
      · cases h1
    | send =>
      simp only [step] at h1
      split at h1
      · rename_i m q hq; cases h1; simp [inputs, hq]
      · cases h1

/-- **C41 (bound).** A queue with a positive `maxsize` never holds more than `maxsize` messages. -/
theorem C41_bounded (c : Cfg) (hpos : 0 < c.maxsize) (h : List (Act M)) (s : State M)
    (hr : exec c init h = some s) : (s.queue.length : Int) ≤ c.maxsize := by
  induction h using list_snoc_induction generalizing s with
  | h0 => cases hr; simp [init]; omega
  | hs h a ih =>
    rw [exec_snoc] at hr
    obtain ⟨s0, h0, h1⟩ := Option.bind_eq_some_iff.1 hr
    have ih := ih s0 h0
    have hroom : full c s0.queue = false → (s0.queue.length : Int) + 1 ≤ c.maxsize := by
      intro hf
      have : ¬ (full c s0.queue = true) := by simp [hf]
      rw [full_iff] at this
      omega
    cases a with
    | input m =>
      simp only [step] at h1
      split at h1
      · cases h1
      · split at h1
        · split at h1
          · rename_i hf
            cases h1
            have := (full_iff.1 hf).2
            simp; omega
          · rename_i hf
            cases h1
            have := hroom (by simpa using hf)
            simp; omega
        · split at h1
          · cases h1; exact ih
          · rename_i hf
            cases h1
            have := hroom (by simpa using hf)
            simp; omega
    | wake =>
      simp only [step] at h1
      split at h1
      · split at h1
        · cases h1
        · rename_i hf
          cases h1
          have := hroom (by simpa using hf)
          simp; omega
      · cases h1
    | send =>
      simp only [step] at h1
      split at h1
      · rename_i m q hq; cases h1; rw [hq] at ih; simp at ih; simp; omega
      · cases h1

/-- **C41 (leaky).** A leaky queue publishes arrivals in order without repetition; what is queued are the
newest arrivals; nothing ever waits. -/
theorem C41_leaky_newest (c : Cfg) (hl : c.leaky = true) (hpos : 0 < c.maxsize) (h : List (Act M)) (s : State M)
    (hr : exec c init h = some s) :
    s.putter = none ∧ s.queue <:+ inputs h ∧ (s.out ++ s.queue).Sublist (inputs h) := by
  have hl : c.isLeaky = true := by simp [Cfg.isLeaky, hl, hpos]
  induction h using list_snoc_induction generalizing s with
  | h0 => cases hr; exact ⟨rfl, by simp [init, inputs], by simp [init, inputs]⟩
  | hs h a ih =>
    rw [exec_snoc] at hr
    obtain ⟨s0, h0, h1⟩ := Option.bind_eq_some_iff.1 hr
    obtain ⟨i1, ⟨p, hp⟩, i3⟩ := ih s0 h0
    rw [inputs_snoc]
    cases a with
    | input m =>
      have e : inputs [Act.input m] = [m] := rfl
      rw [e]
      simp only [step, i1, Option.isSome_none, Bool.false_eq_true, if_false, hl, if_true] at h1
      split at h1
      · cases h1
        refine ⟨rfl, ⟨p ++ s0.queue.take 1, ?_⟩, ?_⟩
        · rw [← hp]
          simp only [List.append_assoc]
          rw [← List.append_assoc (s0.queue.take 1), List.take_append_drop]
        · rw [← List.append_assoc]
          exact (((List.Sublist.refl _).append (List.drop_sublist 1 _)).trans i3).append (List.Sublist.refl _)
      · cases h1
        refine ⟨rfl, ⟨p, by rw [← hp]; simp⟩, ?_⟩
        rw [← List.append_assoc]
        exact i3.append (List.Sublist.refl _)
    | wake =>
      simp only [step, i1] at h1; cases h1
    | send =>
      have e : inputs [(Act.send : Act M)] = [] := rfl
      rw [e, List.append_nil]
      simp only [step] at h1
      split at h1
      · rename_i m q hq
        cases h1
        rw [hq] at hp i3
        exact ⟨i1, ⟨p ++ [m], by rw [← hp]; simp⟩, by simpa using i3⟩
      · cases h1

/-- **C41 (leaky, one arrival).** An arrival at a leaky queue is queued last; the oldest queued message is
dropped iff the queue was full; nothing else changes. -/
theorem C41_leaky_drops_oldest (c : Cfg) (hl : c.leaky = true) (hpos : 0 < c.maxsize) (h : List (Act M))
    (s : State M) (hr : exec c init h = some s) (m : M) :
    exec c init (h ++ [.input m]) = some { s with
      queue := (if (s.queue.length : Int) = c.maxsize then s.queue.tail else s.queue) ++ [m] } := by
  have h1 := (C41_leaky_newest c hl hpos h s hr).1
  have h2 := C41_bounded c hpos h s hr
  have hl : c.isLeaky = true := by simp [Cfg.isLeaky, hl, hpos]
  rw [exec_snoc, hr, Option.bind_some]
  simp only [step, h1, Option.isSome_none, Bool.false_eq_true, if_false, hl, if_true]
  by_cases hf : full c s.queue = true
  · have := (full_iff.1 hf).2
    rw [if_pos hf, if_pos (by omega), List.drop_one]
  · have : ¬ (s.queue.length : Int) = c.maxsize := by
      intro he; exact hf (full_iff.2 ⟨hpos, by omega⟩)
    rw [if_neg hf, if_neg this]

/-- **C41 (progress).** A message that waits to be queued gets in as soon as there is room, and the queue
has room as soon as something was published. -/
theorem C41_waiting_gets_in (c : Cfg) (h : List (Act M)) (s : State M) (hr : exec c init h = some s) (m : M)
    (hm : s.putter = some m) :
    (∃ s', exec c init (h ++ [.wake]) = some s' ∧ s'.putter = none ∧ s'.queue = s.queue ++ [m]) ∨
    (∃ s' s'', exec c init (h ++ [.send]) = some s' ∧ step c s' .wake = some s'' ∧ s''.putter = none) := by
  by_cases hf : full c s.queue = true
  · right
    obtain ⟨h1, h2⟩ := full_iff.1 hf
    have hb := C41_bounded c h1 h s hr
    cases hq : s.queue with
    | nil => rw [hq] at h2; simp at h2; omega
    | cons x q =>
      refine ⟨{ s with queue := q, out := s.out ++ [x] }, { s with queue := q ++ [m], out := s.out ++ [x], putter := none }, ?_, ?_, rfl⟩
      · rw [exec_snoc, hr, Option.bind_some]; simp only [step, hq]
      · have : full c q = false := by
          have : ¬ full c q = true := by
            rw [full_iff]; rw [hq] at hb; simp at hb; omega
          simpa using this
        simp [step, hm, this]
  · left
    refine ⟨{ s with queue := s.queue ++ [m], putter := none }, ?_, rfl, rfl⟩
    rw [exec_snoc, hr, Option.bind_some]
    simp [step, hm, hf]

/-- **C41 (progress).** The oldest queued message can always be published next, and a message that arrives is taken
unless another one waits to be queued. -/
theorem C41_publishes (c : Cfg) (h : List (Act M)) (s : State M) (hr : exec c init h = some s) :
    (∀ m q, s.queue = m :: q → ∃ s', exec c init (h ++ [.send]) = some s' ∧ s'.out = s.out ++ [m] ∧ s'.queue = q ∧
      s'.putter = s.putter) ∧
    (s.putter = none → ∀ m, ∃ s', exec c init (h ++ [.input m]) = some s' ∧ s'.out = s.out) := by
  refine ⟨fun m q hq => ?_, fun hp m => ?_⟩
  · refine ⟨{ s with queue := q, out := s.out ++ [m] }, ?_, rfl, rfl, rfl⟩
    rw [exec_snoc, hr, Option.bind_some]; simp only [step, hq]
  · rw [exec_snoc, hr, Option.bind_some]
    simp only [step, hp, Option.isSome_none, Bool.false_eq_true, if_false]
    (repeat' split) <;> exact ⟨_, rfl, rfl⟩

/-- A queue of size 2: not leaky the third message waits; leaky it displaces the first. -/
example :
    (exec { maxsize := 2, leaky := false } init [.input 1, .input 2, .input 3, .send, .wake]).map
      (fun s => (s.out, s.queue, s.putter)) = some ([1], [2, 3], none) ∧
    (exec { maxsize := 2, leaky := true } init [.input 1, .input 2, .input 3, .send]).map
      (fun s => (s.out, s.queue, s.putter)) = some ([2], [3], none) := by decide

end MQueue

/-! ## C50 -/
namespace Total

/-- Specification: the total in force after the events. -/
def totalAfter (t0 : Option Int) (h : List Event) : Option Int :=
  h.foldl (fun t e => match e with | .total x => some x | .message => t) t0

/-- Specification: the number of messages. -/
def messages (h : List Event) : Nat := (h.filter (fun e => match e with | .message => true | _ => false)).length

theorem handle_state (s : State) (e : Event) :
    (handle s e).1.total = (match e with | .total x => some x | .message => s.total) ∧
    (handle s e).1.n = s.n + messages [e] := by
  cases e <;> simp [handle, messages]

/-- **C50.** The `i`-th event requests termination iff then a total is set and at least that many messages
have been received. -/
theorem C50_fires_exactly (t0 : Option Int) (h : List Event) :
    (run (init t0) h).2.length = h.length ∧
    ∀ i, (run (init t0) h).2[i]? = some true ↔
      i < h.length ∧ ∃ t, totalAfter t0 (h.take (i + 1)) = some t ∧ t ≤ (messages (h.take (i + 1)) : Int) := by
  suffices key : ∀ (h : List Event) (s : State), (run s h).2.length = h.length ∧
      ∀ i, (run s h).2[i]? = some true ↔
        i < h.length ∧ ∃ t, totalAfter s.total (h.take (i + 1)) = some t ∧
          t ≤ ((s.n + messages (h.take (i + 1)) : Nat) : Int) by
    obtain ⟨k1, k2⟩ := key h (init t0)
    refine ⟨k1, fun i => ?_⟩
    rw [k2]; simp [init]
  intro h
  induction h with
  | nil => intro s; simp [run]
  | cons e h ih =>
    intro s
    obtain ⟨i1, i2⟩ := ih (handle s e).1
    obtain ⟨s1, s2⟩ := handle_state s e
    refine ⟨by simp [run, i1], ?_⟩
    intro i
    cases i with
    | zero =>
      simp only [run, List.getElem?_cons_zero, Option.some.injEq, List.length_cons, Nat.zero_lt_succ, true_and,
        Nat.zero_add, List.take_succ_cons, List.take_zero]
      cases e with
      | total x => simp [handle, maybeTerminate, totalAfter, messages]
      | message =>
        simp only [handle, maybeTerminate, totalAfter, messages, List.foldl_cons, List.foldl_nil]
        cases s.total <;> simp
    | succ i =>
      simp only [run, List.getElem?_cons_succ, i2, List.length_cons, Nat.succ_lt_succ_iff, Nat.add_lt_add_iff_right,
        List.take_succ_cons]
      have e1 : totalAfter s.total (e :: h.take (i + 1)) = totalAfter (handle s e).1.total (h.take (i + 1)) := by
        rw [s1]; cases e <;> rfl
      have e2 : s.n + messages (e :: h.take (i + 1)) = (handle s e).1.n + messages (h.take (i + 1)) := by
        rw [s2]; cases e <;> simp [messages] <;> omega
      rw [e1, e2]

/-- **C50 (first event).** The first request for termination is at the first event at which a total is set
and reached; and there is one iff there is such an event. -/
theorem C50_first_event (t0 : Option Int) (h : List Event) (i : Nat) (hi : (run (init t0) h).2[i]? = some true)
    (hfirst : ∀ j, j < i → (run (init t0) h).2[j]? ≠ some true) :
    (∃ t, totalAfter t0 (h.take (i + 1)) = some t ∧ t ≤ (messages (h.take (i + 1)) : Int)) ∧
    ∀ j, j < i → ∀ t, totalAfter t0 (h.take (j + 1)) = some t → (messages (h.take (j + 1)) : Int) < t := by
  have key := (C50_fires_exactly t0 h).2
  obtain ⟨h1, h2⟩ := (key i).1 hi
  refine ⟨h2, ?_⟩
  intro j hj t ht
  have hn := hfirst j hj
  rw [Ne, key] at hn
  apply Decidable.byContradiction
  intro hlt
  exact hn ⟨by omega, t, ht, by omega⟩

/-- Two messages, then the total is set to 3, then the third message. -/
example : (run (init none) [.message, .message, .total 3, .message]).2 = [false, false, false, true] := by decide
example : (run (init none) [.message, .message, .total 2]).2 = [false, false, true] := by decide

end Total

/-! ## C46 -/
namespace Rate

/-- **C46 (range).** Whatever the clock readings, every computed sleep is between 0 and the period. -/
theorem C46_sleep_in_range (s : State) (hd : 0 < s.dur) (ts : List Int) :
    ∀ d ∈ (run s ts).2, 0 ≤ d ∧ d ≤ s.dur := by
  have hdur : ∀ (s : State) t, (sleepLogic s t).1.dur = s.dur := by
    intro s t
    unfold sleepLogic remaining
    simp only
    split <;> split <;> rfl
  induction ts generalizing s with
  | nil => simp [run]
  | cons t ts ih =>
    intro d hm
    simp only [run, List.mem_cons] at hm
    rcases hm with rfl | hm
    · simp only [sleepLogic, remaining]
      split <;> split <;> (try simp only at *) <;> omega
    · have := ih (sleepLogic s t).1 (by rw [hdur]; exact hd) d hm
      rwa [hdur] at this

/-- **C46 (no drift).** If the `i`-th call comes no earlier than the scheduled time of call `i - 1` and no
later than two periods after its own scheduled time, then the schedule is exactly `start + i * period` for all `i`,
and call `i` sleeps exactly up to that time, or not at all if it has passed. -/
theorem C46_no_drift (s : State) (hd : 0 < s.dur) (ts : List Int)
    (hts : ∀ (i : Nat) (t : Int), ts[i]? = some t → s.last + i * s.dur ≤ t ∧ t ≤ s.last + (i + 1) * s.dur + 2 * s.dur) :
    (run s ts).1.last = s.last + ts.length * s.dur ∧
    ∀ (i : Nat) (t d : Int), ts[i]? = some t → (run s ts).2[i]? = some d → t + d = max t (s.last + (i + 1) * s.dur) := by
  induction ts generalizing s with
  | nil => simp [run]
  | cons t ts ih =>
    obtain ⟨h1, h2⟩ := hts 0 t rfl
    simp only [Int.natCast_zero, Int.zero_mul, Int.add_zero, Int.zero_add, Int.one_mul] at h1 h2
    have hs : sleepLogic s t = ({ s with last := s.last + s.dur }, max 0 (s.last + s.dur - t)) := by
      have e0 : ¬ t < s.last := by omega
      unfold sleepLogic remaining
      simp only [e0, if_false]
      rw [if_neg (by omega)]
      congr 1
      split <;> omega
    have hts' : ∀ (i : Nat) (u : Int), ts[i]? = some u →
        (s.last + s.dur) + i * s.dur ≤ u ∧ u ≤ (s.last + s.dur) + (i + 1) * s.dur + 2 * s.dur := by
      intro i u hu
      have := hts (i + 1) u (by simpa using hu)
      simp only [Int.natCast_add, Int.add_mul, Int.natCast_one, Int.one_mul, Int.cast_ofNat_Int] at this ⊢
      omega
    obtain ⟨i1, i2⟩ := ih { s with last := s.last + s.dur } hd hts'
    simp only [run, hs]
    refine ⟨?_, ?_⟩
    · rw [i1]
      simp only [List.length_cons, Int.natCast_add, Int.add_mul, Int.natCast_one, Int.one_mul, Int.cast_ofNat_Int]
      omega
    · intro i u d hu hdd
      cases i with
      | zero =>
        simp only [List.getElem?_cons_zero, Option.some.injEq] at hu hdd
        subst hu hdd
        simp only [Int.natCast_zero, Int.zero_add, Int.one_mul]
        omega
      | succ i =>
        simp only [List.getElem?_cons_succ] at hu hdd
        rw [i2 i u d hu hdd]
        simp only [Int.natCast_add, Int.add_mul, Int.natCast_one, Int.one_mul, Int.cast_ofNat_Int]
        congr 1
        omega

/-- **C46 (stall).** A call more than two periods after its scheduled time does not sleep and restarts the
schedule at the current time; a call before the previous scheduled time (the clock went back) sleeps one whole
period from the current time. -/
theorem C46_restarts (s : State) (hd : 0 < s.dur) (t : Int) :
    (s.last + s.dur + 2 * s.dur < t → sleepLogic s t = ({ s with last := t }, 0)) ∧
    (t < s.last → sleepLogic s t = ({ s with last := t + s.dur }, s.dur)) := by
  constructor
  · intro h
    unfold sleepLogic remaining
    have e0 : ¬ t < s.last := by omega
    simp only [e0, if_false]
    rw [if_pos (by omega), if_neg (by omega)]
  · intro h
    unfold sleepLogic remaining
    simp only [h, if_true]
    rw [if_neg (by omega), if_pos (by omega)]
    congr 1
    omega

/-- Period 10 from time 0: two calls on time, a late one that catches up, a stall, and a clock that went
back. -/
example : (run { last := 0, dur := 10 } [3, 12, 35, 41, 100, 50]).2 = [7, 8, 0, 0, 0, 10] := by decide

end Rate
end Ez
