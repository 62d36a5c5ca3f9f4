import Verif.Model.ProcessCalls

/-!
# C130: asking a process about itself gives what that process says, or an error
-/

set_option linter.unusedSectionVars false

namespace Ez
namespace ProcessCalls
open Route
variable {R P U : Type} [DecidableEq R] [DecidableEq P] [DecidableEq U]

/-! ## Specification -/

/-- `pickle` as it is: what was dumped is loaded, and is not empty. -/
structure Pickle.Good (pk : Pickle) : Prop where
  roundTrip : ∀ x, x ≠ .raises → pk.loads (pk.dumps x) = x
  nonempty : ∀ x, pk.dumps x ≠ []

/-- `p` is the process asked for `unit`: the first of the processes that own it. -/
def Owner (ps before : List (Proc R P U)) (p : Proc R P U) (after : List (Proc R P U)) (unit : U) : Prop :=
  ps = before ++ p :: after ∧ unit ∈ p.units ∧ ∀ x ∈ before, unit ∉ x.units

/-! ## Proofs -/

theorem route_owner {ps before after : List (Proc R P U)} {p : Proc R P U} {unit : U} (h : Owner ps before p after unit) (q : Request R) :
    route unit q ps = if p.link = .broken then (ps, .writeFailed) else (before ++ (serve p q).1 :: after, (serve p q).2) := by
  obtain ⟨rfl, hp, hb⟩ := h
  induction before with
  | nil =>
    simp only [List.nil_append, route, if_pos hp]
  | cons x xs ih =>
    have hx : unit ∉ x.units := hb x (by simp)
    simp only [List.cons_append, route, if_neg hx]
    rw [ih (fun y hy => hb y (by simp [hy]))]
    split <;> rfl

theorem route_nobody {ps : List (Proc R P U)} {unit : U} (h : ∀ p ∈ ps, unit ∉ p.units) (q : Request R) :
    route unit q ps = (ps, .unroutable) := by
  induction ps with
  | nil => rfl
  | cons x xs ih =>
    simp only [route, if_neg (h x (by simp)), ih (fun y hy => h y (by simp [hy]))]

theorem received_dumps {pk : Pickle} (g : pk.Good) {x : Loaded} (h : x ≠ .raises) : received pk (pk.dumps x) = some x := by
  rw [received, if_pos (List.length_pos_iff.2 (g.nonempty x)), g.roundTrip x h]

/-- C130: `decode_process_payload` returns exactly the payload of a response that is ok and has one of the type expected; everything
else is a `RuntimeError`. -/
theorem C130_decode (r : Reply R P U) (t : Ty) :
    (∀ x, decode r t = .ok x ↔ (∃ m, r = .process m ∧ m.ok = true ∧ m.payload = some x) ∧
      (t = .object ∨ (t = .ping ∧ ∃ p, x = .ping p) ∨ (t = .stats ∧ ∃ p us, x = .stats p us) ∨ (t = .snapshot ∧ x = .snapshot) ∨
        (t = .batch ∧ ∃ n, x = .batch n))) ∧
    (∀ e, decode r t = .error e → e = .runtimeError) := by
  constructor
  · intro x
    cases r with
    | process m =>
      obtain ⟨i, ok, pl, c, pr⟩ := m
      cases ok <;> cases pl with
      | none => simp [decode, Reply.ok, Reply.payload]
      | some y =>
        cases t <;> cases y <;> simp [decode, Reply.ok, Reply.payload, Ty.has] <;> grind
    | unroutable => simp [decode, Reply.ok]
    | writeFailed => simp [decode, Reply.ok]
    | timeout => simp [decode, Reply.ok]
  · intro e h
    unfold decode at h
    split at h
    · cases h; rfl
    · split at h
      · cases h; rfl
      · split at h
        · cases h
        · cases h; rfl

/-- C130: if the process that owns the unit can be reached, the answers are its own: its id, its id and units, its profile, and a batch
of as many samples as asked for (at least one); no process changes. -/
theorem C130_answers {pk : Pickle} (g : pk.Good) (id : R) {ps before after : List (Proc R P U)} {p : Proc R P U} {unit : U}
    (h : Owner ps before p after unit) (hl : p.link = .works) :
    ping pk id ps unit = (ps, .ok (.ping p.st.me)) ∧
    stats pk id ps unit = (ps, .ok (.stats p.st.me p.st.units)) ∧
    snapshot pk id ps unit = (ps, .ok .snapshot) ∧
    ∀ n : Int, batch pk id ps unit n = (ps, .ok (.batch (if 1 ≤ n then n else 1))) := by
  have hb : p.link ≠ .broken := by rw [hl]; decide
  have hp : ({ units := p.units, link := .works, st := p.st } : Proc R P U) = p := by rw [← hl]
  refine ⟨?_, ?_, ?_, fun n => ?_⟩
  · simp only [ping, ask, request, route_owner h, if_neg hb, serve, opName, handle, OpArg.resolve, Op.ofString]
    simp [picklable, hl, Except.bind, decode, Reply.ok, Reply.payload, Ty.has, h.1, hp]
  · simp only [stats, ask, request, route_owner h, if_neg hb, serve, opName, handle, OpArg.resolve, Op.ofString]
    simp [picklable, hl, Except.bind, decode, Reply.ok, Reply.payload, Ty.has, h.1, hp]
  · simp only [snapshot, ask, request, route_owner h, if_neg hb, serve, opName, handle, OpArg.resolve, Op.ofString]
    simp [picklable, hl, Except.bind, decode, Reply.ok, Reply.payload, Ty.has, h.1, hp]
  · have hr := received_dumps g (x := .int n) (by simp)
    simp only [batch, ask, request, route_owner h, if_neg hb, serve, opName, handle, OpArg.resolve, Op.ofString]
    simp [picklable, hl, Except.bind, decode, Reply.ok, Reply.payload, Ty.has, h.1, hr, hp]
    split <;> omega

/-- C130: `process_set_profiling_trace` turns tracing and pushing on or off in the process that owns the unit and in no other; the
response is ok and carries its id. -/
theorem C130_trace {pk : Pickle} (g : pk.Good) (id : R) {ps before after : List (Proc R P U)} {p : Proc R P U} {unit : U}
    (h : Owner ps before p after unit) (hl : p.link = .works) (on : Bool) :
    setTrace pk id ps unit on =
      (before ++ { p with st := { p.st with tracing := on, pushing := on } } :: after,
        .ok (.process ⟨id, true, none, none, some p.st.me⟩)) := by
  have hb : p.link ≠ .broken := by rw [hl]; decide
  have hr := received_dumps g (x := .control on) (by simp)
  simp only [setTrace, request, route_owner h, if_neg hb, serve, opName, handle, OpArg.resolve, Op.ofString]
  simp [picklable, hl, hr]

/-- C130: if no process owns the unit, or the one that does cannot be reached or is late, the four queries raise `RuntimeError`;
`process_set_profiling_trace` raises nothing: its response is not ok. -/
theorem C130_unreachable (pk : Pickle) (id : R) (ps : List (Proc R P U)) (unit : U)
    (h : (∀ p ∈ ps, unit ∉ p.units) ∨ ∃ before p after, Owner ps before p after unit ∧ p.link ≠ .works) :
    (ping pk id ps unit).2 = .error .runtimeError ∧ (stats pk id ps unit).2 = .error .runtimeError ∧
    (snapshot pk id ps unit).2 = .error .runtimeError ∧ (∀ n, (batch pk id ps unit n).2 = .error .runtimeError) ∧
    ∀ on, ∃ r, (setTrace pk id ps unit on).2 = .ok r ∧ r.ok = false := by
  have key : ∀ q : Request R, (route unit q ps).2.ok = false := by
    intro q
    rcases h with h | ⟨b, p, a, h, hl⟩
    · rw [route_nobody h]; rfl
    · rw [route_owner h]
      split
      · rfl
      · simp only [serve]
        split
        · rfl
        · rw [if_neg (by simp [hl])]; rfl
  have kd : ∀ (q : Request R) t, decode (route unit q ps).2 t = .error .runtimeError := by
    intro q t; rw [decode, key q]; rfl
  refine ⟨?_, ?_, ?_, fun n => ?_, fun on => ?_⟩
  · simpa [ping, ask, request, Except.bind] using kd _ _
  · simpa [stats, ask, request, Except.bind] using kd _ _
  · simpa [snapshot, ask, request, Except.bind] using kd _ _
  · simpa [batch, ask, request, Except.bind] using kd _ _
  · exact ⟨_, rfl, key _⟩

/-- C130: `process_request` with both kinds of payload is refused, and no process gets anything. -/
theorem C130_both (pk : Pickle) (id : R) (ps : List (Proc R P U)) (unit : U) (op : OpArg) (b : Bytes) (x : Loaded) :
    request pk id ps unit op (some b) (some x) = (ps, .error .valueError) := rfl

/-- C130: otherwise the process that owns the unit gets one request: with the operation named, and with the object given, or with what
the bytes given load to. Empty bytes arrive as no payload. -/
theorem C130_request {pk : Pickle} (g : pk.Good) (id : R) {ps before after : List (Proc R P U)} {p : Proc R P U} {unit : U}
    (h : Owner ps before p after unit) (hl : p.link = .works) (op : OpArg) (b : Option Bytes) (x : Option Loaded)
    (hbx : b = none ∨ x = none) (hx : x ≠ some .raises) :
    ∃ q : Request R, q.id = id ∧ q.op.resolve = op.resolve ∧
      (∀ y, x = some y → q.payload = some y) ∧
      (∀ c, b = some c → c ≠ [] → q.payload = some (pk.loads c)) ∧
      (x = none → (b = none ∨ b = some []) → q.payload = none) ∧
      (request pk id ps unit op b x).1 = before ++ { p with st := (handle p.st q).1 } :: after ∧
      ∀ m, (request pk id ps unit op b x).2 = .ok (.process m) ↔ (handle p.st q).2 = some m ∧ picklable m = true := by
  have hb : p.link ≠ .broken := by rw [hl]; decide
  have hop : (opName op).resolve = op.resolve := by
    cases op with
    | member o => cases o <;> simp [opName, OpArg.resolve, Op.ofString]
    | str s => rfl
    | other => rfl
  have hn : (b.isSome && x.isSome) = false := by rcases hbx with rfl | rfl <;> simp
  refine ⟨⟨id, opName op, received pk ((match x with | some y => some (pk.dumps y) | none => b).getD [])⟩, rfl, hop, ?_, ?_, ?_, ?_, ?_⟩
  · rintro y rfl
    exact received_dumps g (fun e => hx (by rw [e]))
  · rintro c rfl hc
    rcases hbx with h | rfl
    · cases h
    · simp [received, List.length_pos_iff.2 hc]
  · rintro rfl (rfl | rfl) <;> simp [received]
  · simp only [request, hn, route_owner h, if_neg hb, serve]
    rfl
  · intro m
    simp only [request, hn, route_owner h, if_neg hb, serve]
    generalize (handle p.st _).2 = o
    cases o with
    | none => simp
    | some r =>
      by_cases hp : picklable r = true
      · simp [hp, hl]; rintro rfl; exact hp
      · simp [hp, hl]; rintro rfl; simpa using hp

/-! ## Examples -/

/-- A pickle for what is used here. -/
def examplePickle : Pickle where
  dumps
    | .control true => [1]
    | .control false => [2]
    | .int n => if 0 ≤ n then 3 :: List.replicate n.toNat 0 else 4 :: List.replicate (-n).toNat 0
    | .other => [5]
    | .raises => [6]
  loads
    | 1 :: _ => .control true
    | 2 :: _ => .control false
    | 3 :: xs => .int xs.length
    | 4 :: xs => .int (-(xs.length : Int))
    | 5 :: _ => .other
    | _ => .raises

theorem examplePickle_good : examplePickle.Good where
  roundTrip := by
    intro x hx
    cases x with
    | control b => cases b <;> rfl
    | int n =>
      by_cases h : 0 ≤ n
      · simp [examplePickle, h]; omega
      · simp [examplePickle, h]; omega
    | other => rfl
    | raises => exact absurd rfl hx
  nonempty := by
    intro x
    cases x with
    | control b => cases b <;> simp [examplePickle]
    | int n => simp only [examplePickle]; split <;> simp
    | other => simp [examplePickle]
    | raises => simp [examplePickle]

/-- Two processes; unit 5 belongs to the second, unit 6 to a third that cannot be reached. -/
def exampleProcs : List (Proc Nat Nat Nat) :=
  [⟨[4], .works, ⟨100, [4], none, false, false⟩⟩, ⟨[5, 7], .works, ⟨200, [5, 7], none, false, false⟩⟩, ⟨[6], .broken, ⟨300, [6], none, false, false⟩⟩]

theorem exampleOwner : Owner exampleProcs (exampleProcs.take 1) ⟨[5, 7], .works, ⟨200, [5, 7], none, false, false⟩⟩ (exampleProcs.drop 2) 5 :=
  ⟨rfl, by decide, by intro x hx; simp [exampleProcs] at hx; subst hx; decide⟩

example : (stats examplePickle 1 exampleProcs 5).2 = .ok (.stats 200 [5, 7]) := by
  rw [(C130_answers examplePickle_good 1 exampleOwner rfl).2.1]
example : (batch examplePickle 1 exampleProcs 5 (-3)).2 = .ok (.batch 1) := by
  rw [(C130_answers examplePickle_good 1 exampleOwner rfl).2.2.2]; rfl
example : (setTrace examplePickle 1 exampleProcs 5 true).1.map (fun p => p.st.tracing) = [false, true, false] := by
  rw [C130_trace examplePickle_good 1 exampleOwner rfl]; rfl
example : (ping examplePickle 1 exampleProcs 6).2 = .error .runtimeError :=
  (C130_unreachable examplePickle 1 exampleProcs 6 (.inr ⟨exampleProcs.take 2, _, [], ⟨rfl, by decide, by
    intro x hx; simp [exampleProcs] at hx; rcases hx with rfl | rfl <;> decide⟩, by decide⟩)).1
example : (ping examplePickle 1 exampleProcs 9).2 = .error .runtimeError :=
  (C130_unreachable examplePickle 1 exampleProcs 9 (.inl (by
    intro x hx; simp [exampleProcs] at hx; rcases hx with rfl | rfl | rfl <;> decide))).1
example : decode (.process ⟨1, true, some (.batch 3), none, none⟩ : Reply Nat Nat Nat) .ping = .error .runtimeError := rfl

end ProcessCalls
end Ez
