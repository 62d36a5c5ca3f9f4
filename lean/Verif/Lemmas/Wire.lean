import Verif.Model.Wire
import Verif.Lemmas.Netprotocol

/-!
# The order in which the two sides of a connection work makes no difference; steps of programs
-/

set_option linter.unusedSimpArgs false

namespace Ez.Wire
variable {R A B : Type} {l : Loops A B} {c d f : Conn A B}

/-- More input and a peer that has closed only after all input make no difference to an operation that is possible. -/
theorem move_more {next : R → Option (Prog R)} {p p' : Prog R} {inp inp' out : Bytes} {x x' y y' : Bool} {more : Bytes}
    (h : move next p inp x y = some (p', inp', out, x')) (hy : y = true → y' = true ∧ more = []) :
    move next p (inp ++ more) x y' = some (p', inp' ++ more, out, x') := by
  unfold move at h ⊢
  split at h
  · obtain ⟨q, hq, e⟩ := Option.map_eq_some_iff.1 h
    simp only [Prod.mk.injEq] at e
    obtain ⟨rfl, rfl, rfl, rfl⟩ := e
    simp [hq]
  · cases h
  · cases h; rfl
  · split at h
    · cases h; rfl
    · split at h
      · rename_i hy'
        obtain ⟨h1, rfl⟩ := hy hy'
        cases h; simp [h1]
      · cases h
  · split at h
    · rename_i hn
      cases h
      have : ¬ _ < _ := Nat.not_lt.2 hn
      simp only [List.length_append]
      rw [if_pos (by omega), List.take_append_of_le_length hn, List.drop_append_of_le_length hn]
    · rename_i hn
      split at h
      · rename_i hy'
        obtain ⟨h1, rfl⟩ := hy hy'
        cases h; simp [h1, hn]
      · cases h
  · cases h; rfl

/-- What a closed side writes is nothing, and it stays closed. -/
theorem move_closed {next : R → Option (Prog R)} {p p' : Prog R} {inp inp' out : Bytes} {x x' y : Bool}
    (h : move next p inp x y = some (p', inp', out, x')) : (x = true → x' = true ∧ out = []) := by
  intro hx
  subst hx
  unfold move at h
  split at h
  · obtain ⟨q, hq, e⟩ := Option.map_eq_some_iff.1 h
    simp only [Prod.mk.injEq] at e
    obtain ⟨rfl, rfl, rfl, rfl⟩ := e
    exact ⟨rfl, rfl⟩
  · cases h
  · cases h; exact ⟨rfl, rfl⟩
  · split at h
    · cases h; exact ⟨rfl, rfl⟩
    · split at h
      · cases h; exact ⟨rfl, rfl⟩
      · cases h
  · split at h
    · cases h; exact ⟨rfl, rfl⟩
    · split at h
      · cases h; exact ⟨rfl, rfl⟩
      · cases h
  · cases h; exact ⟨rfl, rfl⟩

/-- Both sides may go first. -/
theorem diamond {c1 c2 : Conn A B} (h1 : step l c .client = some c1) (h2 : step l c .server = some c2) :
    ∃ d, step l c1 .server = some d ∧ step l c2 .client = some d := by
  simp only [step] at h1 h2
  obtain ⟨⟨p, i1, o1, x1⟩, m1, e1⟩ := Option.map_eq_some_iff.1 h1
  obtain ⟨⟨q, i2, o2, x2⟩, m2, e2⟩ := Option.map_eq_some_iff.1 h2
  subst e1 e2
  have k1 := move_more (y' := x2) (more := o2) m1 (move_closed m2)
  have k2 := move_more (y' := x1) (more := o1) m2 (move_closed m1)
  exact ⟨_, by simp only [step, k2, Option.map_some]; rfl, by simp only [step, k1, Option.map_some]⟩

theorem step_or {c1 c2 : Conn A B} {v w : Side} (h : v ≠ w) (h1 : step l c v = some c1) (h2 : step l c w = some c2) :
    ∃ d, step l c1 w = some d ∧ step l c2 v = some d := by
  cases v <;> cases w
  · exact absurd rfl h
  · exact diamond h1 h2
  · obtain ⟨d, k1, k2⟩ := diamond h2 h1; exact ⟨d, k2, k1⟩
  · exact absurd rfl h

theorem run_uniform : ∀ (n : Nat) (c : Conn A B) (s : List Side), s.length = n → run l c s = some f →
    (∀ w, step l f w = none) → ∀ t d, run l c t = some d → ∃ u, run l d u = some f ∧ t.length + u.length = n := by
  intro n
  induction n with
  | zero =>
    intro c s hs hr hf t d ht
    have : s = [] := List.eq_nil_of_length_eq_zero hs
    subst this
    cases hr
    cases t with
    | nil => cases ht; exact ⟨[], rfl, rfl⟩
    | cons w t => simp [run, hf] at ht
  | succ n ih =>
    intro c s hs hr hf t d ht
    cases s with
    | nil => cases hs
    | cons w s =>
      simp only [List.length_cons, Nat.add_right_cancel_iff] at hs
      simp only [run] at hr
      obtain ⟨c1, h1, hr'⟩ := Option.bind_eq_some_iff.1 hr
      cases t with
      | nil => cases ht; exact ⟨w :: s, by simp [run, h1, hr'], by simp [hs]⟩
      | cons v t =>
        simp only [run] at ht
        obtain ⟨c2, h2, ht'⟩ := Option.bind_eq_some_iff.1 ht
        by_cases hvw : v = w
        · subst hvw
          rw [h1] at h2; cases h2
          obtain ⟨u, k1, k2⟩ := ih c1 s hs hr' hf t d ht'
          exact ⟨u, k1, by simp; omega⟩
        · obtain ⟨e, e1, e2⟩ := step_or (fun h => hvw h.symm) h1 h2
          obtain ⟨u, k1, k2⟩ := ih c1 s hs hr' hf [v] e (by simp [run, e1])
          simp only [List.length_cons, List.length_nil, Nat.zero_add] at k2
          obtain ⟨u', j1, j2⟩ := ih c2 (w :: u) (by simp; omega) (by simp [run, e2, k1]) hf t d ht'
          exact ⟨u', j1, by simp; omega⟩

/-! ## Steps -/

/-- Some order of work leads from one state to the other. -/
def Gets (l : Loops A B) (c f : Conn A B) : Prop := ∃ s, run l c s = some f

theorem Gets.refl : Gets l c c := ⟨[], rfl⟩

theorem Gets.head {w : Side} (h : step l c w = some d) (g : Gets l d f) : Gets l c f := by
  obtain ⟨s, hs⟩ := g
  exact ⟨w :: s, by simp [run, h, hs]⟩

theorem run_append {s t : List Side} : run l c (s ++ t) = (run l c s).bind fun c => run l c t := by
  induction s generalizing c with
  | nil => rfl
  | cons w s ih =>
    simp only [List.cons_append, run]
    cases step l c w with
    | none => rfl
    | some c => exact ih

theorem Gets.trans (h : Gets l c d) (g : Gets l d f) : Gets l c f := by
  obtain ⟨s, hs⟩ := h
  obtain ⟨t, ht⟩ := g
  exact ⟨s ++ t, by rw [run_append, hs]; exact ht⟩

/-- The bytes of a string, of a number and of a payload. -/
def E (s : String) : Bytes := toBytesLE 8 (utf8 s).length ++ utf8 s
def N (n : Nat) : Bytes := toBytesLE 8 n
def P (p : Bytes) : Bytes := toBytesLE 8 p.length ++ p

section
variable {p : Prog A} {q : Prog B} {u dn b : Bytes} {x y : Bool} {s : String} {n : Nat} {z : UInt8}

/-! The client's steps. -/

theorem c_write {k : Prog A} (g : Gets l ⟨k, q, u ++ b, dn, false, y⟩ f) : Gets l ⟨.write b k, q, u, dn, false, y⟩ f :=
  .head (w := .client) rfl g

theorem c_cmd {k : Prog A} {m : Command} (g : Gets l ⟨k, q, u ++ [m.value], dn, false, y⟩ f) :
    Gets l ⟨cmd m k, q, u, dn, false, y⟩ f := c_write g

theorem c_str {k : Prog A} (h : (utf8 s).length < 2 ^ 64) (g : Gets l ⟨k, q, u ++ E s, dn, false, y⟩ f) :
    Gets l ⟨writeStr s k, q, u, dn, false, y⟩ f := by
  simp only [writeStr, encodeStr, uint64ToBytes_nat _ h, bind, Option.bind_some, pure]
  exact c_write g

theorem c_int {k : Prog A} (h : n < 2 ^ 64) (g : Gets l ⟨k, q, u ++ N n, dn, false, y⟩ f) :
    Gets l ⟨writeInt n k, q, u, dn, false, y⟩ f := by
  simp only [writeInt, uint64ToBytes_nat _ h]
  exact c_write g

theorem c_pay {k : Prog A} (h : b.length < 2 ^ 64) (g : Gets l ⟨k, q, u ++ P b, dn, false, y⟩ f) :
    Gets l ⟨writePayload b k, q, u, dn, false, y⟩ f := by
  refine c_int h (c_write ?_)
  rw [List.append_assoc]
  exact g

theorem c_read1 {k : Option UInt8 → Prog A} (g : Gets l ⟨k (some z), q, u, dn, x, y⟩ f) :
    Gets l ⟨.read1 k, q, u, z :: dn, x, y⟩ f := by
  refine .head (w := .client) ?_ g
  simp [step, move]

theorem c_eof {k : Option UInt8 → Prog A} (g : Gets l ⟨k none, q, u, [], x, true⟩ f) :
    Gets l ⟨.read1 k, q, u, [], x, true⟩ f := by
  refine .head (w := .client) ?_ g
  simp [step, move]

theorem c_exact {k : Bytes → Prog A} {e : Prog A} (h : b.length = n) (g : Gets l ⟨k b, q, u, dn, x, y⟩ f) :
    Gets l ⟨.exact n k e, q, u, b ++ dn, x, y⟩ f := by
  subst h
  refine .head (w := .client) ?_ g
  simp [step, move]

theorem c_readInt {k : Nat → Prog A} (h : n < 2 ^ 64) (g : Gets l ⟨k n, q, u, dn, x, y⟩ f) :
    Gets l ⟨readInt k, q, u, N n ++ dn, x, y⟩ f := by
  refine c_exact (length_toBytesLE _ _) ?_
  rw [N, decode_uint64 n h]; exact g

theorem c_readStr {k : String → Prog A} (h : (utf8 s).length < 2 ^ 64) (g : Gets l ⟨k s, q, u, dn, x, y⟩ f) :
    Gets l ⟨readStr k, q, u, E s ++ dn, x, y⟩ f := by
  unfold E
  rw [List.append_assoc]
  refine c_readInt h (c_exact rfl ?_)
  rw [utf8Decode_utf8]; exact g

theorem c_readPay {k : Bytes → Prog A} (h : b.length < 2 ^ 64) (g : Gets l ⟨k b, q, u, dn, x, y⟩ f) :
    Gets l ⟨readPayload k, q, u, P b ++ dn, x, y⟩ f := by
  unfold P
  rw [List.append_assoc]
  exact c_readInt h (c_exact rfl g)

theorem c_close {k : Prog A} (g : Gets l ⟨k, q, u, dn, true, y⟩ f) : Gets l ⟨.close k, q, u, dn, x, y⟩ f := by
  refine .head (w := .client) ?_ g
  simp [step, move]

theorem c_next {r : A} {k : Prog A} (h : l.client r = some k) (g : Gets l ⟨k, q, u, dn, x, y⟩ f) :
    Gets l ⟨ret r, q, u, dn, x, y⟩ f := by
  refine .head (w := .client) ?_ g
  simp [step, move, ret, h]

/-! The server's steps. -/

theorem s_write {k : Prog B} (g : Gets l ⟨p, k, u, dn ++ b, x, false⟩ f) : Gets l ⟨p, .write b k, u, dn, x, false⟩ f :=
  .head (w := .server) rfl g

theorem s_cmd {k : Prog B} {m : Command} (g : Gets l ⟨p, k, u, dn ++ [m.value], x, false⟩ f) :
    Gets l ⟨p, cmd m k, u, dn, x, false⟩ f := s_write g

theorem s_str {k : Prog B} (h : (utf8 s).length < 2 ^ 64) (g : Gets l ⟨p, k, u, dn ++ E s, x, false⟩ f) :
    Gets l ⟨p, writeStr s k, u, dn, x, false⟩ f := by
  simp only [writeStr, encodeStr, uint64ToBytes_nat _ h, bind, Option.bind_some, pure]
  exact s_write g

theorem s_int {k : Prog B} (h : n < 2 ^ 64) (g : Gets l ⟨p, k, u, dn ++ N n, x, false⟩ f) :
    Gets l ⟨p, writeInt n k, u, dn, x, false⟩ f := by
  simp only [writeInt, uint64ToBytes_nat _ h]
  exact s_write g

theorem s_pay {k : Prog B} (h : b.length < 2 ^ 64) (g : Gets l ⟨p, k, u, dn ++ P b, x, false⟩ f) :
    Gets l ⟨p, writePayload b k, u, dn, x, false⟩ f := by
  refine s_int h (s_write ?_)
  rw [List.append_assoc]
  exact g

theorem s_read1 {k : Option UInt8 → Prog B} (g : Gets l ⟨p, k (some z), u, dn, x, y⟩ f) :
    Gets l ⟨p, .read1 k, z :: u, dn, x, y⟩ f := by
  refine .head (w := .server) ?_ g
  simp [step, move]

theorem s_eof {k : Option UInt8 → Prog B} (g : Gets l ⟨p, k none, [], dn, true, y⟩ f) :
    Gets l ⟨p, .read1 k, [], dn, true, y⟩ f := by
  refine .head (w := .server) ?_ g
  simp [step, move]

theorem s_exact {k : Bytes → Prog B} {e : Prog B} (h : b.length = n) (g : Gets l ⟨p, k b, u, dn, x, y⟩ f) :
    Gets l ⟨p, .exact n k e, b ++ u, dn, x, y⟩ f := by
  subst h
  refine .head (w := .server) ?_ g
  simp [step, move]

theorem s_exact_eof {k : Bytes → Prog B} {e : Prog B} (h : 0 < n) (g : Gets l ⟨p, e, [], dn, true, y⟩ f) :
    Gets l ⟨p, .exact n k e, [], dn, true, y⟩ f := by
  refine .head (w := .server) ?_ g
  have : ¬ n ≤ 0 := by omega
  simp [step, move, this]

theorem s_readInt {k : Nat → Prog B} (h : n < 2 ^ 64) (g : Gets l ⟨p, k n, u, dn, x, y⟩ f) :
    Gets l ⟨p, readInt k, N n ++ u, dn, x, y⟩ f := by
  refine s_exact (length_toBytesLE _ _) ?_
  rw [N, decode_uint64 n h]; exact g

theorem s_readStr {k : String → Prog B} (h : (utf8 s).length < 2 ^ 64) (g : Gets l ⟨p, k s, u, dn, x, y⟩ f) :
    Gets l ⟨p, readStr k, E s ++ u, dn, x, y⟩ f := by
  unfold E
  rw [List.append_assoc]
  refine s_readInt h (s_exact rfl ?_)
  rw [utf8Decode_utf8]; exact g

theorem s_readPay {k : Bytes → Prog B} (h : b.length < 2 ^ 64) (g : Gets l ⟨p, k b, u, dn, x, y⟩ f) :
    Gets l ⟨p, readPayload k, P b ++ u, dn, x, y⟩ f := by
  unfold P
  rw [List.append_assoc]
  exact s_readInt h (s_exact rfl g)

theorem s_close {k : Prog B} (g : Gets l ⟨p, k, u, dn, x, true⟩ f) : Gets l ⟨p, .close k, u, dn, x, y⟩ f := by
  refine .head (w := .server) ?_ g
  simp [step, move]

theorem s_next {r : B} {k : Prog B} (h : l.server r = some k) (g : Gets l ⟨p, k, u, dn, x, y⟩ f) :
    Gets l ⟨p, ret r, u, dn, x, y⟩ f := by
  refine .head (w := .server) ?_ g
  simp [step, move, ret, h]
end

/-! ## Commands -/

theorem value_inj (a b : Command) : a.value = b.value ↔ a = b := by
  constructor
  · cases a <;> cases b <;> first | (intro _; rfl) | (intro h; revert h; decide)
  · rintro rfl; rfl

/-! ## The end of a stream -/

section
variable {p : Prog A} {q : Prog B} {u dn b : Bytes} {x y : Bool} {s : String} {n : Nat}

theorem c_readInt_end {k : Nat → Prog A} (h : n < 2 ^ 64) (g : Gets l ⟨k n, q, u, [], x, y⟩ f) :
    Gets l ⟨readInt k, q, u, N n, x, y⟩ f := by
  rw [← List.append_nil (N n)]; exact c_readInt h g

theorem c_readStr_end {k : String → Prog A} (h : (utf8 s).length < 2 ^ 64) (g : Gets l ⟨k s, q, u, [], x, y⟩ f) :
    Gets l ⟨readStr k, q, u, E s, x, y⟩ f := by
  rw [← List.append_nil (E s)]; exact c_readStr h g

theorem c_readPay_end {k : Bytes → Prog A} (h : b.length < 2 ^ 64) (g : Gets l ⟨k b, q, u, [], x, y⟩ f) :
    Gets l ⟨readPayload k, q, u, P b, x, y⟩ f := by
  rw [← List.append_nil (P b)]; exact c_readPay h g

theorem s_readInt_end {k : Nat → Prog B} (h : n < 2 ^ 64) (g : Gets l ⟨p, k n, [], dn, x, y⟩ f) :
    Gets l ⟨p, readInt k, N n, dn, x, y⟩ f := by
  rw [← List.append_nil (N n)]; exact s_readInt h g

theorem s_readStr_end {k : String → Prog B} (h : (utf8 s).length < 2 ^ 64) (g : Gets l ⟨p, k s, [], dn, x, y⟩ f) :
    Gets l ⟨p, readStr k, E s, dn, x, y⟩ f := by
  rw [← List.append_nil (E s)]; exact s_readStr h g

theorem s_readPay_end {k : Bytes → Prog B} (h : b.length < 2 ^ 64) (g : Gets l ⟨p, k b, [], dn, x, y⟩ f) :
    Gets l ⟨p, readPayload k, P b, dn, x, y⟩ f := by
  rw [← List.append_nil (P b)]; exact s_readPay h g

theorem s_exact_end {k : Bytes → Prog B} {e : Prog B} (h : b.length = n) (g : Gets l ⟨p, k b, [], dn, x, y⟩ f) :
    Gets l ⟨p, .exact n k e, b, dn, x, y⟩ f := by
  rw [← List.append_nil b]; exact s_exact h g
end

theorem P_eq (b : Bytes) : P b = N b.length ++ b := rfl

attribute [irreducible] E N P

/-- One operation of either side. -/
macro "wire1" : tactic => `(tactic| (first
  | refine c_cmd ?_ | refine s_cmd ?_
  | refine c_str (by assumption) ?_ | refine s_str (by assumption) ?_
  | refine c_int (by assumption) ?_ | refine s_int (by assumption) ?_
  | refine c_pay (by assumption) ?_ | refine s_pay (by assumption) ?_
  | refine c_write ?_ | refine s_write ?_
  | refine c_close ?_ | refine s_close ?_
  | refine c_read1 ?_ | refine s_read1 ?_ | refine c_eof ?_ | refine s_eof ?_
  | refine c_readStr (by assumption) ?_ | refine s_readStr (by assumption) ?_
  | refine c_readStr_end (by assumption) ?_ | refine s_readStr_end (by assumption) ?_
  | refine c_readInt (by assumption) ?_ | refine s_readInt (by assumption) ?_
  | refine c_readInt_end (by assumption) ?_ | refine s_readInt_end (by assumption) ?_
  | refine c_readPay (by assumption) ?_ | refine s_readPay (by assumption) ?_
  | refine c_readPay_end (by assumption) ?_ | refine s_readPay_end (by assumption) ?_))

/-- Operations of both sides for as long as possible. -/
macro "wire" : tactic => `(tactic| repeat (wire1; try simp only [List.nil_append, List.append_assoc, List.cons_append, openConnection,
  call.handshake, value_inj, reduceCtorEq, if_false, if_true, ne_eq, not_true_eq_false, not_false_eq_true, Option.some.injEq]))

end Ez.Wire
