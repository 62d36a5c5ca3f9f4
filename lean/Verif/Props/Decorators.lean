import Verif.Model.Decorators
import Verif.Props.Coordinates

/-!
# C118: profiling a method or task leaves it as it is

Specification: `SampleTime`, what the log should say of a message; `Unreadable`, the messages for which there is no such thing.
-/

set_option linter.unusedSimpArgs false
set_option linter.unusedSectionVars false

namespace Ez.Deco
open Ez.AA
open Ez.AA.Coordinates (WF coordinate)

variable {α R A : Type} [Add R] [Sub R] [Mul R] [Div R] [NatCast R] {S E Msg Args : Type}

/-- The dimension along which messages are placed in time: windows if they are declared, otherwise time. -/
def Chosen (aa : AxisArray α R A) (d : String) : Prop :=
  (d = "win" ∧ PyDict.get? aa.axes "win" ≠ none) ∨
    (d = "time" ∧ PyDict.get? aa.axes "win" = none ∧ PyDict.get? aa.axes "time" ≠ none)

/-- `v` is what the axis gives position `i`. -/
def ValueAt (a : Axis R) (i : Nat) (v : NArr R) : Prop :=
  match a with
  | .linear _ g o => v.shape = [] ∧ v.get [] = coordinate g o i
  | .coord _ data _ => ∃ n, data.shape = n :: v.shape ∧ i < n ∧ ∀ r, v.get r = data.get (i :: r)

/-- The position of the sample that is meant, among `n`. -/
def position (oldest : Bool) (n : Nat) : Nat := if oldest then 0 else n - 1

/-- The time of the oldest or newest sample of a message along the chosen dimension; none if it has no such dimension or no samples. -/
inductive SampleTime (oldest : Bool) : Obj α R A → Option (NArr R) → Prop
  | plain : SampleTime oldest .plain none
  | untimed {aa : AxisArray α R A} (h : ∀ d, ¬ Chosen aa d) : SampleTime oldest (.array aa) none
  | empty {aa : AxisArray α R A} {d : String} {k : Nat} (hc : Chosen aa d) (hk : aa.dims[k]? = some d) (hn : aa.data.shape[k]? = some 0) : SampleTime oldest (.array aa) none
  | sample {aa : AxisArray α R A} {d : String} {k n : Nat} {a : Axis R} {v : NArr R} (hc : Chosen aa d) (hk : aa.dims[k]? = some d) (hn : aa.data.shape[k]? = some n) (h0 : 0 < n)
      (ha : PyDict.get? aa.axes d = some a) (hv : ValueAt a (position oldest n) v) : SampleTime oldest (.array aa) (some v)

/-- The message declares a dimension it does not have, or too few coordinates for the dimension. -/
def Unreadable (oldest : Bool) : Obj α R A → Prop
  | .plain => False
  | .array aa => ∃ d, Chosen aa d ∧ (d ∉ aa.dims ∨ ∃ (k n : Nat) (u : String) (data : NArr R) (ds : List String), aa.dims[k]? = some d ∧ aa.data.shape[k]? = some n ∧ 0 < n ∧
      PyDict.get? aa.axes d = some (.coord u data ds) ∧ ∀ m rest, data.shape = m :: rest → m ≤ position oldest n)

/-- What the constructor of `AxisArray` checks. -/
def Good : Obj α R A → Prop
  | .plain => True
  | .array aa => WF aa

theorem axisValue_spec (a : Axis R) (i : Nat) :
    (∃ v, axisValue a i = .ok v ∧ ValueAt a i v) ∨
      ((∃ e, axisValue a i = .error e) ∧ ∃ u data ds, a = .coord u data ds ∧ ∀ m rest, data.shape = m :: rest → m ≤ i) := by
  cases a with
  | linear u g o => exact .inl ⟨_, rfl, rfl, rfl⟩
  | coord u data ds =>
    simp only [axisValue]
    split
    · rename_i h
      exact .inr ⟨⟨_, rfl⟩, u, data, ds, rfl, by simp [h]⟩
    · rename_i n rest h
      split
      · rename_i hi
        exact .inl ⟨_, rfl, n, h, hi, fun _ => rfl⟩
      · rename_i hi
        refine .inr ⟨⟨_, rfl⟩, u, data, ds, rfl, ?_⟩
        intro m r e
        rw [h] at e
        cases e
        omega

/-- The chosen dimension in the code. -/
theorem chosen_iff {aa : AxisArray α R A} (h : (PyDict.get? aa.axes "time").isSome = true ∨ (PyDict.get? aa.axes "win").isSome = true) (d : String) :
    Chosen aa d ↔ d = if (PyDict.get? aa.axes "win").isSome = true then "win" else "time" := by
  unfold Chosen
  cases hw : PyDict.get? aa.axes "win" with
  | some a => simp
  | none =>
    simp only [hw, Option.isSome_none, Bool.false_eq_true, or_false] at h
    cases ht : PyDict.get? aa.axes "time" with
    | none => rw [ht] at h; cases h
    | some a => simp

theorem process_spec {o : Obj α R A} (hg : Good o) (oldest : Bool) :
    (∃ s, processObj oldest o = .ok s ∧ SampleTime oldest o s ∧ ¬ Unreadable oldest o) ∨
      ((∃ e, processObj oldest o = .error e) ∧ Unreadable oldest o) := by
  cases o with
  | plain => exact .inl ⟨none, rfl, .plain, id⟩
  | array aa =>
    have hw : WF aa := hg
    simp only [processObj]
    by_cases h : (PyDict.get? aa.axes "time").isSome = true ∨ (PyDict.get? aa.axes "win").isSome = true
    · simp only [h, if_true]
      have hd := chosen_iff h
      generalize (if (PyDict.get? aa.axes "win").isSome = true then "win" else "time") = d at hd
      have hc : Chosen aa d := (hd d).2 rfl
      obtain ⟨a, ha⟩ : ∃ a, PyDict.get? aa.axes d = some a := by
        rcases hc with ⟨rfl, h1⟩ | ⟨rfl, _, h1⟩ <;> exact Option.ne_none_iff_exists'.1 h1
      by_cases hm : d ∈ aa.dims
      · obtain ⟨k, hlt, hk⟩ := List.getElem_of_mem hm
        have hidx : aa.dims.idxOf d = k := by rw [← hk]; exact hw.nodup.idxOf_getElem k hlt
        have hk' : aa.dims[k]? = some d := by rw [List.getElem?_eq_getElem hlt, hk]
        have hlt' : k < aa.data.shape.length := hw.len ▸ hlt
        have hn : aa.data.shape[k]? = some aa.data.shape[k] := List.getElem?_eq_getElem hlt'
        have hun : ∀ d', Chosen aa d' → d' = d := fun d' h' => (hd d').1 h'
        have hkk : ∀ k', aa.dims[k']? = some d → k' = k := by
          intro k' e
          obtain ⟨l', e'⟩ := List.getElem?_eq_some_iff.1 e
          rw [← hidx, ← e']
          exact (hw.nodup.idxOf_getElem k' l').symm
        simp only [AxisArray.getAxis, hm, not_true_eq_false, if_false, AxisArray.getAxisIdx, if_true, hidx, hn, ha, Option.getD_some]
        by_cases h0 : aa.data.shape[k] = 0
        · simp only [h0, if_true]
          refine .inl ⟨none, rfl, .empty hc hk' (by rw [hn, h0]), ?_⟩
          rintro ⟨d', h1, h2⟩
          cases hun d' h1
          rcases h2 with h2 | ⟨k', n, u, data, ds, e1, e2, e3, _⟩
          · exact h2 hm
          · cases hkk k' e1
            rw [hn] at e2
            cases e2
            omega
        · simp only [h0, if_false, eqName]
          rcases axisValue_spec a (if oldest = true then 0 else aa.data.shape[k] - 1) with ⟨v, e, hv⟩ | ⟨⟨er, e⟩, u, data, ds, rfl, hs⟩
          · simp only [e]
            refine .inl ⟨some v, rfl, .sample hc hk' hn (by omega) ha hv, ?_⟩
            rintro ⟨d', h1, h2⟩
            cases hun d' h1
            rcases h2 with h2 | ⟨k', n, u, data, ds, e1, e2, e3, e4, e5⟩
            · exact h2 hm
            · cases hkk k' e1
              rw [hn] at e2
              cases e2
              rw [ha] at e4
              cases e4
              obtain ⟨m, e6, e7, _⟩ := hv
              have := e5 m _ e6
              simp only [position] at this
              omega
          · simp only [e]
            exact .inr ⟨⟨er, rfl⟩, d, hc, .inr ⟨k, _, u, data, ds, hk', hn, by omega, ha, hs⟩⟩
      · simp only [AxisArray.getAxis, hm, not_false_eq_true, if_true]
        exact .inr ⟨⟨_, rfl⟩, d, hc, .inl hm⟩
    · simp only [h, if_false]
      have hno : ∀ d, ¬ Chosen aa d := by
        rintro d (⟨_, h1⟩ | ⟨_, _, h1⟩)
        · exact h (.inr (Option.isSome_iff_ne_none.2 h1))
        · exact h (.inl (Option.isSome_iff_ne_none.2 h1))
      exact .inl ⟨none, rfl, .untimed hno, fun ⟨d, h1, _⟩ => hno d h1⟩

/-- **C118, sample times.** The sample time in the log is that of the oldest or newest sample along the chosen dimension; looking for it
raises exactly for unreadable messages. -/
theorem C118_sample {o : Obj α R A} (hg : Good o) (oldest : Bool) :
    (∀ s, processObj oldest o = .ok s → SampleTime oldest o s) ∧ ((∃ e, processObj oldest o = .error e) ↔ Unreadable oldest o) := by
  rcases process_spec hg oldest with ⟨s, h1, h2, h3⟩ | ⟨⟨e, h1⟩, h2⟩
  · refine ⟨fun s' h => ?_, fun ⟨e, h⟩ => ?_, fun h => absurd h h3⟩
    · rw [h1] at h; cases h; exact h2
    · rw [h1] at h; cases h
  · refine ⟨fun s' h => ?_, fun _ => h2, fun _ => ⟨e, h1⟩⟩
    rw [h1] at h; cases h

/-- The lines that belong to messages that took that long. -/
inductive Lines (oldest : Bool) : List (Item S α R A) → List (Line R) → Prop
  | nil : Lines oldest [] []
  | cons {x xs l ls} (hs : SampleTime oldest x.obj l.sample) (he : l.elapsed = x.work * 1000) (h : Lines oldest xs ls) :
      Lines oldest (x :: xs) (l :: ls)

theorem loop_spec (oldest : Bool) (fin : End E) : ∀ (xs : List (Item S α R A)) (now : Rat), (∀ x ∈ xs, Good x.obj) →
    ∃ pre post, xs = pre ++ post ∧ (∀ x ∈ pre, ¬ Unreadable oldest x.obj) ∧
      (loop oldest fin xs now).out = pre.map (fun x => (x.stream, x.obj)) ∧ Lines oldest pre (loop oldest fin xs now).log ∧
      ((post = [] ∧ (loop oldest fin xs now).fin = fin) ∨
        ∃ x rest e, post = x :: rest ∧ Unreadable oldest x.obj ∧ (loop oldest fin xs now).fin = .profiler e) := by
  intro xs
  induction xs with
  | nil => intro now _; exact ⟨[], [], rfl, by simp, rfl, .nil, .inl ⟨rfl, rfl⟩⟩
  | cons x xs ih =>
    intro now hg
    simp only [loop]
    rcases process_spec (hg x (by simp)) oldest with ⟨s, h1, h2, h3⟩ | ⟨⟨e, h1⟩, h2⟩
    · simp only [h1]
      obtain ⟨pre, post, e1, e2, e3, e4, e5⟩ := ih (now + x.work + x.hold) (fun y hy => hg y (by simp [hy]))
      refine ⟨x :: pre, post, by simp [e1], ?_, by simp [e3], .cons h2 ?_ e4, e5⟩
      · intro y hy
        rcases List.mem_cons.1 hy with rfl | hy
        · exact h3
        · exact e2 y hy
      · show (now + x.work - now) * 1000 = x.work * 1000
        grind
    · simp only [h1]
      exact ⟨[], x :: xs, rfl, by simp, rfl, .nil, .inr ⟨x, xs, e, rfl, h2, rfl⟩⟩

/-- **C118, tasks.** If a task that takes messages yields no unreadable message, the decorated task yields the same, in the same order, and
ends in the same way; the log has a line for each, with its sample time and the time that the task took for it, without the time that
the messages before it were held by the consumer. -/
theorem C118_task_partial (oldest : Bool) (pyNone : Msg) (now : Rat) (f : Msg → Gen S E α R A) (m : Msg)
    (hg : ∀ x ∈ (f m).items, Good x.obj ∧ ¬ Unreadable oldest x.obj) :
    (profileSubpub true oldest pyNone now (.sub f) (some m)).out = (plainCall (.sub f) (some m)).out ∧
      (profileSubpub true oldest pyNone now (.sub f) (some m)).fin = (plainCall (.sub f) (some m)).fin ∧
      Lines oldest (f m).items (profileSubpub true oldest pyNone now (.sub f) (some m)).log := by
  obtain ⟨pre, post, e1, e2, e3, e4, e5⟩ := loop_spec oldest (f m).fin (f m).items now (fun x hx => (hg x hx).1)
  rcases e5 with ⟨rfl, e5⟩ | ⟨x, rest, e, rfl, h, _⟩
  · rw [List.append_nil] at e1
    subst e1
    exact ⟨e3, e5, e4⟩
  · exact absurd h (hg x (by rw [e1]; simp)).2

/-- **C118, in general.** Of a task that takes messages, the messages up to the first unreadable one are passed on; there the decorated
task raises, whatever the task itself would have done. -/
theorem C118_stops (oldest : Bool) (pyNone : Msg) (now : Rat) (f : Msg → Gen S E α R A) (m : Msg) {pre rest : List (Item S α R A)}
    {x : Item S α R A} (hi : (f m).items = pre ++ x :: rest) (hg : ∀ y ∈ (f m).items, Good y.obj)
    (hp : ∀ y ∈ pre, ¬ Unreadable oldest y.obj) (hx : Unreadable oldest x.obj) :
    (profileSubpub true oldest pyNone now (.sub f) (some m)).out = pre.map (fun y => (y.stream, y.obj)) ∧
      ∃ e, (profileSubpub true oldest pyNone now (.sub f) (some m)).fin = .profiler e := by
  obtain ⟨pre', post, e1, e2, e3, e4, e5⟩ := loop_spec oldest (f m).fin (f m).items now hg
  have key : pre' = pre := by
    rw [hi] at e1
    rcases List.append_eq_append_iff.1 e1 with ⟨as, h1, h2⟩ | ⟨bs, h1, h2⟩
    · cases as with
      | nil => simpa using h1
      | cons a as =>
        simp only [List.cons_append, List.cons.injEq] at h2
        exact absurd (h2.1 ▸ hx) (e2 a (by simp [h1]))
    · cases bs with
      | nil => simpa using h1.symm
      | cons b bs =>
        rcases e5 with ⟨rfl, _⟩ | ⟨y, r, e, rfl, hu, _⟩
        · cases h2
        · simp only [List.cons_append, List.cons.injEq] at h2
          exact absurd (h2.1 ▸ hu) (hp b (by simp [h1]))
  subst key
  refine ⟨e3, ?_⟩
  rcases e5 with ⟨rfl, _⟩ | ⟨y, r, e, rfl, hu, h⟩
  · rw [hi] at e1
    simp at e1
  · exact ⟨e, h⟩

/-- **C118, publishers.** A task that takes no message, decorated, yields nothing and raises `TypeError`. -/
theorem C118_publisher (oldest : Bool) (pyNone : Msg) (now : Rat) (g : Gen S E α R A) (m : Option Msg) :
    (profileSubpub true oldest pyNone now (.pub g : Task S E Msg α R A) m).out = [] ∧
      (profileSubpub true oldest pyNone now (.pub g : Task S E Msg α R A) m).fin = .typeError := ⟨rfl, rfl⟩

/-- **C118, switched off.** Unless the level is `DEBUG`, what was decorated does as without decoration, and logs nothing. -/
theorem C118_off (oldest : Bool) (pyNone : Msg) (now : Rat) (t : Task S E Msg α R A) (m : Option Msg) (me : Method E Args α R A) (a : Args) :
    profileSubpub false oldest pyNone now t m = plainCall t m ∧ (plainCall t m).log = [] ∧
      (∀ r, me.call a = .ok r → profileMethod false oldest now me a = ⟨.ok r, []⟩) ∧
      (∀ e, me.call a = .error e → profileMethod false oldest now me a = ⟨.error (.raised e), []⟩) := by
  refine ⟨rfl, ?_, ?_, ?_⟩
  · cases t <;> cases m <;> rfl
  · intro r h; simp [profileMethod, h]
  · intro e h; simp [profileMethod, h]

/-- **C118, methods.** A decorated method raises what it raises without decoration; what it returns is returned and logged with its
sample time and the time it took, unless it is unreadable. -/
theorem C118_method_partial (oldest : Bool) (now : Rat) (me : Method E Args α R A) (a : Args) :
    (∀ e, me.call a = .error e → profileMethod true oldest now me a = ⟨.error (.raised e), []⟩) ∧
      ∀ r, me.call a = .ok r → Good r →
        (¬ Unreadable oldest r → ∃ l, profileMethod true oldest now me a = ⟨.ok r, [l]⟩ ∧ SampleTime oldest r l.sample ∧
          l.elapsed = me.work a * 1000) ∧
        (Unreadable oldest r → ∃ e, (profileMethod true oldest now me a).value = .error (.profiler e)) := by
  refine ⟨fun e h => by simp [profileMethod, h], fun r h hg => ?_⟩
  simp only [profileMethod, h, if_true]
  rcases process_spec hg oldest with ⟨s, h1, h2, h3⟩ | ⟨⟨e, h1⟩, h2⟩
  · simp only [h1]
    exact ⟨fun _ => ⟨_, rfl, h2, by show (now + me.work a - now) * 1000 = _; grind⟩, fun hu => absurd hu h3⟩
  · simp only [h1]
    exact ⟨fun hn => absurd h2 hn, fun _ => ⟨e, rfl⟩⟩

/-- **C118, the file.** When the level is `DEBUG`, the file begins with the header afterwards, unless it began with an empty line and was
to be appended to. A file that began with the header keeps all its lines when it is appended to. -/
theorem C118_file (append : Bool) (file : Option (List String)) :
    ((setupFile append true file).head? = some HEADER ∨ (append = true ∧ ∃ rest, file = some ("" :: rest))) ∧
      (∀ debug rest, file = some (HEADER :: rest) → setupFile true debug file = HEADER :: rest) := by
  constructor
  · cases file with
    | none => left; cases append <;> rfl
    | some lines =>
      cases append with
      | false => left; rfl
      | true =>
        cases lines with
        | nil => left; rfl
        | cons first rest =>
          by_cases h : first = ""
          · exact .inr ⟨rfl, rest, by rw [h]⟩
          · left
            by_cases h2 : first = HEADER
            · subst h2; simp [setupFile, h]
            · simp [setupFile, h, h2]
  · intro debug rest h
    subst h
    simp [setupFile, HEADER]

/-! ## Violations -/

/-- Three samples of a channel; the times at which it was recorded belong to no dimension. -/
def labelled : AxisArray Nat Rat Unit where
  data := ⟨[3], fun i => i.getD 0 0⟩
  dims := ["ch"]
  axes := [("time", .coord "s" ⟨[1], fun _ => 7⟩ ["trial"])]
  attrs := ()
  key := ""

theorem labelled_good : Good (.array labelled) := ⟨rfl, by decide, by decide⟩

theorem labelled_unreadable (oldest : Bool) : Unreadable oldest (.array labelled) :=
  ⟨"time", .inr ⟨rfl, rfl, by simp [labelled, PyDict.get?]⟩, .inl (by decide)⟩

/-- **C118, violated.** A task that publishes an array and then another message; decorated, it publishes neither and raises. A publisher
does not run at all. -/
theorem C118_negation : ∃ (f : Unit → Gen Char Unit Nat Rat Unit) (g : Gen Char Unit Nat Rat Unit),
    (∀ x ∈ (f ()).items, Good x.obj) ∧ (plainCall (.sub f) (some ())).out.length = 2 ∧ (plainCall (.sub f) (some ())).fin = .returned ∧
      (profileSubpub true true () 0 (.sub f) (some ())).out = [] ∧
      (profileSubpub true true () 0 (.sub f) (some ())).fin = .profiler .valueError ∧
      (plainCall (.pub g : Task Char Unit Unit Nat Rat Unit) none).out.length = 1 ∧
      (profileSubpub true true () 0 (.pub g : Task Char Unit Unit Nat Rat Unit) none).out = [] ∧
      (profileSubpub true true () 0 (.pub g : Task Char Unit Unit Nat Rat Unit) none).fin = .typeError := by
  refine ⟨fun _ => ⟨[⟨'a', .array labelled, 1, 0⟩, ⟨'a', .plain, 1, 0⟩], .returned⟩, ⟨[⟨'a', .plain, 1, 0⟩], .returned⟩, ?_, rfl, rfl, ?_, ?_,
    rfl, rfl, rfl⟩
  · intro x hx
    simp only [List.mem_cons, List.not_mem_nil, or_false] at hx
    rcases hx with rfl | rfl
    · exact labelled_good
    · trivial
  · exact (C118_stops (rest := [⟨'a', .plain, 1, 0⟩]) true () 0 (fun _ => ⟨[⟨'a', .array labelled, 1, 0⟩, ⟨'a', .plain, 1, 0⟩], .returned⟩) ()
      (pre := []) (x := ⟨'a', .array labelled, 1, 0⟩) rfl
      (by
        intro x hx
        simp only [List.mem_cons, List.not_mem_nil, or_false] at hx
        rcases hx with rfl | rfl
        · exact labelled_good
        · trivial) (by simp) (labelled_unreadable true)).1
  · rfl

/-- **C118, windows.** For windows of samples with linear axes, the sample time in the log is that of the window alone, whatever the axis
of the time inside the windows says. -/
theorem C118_negation_windows {aa : AxisArray α R A} (hw : WF aa) {k n : Nat} (hk : aa.dims[k]? = some "win") (hn : aa.data.shape[k]? = some n)
    (h0 : 0 < n) {u : String} {g o : R} (ha : PyDict.get? aa.axes "win" = some (.linear u g o)) (oldest : Bool) :
    ∃ v, processObj oldest (.array aa) = .ok (some v) ∧ v.get [] = coordinate g o (position oldest n) := by
  have hnu : ¬ Unreadable oldest (.array aa) := by
    rintro ⟨d, h1, h2⟩
    have hd : d = "win" := by
      rcases h1 with ⟨rfl, _⟩ | ⟨_, h1, _⟩
      · rfl
      · rw [ha] at h1; cases h1
    subst hd
    rcases h2 with h2 | ⟨k', n', u', data, ds, _, _, _, h3, _⟩
    · exact h2 (List.mem_of_getElem? hk)
    · rw [ha] at h3; cases h3
  have hc : Chosen aa "win" := .inl ⟨rfl, by simp [ha]⟩
  rcases process_spec (o := .array aa) hw oldest with ⟨s, h1, h2, _⟩ | ⟨_, h2⟩
  · cases h2 with
    | untimed h => exact absurd hc (h "win")
    | @empty _ d k' hc' hk' hn' =>
      have hd : d = "win" := by
        rcases hc' with ⟨rfl, _⟩ | ⟨_, h1, _⟩
        · rfl
        · rw [ha] at h1; cases h1
      subst hd
      obtain ⟨l1, e1⟩ := List.getElem?_eq_some_iff.1 hk
      obtain ⟨l2, e2⟩ := List.getElem?_eq_some_iff.1 hk'
      have i1 := hw.nodup.idxOf_getElem k l1
      have i2 := hw.nodup.idxOf_getElem k' l2
      rw [e1] at i1
      rw [e2] at i2
      have : k' = k := i2.symm.trans i1
      subst this
      rw [hn] at hn'
      cases hn'
      omega
    | @sample _ d k' n' a v hc' hk' hn' h0' ha' hv =>
      have hd : d = "win" := by
        rcases hc' with ⟨rfl, _⟩ | ⟨_, h1, _⟩
        · rfl
        · rw [ha] at h1; cases h1
      subst hd
      obtain ⟨l1, e1⟩ := List.getElem?_eq_some_iff.1 hk
      obtain ⟨l2, e2⟩ := List.getElem?_eq_some_iff.1 hk'
      have i1 := hw.nodup.idxOf_getElem k l1
      have i2 := hw.nodup.idxOf_getElem k' l2
      rw [e1] at i1
      rw [e2] at i2
      have : k' = k := i2.symm.trans i1
      subst this
      rw [hn] at hn'
      cases hn'
      rw [ha] at ha'
      cases ha'
      exact ⟨v, h1, hv.2⟩
  · exact absurd h2 hnu

/-! ## Examples -/

/-- Two windows of three samples; the first sample of the first window was taken at 100. -/
def windows : AxisArray Nat Rat Unit where
  data := ⟨[2, 3], fun i => i.getD 0 0 * 3 + i.getD 1 0⟩
  dims := ["win", "time"]
  axes := [("win", .linear "s" 2 0), ("time", .linear "s" 1 100)]
  attrs := ()
  key := ""

/-- The oldest sample was taken at 100, but the sample time is 0. -/
example : ∃ v, processObj true (.array windows) = .ok (some v) ∧ v.get [] = 0 ∧ coordinate (2 : Rat) 0 0 + coordinate 1 100 0 = 100 := by
  obtain ⟨v, h1, h2⟩ := C118_negation_windows (aa := windows) ⟨rfl, by decide, by decide⟩ (k := 0) (n := 2) rfl rfl (by decide) rfl true
  exact ⟨v, h1, h2.trans (by decide +kernel), by decide +kernel⟩

/-- Four samples from 3 on in steps of one half. -/
def samples : AxisArray Nat Rat Unit where
  data := ⟨[4], fun i => i.getD 0 0⟩
  dims := ["time"]
  axes := [("time", .linear "s" (1/2) 3)]
  attrs := ()
  key := ""

theorem samples_readable (oldest : Bool) : ¬ Unreadable oldest (.array samples) := by
  intro h
  obtain ⟨e, he⟩ := (C118_sample (o := .array samples) ⟨rfl, by decide, by decide⟩ oldest).2.2 h
  cases oldest <;> cases he

/-- The hypotheses of the partial theorem are met; the newest sample is at 9/2, and the time the task took was 2 ms. -/
example : ∃ l, (profileSubpub true false () 5 (.sub (fun _ => ⟨[⟨'a', .array samples, 1/500, 3⟩], .returned⟩) : Task Char Unit Unit Nat Rat Unit)
    (some ())).log = [l] ∧ l.sample.map (fun v => v.get []) = some (9/2) ∧ l.elapsed = 2 := by
  have h := C118_task_partial false () 5 (fun _ : Unit => (⟨[⟨'a', .array samples, 1/500, 3⟩], .returned⟩ : Gen Char Unit Nat Rat Unit)) ()
    (by
      intro x hx
      simp only [List.mem_singleton] at hx
      subst hx
      exact ⟨⟨rfl, by decide, by decide⟩, samples_readable false⟩)
  exact ⟨_, rfl, by decide +kernel, by decide +kernel⟩

end Ez.Deco
