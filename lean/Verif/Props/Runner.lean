import Verif.Model.Runner

/-!
# C59: coroutines subscribed to a stream

Specification: a coroutine is *done* after a list of messages if its call with the last of them ended with `Complete` or
`NormalTermination`. The history says what each coroutine was called with and published, and which message is held.
-/

set_option linter.unusedSectionVars false
set_option linter.unusedSimpArgs false

namespace Ez
namespace Runner
variable {C M S P : Type} [DecidableEq C] [DecidableEq S]

/-- Specification: the call with the last message of `l` completed the coroutine. -/
def Done (beh : Behaviour C M S P) (c : C) (l : List M) : Prop :=
  l ≠ [] ∧ ((beh c l).2 = .complete ∨ (beh c l).2 = .normalTermination)

/-- Specification: what the coroutine yields to streams with a publisher over the calls with the messages `l`. -/
def outputs (pubs : List S) (beh : Behaviour C M S P) (c : C) (l : List M) : List (S × P) :=
  (List.range l.length).flatMap (fun i => (beh c (l.take (i + 1))).1.filter (fun x => decide (x.1 ∈ pubs)))

/-- What `c` published. -/
def published (c : C) (log : List (Ev C M S P)) : List (S × P) :=
  log.filterMap (fun | .publish c' s p => if c' = c then some (s, p) else none | _ => none)

/-- The messages received. -/
def received (log : List (Ev C M S P)) : List M := log.filterMap (fun | .recv m => some m | _ => none)

/-- The message held at the end of a history. -/
def held (log : List (Ev C M S P)) : Option M :=
  log.foldl (fun h e => match e with | .recv m => some m | .release _ => none | _ => h) none

/-- `P` holds at every event of the history, given what came before. -/
def AtEach (Q : List (Ev C M S P) → Ev C M S P → Prop) (log : List (Ev C M S P)) : Prop :=
  ∀ pre e post, log = pre ++ e :: post → Q pre e

theorem atEach_snoc {Q : List (Ev C M S P) → Ev C M S P → Prop} {log : List (Ev C M S P)} {e : Ev C M S P}
    (h : AtEach Q log) (he : Q log e) : AtEach Q (log ++ [e]) := by
  intro pre x post hx
  rcases List.eq_nil_or_concat post with rfl | ⟨post', y, rfl⟩
  · have := List.append_inj' hx (by simp)
    obtain ⟨rfl, h2⟩ := this
    cases h2; exact he
  · have hx' : log ++ [e] = (pre ++ x :: post') ++ [y] := by simpa using hx
    obtain ⟨h1, _⟩ := List.append_inj' hx' (by simp)
    exact h pre x post' h1

theorem atEach_nil {Q : List (Ev C M S P) → Ev C M S P → Prop} : AtEach Q ([] : List (Ev C M S P)) := by
  intro pre e post h; simp at h

/-! ## Projections of the history -/

@[simp] theorem calls_append (c : C) (a b : List (Ev C M S P)) : calls c (a ++ b) = calls c a ++ calls c b := by
  simp [calls]

@[simp] theorem published_append (c : C) (a b : List (Ev C M S P)) :
    published c (a ++ b) = published c a ++ published c b := by simp [published]

@[simp] theorem received_append (a b : List (Ev C M S P)) : received (a ++ b) = received a ++ received b := by
  simp [received]

theorem calls_pubs (c c' : C) (l : List (S × P)) :
    calls c (l.map (fun x => (.publish c' x.1 x.2 : Ev C M S P))) = [] := by
  induction l with
  | nil => rfl
  | cons x l ih => simp [calls]

theorem received_pubs (c' : C) (l : List (S × P)) :
    received (l.map (fun x => (.publish c' x.1 x.2 : Ev C M S P))) = [] := by
  induction l with
  | nil => rfl
  | cons x l ih => simp [received]

theorem published_pubs (c c' : C) (l : List (S × P)) :
    published c (l.map (fun x => (.publish c' x.1 x.2 : Ev C M S P))) = if c' = c then l else [] := by
  induction l with
  | nil => simp [published]
  | cons x l ih =>
    have : published c ((x :: l).map (fun x => (.publish c' x.1 x.2 : Ev C M S P))) =
        (if c' = c then [x] else []) ++ published c (l.map (fun x => (.publish c' x.1 x.2 : Ev C M S P))) := by
      by_cases h : c' = c <;> simp [published, h]
    rw [this, ih]
    by_cases h : c' = c <;> simp [h]

theorem outputs_snoc (pubs : List S) (beh : Behaviour C M S P) (c : C) (l : List M) (m : M) :
    outputs pubs beh c (l ++ [m]) =
      outputs pubs beh c l ++ (beh c (l ++ [m])).1.filter (fun x => decide (x.1 ∈ pubs)) := by
  simp only [outputs, List.length_append, List.length_cons, List.length_nil, Nat.zero_add, List.range_succ,
    List.flatMap_append, List.flatMap_cons, List.flatMap_nil, List.append_nil]
  congr 1
  · apply congrArg List.flatten
    apply List.map_congr_left
    intro i hi
    have : i + 1 ≤ l.length := by have := List.mem_range.1 hi; omega
    rw [List.take_append_of_le_length this]
  · have : (l ++ [m]).take (l.length + 1) = l ++ [m] := List.take_of_length_le (by simp)
    rw [this]

/-! ## One call, one message -/

/-- The event list a call adds. -/
def callEvents (pubs : List S) (beh : Behaviour C M S P) (c : C) (m : M) (l : List M) : List (Ev C M S P) :=
  .call c m :: ((beh c l).1.filter (fun x => decide (x.1 ∈ pubs))).map (fun x => .publish c x.1 x.2)

theorem invoke_log (strict : Bool) (pubs : List S) (beh : Behaviour C M S P) (m : M) (st : St C M S P) (c : C) :
    (invoke strict pubs beh m st c).log = st.log ++ callEvents pubs beh c m (calls c st.log ++ [m]) := by
  simp only [invoke, callEvents]
  split <;> rfl

theorem calls_callEvents (pubs : List S) (beh : Behaviour C M S P) (c c' : C) (m : M) (l : List M) :
    calls c' (callEvents pubs beh c m l) = if c = c' then [m] else [] := by
  have : callEvents pubs beh c m l = [.call c m] ++
    ((beh c l).1.filter (fun x => decide (x.1 ∈ pubs))).map (fun x => .publish c x.1 x.2) := rfl
  rw [this, calls_append, calls_pubs]
  by_cases h : c = c' <;> simp [calls, h]

theorem published_callEvents (pubs : List S) (beh : Behaviour C M S P) (c c' : C) (m : M) (l : List M) :
    published c' (callEvents pubs beh c m l) =
      if c = c' then (beh c l).1.filter (fun x => decide (x.1 ∈ pubs)) else [] := by
  have : callEvents pubs beh c m l = [.call c m] ++
    ((beh c l).1.filter (fun x => decide (x.1 ∈ pubs))).map (fun x => .publish c x.1 x.2) := rfl
  rw [this, published_append, published_pubs]
  simp [published]

theorem received_callEvents (pubs : List S) (beh : Behaviour C M S P) (c : C) (m : M) (l : List M) :
    received (callEvents pubs beh c m l) = [] := by
  have : callEvents pubs beh c m l = [.call c m] ++
    ((beh c l).1.filter (fun x => decide (x.1 ∈ pubs))).map (fun x => .publish c x.1 x.2) := rfl
  rw [this, received_append, received_pubs]
  simp [received]

/-- Calls and publications do not change what is held, and satisfy the rule for events inside a block. -/
theorem block_events {Q : List (Ev C M S P) → Ev C M S P → Prop} {m : M}
    (hQ : ∀ log, held log = some m → ∀ c, Q log (.call c m) ∧ ∀ s p, Q log (.publish c s p))
    {log : List (Ev C M S P)} (hh : held log = some m) (h : AtEach Q log) (pubs : List S) (beh : Behaviour C M S P) (c : C)
    (l : List M) : AtEach Q (log ++ callEvents pubs beh c m l) ∧ held (log ++ callEvents pubs beh c m l) = some m := by
  have key : ∀ (ps : List (S × P)) (log : List (Ev C M S P)), held log = some m → AtEach Q log →
      AtEach Q (log ++ ps.map (fun x => .publish c x.1 x.2)) ∧ held (log ++ ps.map (fun x => .publish c x.1 x.2)) = some m := by
    intro ps
    induction ps with
    | nil => intro log hh h; simpa using ⟨h, hh⟩
    | cons x ps ih =>
      intro log hh h
      have := ih (log ++ [.publish c x.1 x.2]) (by simp [held] at hh ⊢; exact hh)
        (atEach_snoc h ((hQ log hh c).2 x.1 x.2))
      simpa using this
  have := key ((beh c l).1.filter (fun x => decide (x.1 ∈ pubs))) (log ++ [.call c m])
    (by simp [held] at hh ⊢; exact hh) (atEach_snoc h (hQ log hh c).1)
  simpa [callEvents] using this

/-- What one pass over the callables does when exceptions are not passed on. -/
theorem invokeAll_spec (pubs : List S) (beh : Behaviour C M S P) (m : M) (L : List C) (st : St C M S P)
    (hn : L.Nodup) (hr : st.raised = false) :
    let st' := invokeAll false pubs beh m L st
    st'.raised = false ∧
    (∀ c, calls c st'.log = calls c st.log ++ if c ∈ L then [m] else []) ∧
    (∀ c, published c st'.log = published c st.log ++
      if c ∈ L then (beh c (calls c st.log ++ [m])).1.filter (fun x => decide (x.1 ∈ pubs)) else []) ∧
    received st'.log = received st.log ∧
    (∀ c, c ∈ st'.callables ↔ c ∈ st.callables ∧ ¬ (c ∈ L ∧ Done beh c (calls c st.log ++ [m]))) ∧
    (st.callables.Nodup → st'.callables.Nodup) ∧
    (st'.term = true ↔ st.term = true ∨ ∃ c ∈ L, (beh c (calls c st.log ++ [m])).2 = .normalTermination) ∧
    (st'.errors = true ↔ st.errors = true ∨ ∃ c ∈ L, (beh c (calls c st.log ++ [m])).2 = .error) ∧
    (.closed ∈ st'.log ↔ .closed ∈ st.log) := by
  induction L generalizing st with
  | nil => simp [invokeAll, hr]
  | cons c L ih =>
    obtain ⟨hc, hn⟩ := List.nodup_cons.1 hn
    have hlog := invoke_log false pubs beh m st c
    have hr1 : (invoke false pubs beh m st c).raised = false := by
      simp only [invoke]; split <;> simp [hr]
    have hcalls : ∀ c', calls c' (invoke false pubs beh m st c).log =
        calls c' st.log ++ if c = c' then [m] else [] := by
      intro c'; rw [hlog, calls_append, calls_callEvents]
    have hcl : ∀ c', c' ∈ (invoke false pubs beh m st c).callables ↔
        c' ∈ st.callables ∧ ¬ (c' = c ∧ Done beh c (calls c st.log ++ [m])) := by
      intro c'
      simp only [invoke, Done]
      split <;> rename_i he <;> simp [he]
    have hnd : st.callables.Nodup → (invoke false pubs beh m st c).callables.Nodup := by
      intro h
      simp only [invoke]
      split
      · exact h
      · exact h.sublist List.filter_sublist
      · exact h.sublist List.filter_sublist
      · exact h
    have hterm : (invoke false pubs beh m st c).term = true ↔
        st.term = true ∨ (beh c (calls c st.log ++ [m])).2 = .normalTermination := by
      simp only [invoke]; split <;> rename_i he <;> simp [he]
    have herr : (invoke false pubs beh m st c).errors = true ↔
        st.errors = true ∨ (beh c (calls c st.log ++ [m])).2 = .error := by
      simp only [invoke]; split <;> rename_i he <;> simp [he]
    obtain ⟨i1, i2, i3, i4, i5, i6, i7, i8, i9⟩ := ih (invoke false pubs beh m st c) hn hr1
    have hsame : ∀ c' ∈ L, calls c' (invoke false pubs beh m st c).log = calls c' st.log := by
      intro c' hc'
      have hne : c ≠ c' := fun e => hc (e ▸ hc')
      rw [hcalls, if_neg hne, List.append_nil]
    simp only [invokeAll, hr1, Bool.false_eq_true, if_false]
    refine ⟨i1, ?_, ?_, ?_, ?_, fun h => i6 (hnd h), ?_, ?_, ?_⟩
    · intro c'
      rw [i2, hcalls]
      by_cases e : c = c'
      · subst e; simp [hc]
      · simp [e, Ne.symm e]
    · intro c'
      rw [i3, hlog, published_append, published_callEvents]
      by_cases e : c = c'
      · subst e; simp [hc]
      · by_cases hL : c' ∈ L
        · rw [← hlog, hsame c' hL]; simp [e, Ne.symm e, hL]
        · simp [e, Ne.symm e, hL]
    · rw [i4, hlog, received_append, received_callEvents, List.append_nil]
    · intro c'
      rw [i5, hcl]
      by_cases hL : c' ∈ L
      · rw [hsame c' hL]
        have : c' ≠ c := fun e => hc (e ▸ hL)
        simp [hL, this]
      · by_cases e : c' = c
        · subst e; simp [hL]
        · simp [hL, e]
    · rw [i7, hterm]
      simp only [List.mem_cons, exists_eq_or_imp]
      constructor
      · rintro ((h | h) | ⟨c', hc', h⟩)
        · exact Or.inl h
        · exact Or.inr (Or.inl h)
        · rw [hsame c' hc'] at h; exact Or.inr (Or.inr ⟨c', hc', h⟩)
      · rintro (h | h | ⟨c', hc', h⟩)
        · exact Or.inl (Or.inl h)
        · exact Or.inl (Or.inr h)
        · rw [← hsame c' hc'] at h; exact Or.inr ⟨c', hc', h⟩
    · rw [i8, herr]
      simp only [List.mem_cons, exists_eq_or_imp]
      constructor
      · rintro ((h | h) | ⟨c', hc', h⟩)
        · exact Or.inl h
        · exact Or.inr (Or.inl h)
        · rw [hsame c' hc'] at h; exact Or.inr (Or.inr ⟨c', hc', h⟩)
      · rintro (h | h | ⟨c', hc', h⟩)
        · exact Or.inl (Or.inl h)
        · exact Or.inl (Or.inr h)
        · rw [← hsame c' hc'] at h; exact Or.inr ⟨c', hc', h⟩
    · rw [i9, hlog]
      simp [callEvents]

theorem invokeAll_block {Q : List (Ev C M S P) → Ev C M S P → Prop} {m : M}
    (hQ : ∀ log, held log = some m → ∀ c, Q log (.call c m) ∧ ∀ s p, Q log (.publish c s p)) (strict : Bool)
    (pubs : List S) (beh : Behaviour C M S P) (L : List C) (st : St C M S P) (hh : held st.log = some m)
    (h : AtEach Q st.log) :
    AtEach Q (invokeAll strict pubs beh m L st).log ∧ held (invokeAll strict pubs beh m L st).log = some m := by
  induction L generalizing st with
  | nil => exact ⟨h, hh⟩
  | cons c L ih =>
    have hb := block_events hQ hh h pubs beh c (calls c st.log ++ [m])
    rw [← invoke_log strict pubs beh m st c] at hb
    simp only [invokeAll]
    split
    · exact hb
    · exact ih _ hb.2 hb.1

/-! ## The whole handler -/

/-- Specification: `l` is what a coroutine that is to see `ms` is called with: all of it, or up to the message that
completed it. -/
def Served (beh : Behaviour C M S P) (c : C) (ms l : List M) : Prop :=
  (∃ rest, ms = l ++ rest ∧ (rest = [] ∨ Done beh c l)) ∧
  ∀ p, p <+: l → p ≠ l → ¬ Done beh c p

/-- Specification: the rules each event obeys, given what came before. -/
def Rule (beh : Behaviour C M S P) (cs : List C) (pre : List (Ev C M S P)) : Ev C M S P → Prop
  | .recv _ => held pre = none ∧ .closed ∉ pre ∧ ∃ c ∈ cs, ¬ Done beh c (calls c pre)
  | .call _ m => held pre = some m
  | .publish _ _ _ => (held pre).isSome
  | .release m => held pre = some m ∧ ∀ c ∈ cs, Served beh c (received pre) (calls c pre)
  | .closed => held pre = none ∧ ∀ c ∈ cs, Done beh c (calls c pre)

/-- The invariant after the messages `ms` were handled. -/
structure Inv (pubs : List S) (beh : Behaviour C M S P) (cs : List C) (ms : List M) (st : St C M S P) : Prop where
  raised : st.raised = false
  nodup : st.callables.Nodup
  sub : ∀ c ∈ st.callables, c ∈ cs
  live : ∀ c ∈ cs, (c ∈ st.callables ↔ ¬ Done beh c (calls c st.log))
  all : ∀ c ∈ st.callables, calls c st.log = ms
  served : ∀ c ∈ cs, Served beh c ms (calls c st.log)
  other : ∀ c, c ∉ cs → calls c st.log = []
  pub : ∀ c, published c st.log = outputs pubs beh c (calls c st.log)
  recv : received st.log = ms
  term : st.term = true ↔ ∃ c ∈ cs, calls c st.log ≠ [] ∧ (beh c (calls c st.log)).2 = .normalTermination
  errors : st.errors = true ↔
    ∃ c ∈ cs, ∃ p, p <+: calls c st.log ∧ p ≠ [] ∧ (beh c p).2 = .error
  closed : .closed ∉ st.log
  held : held st.log = none
  rule : AtEach (Rule beh cs) st.log

theorem done_snoc_ne (l : List M) (m : M) : l ++ [m] ≠ [] := by simp

theorem prefix_snoc {p l : List M} {m : M} : p <+: l ++ [m] ↔ p <+: l ∨ p = l ++ [m] := by
  rw [List.prefix_concat_iff]
  exact or_comm

theorem inv_start (pubs : List S) (beh : Behaviour C M S P) (cs : List C) (hn : cs.Nodup) :
    Inv pubs beh cs ([] : List M) (start cs) := by
  have hd : ∀ c, ¬ Done beh c ([] : List M) := fun c h => h.1 rfl
  constructor <;> simp [start, calls, published, received, outputs, held, Served, hd, hn]
  · exact atEach_nil

theorem inv_round {pubs : List S} {beh : Behaviour C M S P} {cs : List C} {ms : List M} {st : St C M S P}
    (hi : Inv pubs beh cs ms st) (ord : List C → List C) (ho : ∀ l, (ord l).Perm l) (m : M)
    (hne : st.callables ≠ []) : Inv pubs beh cs (ms ++ [m]) (round false pubs beh ord m st) := by
  have hnd : (ord st.callables).Nodup := (ho _).nodup_iff.2 hi.nodup
  have hmem : ∀ c, c ∈ ord st.callables ↔ c ∈ st.callables := fun c => (ho _).mem_iff
  have hcl : ∀ c, calls c (st.log ++ [.recv m]) = calls c st.log := by intro c; simp [calls]
  have hpl : ∀ c, published c (st.log ++ [.recv m]) = published c st.log := by intro c; simp [published]
  have hrl : received (st.log ++ [.recv m]) = ms ++ [m] := by
    rw [received_append, hi.recv]; simp [received]
  have hhl : held (st.log ++ [.recv m]) = some m := by simp [held]
  have hrecv : Rule beh cs st.log (.recv m) := by
    refine ⟨hi.held, hi.closed, ?_⟩
    obtain ⟨c, hc⟩ := List.exists_mem_of_ne_nil _ hne
    exact ⟨c, hi.sub c hc, (hi.live c (hi.sub c hc)).1 hc⟩
  obtain ⟨i1, i2, i3, i4, i5, i6, i7, i8, i9⟩ := invokeAll_spec pubs beh m (ord st.callables)
    { st with log := st.log ++ [.recv m] } hnd hi.raised
  have hblk := invokeAll_block (Q := Rule beh cs) (m := m)
    (fun log h c => ⟨h, fun s p => by simp [Rule, h]⟩) false pubs beh (ord st.callables)
    { st with log := st.log ++ [.recv m] } hhl (atEach_snoc hi.rule hrecv)
  simp only [hcl, hpl, hrl, hmem] at i2 i3 i4 i5 i7 i8
  simp only at i6
  generalize hst' : invokeAll false pubs beh m (ord st.callables) { st with log := st.log ++ [.recv m] } = st' at *
  have hround : round false pubs beh ord m st = { st' with log := st'.log ++ [.release m] } := by
    simp only [round, hst']
  have hc' : ∀ c, calls c (st'.log ++ [.release m]) = calls c st'.log := by intro c; simp [calls]
  have hp' : ∀ c, published c (st'.log ++ [.release m]) = published c st'.log := by intro c; simp [published]
  have hserved : ∀ c ∈ cs, Served beh c (ms ++ [m]) (calls c st'.log) := by
    intro c hc
    rw [i2]
    by_cases hl : c ∈ st.callables
    · simp only [hl, if_true]
      rw [hi.all c hl]
      refine ⟨⟨[], by simp, Or.inl rfl⟩, ?_⟩
      intro p hp hpn
      rcases prefix_snoc.1 hp with hp | hp
      · by_cases hpe : p = ms
        · subst hpe
          have := (hi.live c hc).1 hl
          rwa [hi.all c hl] at this
        · have := (hi.served c hc).2 p
          rw [hi.all c hl] at this
          exact this hp hpe
      · exact absurd hp hpn
    · simp only [hl, if_false, List.append_nil]
      have hd : Done beh c (calls c st.log) := by
        have := hi.live c hc
        exact Classical.byContradiction fun h => hl (this.2 h)
      obtain ⟨⟨rest, hr, _⟩, h2⟩ := hi.served c hc
      refine ⟨⟨rest ++ [m], ?_, Or.inr hd⟩, h2⟩
      rw [← List.append_assoc, ← hr]
  have hlive : ∀ c ∈ cs, (c ∈ st'.callables ↔ ¬ Done beh c (calls c st'.log)) := by
    intro c hc
    rw [i5, i2]
    by_cases hl : c ∈ st.callables
    · simp [hl]
    · have := hi.live c hc
      simp only [hl, false_and, if_false, List.append_nil, false_iff, Classical.not_not] at this ⊢
      exact this
  rw [hround]
  constructor
  · exact i1
  · exact i6 hi.nodup
  · intro c hc
    exact hi.sub c ((i5 c).1 hc).1
  · intro c hc
    simp only [hc']
    exact hlive c hc
  · intro c hc
    have hl := ((i5 c).1 hc).1
    simp only [hc']
    rw [i2, if_pos hl, hi.all c hl]
  · intro c hc
    simp only [hc']
    exact hserved c hc
  · intro c hc
    simp only [hc']
    rw [i2, hi.other c hc, if_neg (fun h => hc (hi.sub c h))]
    rfl
  · intro c
    simp only [hc', hp']
    rw [i3, i2, hi.pub]
    by_cases hl : c ∈ st.callables
    · simp only [hl, if_true]; rw [outputs_snoc]
    · simp [hl]
  · show received (st'.log ++ [.release m]) = _
    rw [received_append, i4]
    simp [received]
  · show st'.term = true ↔ _
    rw [i7, hi.term]
    simp only [hc']
    constructor
    · rintro (⟨c, hc, hne', he⟩ | ⟨c, hc, he⟩)
      · have hl : c ∉ st.callables := fun h => (hi.live c hc).1 h ⟨hne', Or.inr he⟩
        refine ⟨c, hc, ?_, ?_⟩ <;> rw [i2, if_neg hl, List.append_nil]
        · exact hne'
        · exact he
      · refine ⟨c, hi.sub c hc, ?_, ?_⟩ <;> rw [i2, if_pos hc]
        · simp
        · exact he
    · rintro ⟨c, hc, hne', he⟩
      rw [i2] at hne' he
      by_cases hl : c ∈ st.callables
      · rw [if_pos hl] at he; exact Or.inr ⟨c, hl, he⟩
      · rw [if_neg hl, List.append_nil] at he hne'; exact Or.inl ⟨c, hc, hne', he⟩
  · show st'.errors = true ↔ _
    rw [i8, hi.errors]
    simp only [hc']
    constructor
    · rintro (⟨c, hc, p, hp, hne', he⟩ | ⟨c, hc, he⟩)
      · exact ⟨c, hc, p, by rw [i2]; exact hp.trans (List.prefix_append _ _), hne', he⟩
      · exact ⟨c, hi.sub c hc, _, by rw [i2, if_pos hc]; exact List.prefix_refl _, by simp, he⟩
    · rintro ⟨c, hc, p, hp, hne', he⟩
      rw [i2] at hp
      by_cases hl : c ∈ st.callables
      · rw [if_pos hl] at hp
        rcases prefix_snoc.1 hp with hp | hp
        · exact Or.inl ⟨c, hc, p, hp, hne', he⟩
        · rw [hp] at he; exact Or.inr ⟨c, hl, he⟩
      · rw [if_neg hl, List.append_nil] at hp; exact Or.inl ⟨c, hc, p, hp, hne', he⟩
  · show .closed ∉ st'.log ++ [.release m]
    have := hi.closed
    simp only [List.mem_append, List.mem_singleton, reduceCtorEq, or_false] at i9 ⊢
    rwa [i9]
  · show Runner.held (st'.log ++ [.release m]) = none
    simp [Runner.held]
  · refine atEach_snoc hblk.1 ⟨hblk.2, ?_⟩
    rw [i4]
    exact hserved

/-- What is true at the end. -/
structure Final (pubs : List S) (beh : Behaviour C M S P) (cs : List C) (ms : List M) (st : St C M S P) : Prop where
  served : ∀ c ∈ cs, Served beh c ms (calls c st.log)
  other : ∀ c, c ∉ cs → calls c st.log = []
  pub : ∀ c, published c st.log = outputs pubs beh c (calls c st.log)
  rule : AtEach (Rule beh cs) st.log
  released : Runner.held st.log = none
  raised : st.raised = false
  term : st.term = true ↔ ∃ c ∈ cs, calls c st.log ≠ [] ∧ (beh c (calls c st.log)).2 = .normalTermination
  errors : st.errors = true ↔
    ∃ c ∈ cs, ∃ p, p <+: calls c st.log ∧ p ≠ [] ∧ (beh c p).2 = .error
  closed : .closed ∈ st.log ↔ ∀ c ∈ cs, Done beh c (calls c st.log)
  recv : (∃ c ∈ cs, ¬ Done beh c (calls c st.log)) → received st.log = ms

theorem final_closed {pubs : List S} {beh : Behaviour C M S P} {cs : List C} {ms : List M} {st : St C M S P}
    (hi : Inv pubs beh cs ms st) (he : st.callables = []) (rest : List M) :
    Final pubs beh cs (ms ++ rest) { st with log := st.log ++ [.closed] } := by
  have hc' : ∀ c, calls c (st.log ++ [.closed]) = calls c st.log := by intro c; simp [calls]
  have hp' : ∀ c, published c (st.log ++ [.closed]) = published c st.log := by intro c; simp [published]
  have hd : ∀ c ∈ cs, Done beh c (calls c st.log) := by
    intro c hc
    have := hi.live c hc
    rw [he] at this
    exact Classical.byContradiction fun h => by simpa using this.2 h
  constructor <;> simp only [hc', hp']
  · intro c hc
    obtain ⟨⟨r, hr, _⟩, h2⟩ := hi.served c hc
    exact ⟨⟨r ++ rest, by rw [← List.append_assoc, ← hr], Or.inr (hd c hc)⟩, h2⟩
  · exact hi.other
  · exact hi.pub
  · exact atEach_snoc hi.rule ⟨hi.held, hd⟩
  · have := hi.held
    simp only [Runner.held, List.foldl_append, List.foldl_cons, List.foldl_nil] at this ⊢
    exact this
  · exact hi.raised
  · exact hi.term
  · exact hi.errors
  · simpa using hd
  · rintro ⟨c, hc, h⟩; exact absurd (hd c hc) h

theorem final_waiting {pubs : List S} {beh : Behaviour C M S P} {cs : List C} {ms : List M} {st : St C M S P}
    (hi : Inv pubs beh cs ms st) (he : st.callables ≠ []) : Final pubs beh cs ms st := by
  obtain ⟨c, hc⟩ := List.exists_mem_of_ne_nil _ he
  exact ⟨hi.served, hi.other, hi.pub, hi.rule, hi.held, hi.raised, hi.term, hi.errors,
    ⟨fun h => absurd h hi.closed, fun h => absurd (h c (hi.sub c hc)) ((hi.live c (hi.sub c hc)).1 hc)⟩, fun _ => hi.recv⟩

theorem handle_final {pubs : List S} {beh : Behaviour C M S P} {cs : List C} (ord : List C → List C)
    (ho : ∀ l, (ord l).Perm l) (ms : List M) {ms0 : List M} {st : St C M S P} (hi : Inv pubs beh cs ms0 st) :
    Final pubs beh cs (ms0 ++ ms) (handle false pubs beh ord ms st) := by
  induction ms generalizing ms0 st with
  | nil =>
    simp only [handle]
    by_cases he : st.callables = []
    · simpa [he] using final_closed hi he []
    · simpa [he] using final_waiting hi he
  | cons m ms ih =>
    simp only [handle]
    by_cases he : st.callables = []
    · simpa [he] using final_closed hi he (m :: ms)
    · have hr := inv_round hi ord ho m he
      have h1 : st.callables.isEmpty = false := by simpa using he
      have := ih hr
      simpa [h1, hr.raised] using this

/-! ## C59 -/

theorem handle_start {pubs : List S} {beh : Behaviour C M S P} {cs : List C} (hn : cs.Nodup) (ord : List C → List C)
    (ho : ∀ l, (ord l).Perm l) (ms : List M) :
    Final pubs beh cs ms (handle false pubs beh ord ms (start cs)) := by
  simpa using handle_final ord ho ms (inv_start pubs beh cs hn)

/-- C59: every coroutine subscribed to the stream is called with all messages that arrive, in order, until the one at which
it ends with `Complete` or `NormalTermination`, whatever the other coroutines do and whatever exceptions are raised; and what
it yields to streams with a publisher is published, all of it and in order. -/
theorem C59_every_message {pubs : List S} {beh : Behaviour C M S P} {cs : List C} (hn : cs.Nodup) (ord : List C → List C)
    (ho : ∀ l, (ord l).Perm l) (ms : List M) (c : C) (hc : c ∈ cs) :
    let st := handle false pubs beh ord ms (start cs)
    Served beh c ms (calls c st.log) ∧ published c st.log = outputs pubs beh c (calls c st.log) :=
  let h := handle_start hn ord ho ms
  ⟨h.served c hc, h.pub c⟩

/-- C59: coroutines are called, and publish, only while the message is held; it is released only after all coroutines still
running were called with it; the next one is taken only after that, and while some coroutine is still running. -/
theorem C59_held_until_all_called {pubs : List S} {beh : Behaviour C M S P} {cs : List C} (hn : cs.Nodup)
    (ord : List C → List C) (ho : ∀ l, (ord l).Perm l) (ms : List M) :
    let st := handle false pubs beh ord ms (start cs)
    (∀ pre e post, st.log = pre ++ e :: post → Rule beh cs pre e) ∧ held st.log = none :=
  let h := handle_start hn ord ho ms
  ⟨h.rule, h.released⟩

/-- C59: the subscriber is closed exactly when all coroutines completed, the process is told to terminate exactly when one
raised `NormalTermination`, and the shutdown counts as unclean exactly when some call raised another exception. -/
theorem C59_ends {pubs : List S} {beh : Behaviour C M S P} {cs : List C} (hn : cs.Nodup) (ord : List C → List C)
    (ho : ∀ l, (ord l).Perm l) (ms : List M) :
    let st := handle false pubs beh ord ms (start cs)
    (.closed ∈ st.log ↔ ∀ c ∈ cs, Done beh c (calls c st.log)) ∧
    (st.term = true ↔ ∃ c ∈ cs, calls c st.log ≠ [] ∧ (beh c (calls c st.log)).2 = .normalTermination) ∧
    (st.errors = true ↔ ∃ c ∈ cs, ∃ p, p <+: calls c st.log ∧ p ≠ [] ∧ (beh c p).2 = .error) ∧
    st.raised = false :=
  let h := handle_start hn ord ho ms
  ⟨h.closed, h.term, h.errors, h.raised⟩

theorem served_unique {beh : Behaviour C M S P} {c : C} {ms l l' : List M} (h : Served beh c ms l)
    (h' : Served beh c ms l') : l = l' := by
  obtain ⟨⟨r, hr, hd⟩, hp⟩ := h
  obtain ⟨⟨r', hr', hd'⟩, hp'⟩ := h'
  have h1 : l <+: ms := ⟨r, hr.symm⟩
  have h2 : l' <+: ms := ⟨r', hr'.symm⟩
  apply Classical.byContradiction
  intro hne
  rcases List.prefix_or_prefix_of_prefix h1 h2 with h | h
  · have hd := hd.resolve_left (by
      rintro rfl
      rw [List.append_nil] at hr
      exact hne (h.eq_of_length_le (by rw [← hr]; exact h2.length_le)))
    exact hp' l h hne hd
  · have hd := hd'.resolve_left (by
      rintro rfl
      rw [List.append_nil] at hr'
      exact hne (h.eq_of_length_le (by rw [← hr']; exact h1.length_le)).symm)
    exact hp l' h (Ne.symm hne) hd

/-- C59: what a coroutine sees and publishes does not depend on the order in which the set of coroutines is iterated, nor on
which other coroutines are subscribed and what they do. -/
theorem C59_independent {pubs : List S} {beh beh' : Behaviour C M S P} {cs cs' : List C} (hn : cs.Nodup) (hn' : cs'.Nodup)
    (ord ord' : List C → List C) (ho : ∀ l, (ord l).Perm l) (ho' : ∀ l, (ord' l).Perm l) (ms : List M) (c : C)
    (hc : c ∈ cs) (hc' : c ∈ cs') (hb : beh c = beh' c) :
    calls c (handle false pubs beh ord ms (start cs)).log = calls c (handle false pubs beh' ord' ms (start cs')).log ∧
    published c (handle false pubs beh ord ms (start cs)).log =
      published c (handle false pubs beh' ord' ms (start cs')).log := by
  have h := handle_start (pubs := pubs) (beh := beh) hn ord ho ms
  have h' := handle_start (pubs := pubs) (beh := beh') hn' ord' ho' ms
  have hs := h.served c hc
  have hs' := h'.served c hc'
  have e : calls c (handle false pubs beh ord ms (start cs)).log =
      calls c (handle false pubs beh' ord' ms (start cs')).log := by
    refine served_unique hs ?_
    simp only [Served, Done, ← hb] at hs' ⊢
    exact hs'
  refine ⟨e, ?_⟩
  rw [h.pub, h'.pub, e]
  simp only [outputs, hb]

/-! ### Strict shutdown -/

theorem invokeAll_closed (strict : Bool) (pubs : List S) (beh : Behaviour C M S P) (m : M) (L : List C) (st : St C M S P) :
    .closed ∈ (invokeAll strict pubs beh m L st).log ↔ .closed ∈ st.log := by
  induction L generalizing st with
  | nil => rfl
  | cons c L ih =>
    have : .closed ∈ (invoke strict pubs beh m st c).log ↔ .closed ∈ st.log := by
      rw [invoke_log]; simp [callEvents]
    simp only [invokeAll]
    split
    · exact this
    · rw [ih, this]

/-- C59 in strict mode (`EZMSG_STRICT_SHUTDOWN`): once an exception has left the handler, the message is released, the
subscriber is not closed, and no later message is taken from it. -/
theorem C59_strict_deaf {pubs : List S} {beh : Behaviour C M S P} (ord : List C → List C) (ms : List M) (st : St C M S P)
    (h0 : st.raised = false) (hcl : .closed ∉ st.log) (hr : (handle true pubs beh ord ms st).raised = true) :
    (∀ more, handle true pubs beh ord (ms ++ more) st = handle true pubs beh ord ms st) ∧
    .closed ∉ (handle true pubs beh ord ms st).log ∧ held (handle true pubs beh ord ms st).log = none := by
  induction ms generalizing st with
  | nil =>
    simp only [handle] at hr
    split at hr <;> simp [h0] at hr
  | cons m ms ih =>
    simp only [handle, List.cons_append] at hr ⊢
    by_cases he : st.callables.isEmpty
    · simp [he, h0] at hr
    · simp only [he, if_false, Bool.false_eq_true] at hr ⊢
      have hcl' : .closed ∉ (round true pubs beh ord m st).log := by
        have := invokeAll_closed true pubs beh m (ord st.callables) { st with log := st.log ++ [.recv m] }
        simp only [round, List.mem_append, List.mem_singleton, reduceCtorEq, or_false] at this ⊢
        rwa [this]
      by_cases hr1 : (round true pubs beh ord m st).raised
      · simp only [hr1, if_true] at hr ⊢
        exact ⟨fun _ => trivial, hcl', by simp [round, held]⟩
      · simp only [hr1, if_false, Bool.false_eq_true] at hr ⊢
        exact ih _ (by simpa using hr1) hcl' hr

/-! ### Examples -/

namespace RunnerExample

/-- Two coroutines: `0` forwards every message and completes at the second, `1` raises an exception at the first. -/
def beh : Behaviour Nat String Nat String := fun c l =>
  if c = 0 then (l.getLast?.toList.map (fun x => (7, x)) ++ [(8, "nobody")], if l.length = 2 then .complete else .returned)
  else ([(7, "seen")], if l.length = 1 then .error else .returned)

/-- Meets the hypotheses of `C59_every_message`, `C59_held_until_all_called` and `C59_ends`; the failing coroutine goes on,
the completed one does not. -/
example :
    (handle false [7] beh id ["a", "b", "c"] (start [0, 1])).log =
      [.recv "a", .call 0 "a", .publish 0 7 "a", .call 1 "a", .publish 1 7 "seen", .release "a",
       .recv "b", .call 0 "b", .publish 0 7 "b", .call 1 "b", .publish 1 7 "seen", .release "b",
       .recv "c", .call 1 "c", .publish 1 7 "seen", .release "c"] ∧
    (handle false [7] beh id ["a", "b", "c"] (start [0, 1])).errors = true ∧
    (handle false [7] beh id ["a", "b", "c"] (start [0])).log =
      [.recv "a", .call 0 "a", .publish 0 7 "a", .release "a",
       .recv "b", .call 0 "b", .publish 0 7 "b", .release "b", .closed] ∧
    [0, 1].Nodup ∧ ∀ l : List Nat, (id l).Perm l := by
  refine ⟨by decide +kernel, by decide +kernel, by decide +kernel, by decide, fun l => List.Perm.refl l⟩

/-- C59 fails in strict mode: one exception in one coroutine, and neither it nor the other coroutine is called with any later
message; the one that comes after it in the iteration does not even see the same message. Meets `C59_strict_deaf`. -/
theorem C59_negation_strict :
    (handle true [7] beh List.reverse ["a", "b", "c"] (start [0, 1])).log =
      [.recv "a", .call 1 "a", .publish 1 7 "seen", .release "a"] ∧
    (handle true [7] beh List.reverse ["a", "b", "c"] (start [0, 1])).raised = true ∧
    ¬ Served beh 0 ["a", "b", "c"] (calls 0 (handle true [7] beh List.reverse ["a", "b", "c"] (start [0, 1])).log) := by
  refine ⟨by decide +kernel, by decide +kernel, ?_⟩
  have : calls 0 (handle true [7] beh List.reverse ["a", "b", "c"] (start [0, 1])).log = [] := by decide +kernel
  rw [this]
  rintro ⟨⟨rest, hr, h | h⟩, _⟩
  · subst h; simp at hr
  · exact h.1 rfl

end RunnerExample

end Runner
end Ez
