import Verif.Model.SyncZero

/-!
# C116: blocks that receive synchronously without a copy
-/
set_option linter.unusedSimpArgs false
set_option linter.unusedSectionVars false

namespace Ez.SyncZero

variable {V : Type}

/-! ## Spec -/

/-- The messages that came. -/
def arrivedL (l : List (Ev V)) : List V := l.filterMap (fun e => match e with | .arrived m => some m | _ => none)

/-- The messages taken, with the block they were taken for. -/
def takenL (l : List (Ev V)) : List (Nat × V) := l.filterMap (fun e => match e with | .taken i m => some (i, m) | _ => none)

/-- The blocks begun, with their message. -/
def enteredL (l : List (Ev V)) : List (Nat × V) := l.filterMap (fun e => match e with | .entered i m => some (i, m) | _ => none)

/-- The messages whose buffer was given back. -/
def freedL (l : List (Ev V)) : List (Nat × V) := l.filterMap (fun e => match e with | .freed i m => some (i, m) | _ => none)

/-- All that can happen. -/
inductive Run : St V → Prop
  | init : Run init
  | step {st st' : St V} (a : Act V) : Run st → step st a = some st' → Run st'

/-- Steps of the loop. -/
def Own : Act V → Prop
  | .loop => True
  | .take => True
  | .deliver => True
  | .collect _ => True
  | _ => False

/-! ## The invariant -/

/-- Blocks given up or ended. -/
def doneL (l : List (Ev V)) : List Nat := l.filterMap (fun e => match e with | .timedOut i => some i | .leaving i => some i | _ => none)

/-- The first block that is not given up or ended. -/
def cur (st : St V) : Nat :=
  match st.main with
  | .out => st.calls
  | .enters i => i
  | .late i => i
  | .inside i _ => i
  | .exits _ => st.calls

/-- The blocks whose task is still to be created. -/
def asked (t : List Todo) : List Nat := t.filterMap (fun x => match x with | .enter i => some i | _ => none)

structure Inv (st : St V) : Prop where
  arr : arrivedL st.log = (takenL st.log).map Prod.snd ++ st.queue
  ord : ((takenL st.log).map Prod.fst ++ st.waiting ++ asked st.todo).Pairwise (· < ·)
  lim : ∀ i ∈ (takenL st.log).map Prod.fst ++ st.waiting ++ asked st.todo, i < st.calls
  now : ∀ i, uses st i = true → i + 1 = st.calls
  done : ∀ j, j ∈ doneL st.log ↔ j < cur st
  sub : st.holding.Sublist (takenL st.log)
  held : ∀ p ∈ takenL st.log, p ∈ st.holding ∨ p ∈ freedL st.log
  apart : ∀ p ∈ st.holding, p ∉ freedL st.log
  freedIn : ∀ p ∈ freedL st.log, p ∈ takenL st.log
  freedOnce : (freedL st.log).Nodup
  endedIn : ∀ p ∈ st.ended, p ∈ takenL st.log
  futIn : ∀ i m, st.fut i = some m → (i, m) ∈ takenL st.log
  entIn : ∀ p ∈ enteredL st.log, p ∈ takenL st.log
  entOrd : ((enteredL st.log).map Prod.fst).Pairwise (· < ·)
  entLim : ∀ p ∈ enteredL st.log, p.1 < cur st ∨ (∃ m, st.main = .inside p.1 m)
  inEnt : ∀ i m, st.main = .inside i m → (i, m) ∈ enteredL st.log
  leftEnt : ∀ i, Ev.leaving i ∈ st.log → ∃ m, (i, m) ∈ enteredL st.log
  exitTodo : ∀ i, Todo.exit i ∈ st.todo → Ev.leaving i ∈ st.log
  mainExit : ∀ i, st.main = .exits i → Ev.leaving i ∈ st.log
  exitedFreed : ∀ i, i ∈ st.exited → ∃ m, (i, m) ∈ freedL st.log
  freedAfter : ∀ pre i m post, st.log = pre ++ .freed i m :: post → i ∈ doneL pre ∧ (i, m) ∈ takenL pre
  leftAfter : ∀ pre i post, st.log = pre ++ .left i :: post → ∃ m, (i, m) ∈ freedL pre ∧ (i, m) ∈ enteredL pre

theorem split_snoc {α : Type} {l pre post : List α} {e x : α} (h : l ++ [e] = pre ++ x :: post) :
    (post = [] ∧ pre = l ∧ x = e) ∨ ∃ post', l = pre ++ x :: post' := by
  rcases List.eq_nil_or_concat post with rfl | ⟨p, y, rfl⟩
  · left
    have := List.append_inj' h (by simp)
    simp at this
    exact ⟨rfl, this.1.symm, this.2.symm⟩
  · right
    have h' : l ++ [e] = (pre ++ x :: p) ++ [y] := by simpa using h
    exact ⟨p, (List.append_inj' h' (by simp)).1⟩

theorem key_unique : ∀ {l : List (Nat × V)}, (l.map Prod.fst).Pairwise (· < ·) → ∀ {i m m'}, (i, m) ∈ l → (i, m') ∈ l → m = m'
  | [], _, _, _, _, h, _ => by cases h
  | p :: l, hp, i, m, m', h, h' => by
    simp only [List.map_cons, List.pairwise_cons] at hp
    simp only [List.mem_cons] at h h'
    rcases h with h | h <;> rcases h' with h' | h'
    · rw [← h'] at h; injection h
    · have := hp.1 i (List.mem_map.2 ⟨_, h', rfl⟩); rw [← h] at this; simp at this
    · have := hp.1 i (List.mem_map.2 ⟨_, h, rfl⟩); rw [← h'] at this; simp at this
    · exact key_unique hp.2 h h'

theorem sublist_of_sorted : ∀ {l k : List (Nat × V)}, (l.map Prod.fst).Pairwise (· < ·) → (k.map Prod.fst).Pairwise (· < ·) →
    (∀ p ∈ l, p ∈ k) → l.Sublist k
  | [], k, _, _, _ => List.nil_sublist k
  | p :: l, [], _, _, h => by have := h p (by simp); cases this
  | p :: l, q :: k, hl, hk, h => by
    simp only [List.map_cons, List.pairwise_cons] at hl hk
    by_cases e : p = q
    · subst e
      refine List.Sublist.cons_cons _ (sublist_of_sorted hl.2 hk.2 (fun x hx => ?_))
      rcases List.mem_cons.1 (h x (List.mem_cons_of_mem _ hx)) with rfl | hx'
      · have := hl.1 x.1 (List.mem_map.2 ⟨_, hx, rfl⟩); simp at this
      · exact hx'
    · have hp : p ∈ k := by
        rcases List.mem_cons.1 (h p (by simp)) with h' | h'
        · exact absurd h' e
        · exact h'
      refine List.Sublist.cons _ (sublist_of_sorted (by simp only [List.map_cons, List.pairwise_cons]; exact hl) hk.2 (fun x hx => ?_))
      rcases List.mem_cons.1 (h x hx) with hx' | hx'
      · exfalso
        have h1 := hk.1 p.1 (List.mem_map.2 ⟨_, hp, rfl⟩)
        rcases List.mem_cons.1 hx with rfl | hx2
        · exact e hx'
        · have h2 := hl.1 x.1 (List.mem_map.2 ⟨_, hx2, rfl⟩); rw [hx'] at h2; omega
      · exact hx'

theorem arrivedL_snoc (l : List (Ev V)) (e : Ev V) : arrivedL (l ++ [e]) = arrivedL l ++ (match e with | .arrived m => [m] | _ => []) := by
  cases e <;> simp [arrivedL]

theorem takenL_snoc (l : List (Ev V)) (e : Ev V) : takenL (l ++ [e]) = takenL l ++ (match e with | .taken i m => [(i, m)] | _ => []) := by
  cases e <;> simp [takenL]

theorem enteredL_snoc (l : List (Ev V)) (e : Ev V) : enteredL (l ++ [e]) = enteredL l ++ (match e with | .entered i m => [(i, m)] | _ => []) := by
  cases e <;> simp [enteredL]

theorem freedL_snoc (l : List (Ev V)) (e : Ev V) : freedL (l ++ [e]) = freedL l ++ (match e with | .freed i m => [(i, m)] | _ => []) := by
  cases e <;> simp [freedL]

theorem doneL_snoc (l : List (Ev V)) (e : Ev V) :
    doneL (l ++ [e]) = doneL l ++ (match e with | .timedOut i => [i] | .leaving i => [i] | _ => []) := by
  cases e <;> simp [doneL]

theorem leaving_snoc (l : List (Ev V)) (e : Ev V) (i : Nat) : Ev.leaving i ∈ l ++ [e] ↔ Ev.leaving i ∈ l ∨ e = .leaving i := by
  simp [eq_comm]

/-- The lists of a log one event longer. -/
local macro "ev" : tactic =>
  `(tactic| simp only [note, arrivedL_snoc, takenL_snoc, enteredL_snoc, freedL_snoc, doneL_snoc, leaving_snoc, reduceCtorEq, or_false, List.append_nil])

theorem inv_init : Inv (init : St V) := by
  constructor <;> simp [init, arrivedL, takenL, freedL, enteredL, doneL, asked, uses, cur]

theorem Inv.ordT {st : St V} (h : Inv st) : ((takenL st.log).map Prod.fst).Pairwise (· < ·) :=
  (List.pairwise_append.1 (List.pairwise_append.1 h.ord).1).1

theorem find_holding {l : List (Nat × V)} {i : Nat} {m : V} (h : (i, m) ∈ l) :
    ∃ m', l.find? (fun p => decide (p.1 = i)) = some (i, m') ∧ (i, m') ∈ l := by
  cases hf : l.find? (fun p => decide (p.1 = i)) with
  | none => rw [List.find?_eq_none] at hf; have := hf _ h; simp at this
  | some p =>
    have h1 := List.mem_of_find?_eq_some hf
    have h2 := List.find?_some hf
    simp at h2
    obtain ⟨a, b⟩ := p
    simp at h2; subst h2
    exact ⟨b, rfl, h1⟩

theorem inv_free {st : St V} (h : Inv st) {i : Nat} (hd : i ∈ doneL st.log) : Inv (free st i) := by
  unfold free
  cases hf : st.holding.find? (fun p => decide (p.1 = i)) with
  | none => exact h
  | some p =>
    obtain ⟨a, m⟩ := p
    have h1 := List.mem_of_find?_eq_some hf
    have h2 := List.find?_some hf
    simp at h2; subst h2
    have hT : (a, m) ∈ takenL st.log := h.sub.subset h1
    obtain ⟨harr, hord, hlim, hnow, hdone, hsub, hheld, hapart, hfin, honce, hend, hfut, hentIn, hentOrd, hentLim, hinEnt, hleftEnt, hexT, hmE, hexF, hfA, hlA⟩ := h
    constructor
    case sub => simp [note, takenL] at hsub ⊢; exact List.Sublist.trans List.filter_sublist hsub
    case held =>
      intro p hp
      have hp' : p ∈ takenL st.log := by simpa [note, takenL] using hp
      by_cases e : p.1 = a
      · right
        have : p = (a, m) := by
          obtain ⟨x, y⟩ := p
          simp at e; subst e
          rw [key_unique (List.pairwise_append.1 (List.pairwise_append.1 hord).1).1 hp' hT]
        simp [note, freedL, this]
      · rcases hheld p hp' with hh | hh
        · left; simp [note, hh, e]
        · right; simp only [note, freedL, List.filterMap_append, List.mem_append]; exact Or.inl hh
    case apart =>
      intro p hp hq
      simp [note] at hp
      simp only [note, freedL, List.filterMap_append, List.mem_append] at hq
      rcases hq with hq | hq
      · exact hapart p hp.1 hq
      · simp at hq; rw [hq] at hp; simp at hp
    case freedIn =>
      intro p hp
      simp only [note, freedL, List.filterMap_append, List.mem_append] at hp
      simp only [note, takenL, List.filterMap_append, List.mem_append]
      rcases hp with hp | hp
      · exact Or.inl (hfin p hp)
      · simp at hp; rw [hp]; exact Or.inl hT
    case freedOnce =>
      simp only [note, freedL, List.filterMap_append]
      rw [List.nodup_append]
      refine ⟨honce, by simp, ?_⟩
      intro x hx y hy
      simp at hy
      rintro rfl
      rw [hy] at hx
      exact hapart _ h1 hx
    case exitedFreed =>
      intro j hj
      obtain ⟨m', hm'⟩ := hexF j hj
      exact ⟨m', by simp only [note, freedL, List.filterMap_append, List.mem_append]; exact Or.inl hm'⟩
    case freedAfter =>
      intro pre j m' post hl
      rcases split_snoc hl with ⟨_, rfl, he⟩ | ⟨post', hl'⟩
      · injection he with h1 h2; subst h1; subst h2; exact ⟨hd, hT⟩
      · exact hfA _ _ _ _ hl'
    case leftAfter =>
      intro pre j post hl
      rcases split_snoc hl with ⟨_, rfl, he⟩ | ⟨post', hl'⟩
      · cases he
      · exact hlA _ _ _ hl'
    all_goals (try ev) <;> assumption

theorem inv_step {st st' : St V} {a : Act V} (h : Inv st) (hs : step st a = some st') : Inv st' := by
  have hT := h.ordT
  cases a with
  | arrive m =>
    simp only [step, Option.some.injEq] at hs
    subst hs
    obtain ⟨harr, hord, hlim, hnow, hdone, hsub, hheld, hapart, hfin, honce, hend, hfut, hentIn, hentOrd, hentLim, hinEnt, hleftEnt, hexT, hmE, hexF, hfA, hlA⟩ := h
    constructor
    case arr => simp only [arrive, note, arrivedL, takenL, List.filterMap_append] at harr ⊢; rw [harr]; simp
    case freedAfter =>
      intro pre j m' post hl
      rcases split_snoc hl with ⟨_, rfl, he⟩ | ⟨post', hl'⟩
      · cases he
      · exact hfA _ _ _ _ hl'
    case leftAfter =>
      intro pre j post hl
      rcases split_snoc hl with ⟨_, rfl, he⟩ | ⟨post', hl'⟩
      · cases he
      · exact hlA _ _ _ hl'
    all_goals (simp only [arrive]; (try ev) <;> assumption)
  | call =>
    simp only [step, call] at hs
    split at hs
    · rename_i hm
      simp only [Option.some.injEq] at hs
      subst hs
      obtain ⟨harr, hord, hlim, hnow, hdone, hsub, hheld, hapart, hfin, honce, hend, hfut, hentIn, hentOrd, hentLim, hinEnt, hleftEnt, hexT, hmE, hexF, hfA, hlA⟩ := h
      constructor
      case ord =>
        simp only [asked, List.filterMap_append]
        rw [← List.append_assoc, List.pairwise_append]
        refine ⟨hord, by simp, ?_⟩
        intro x hx y hy
        simp at hy; subst hy
        exact hlim x hx
      case lim =>
        intro i hi
        simp only [asked, List.filterMap_append] at hi
        rw [← List.append_assoc, List.mem_append] at hi
        rcases hi with hi | hi
        · exact Nat.lt_succ_of_lt (hlim i hi)
        · simp at hi; subst hi; exact Nat.lt_succ_self _
      case now => intro i hi; simp [uses] at hi; subst hi; rfl
      case done => intro j; rw [hdone j]; simp [cur, hm]
      case entLim =>
        intro p hp
        rcases hentLim p hp with hh | ⟨m, hh⟩
        · left; simpa [cur, hm] using hh
        · rw [hm] at hh; cases hh
      case exitTodo => intro i hi; simp at hi; exact hexT i hi
      all_goals (first | assumption | (intro i hi; cases hi) | (intro i m hi; cases hi))
    all_goals cases hs
  | return_ =>
    simp only [step, return_] at hs
    split at hs
    · rename_i i hm
      cases hf : st.fut i with
      | none => rw [hf] at hs; cases hs
      | some m =>
      rw [hf] at hs
      simp only [Option.map_some, Option.some.injEq] at hs
      subst hs
      have hi : i + 1 = st.calls := h.now i (by simp [uses, hm])
      obtain ⟨harr, hord, hlim, hnow, hdone, hsub, hheld, hapart, hfin, honce, hend, hfut, hentIn, hentOrd, hentLim, hinEnt, hleftEnt, hexT, hmE, hexF, hfA, hlA⟩ := h
      have hlt : ∀ p ∈ enteredL st.log, p.1 < i := by
        intro p hp
        rcases hentLim p hp with hh | ⟨m, hh⟩
        · simpa [cur, hm] using hh
        · rw [hm] at hh; cases hh
      constructor
      case now => intro j hj; apply hnow; simp [uses, note] at hj; simp [uses, hm, hj]
      case done => intro j; simp [note, doneL, cur]; have := hdone j; simp [doneL, cur, hm] at this; exact this
      case entIn =>
        intro p hp
        simp only [note, enteredL, List.filterMap_append, List.mem_append] at hp
        simp only [note, takenL, List.filterMap_append, List.mem_append]
        rcases hp with hp | hp
        · exact Or.inl (hentIn p hp)
        · simp at hp; rw [hp]; exact Or.inl (hfut i m hf)
      case entOrd =>
        simp only [note, enteredL, List.filterMap_append, List.map_append]
        rw [List.pairwise_append]
        refine ⟨hentOrd, by simp, ?_⟩
        intro x hx y hy
        simp at hy; subst hy
        obtain ⟨p, hp, rfl⟩ := List.mem_map.1 hx
        exact hlt p hp
      case entLim =>
        intro p hp
        simp only [note, enteredL, List.filterMap_append, List.mem_append] at hp
        rcases hp with hp | hp
        · left; simpa [note, cur] using hlt p hp
        · right; simp at hp; rw [hp]; exact ⟨m, rfl⟩
      case inEnt =>
        intro j m' hj
        simp [note] at hj
        simp [note, enteredL, hj]
      case leftEnt =>
        intro j hj
        simp [note] at hj
        obtain ⟨m', hm'⟩ := hleftEnt j hj
        exact ⟨m', by simp only [note, enteredL, List.filterMap_append, List.mem_append]; exact Or.inl hm'⟩
      case mainExit => intro j hj; cases hj
      case freedAfter =>
        intro pre j m' post hl
        rcases split_snoc hl with ⟨_, rfl, he⟩ | ⟨post', hl'⟩
        · cases he
        · exact hfA _ _ _ _ hl'
      case leftAfter =>
        intro pre j post hl
        rcases split_snoc hl with ⟨_, rfl, he⟩ | ⟨post', hl'⟩
        · cases he
        · exact hlA _ _ _ hl'
      all_goals (try ev) <;> assumption
    all_goals cases hs
  | expire =>
    simp only [step, expire] at hs
    split at hs
    · rename_i i hm
      simp only [Option.some.injEq] at hs
      subst hs
      obtain ⟨harr, hord, hlim, hnow, hdone, hsub, hheld, hapart, hfin, honce, hend, hfut, hentIn, hentOrd, hentLim, hinEnt, hleftEnt, hexT, hmE, hexF, hfA, hlA⟩ := h
      constructor
      case now => intro j hj; apply hnow; simp [uses] at hj; simp [uses, hm, hj]
      case done => intro j; rw [hdone j]; simp [cur, hm]
      case entLim =>
        intro p hp
        rcases hentLim p hp with hh | ⟨m, hh⟩
        · left; simpa [cur, hm] using hh
        · rw [hm] at hh; cases hh
      all_goals (first | assumption | (intro i hi; cases hi) | (intro i m hi; cases hi))
    all_goals cases hs
  | giveUp =>
    simp only [step, giveUp] at hs
    split at hs
    · rename_i i hm
      have hi : i + 1 = st.calls := h.now i (by simp [uses, hm])
      obtain ⟨harr, hord, hlim, hnow, hdone, hsub, hheld, hapart, hfin, honce, hend, hfut, hentIn, hentOrd, hentLim, hinEnt, hleftEnt, hexT, hmE, hexF, hfA, hlA⟩ := h
      split at hs <;>
      · simp only [Option.some.injEq] at hs
        subst hs
        constructor
        case now => intro j hj; simp [uses, note] at hj
        case ord => simp [note, takenL, asked] at hord ⊢; exact hord
        case lim => simp [note, takenL, asked] at hlim ⊢; exact hlim
        case done =>
          intro j
          have := hdone j
          simp only [note, doneL, List.filterMap_append, List.mem_append, cur, hm] at this ⊢
          rw [this]; simp; omega
        case entLim =>
          intro p hp
          simp [note, enteredL] at hp
          left
          rcases hentLim p (by simpa [enteredL] using hp) with hh | ⟨m, hh⟩
          · simp [cur, hm] at hh; simp [cur, note]; omega
          · rw [hm] at hh; cases hh
        case inEnt => intro j m' hj; cases hj
        case mainExit => intro j hj; cases hj
        case exitTodo =>
          intro j hj
          simp [note] at hj ⊢
          exact hexT j hj
        case freedAfter =>
          intro pre j m' post hl
          rcases split_snoc hl with ⟨_, rfl, he⟩ | ⟨post', hl'⟩
          · cases he
          · exact hfA _ _ _ _ hl'
        case leftAfter =>
          intro pre j post hl
          rcases split_snoc hl with ⟨_, rfl, he⟩ | ⟨post', hl'⟩
          · cases he
          · exact hlA _ _ _ hl'
        all_goals (try ev) <;> assumption
    all_goals cases hs
  | leave =>
    simp only [step, leave] at hs
    split at hs
    · rename_i i m hm
      have hi : i + 1 = st.calls := h.now i (by simp [uses, hm])
      obtain ⟨harr, hord, hlim, hnow, hdone, hsub, hheld, hapart, hfin, honce, hend, hfut, hentIn, hentOrd, hentLim, hinEnt, hleftEnt, hexT, hmE, hexF, hfA, hlA⟩ := h
      simp only [Option.some.injEq] at hs
      subst hs
      have hin := hinEnt i m hm
      constructor
      case now => intro j hj; apply hnow; simp [uses, note] at hj; simp [uses, hm, hj]
      case ord => simp [note, takenL, asked] at hord ⊢; exact hord
      case lim => simp [note, takenL, asked] at hlim ⊢; exact hlim
      case done =>
        intro j
        have := hdone j
        simp only [note, doneL, List.filterMap_append, List.mem_append, cur, hm] at this ⊢
        rw [this]; simp; omega
      case entLim =>
        intro p hp
        simp [note, enteredL] at hp
        left
        rcases hentLim p (by simpa [enteredL] using hp) with hh | ⟨m', hh⟩
        · simp [cur, hm] at hh; simp [cur, note]; omega
        · rw [hm] at hh; injection hh with h1; simp [cur, note]; omega
      case inEnt => intro j m' hj; cases hj
      case leftEnt =>
        intro j hj
        simp [note] at hj
        have : ∃ m, (j, m) ∈ enteredL st.log := by
          rcases hj with hj | hj
          · exact hleftEnt j hj
          · subst hj; exact ⟨m, hin⟩
        simpa [note, enteredL] using this
      case exitTodo =>
        intro j hj
        simp [note] at hj ⊢
        rcases hj with hj | hj
        · exact Or.inl (hexT j hj)
        · exact Or.inr hj
      case mainExit => intro j hj; simp [note] at hj ⊢; exact Or.inr hj.symm
      case freedAfter =>
        intro pre j m' post hl
        rcases split_snoc hl with ⟨_, rfl, he⟩ | ⟨post', hl'⟩
        · cases he
        · exact hfA _ _ _ _ hl'
      case leftAfter =>
        intro pre j post hl
        rcases split_snoc hl with ⟨_, rfl, he⟩ | ⟨post', hl'⟩
        · cases he
        · exact hlA _ _ _ hl'
      all_goals (try ev) <;> assumption
    all_goals cases hs
  | leaveDone late =>
    simp only [step, leaveDone] at hs
    split at hs
    · rename_i i hm
      have hi : i + 1 = st.calls := h.now i (by simp [uses, hm])
      obtain ⟨harr, hord, hlim, hnow, hdone, hsub, hheld, hapart, hfin, honce, hend, hfut, hentIn, hentOrd, hentLim, hinEnt, hleftEnt, hexT, hmE, hexF, hfA, hlA⟩ := h
      have key : ∀ e : Ev V, (e = .leftLate i ∨ (e = .left i ∧ i ∈ st.exited)) → Inv (note { st with main := .out } e) := by
        intro e he
        constructor
        case now => intro j hj; simp [uses, note] at hj
        case done =>
          intro j
          have := hdone j
          rcases he with rfl | ⟨rfl, _⟩ <;> simpa [note, doneL, cur, hm] using this
        case entLim =>
          intro p hp
          left
          rcases hentLim p (by rcases he with rfl | ⟨rfl, _⟩ <;> simpa [note, enteredL] using hp) with hh | ⟨m', hh⟩
          · simpa [cur, hm, note] using hh
          · rw [hm] at hh; cases hh
        case inEnt => intro j m' hj; cases hj
        case mainExit => intro j hj; cases hj
        case leftEnt =>
          intro j hj
          obtain ⟨m', hm'⟩ := hleftEnt j (by rcases he with rfl | ⟨rfl, _⟩ <;> simpa [note] using hj)
          exact ⟨m', by simp only [note, enteredL, List.filterMap_append, List.mem_append]; exact Or.inl hm'⟩
        case exitTodo => intro j hj; simp only [note, List.mem_append]; exact Or.inl (hexT j hj)
        case freedAfter =>
          intro pre j m' post hl
          rcases split_snoc hl with ⟨_, rfl, he'⟩ | ⟨post', hl'⟩
          · rcases he with rfl | ⟨rfl, _⟩ <;> cases he'
          · exact hfA _ _ _ _ hl'
        case leftAfter =>
          intro pre j post hl
          rcases split_snoc hl with ⟨_, rfl, he'⟩ | ⟨post', hl'⟩
          · rcases he with rfl | ⟨rfl, hx⟩
            · cases he'
            · injection he' with h1; subst h1
              obtain ⟨m, hF⟩ := hexF _ hx
              obtain ⟨m', hE⟩ := hleftEnt _ (hmE _ hm)
              have := key_unique hT (hfin _ hF) (hentIn _ hE)
              subst this
              exact ⟨m, hF, hE⟩
          · exact hlA _ _ _ hl'
        all_goals (rcases he with rfl | ⟨rfl, _⟩ <;> (try ev) <;> assumption)
      split at hs
      · simp only [Option.some.injEq] at hs; subst hs; exact key _ (Or.inl rfl)
      · split at hs
        · rename_i hx
          simp only [Option.some.injEq] at hs; subst hs; exact key _ (Or.inr ⟨rfl, hx⟩)
        · cases hs
    all_goals cases hs
  | loop =>
    simp only [step, loop] at hs
    split at hs
    · rename_i i q hq
      simp only [Option.some.injEq] at hs
      subst hs
      obtain ⟨harr, hord, hlim, hnow, hdone, hsub, hheld, hapart, hfin, honce, hend, hfut, hentIn, hentOrd, hentLim, hinEnt, hleftEnt, hexT, hmE, hexF, hfA, hlA⟩ := h
      constructor
      case ord => simpa [asked, hq] using hord
      case lim => simpa [asked, hq] using hlim
      case exitTodo => intro j hj; exact hexT j (by rw [hq]; exact List.mem_cons_of_mem _ hj)
      all_goals assumption
    · rename_i i q hq
      simp only [Option.some.injEq] at hs
      subst hs
      obtain ⟨harr, hord, hlim, hnow, hdone, hsub, hheld, hapart, hfin, honce, hend, hfut, hentIn, hentOrd, hentLim, hinEnt, hleftEnt, hexT, hmE, hexF, hfA, hlA⟩ := h
      have hsl : ((takenL st.log).map Prod.fst ++ st.waiting.filter (fun x => decide (x ≠ i)) ++ asked q).Sublist
          ((takenL st.log).map Prod.fst ++ st.waiting ++ asked st.todo) := by
        have : asked st.todo = asked q := by rw [hq]; simp [asked]
        rw [this]
        exact List.Sublist.append (List.Sublist.append (List.Sublist.refl _) List.filter_sublist) (List.Sublist.refl _)
      constructor
      case ord => exact List.Pairwise.sublist hsl hord
      case lim => intro j hj; exact hlim j (hsl.subset hj)
      case exitTodo => intro j hj; exact hexT j (by rw [hq]; exact List.mem_cons_of_mem _ hj)
      all_goals assumption
    · rename_i i q hq
      simp only [Option.some.injEq] at hs
      have h0 : Inv { st with todo := q } := by
        obtain ⟨harr, hord, hlim, hnow, hdone, hsub, hheld, hapart, hfin, honce, hend, hfut, hentIn, hentOrd, hentLim, hinEnt, hleftEnt, hexT, hmE, hexF, hfA, hlA⟩ := h
        constructor
        case ord => simpa [asked, hq] using hord
        case lim => simpa [asked, hq] using hlim
        case exitTodo => intro j hj; exact hexT j (by rw [hq]; exact List.mem_cons_of_mem _ hj)
        all_goals assumption
      have hl : Ev.leaving i ∈ st.log := h.exitTodo i (by rw [hq]; simp)
      have hd : i ∈ doneL st.log := List.mem_filterMap.2 ⟨_, hl, rfl⟩
      have h1 := inv_free (i := i) h0 hd
      have hex : (free { st with todo := q } i).exited = st.exited := by unfold free; split <;> rfl
      have hF : ∃ m, (i, m) ∈ freedL (free { st with todo := q } i).log := by
        obtain ⟨m, hm⟩ := h.leftEnt i hl
        rcases h.held _ (h.entIn _ hm) with hh | hh
        · obtain ⟨m', hf, _⟩ := find_holding hh
          refine ⟨m', ?_⟩
          simp only [free, hf]
          ev
          simp
        · refine ⟨m, ?_⟩
          unfold free
          split
          · ev
            exact List.mem_append_left _ hh
          · exact hh
      subst hs
      have hE : ∀ j, j ∈ i :: st.exited → ∃ m, (j, m) ∈ freedL (free { st with todo := q } i).log := by
        intro j hj
        rcases List.mem_cons.1 hj with rfl | hj
        · exact hF
        · exact h1.exitedFreed j (by rw [hex]; exact hj)
      clear h h0 hex hF hd hl
      generalize free { st with todo := q } i = s1 at h1 hE
      obtain ⟨harr, hord, hlim, hnow, hdone, hsub, hheld, hapart, hfin, honce, hend, hfut, hentIn, hentOrd, hentLim, hinEnt, hleftEnt, hexT, hmE, hexF, hfA, hlA⟩ := h1
      constructor
      case exitedFreed => exact hE
      all_goals assumption
    · cases hs
  | take =>
    simp only [step, take] at hs
    split at hs
    · rename_i i ws m q hw hq
      simp only [Option.some.injEq] at hs
      subst hs
      obtain ⟨harr, hord, hlim, hnow, hdone, hsub, hheld, hapart, hfin, honce, hend, hfut, hentIn, hentOrd, hentLim, hinEnt, hleftEnt, hexT, hmE, hexF, hfA, hlA⟩ := h
      have hnew : ∀ m', (i, m') ∉ takenL st.log := by
        intro m' hm'
        have h1 := (List.pairwise_append.1 (List.pairwise_append.1 hord).1).2.2 i (List.mem_map.2 ⟨_, hm', rfl⟩) i (by rw [hw]; simp)
        exact absurd h1 (Nat.lt_irrefl i)
      constructor
      case arr => ev; rw [harr, hq]; simp
      case ord => ev; rw [hw] at hord; simpa using hord
      case lim => ev; rw [hw] at hlim; simpa using hlim
      case sub => ev; exact List.Sublist.append hsub (List.Sublist.refl _)
      case held =>
        ev
        intro p hp
        rcases List.mem_append.1 hp with hp | hp
        · rcases hheld p hp with hh | hh
          · exact Or.inl (List.mem_append_left _ hh)
          · exact Or.inr hh
        · exact Or.inl (List.mem_append_right _ hp)
      case apart =>
        ev
        intro p hp hf
        rcases List.mem_append.1 hp with hp | hp
        · exact hapart p hp hf
        · simp at hp; rw [hp] at hf; exact hnew m (hfin _ hf)
      case freedIn => ev; intro p hp; exact List.mem_append_left _ (hfin p hp)
      case endedIn =>
        ev
        intro p hp
        rcases List.mem_append.1 hp with hp | hp
        · exact List.mem_append_left _ (hend p hp)
        · exact List.mem_append_right _ hp
      case futIn => ev; intro j m' hj; exact List.mem_append_left _ (hfut j m' hj)
      case entIn => ev; intro p hp; exact List.mem_append_left _ (hentIn p hp)
      case freedAfter =>
        intro pre j m' post hl
        rcases split_snoc hl with ⟨_, rfl, he⟩ | ⟨post', hl'⟩
        · cases he
        · exact hfA _ _ _ _ hl'
      case leftAfter =>
        intro pre j post hl
        rcases split_snoc hl with ⟨_, rfl, he⟩ | ⟨post', hl'⟩
        · cases he
        · exact hlA _ _ _ hl'
      all_goals (try ev) <;> assumption
    · cases hs
  | deliver =>
    simp only [step, deliver] at hs
    split at hs
    · rename_i i m q hq
      obtain ⟨harr, hord, hlim, hnow, hdone, hsub, hheld, hapart, hfin, honce, hend, hfut, hentIn, hentOrd, hentLim, hinEnt, hleftEnt, hexT, hmE, hexF, hfA, hlA⟩ := h
      have hm : (i, m) ∈ takenL st.log := hend _ (by rw [hq]; simp)
      have hq' : ∀ p ∈ q, p ∈ takenL st.log := fun p hp => hend p (by rw [hq]; exact List.mem_cons_of_mem _ hp)
      split at hs
      · simp only [Option.some.injEq] at hs
        subst hs
        constructor
        all_goals assumption
      · simp only [Option.some.injEq] at hs
        subst hs
        constructor
        case futIn =>
          intro j m' hj
          simp only at hj
          split at hj
          · rename_i e; subst e; injection hj with hj; subst hj; exact hm
          · exact hfut j m' hj
        all_goals assumption
    · cases hs
  | collect i =>
    simp only [step, collect] at hs
    split at hs
    · rename_i hc
      simp only [Option.some.injEq] at hs
      subst hs
      obtain ⟨hu, _, hany⟩ := hc
      apply inv_free h
      rw [h.done]
      obtain ⟨p, hp, hpi⟩ := List.any_eq_true.1 hany
      simp at hpi
      have hlt : i < st.calls := h.lim i (by
        simp only [List.append_assoc, List.mem_append]
        exact Or.inl (List.mem_map.2 ⟨p, h.sub.subset hp, hpi⟩))
      cases hmn : st.main with
      | out => simpa only [cur, hmn] using hlt
      | exits k => simpa only [cur, hmn] using hlt
      | enters k =>
        have hk : k + 1 = st.calls := h.now k (by simp [uses, hmn])
        have : k ≠ i := by simpa [uses, hmn] using hu
        simp only [cur, hmn]; omega
      | late k =>
        have hk : k + 1 = st.calls := h.now k (by simp [uses, hmn])
        have : k ≠ i := by simpa [uses, hmn] using hu
        simp only [cur, hmn]; omega
      | inside k m =>
        have hk : k + 1 = st.calls := h.now k (by simp [uses, hmn])
        have : k ≠ i := by simpa [uses, hmn] using hu
        simp only [cur, hmn]; omega
    · cases hs

theorem Run.inv {st : St V} (h : Run st) : Inv st := by
  induction h with
  | init => exact inv_init
  | step a _ hs ih => exact inv_step ih hs

/-! ## C116 -/

/-- **C116.**  Messages are taken in the order in which they came, each for one block and no two for the same, and
blocks receive them in that order: what blocks have received is part of what was taken for them, and that with what
still waits is what came. -/
theorem C116_order {st : St V} (h : Run st) :
    arrivedL st.log = (takenL st.log).map Prod.snd ++ st.queue ∧ ((takenL st.log).map Prod.fst).Nodup ∧
      (enteredL st.log).Sublist (takenL st.log) := by
  have hi := h.inv
  refine ⟨hi.arr, hi.ordT.imp (fun h => Nat.ne_of_lt h), sublist_of_sorted hi.entOrd hi.ordT hi.entIn⟩

/-- **C116.**  The buffer of a message is given back at most once, after it was taken, and not before the block it was
taken for has ended or was given up. -/
theorem C116_freed {st : St V} (h : Run st) :
    (freedL st.log).Nodup ∧ ∀ pre i m post, st.log = pre ++ .freed i m :: post →
      (Ev.leaving i ∈ pre ∨ Ev.timedOut i ∈ pre) ∧ Ev.taken i m ∈ pre := by
  have hi := h.inv
  refine ⟨hi.freedOnce, fun pre i m post hl => ?_⟩
  obtain ⟨h1, h2⟩ := hi.freedAfter pre i m post hl
  obtain ⟨e, he, hx⟩ := List.mem_filterMap.1 h1
  obtain ⟨e', he', hx'⟩ := List.mem_filterMap.1 h2
  constructor
  · cases e <;> simp at hx <;> subst hx
    · exact Or.inr he
    · exact Or.inl he
  · cases e' <;> simp at hx'
    obtain ⟨rfl, rfl⟩ := hx'
    exact he'

/-- **C116.**  In a block the buffer of its message is held. -/
theorem C116_inside {st : St V} (h : Run st) {i : Nat} {m : V} (hm : st.main = .inside i m) :
    (i, m) ∈ st.holding ∧ Ev.freed i m ∉ st.log := by
  have hi := h.inv
  have hT := hi.entIn _ (hi.inEnt i m hm)
  have hn : (i, m) ∉ freedL st.log := by
    intro hf
    obtain ⟨e, he, hx⟩ := List.mem_filterMap.1 hf
    cases e <;> simp at hx
    rw [hx.1, hx.2] at he
    obtain ⟨pre, post, hl⟩ := List.append_of_mem he
    have := (hi.freedAfter _ _ _ _ hl).1
    have h2 : i ∈ doneL st.log := by rw [hl]; simp only [doneL, List.filterMap_append, List.mem_append]; exact Or.inl this
    rw [hi.done] at h2
    simp [cur, hm] at h2
  refine ⟨?_, fun hf => hn (List.mem_filterMap.2 ⟨_, hf, rfl⟩)⟩
  rcases hi.held _ hT with hh | hh
  · exact hh
  · exact absurd hh hn

/-- **C116.**  When `__exit__` has returned, the buffer of the message of the block has been given back. -/
theorem C116_left {st : St V} (h : Run st) {pre : List (Ev V)} {i : Nat} {post : List (Ev V)} (hl : st.log = pre ++ .left i :: post) :
    ∃ m, Ev.entered i m ∈ pre ∧ Ev.freed i m ∈ pre := by
  obtain ⟨m, h1, h2⟩ := h.inv.leftAfter _ _ _ hl
  obtain ⟨e, he, hx⟩ := List.mem_filterMap.1 h1
  obtain ⟨e', he', hx'⟩ := List.mem_filterMap.1 h2
  cases e <;> simp at hx
  cases e' <;> simp at hx'
  obtain ⟨rfl, rfl⟩ := hx
  obtain ⟨rfl, rfl⟩ := hx'
  exact ⟨_, he', he⟩

/-- What the loop has still to do, at most. -/
def left_ (st : St V) : Nat := 4 * st.todo.length + 3 * st.waiting.length + st.ended.length + st.holding.length

theorem free_holding (st : St V) (i : Nat) : (free st i).holding.length ≤ st.holding.length ∧ (free st i).todo = st.todo ∧
    (free st i).waiting = st.waiting ∧ (free st i).ended = st.ended := by
  unfold free
  split
  · exact ⟨List.length_filter_le _ _, rfl, rfl, rfl⟩
  · exact ⟨Nat.le_refl _, rfl, rfl, rfl⟩

theorem length_filter_lt {α : Type} {p : α → Bool} : ∀ {l : List α} {x : α}, x ∈ l → p x = false → (l.filter p).length < l.length
  | [], _, h, _ => by cases h
  | y :: l, x, h, hp => by
    by_cases hy : p y = true
    · rw [List.filter_cons_of_pos hy]
      rcases List.mem_cons.1 h with rfl | h
      · rw [hp] at hy; cases hy
      · exact Nat.succ_lt_succ (length_filter_lt h hp)
    · rw [List.filter_cons_of_neg hy]
      exact Nat.lt_succ_of_le (List.length_filter_le _ _)

/-- **C116.**  Also if `__enter__` or `__exit__` was given up, the buffer is given back: every step of the loop brings
the end of its work nearer, and once it has no more to do and the thread is in no block, every message taken has been
given back. -/
theorem C116_given_back {st : St V} (h : Run st) :
    (∀ a st', Own a → step st a = some st' → left_ st' < left_ st) ∧
      (st.main = .out → (∀ a, Own a → step st a = none) → ∀ i m, Ev.taken i m ∈ st.log → Ev.freed i m ∈ st.log) := by
  constructor
  · intro a st' ho hs
    cases a <;> simp only [Own] at ho
    · simp only [step, loop] at hs
      split at hs
      · rename_i i q hq
        simp only [Option.some.injEq] at hs; subst hs
        simp [left_, hq]; omega
      · rename_i i q hq
        simp only [Option.some.injEq] at hs; subst hs
        have := List.length_filter_le (fun x => decide (x ≠ i)) st.waiting
        simp only [left_, hq, List.length_cons]; omega
      · rename_i i q hq
        simp only [Option.some.injEq] at hs; subst hs
        obtain ⟨h1, h2, h3, h4⟩ := free_holding { st with todo := q } i
        simp only [left_, h2, h3, h4, hq, List.length_cons] at h1 ⊢
        omega
      · cases hs
    · simp only [step, take] at hs
      split at hs
      · rename_i i ws m q hw hq
        simp only [Option.some.injEq] at hs; subst hs
        simp [left_, note, hw]; omega
      · cases hs
    · simp only [step, deliver] at hs
      split at hs
      · rename_i i m q hq
        split at hs <;> (simp only [Option.some.injEq] at hs; subst hs; simp [left_, hq])
      · cases hs
    · simp only [step, collect] at hs
      split at hs
      · rename_i i hc
        simp only [Option.some.injEq] at hs; subst hs
        obtain ⟨p, hp, hpi⟩ := List.any_eq_true.1 hc.2.2
        simp at hpi
        obtain ⟨m', hf, hm'⟩ := find_holding (i := i) (m := p.2) (l := st.holding) (by rw [← hpi]; exact hp)
        have := length_filter_lt (p := fun p : Nat × V => decide (p.1 ≠ i)) hm' (by simp)
        simp only [free, hf, note, left_]
        omega
      · cases hs
  · intro hm hn i m ht
    have hi := h.inv
    have hT : (i, m) ∈ takenL st.log := List.mem_filterMap.2 ⟨_, ht, rfl⟩
    rcases hi.held _ hT with hh | hh
    · have hl := hn .loop trivial
      have htodo : st.todo = [] := by
        cases hq : st.todo with
        | nil => rfl
        | cons x q => cases x <;> simp [step, loop, hq] at hl
      have hc := hn (.collect i) trivial
      simp only [step, collect] at hc
      rw [if_pos ⟨by simp [uses, hm], by rw [htodo]; simp, List.any_eq_true.2 ⟨_, hh, by simp⟩⟩] at hc
      cases hc
    · obtain ⟨e, he, hx⟩ := List.mem_filterMap.1 hh
      cases e <;> simp at hx
      obtain ⟨rfl, rfl⟩ := hx
      exact he

/-- **C116, as far as it goes.**  If no `__enter__` is given up, no message is lost: whenever the thread does not wait
for one, the blocks have received all that was taken, and that with what still waits is what came. -/
theorem C116_none_lost_partial {st : St V} (h : Run st) (hn : ∀ i, Ev.timedOut i ∉ st.log)
    (hm : st.main = .out ∨ (∃ i m, st.main = .inside i m) ∨ ∃ i, st.main = .exits i) :
    enteredL st.log = takenL st.log ∧ arrivedL st.log = (enteredL st.log).map Prod.snd ++ st.queue := by
  have hi := h.inv
  have hE : ∀ p ∈ takenL st.log, p ∈ enteredL st.log := by
    intro p hp
    obtain ⟨i, m⟩ := p
    have hlt : i < st.calls := hi.lim i (by
      simp only [List.append_assoc, List.mem_append]
      exact Or.inl (List.mem_map.2 ⟨_, hp, rfl⟩))
    have : ∃ m', (i, m') ∈ enteredL st.log := by
      by_cases hc : i < cur st
      · rw [← hi.done] at hc
        obtain ⟨e, he, hx⟩ := List.mem_filterMap.1 hc
        cases e <;> simp at hx <;> subst hx
        · exact absurd he (hn _)
        · exact hi.leftEnt _ he
      · rcases hm with hm | ⟨k, m', hm⟩ | ⟨k, hm⟩
        · simp [cur, hm] at hc; omega
        · have hk : k + 1 = st.calls := hi.now k (by simp [uses, hm])
          simp [cur, hm] at hc
          have : i = k := by omega
          subst this
          exact ⟨m', hi.inEnt _ _ hm⟩
        · simp [cur, hm] at hc; omega
    obtain ⟨m', hm'⟩ := this
    rw [key_unique hi.ordT hp (hi.entIn _ hm')]
    exact hm'
  have h1 := sublist_of_sorted hi.entOrd hi.ordT hi.entIn
  have h2 := sublist_of_sorted hi.ordT hi.entOrd hE
  have he : enteredL st.log = takenL st.log := h1.eq_of_length_le h2.length_le
  exact ⟨he, by rw [he]; exact hi.arr⟩

theorem run_of_run : ∀ (as : List (Act V)) {st st' : St V}, Run st → run as st = some st' → Run st' := by
  intro as
  induction as with
  | nil => intro st st' h hs; simp [run] at hs; exact hs ▸ h
  | cons a as ih =>
    intro st st' h hs
    simp only [run] at hs
    split at hs
    · rename_i st1 h1
      exact ih (Run.step a h h1) hs
    · cases hs

/-- **C116: the disagreement.**  A message can come, be taken for a block that is given up, and be received by no block:
the next block receives the one after it. -/
theorem C116_negation : ∃ st : St Nat, Run st ∧ st.main = .out ∧ arrivedL st.log = [7, 8] ∧ enteredL st.log = [(1, 8)] ∧ st.queue = [] ∧
    freedL st.log = [(0, 7), (1, 8)] := by
  let as : List (Act Nat) := [.call, .loop, .expire, .arrive 7, .take, .giveUp, .loop, .deliver, .collect 0, .call, .loop, .arrive 8, .take,
    .deliver, .return_, .leave, .loop, .leaveDone false]
  have h : (run as (init : St Nat)).map (fun st => (st.main, st.log, st.queue)) =
      some (.out, [.arrived 7, .taken 0 7, .timedOut 0, .freed 0 7, .arrived 8, .taken 1 8, .entered 1 8, .leaving 1, .freed 1 8, .left 1], []) := by decide
  obtain ⟨st, hst, he⟩ := Option.map_eq_some_iff.1 h
  simp only [Prod.mk.injEq] at he
  obtain ⟨h1, h2, h3⟩ := he
  exact ⟨st, run_of_run as Run.init hst, h1, by rw [h2]; rfl, by rw [h2]; rfl, h3, by rw [h2]; rfl⟩

/-- What is under way for the block that the thread waits for. -/
structure Wait (st : St V) : Prop where
  gone : ∀ j ∈ st.gone, j < st.calls
  cancel : ∀ j, Todo.cancel j ∈ st.todo → j ∈ st.gone
  enter : ∀ i, st.main = .enters i ∨ st.main = .late i →
    i < st.calls ∧ i ∉ st.gone ∧ (Todo.enter i ∈ st.todo ∨ i ∈ st.waiting ∨ (∃ m, (i, m) ∈ st.ended) ∨ ∃ m, st.fut i = some m)
  exit : ∀ i, st.main = .exits i → Todo.exit i ∈ st.todo ∨ i ∈ st.exited

theorem free_same (st : St V) (i : Nat) : (free st i).main = st.main ∧ (free st i).calls = st.calls ∧ (free st i).todo = st.todo ∧
    (free st i).waiting = st.waiting ∧ (free st i).ended = st.ended ∧ (free st i).fut = st.fut ∧ (free st i).gone = st.gone ∧
    (free st i).exited = st.exited := by
  unfold free
  split <;> exact ⟨rfl, rfl, rfl, rfl, rfl, rfl, rfl, rfl⟩

theorem wait_step {st st' : St V} {a : Act V} (h : Wait st) (hs : step st a = some st') : Wait st' := by
  cases a with
  | arrive m => cases hs; exact ⟨h.gone, h.cancel, h.enter, h.exit⟩
  | call =>
    simp only [step, call] at hs
    split at hs
    · cases hs
      refine ⟨fun j hj => Nat.lt_succ_of_lt (h.gone j hj), fun j hj => ?_, fun i hi => ?_, fun i hi => by cases hi⟩
      · simp only [List.mem_append, List.mem_singleton, reduceCtorEq, or_false] at hj
        exact h.cancel j hj
      · rcases hi with hi | hi
        · cases hi
          exact ⟨Nat.lt_succ_self _, fun hg => absurd (h.gone _ hg) (Nat.lt_irrefl _), .inl (by simp)⟩
        · cases hi
    · cases hs
  | return_ =>
    simp only [step, return_] at hs
    split at hs
    · rename_i i hm
      obtain ⟨m, hf, rfl⟩ := Option.map_eq_some_iff.1 hs
      exact ⟨h.gone, h.cancel, fun i hi => (by rcases hi with hi | hi <;> cases hi), fun i hi => by cases hi⟩
    · cases hs
  | expire =>
    simp only [step, expire] at hs
    split at hs
    · rename_i i hm
      cases hs
      refine ⟨h.gone, h.cancel, fun j hj => ?_, fun j hj => by cases hj⟩
      rcases hj with hj | hj
      · cases hj
      · cases hj; exact h.enter i (.inl hm)
    · cases hs
  | giveUp =>
    simp only [step, giveUp] at hs
    split at hs
    · rename_i i hm
      split at hs
      · cases hs
        exact ⟨h.gone, h.cancel, fun i hi => (by rcases hi with hi | hi <;> cases hi), fun i hi => by cases hi⟩
      · cases hs
        refine ⟨fun j hj => ?_, fun j hj => ?_, fun i hi => (by rcases hi with hi | hi <;> cases hi), fun i hi => by cases hi⟩
        · rcases List.mem_cons.1 hj with rfl | hj
          · exact (h.enter _ (.inr hm)).1
          · exact h.gone j hj
        · simp only [note, List.mem_append, List.mem_singleton, Todo.cancel.injEq] at hj ⊢
          rcases hj with hj | rfl
          · exact List.mem_cons_of_mem _ (h.cancel j hj)
          · exact List.mem_cons_self ..
    · cases hs
  | leave =>
    simp only [step, leave] at hs
    split at hs
    · rename_i i m hm
      cases hs
      refine ⟨h.gone, fun j hj => ?_, fun i hi => (by rcases hi with hi | hi <;> cases hi), fun j hj => ?_⟩
      · simp only [note, List.mem_append, List.mem_singleton, reduceCtorEq, or_false] at hj
        exact h.cancel j hj
      · cases hj; exact .inl (by simp [note])
    · cases hs
  | leaveDone late =>
    simp only [step, leaveDone] at hs
    split at hs
    · split at hs
      · cases hs
        exact ⟨h.gone, h.cancel, fun i hi => (by rcases hi with hi | hi <;> cases hi), fun i hi => by cases hi⟩
      · split at hs
        · cases hs
          exact ⟨h.gone, h.cancel, fun i hi => (by rcases hi with hi | hi <;> cases hi), fun i hi => by cases hi⟩
        · cases hs
    · cases hs
  | loop =>
    simp only [step, loop] at hs
    split at hs
    · rename_i i q hq
      cases hs
      refine ⟨h.gone, fun j hj => h.cancel j (by rw [hq]; exact List.mem_cons_of_mem _ hj), fun j hj => ?_, fun j hj => ?_⟩
      · obtain ⟨h1, h2, h3⟩ := h.enter j hj
        refine ⟨h1, h2, ?_⟩
        rw [hq] at h3
        simp only [List.mem_cons, Todo.enter.injEq, List.mem_append, List.mem_singleton, List.not_mem_nil, or_false] at h3 ⊢
        rcases h3 with (h3 | h3) | h3 | h3
        · exact .inr (.inl (.inr h3))
        · exact .inl h3
        · exact .inr (.inl (.inl h3))
        · exact .inr (.inr h3)
      · rcases h.exit j hj with h3 | h3
        · rw [hq] at h3
          simp only [List.mem_cons, reduceCtorEq, false_or] at h3
          exact .inl h3
        · exact .inr h3
    · rename_i i q hq
      cases hs
      have hg := h.cancel i (by rw [hq]; exact List.mem_cons_self ..)
      refine ⟨h.gone, fun j hj => h.cancel j (by rw [hq]; exact List.mem_cons_of_mem _ hj), fun j hj => ?_, fun j hj => ?_⟩
      · obtain ⟨h1, h2, h3⟩ := h.enter j hj
        refine ⟨h1, h2, ?_⟩
        rw [hq] at h3
        simp only [List.mem_cons, reduceCtorEq, false_or] at h3
        rcases h3 with h3 | h3 | h3
        · exact .inl h3
        · exact .inr (.inl (List.mem_filter.2 ⟨h3, by simp only [ne_eq, decide_eq_true_eq]; rintro rfl; exact h2 hg⟩))
        · exact .inr (.inr h3)
      · rcases h.exit j hj with h3 | h3
        · rw [hq] at h3
          simp only [List.mem_cons, reduceCtorEq, false_or] at h3
          exact .inl h3
        · exact .inr h3
    · rename_i i q hq
      cases hs
      obtain ⟨f1, f2, f3, f4, f5, f6, f7, f8⟩ := free_same { st with todo := q } i
      refine ⟨fun j hj => ?_, fun j hj => ?_, fun j hj => ?_, fun j hj => ?_⟩
      · simp only [f7] at hj
        simp only [f2]
        exact h.gone j hj
      · simp only [f3] at hj
        simp only [f7]
        exact h.cancel j (by rw [hq]; exact List.mem_cons_of_mem _ hj)
      · simp only [f1] at hj
        simp only [f2, f3, f4, f5, f6, f7]
        obtain ⟨h1, h2, h3⟩ := h.enter j hj
        refine ⟨h1, h2, ?_⟩
        rw [hq] at h3
        simp only [List.mem_cons, reduceCtorEq, false_or] at h3
        exact h3
      · simp only [f1] at hj
        simp only [f3]
        rcases h.exit j hj with h3 | h3
        · rw [hq] at h3
          simp only [List.mem_cons, Todo.exit.injEq] at h3 ⊢
          rcases h3 with h3 | h3
          · exact .inr (.inl h3)
          · exact .inl h3
        · exact .inr (List.mem_cons_of_mem _ h3)
    · cases hs
  | take =>
    simp only [step, take] at hs
    split at hs
    · rename_i i ws m q hw hq
      cases hs
      refine ⟨h.gone, h.cancel, fun j hj => ?_, h.exit⟩
      obtain ⟨h1, h2, h3⟩ := h.enter j hj
      refine ⟨h1, h2, ?_⟩
      rw [hw] at h3
      simp only [note, List.mem_append, List.mem_singleton, List.mem_cons] at h3 ⊢
      rcases h3 with h3 | (rfl | h3) | ⟨x, h3⟩ | h3
      · exact .inl h3
      · exact .inr (.inr (.inl ⟨m, .inr (.inl rfl)⟩))
      · exact .inr (.inl h3)
      · exact .inr (.inr (.inl ⟨x, .inl h3⟩))
      · exact .inr (.inr (.inr h3))
    · cases hs
  | deliver =>
    simp only [step, deliver] at hs
    split at hs
    · rename_i i m q hq
      split at hs
      · rename_i hg
        cases hs
        refine ⟨h.gone, h.cancel, fun j hj => ?_, h.exit⟩
        obtain ⟨h1, h2, h3⟩ := h.enter j hj
        refine ⟨h1, h2, ?_⟩
        rw [hq] at h3
        rcases h3 with h3 | h3 | ⟨x, h3⟩ | h3
        · exact .inl h3
        · exact .inr (.inl h3)
        · rcases List.mem_cons.1 h3 with h3 | h3
          · cases h3; exact absurd hg h2
          · exact .inr (.inr (.inl ⟨x, h3⟩))
        · exact .inr (.inr (.inr h3))
      · cases hs
        refine ⟨h.gone, h.cancel, fun j hj => ?_, h.exit⟩
        obtain ⟨h1, h2, h3⟩ := h.enter j hj
        refine ⟨h1, h2, ?_⟩
        rw [hq] at h3
        by_cases e : j = i
        · exact .inr (.inr (.inr ⟨m, if_pos e⟩))
        · rcases h3 with h3 | h3 | ⟨x, h3⟩ | ⟨x, h3⟩
          · exact .inl h3
          · exact .inr (.inl h3)
          · rcases List.mem_cons.1 h3 with h3 | h3
            · cases h3; exact absurd rfl e
            · exact .inr (.inr (.inl ⟨x, h3⟩))
          · exact .inr (.inr (.inr ⟨x, (if_neg e).trans h3⟩))
    · cases hs
  | collect i =>
    simp only [step, collect] at hs
    split at hs
    · cases hs
      obtain ⟨f1, f2, f3, f4, f5, f6, f7, f8⟩ := free_same st i
      refine ⟨fun j hj => ?_, fun j hj => ?_, fun j hj => ?_, fun j hj => ?_⟩
      · rw [f7] at hj; rw [f2]; exact h.gone j hj
      · rw [f3] at hj; rw [f7]; exact h.cancel j hj
      · rw [f1] at hj; rw [f2, f3, f4, f5, f6, f7]; exact h.enter j hj
      · rw [f1] at hj; rw [f3, f8]; exact h.exit j hj
    · cases hs

theorem Run.wait {st : St V} (h : Run st) : Wait st := by
  induction h with
  | init => exact ⟨fun j hj => (by cases hj), fun j hj => (by cases hj), fun i hi => (by rcases hi with hi | hi <;> cases hi), fun i hi => (by cases hi)⟩
  | step _ _ hs ih => exact wait_step ih hs

/-- **C116.**  The thread is never stuck.  Outside, a block can be begun.  `__enter__` can time out, and then raises; once the loop has no more to
do, either `__enter__` returns and the block begins with its message, or no message is there.  A block can be left; `__exit__` can time out, and returns
once the loop has no more to do. -/
theorem C116_goes_on {st : St V} (h : Run st) :
    (st.main = .out → (step st .call).isSome = true) ∧
    (∀ i, st.main = .enters i →
      (∃ st', run [.expire, .giveUp] st = some st' ∧ st'.main = .out ∧ st'.log = st.log ++ [.timedOut i]) ∧
      ((∀ a, Own a → step st a = none) →
        (∃ m st', step st .return_ = some st' ∧ st'.main = .inside i m ∧ st'.log = st.log ++ [.entered i m]) ∨ st.queue = [])) ∧
    (∀ i, st.main = .late i → ∃ st', step st .giveUp = some st' ∧ st'.main = .out ∧ st'.log = st.log ++ [.timedOut i]) ∧
    (∀ i m, st.main = .inside i m → ∃ st', step st .leave = some st' ∧ st'.main = .exits i ∧ st'.log = st.log ++ [.leaving i]) ∧
    (∀ i, st.main = .exits i →
      (∃ st', step st (.leaveDone true) = some st' ∧ st'.main = .out ∧ st'.log = st.log ++ [.leftLate i]) ∧
      ((∀ a, Own a → step st a = none) → ∃ st', step st (.leaveDone false) = some st' ∧ st'.main = .out ∧ st'.log = st.log ++ [.left i])) := by
  have hw := h.wait
  have htodo : (∀ a, Own a → step st a = none) → st.todo = [] := by
    intro hn
    have hl := hn .loop trivial
    cases hq : st.todo with
    | nil => rfl
    | cons x q => cases x <;> simp [step, loop, hq] at hl
  refine ⟨fun hm => by simp [step, call, hm], fun i hm => ⟨?_, fun hn => ?_⟩, fun i hm => ?_, fun i m hm => ?_, fun i hm => ⟨?_, fun hn => ?_⟩⟩
  · simp only [run, step, expire, hm, giveUp]
    cases st.fut i <;> exact ⟨_, rfl, rfl, rfl⟩
  · rcases (hw.enter i (.inl hm)).2.2 with h3 | h3 | ⟨x, h3⟩ | ⟨x, h3⟩
    · rw [htodo hn] at h3; cases h3
    · right
      cases hq : st.queue with
      | nil => rfl
      | cons x q =>
        have ht := hn .take trivial
        cases hw' : st.waiting with
        | nil => rw [hw'] at h3; cases h3
        | cons y ws => simp [step, take, hw', hq] at ht
    · have hd := hn .deliver trivial
      cases he : st.ended with
      | nil => rw [he] at h3; cases h3
      | cons y q =>
        simp only [step, deliver, he] at hd
        split at hd <;> cases hd
    · left
      exact ⟨x, note { st with main := .inside i x } (.entered i x), by simp [step, return_, hm, h3], rfl, rfl⟩
  · simp only [step, giveUp, hm]
    cases st.fut i <;> exact ⟨_, rfl, rfl, rfl⟩
  · exact ⟨note { st with main := .exits i, todo := st.todo ++ [.exit i] } (.leaving i), by simp [step, leave, hm], rfl, rfl⟩
  · exact ⟨note { st with main := .out } (.leftLate i), by simp [step, leaveDone, hm], rfl, rfl⟩
  · rcases hw.exit i hm with h3 | h3
    · rw [htodo hn] at h3; cases h3
    · exact ⟨note { st with main := .out } (.left i), by simp [step, leaveDone, hm, h3], rfl, rfl⟩

/-- A block was given up just when its message was taken; the next one waits, and a message is there: after two steps of the loop it begins. -/
example : ∃ st st' : St Nat, Run st ∧ st.main = .enters 1 ∧ st.queue = [8] ∧ run [.take, .deliver] st = some st' ∧ (step st' .loop).isNone ∧
    (step st' .take).isNone ∧ (step st' .return_).map (fun s => (s.main, s.log.getLast?)) = some (.inside 1 8, some (.entered 1 8)) :=
  ⟨_, _, run_of_run [.call, .loop, .expire, .arrive 7, .take, .giveUp, .loop, .deliver, .collect 0, .call, .loop, .arrive 8] .init rfl, rfl, rfl, rfl, rfl, rfl,
    rfl⟩

/-! ## Examples -/

/-- Two blocks; `__exit__` of the first is given up and still has its effect. -/
example : (run [.arrive 7, .call, .loop, .take, .deliver, .return_, .leave, .leaveDone true, .call, .loop, .loop, .arrive 8, .take, .deliver, .return_] (init : St Nat)).map
    (fun st => (st.main, st.log)) =
    some (.inside 1 8, [.arrived 7, .taken 0 7, .entered 0 7, .leaving 0, .leftLate 0, .freed 0 7, .arrived 8, .taken 1 8, .entered 1 8]) := by decide

/-- The hypotheses of `C116_inside`, `C116_none_lost_partial` can be met. -/
example : ∃ st : St Nat, Run st ∧ st.main = .inside 0 7 ∧ ∀ i, Ev.timedOut i ∉ st.log := by
  let as : List (Act Nat) := [.arrive 7, .call, .loop, .take, .deliver, .return_]
  have h : (run as (init : St Nat)).map (fun st => (st.main, st.log)) = some (.inside 0 7, [.arrived 7, .taken 0 7, .entered 0 7]) := by decide
  obtain ⟨st, hst, he⟩ := Option.map_eq_some_iff.1 h
  simp only [Prod.mk.injEq] at he
  exact ⟨st, run_of_run as Run.init hst, he.1, fun i hi => by rw [he.2] at hi; simp at hi⟩

/-- A block that was given up: its message is held until nothing refers to the block, then it is given back. -/
example : (run [.arrive 7, .call, .loop, .take, .expire, .giveUp, .loop, .deliver] (init : St Nat)).map (fun st => (st.holding, (step st (.collect 0)).map (fun s => s.log))) =
    some ([(0, 7)], some [.arrived 7, .taken 0 7, .timedOut 0, .freed 0 7]) := by decide

end Ez.SyncZero
