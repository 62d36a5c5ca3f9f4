import Verif.Model.SyncRecv

/-!
# C105: receiving synchronously, with a timeout

Specification: `arrivals` the messages that came, in order. What the calls returned is compared with it.
-/

set_option linter.unusedSimpArgs false
set_option linter.unusedSectionVars false

namespace Ez
namespace SyncRecv

variable {V : Type}

/-- The messages that came. -/
def arrivals : List (Act V) → List V
  | [] => []
  | .arrive v :: as => v :: arrivals as
  | _ :: as => arrivals as

/-- Calls for which a task is to be created. -/
def creates : List Todo → List Nat
  | [] => []
  | .create i :: ts => i :: creates ts
  | .cancel _ :: ts => creates ts

theorem creates_append (a b : List Todo) : creates (a ++ b) = creates a ++ creates b := by
  induction a with
  | nil => rfl
  | cons x a ih => cases x <;> simp [creates, ih]

/-- Calls that may still take a message. -/
def waiting (s : St V) : List Nat := s.active ++ creates s.todo

/-- The tasks that wait once the loop has done what it was asked to. -/
def drain (a : List Nat) : List Todo → List Nat
  | [] => a
  | .create i :: ts => drain (a ++ [i]) ts
  | .cancel i :: ts => drain (a.filter (decide <| · ≠ i)) ts

theorem drain_create (a : List Nat) (ts : List Todo) (i : Nat) : drain a (ts ++ [.create i]) = drain a ts ++ [i] := by
  induction ts generalizing a with
  | nil => rfl
  | cons t ts ih => cases t <;> simp only [List.cons_append, drain, ih]

theorem drain_cancel (a : List Nat) (ts : List Todo) (i : Nat) :
    drain a (ts ++ [.cancel i]) = (drain a ts).filter (decide <| · ≠ i) := by
  induction ts generalizing a with
  | nil => rfl
  | cons t ts ih => cases t <;> simp only [List.cons_append, drain, ih]

theorem mem_drain {a : List Nat} {ts : List Todo} {j : Nat} :
    j ∈ drain a ts ↔ (j ∈ a ∧ .cancel j ∉ ts) ∨ j ∈ drain [] ts := by
  induction ts generalizing a with
  | nil => simp [drain]
  | cons t ts ih =>
    cases t with
    | create i =>
      simp only [drain, List.nil_append]
      rw [ih, @ih [i]]
      simp only [List.mem_append, List.mem_singleton, List.mem_cons, reduceCtorEq, false_or]
      constructor
      · rintro (⟨h | h, h'⟩ | h)
        · exact Or.inl ⟨h, h'⟩
        · exact Or.inr (Or.inl ⟨h, h'⟩)
        · exact Or.inr (Or.inr h)
      · rintro (⟨h, h'⟩ | ⟨h, h'⟩ | h)
        · exact Or.inl ⟨Or.inl h, h'⟩
        · exact Or.inl ⟨Or.inr h, h'⟩
        · exact Or.inr h
    | cancel i =>
      simp only [drain, List.filter_nil]
      rw [ih]
      simp only [List.mem_filter, decide_eq_true_eq, List.mem_cons, Todo.cancel.injEq, not_or, and_assoc]

theorem drain_sub {a : List Nat} {ts : List Todo} {j : Nat} (h : j ∈ drain a ts) : j ∈ a ++ creates ts := by
  induction ts generalizing a with
  | nil => simpa [drain, creates] using h
  | cons t ts ih =>
    cases t with
    | create i =>
      have := ih h
      simpa [creates, List.append_assoc] using this
    | cancel i =>
      rcases List.mem_append.1 (ih h) with h | h
      · exact List.mem_append_left _ (List.mem_filter.1 h).1
      · exact List.mem_append_right _ h

/-- Calls that have ended are those with a lower number. -/
def closed (s : St V) : Nat := if s.main = .idle then s.calls else s.calls - 1

/-- Invariant. -/
structure Inv (arr : List V) (s : St V) : Prop where
  conserve : s.taken.map (·.2) ++ s.queue = arr
  sorted : (s.taken.map (·.1) ++ waiting s).Pairwise (· < ·)
  bound : ∀ i ∈ s.taken.map (·.1) ++ waiting s, i < s.calls
  endedT : ∀ p ∈ s.ended, p ∈ s.taken
  doneT : ∀ i v, s.fut i = .done v → (i, v) ∈ s.taken
  cancels : ∀ i, .cancel i ∈ s.todo → i ∈ s.late
  gotS : s.got.Sublist s.taken
  gotC : ∀ p ∈ s.got, p.1 < closed s ∧ p.1 ∉ s.late
  lateC : ∀ i ∈ s.late, i < closed s
  lateS : s.late.Pairwise (· < ·)
  over : ∀ i, i < closed s → i ∈ s.late ∨ ∃ v, (i, v) ∈ s.got
  begun : s.main ≠ .idle → 0 < s.calls
  cur : s.main ≠ .idle → s.fut (s.calls - 1) ≠ .cancelled ∧
    (s.fut (s.calls - 1) = .pending → s.calls - 1 ∈ drain s.active s.todo ∨ ∃ v, (s.calls - 1, v) ∈ s.ended)
  only : ∀ i ∈ drain s.active s.todo, s.main ≠ .idle ∧ i + 1 = s.calls
  later : ∀ i, s.calls ≤ i → s.fut i = .pending

theorem inv_init : Inv ([] : List V) init := by
  constructor <;> simp [init, waiting, creates, closed, drain]

theorem sorted_unique {l : List (Nat × V)} (h : (l.map (·.1)).Pairwise (· < ·)) {i : Nat} {v w : V} (hv : (i, v) ∈ l)
    (hw : (i, w) ∈ l) : v = w := by
  induction l with
  | nil => simp at hv
  | cons x l ih =>
    rw [List.map_cons, List.pairwise_cons] at h
    rcases List.mem_cons.1 hv with hv | hv <;> rcases List.mem_cons.1 hw with hw | hw
    · rw [hv.symm] at hw
      exact (congrArg (·.2) hw).symm
    · have := h.1 i (List.mem_map.2 ⟨_, hw, rfl⟩)
      rw [← hv] at this
      exact absurd this (by simp)
    · have := h.1 i (List.mem_map.2 ⟨_, hv, rfl⟩)
      rw [← hw] at this
      exact absurd this (by simp)
    · exact ih h.2 hv hw

theorem sublist_snoc {l l' : List (Nat × V)} (h : (l'.map (·.1)).Pairwise (· < ·)) (hs : l.Sublist l') {i : Nat} {v : V}
    (hm : (i, v) ∈ l') (hl : ∀ p ∈ l, p.1 < i) : (l ++ [(i, v)]).Sublist l' := by
  obtain ⟨a, b, rfl⟩ := List.append_of_mem hm
  obtain ⟨la, lb, rfl, ha, hb⟩ := List.sublist_append_iff.1 hs
  have : lb = [] := by
    cases lb with
    | nil => rfl
    | cons y lb =>
      have hy : y ∈ (i, v) :: b := hb.subset (List.mem_cons_self ..)
      have hlt := hl y (by simp)
      rw [List.map_append, List.pairwise_append] at h
      have h2 := h.2.1
      rw [List.map_cons, List.pairwise_cons] at h2
      rcases List.mem_cons.1 hy with e | e
      · rw [e] at hlt
        exact absurd hlt (by simp)
      · have := h2.1 y.1 (List.mem_map.2 ⟨_, e, rfl⟩)
        simp only at this
        omega
  subst this
  rw [List.append_nil]
  exact ha.append (List.Sublist.cons_cons _ (List.nil_sublist _))

theorem free {s : St V} (h : (s.taken.map (·.1) ++ waiting s).Pairwise (· < ·)) {i j : Nat} (hi : i ∈ drain s.active s.todo)
    (e : j = i) (v : V) : (j, v) ∉ s.taken := fun hm =>
  absurd ((List.pairwise_append.1 h).2.2 j (List.mem_map.2 ⟨_, hm, rfl⟩) i (drain_sub hi)) (by omega)

/-- The list of arrivals after a step. -/
def arr1 (arr : List V) : Act V → List V
  | .arrive v => arr ++ [v]
  | _ => arr

theorem Inv.step {arr : List V} {s s' : St V} {a : Act V} (h : Inv arr s) (hs : step s a = some s') : Inv (arr1 arr a) s' := by
  obtain ⟨h1, h2, h3, h4, h5, h6, h7, h8, h9, h10, h11, h12, h13, h15, h14⟩ := h
  cases a with
  | arrive v =>
    simp only [SyncRecv.step, Option.some.injEq] at hs
    subst hs
    exact ⟨by simp only [arr1, ← h1, List.append_assoc], h2, h3, h4, h5, h6, h7, h8, h9, h10, h11, h12, h13, h15, h14⟩
  | call =>
    simp only [SyncRecv.step] at hs
    split at hs
    · rename_i hm
      simp only [Option.some.injEq] at hs
      subst hs
      have hc : closed s = s.calls := by simp [closed, hm]
      have hw : waiting { s with
          main := .waits, calls := s.calls + 1, fut := setFut s.fut s.calls .pending, todo := s.todo ++ [.create s.calls] } = waiting s ++ [s.calls] := by
        simp [waiting, creates_append, creates]
      have hcl : closed { s with
          main := .waits, calls := s.calls + 1, fut := setFut s.fut s.calls .pending, todo := s.todo ++ [.create s.calls] } = closed s := by simp [closed, hm]
      refine ⟨h1, ?_, ?_, h4, ?_, ?_, h7, ?_, ?_, h10, ?_, ?_, ?_, ?_, ?_⟩
      · rw [hw, ← List.append_assoc, List.pairwise_append]
        refine ⟨h2, by simp, fun x hx y hy => ?_⟩
        rw [List.mem_singleton.1 hy]
        exact h3 x hx
      · rw [hw, ← List.append_assoc]
        intro i hi
        rcases List.mem_append.1 hi with hi | hi
        · exact Nat.lt_succ_of_lt (h3 i hi)
        · rw [List.mem_singleton.1 hi]
          exact Nat.lt_succ_self _
      · intro i v hf
        simp only [setFut] at hf
        split at hf
        · cases hf
        · exact h5 i v hf
      · intro i hi
        simp only [List.mem_append, List.mem_singleton, reduceCtorEq, or_false] at hi
        exact h6 i hi
      · rw [hcl]
        exact h8
      · rw [hcl]
        exact h9
      · rw [hcl]
        exact h11
      · intro _
        exact Nat.succ_pos _
      · intro _
        simp [setFut, drain_create]
      · intro i hi
        simp only [drain_create, List.mem_append, List.mem_singleton] at hi
        rcases hi with hi | hi
        · exact absurd hm (h15 i hi).1
        · exact ⟨by simp, by simp only; omega⟩
      · intro i hi
        simp only [setFut]
        split
        · rfl
        · exact h14 i (by simp only at hi; omega)
    · cases hs
  | expire =>
    simp only [SyncRecv.step] at hs
    split at hs
    · rename_i hm hf
      simp only [Option.some.injEq] at hs
      subst hs
      have hcl : closed { s with main := .expired } = closed s := by simp [closed, hm]
      refine ⟨h1, h2, h3, h4, h5, h6, h7, ?_, ?_, h10, ?_, ?_, ?_, ?_, h14⟩
      · rw [hcl]
        exact h8
      · rw [hcl]
        exact h9
      · rw [hcl]
        exact h11
      · intro _
        exact h12 (by simp [hm])
      · intro _
        exact h13 (by simp [hm])
      · exact fun i hi => ⟨by simp, (h15 i hi).2⟩
    · cases hs
  | «return» =>
    simp only [SyncRecv.step] at hs
    split at hs
    · rename_i v hm hf
      simp only [Option.some.injEq] at hs
      subst hs
      have hpos := h12 (by simp [hm])
      have hc : closed s = s.calls - 1 := by simp [closed, hm]
      have hcl : closed { s with main := .idle, got := s.got ++ [(s.calls - 1, v)] } = s.calls := by simp [closed]
      have hmem := h5 _ _ hf
      rw [hc] at h8 h9 h11
      refine ⟨h1, h2, h3, h4, h5, h6, ?_, ?_, ?_, h10, ?_, ?_, ?_, ?_, h14⟩
      · exact sublist_snoc (List.pairwise_append.1 h2).1 h7 hmem fun p hp => (h8 p hp).1
      · rw [hcl]
        intro p hp
        rcases List.mem_append.1 hp with hp | hp
        · exact ⟨by have := (h8 p hp).1; omega, (h8 p hp).2⟩
        · rw [List.mem_singleton.1 hp]
          exact ⟨by simp only; omega, fun hl => absurd (h9 _ hl) (by simp)⟩
      · rw [hcl]
        intro i hi
        have := h9 i hi
        omega
      · rw [hcl]
        intro i hi
        by_cases he : i = s.calls - 1
        · exact Or.inr ⟨v, by simp [he]⟩
        · rcases h11 i (by omega) with hl | ⟨w, hw⟩
          · exact Or.inl hl
          · exact Or.inr ⟨w, List.mem_append_left _ hw⟩
      · intro hn
        exact absurd rfl hn
      · intro hn
        exact absurd rfl hn
      · intro i hi
        have e := (h15 i hi).2
        exact absurd hmem (free h2 hi (by omega) v)
    · cases hs
  | raise =>
    simp only [SyncRecv.step] at hs
    split at hs
    · rename_i hm
      have hpos := h12 (by simp [hm])
      have hc : closed s = s.calls - 1 := by simp [closed, hm]
      rw [hc] at h8 h9 h11
      have g8 : ∀ p ∈ s.got, p.1 < s.calls ∧ p.1 ∉ s.late ++ [s.calls - 1] := fun p hp => by
        have := h8 p hp
        refine ⟨by omega, fun hx => ?_⟩
        rcases List.mem_append.1 hx with hx | hx
        · exact this.2 hx
        · have := List.mem_singleton.1 hx
          omega
      have g9 : ∀ i ∈ s.late ++ [s.calls - 1], i < s.calls := fun i hi => by
        rcases List.mem_append.1 hi with hi | hi
        · have := h9 i hi
          omega
        · have := List.mem_singleton.1 hi
          omega
      have g10 : (s.late ++ [s.calls - 1]).Pairwise (· < ·) := by
        rw [List.pairwise_append]
        refine ⟨h10, by simp, fun x hx y hy => ?_⟩
        rw [List.mem_singleton.1 hy]
        exact h9 x hx
      have g11 : ∀ i, i < s.calls → i ∈ s.late ++ [s.calls - 1] ∨ ∃ v, (i, v) ∈ s.got := fun i hi => by
        by_cases he : i = s.calls - 1
        · exact Or.inl (by simp [he])
        · rcases h11 i (by omega) with hl | hw
          · exact Or.inl (List.mem_append_left _ hl)
          · exact Or.inr hw
      split at hs
      · simp only [Option.some.injEq] at hs
        subst hs
        have hw : creates (s.todo ++ [.cancel (s.calls - 1)]) = creates s.todo := by simp [creates_append, creates]
        refine ⟨h1, by simp only [waiting, hw]; exact h2, by simp only [waiting, hw]; exact h3, h4, ?_, ?_, h7, ?_, ?_, g10, ?_,
          ?_, ?_, ?_, ?_⟩
        · intro i v hf
          simp only [setFut] at hf
          split at hf
          · cases hf
          · exact h5 i v hf
        · intro i hi
          simp only [List.mem_append, List.mem_singleton, Todo.cancel.injEq] at hi
          rcases hi with hi | hi
          · exact List.mem_append_left _ (h6 i hi)
          · exact List.mem_append_right _ (by simp [hi])
        · simpa [closed] using g8
        · simpa [closed] using g9
        · simpa [closed] using g11
        · exact fun hn => absurd rfl hn
        · exact fun hn => absurd rfl hn
        · intro i hi
          simp only [drain_cancel, List.mem_filter, decide_eq_true_eq] at hi
          have := (h15 i hi.1).2
          omega
        · intro i hi
          simp only [setFut]
          simp only at hi
          rw [if_neg (by omega)]
          exact h14 i hi
      · simp only [Option.some.injEq] at hs
        subst hs
        refine ⟨h1, h2, h3, h4, h5, fun i hi => List.mem_append_left _ (h6 i hi), h7, ?_, ?_, g10, ?_, ?_, ?_, ?_, h14⟩
        · simpa [closed] using g8
        · simpa [closed] using g9
        · simpa [closed] using g11
        · exact fun hn => absurd rfl hn
        · exact fun hn => absurd rfl hn
        · intro i hi
          have e := (h15 i hi).2
          have hn := h13 (by simp [hm])
          cases hf : s.fut (s.calls - 1) with
          | pending => exact absurd hf (by assumption)
          | cancelled => exact absurd hf hn.1
          | done v => exact absurd (h5 _ _ hf) (free h2 hi (by omega) v)
    · cases hs
  | loop =>
    simp only [SyncRecv.step] at hs
    split at hs
    · cases hs
    · rename_i i ts ht
      simp only [Option.some.injEq] at hs
      subst hs
      have hw : waiting { s with todo := ts, active := s.active ++ [i] } = waiting s := by simp [waiting, ht, creates]
      have hd : drain (s.active ++ [i]) ts = drain s.active s.todo := by rw [ht]; rfl
      refine ⟨h1, by rw [hw]; exact h2, by rw [hw]; exact h3, h4, h5, fun j hj => h6 j (by rw [ht]; exact List.mem_cons_of_mem _ hj),
        h7, h8, h9, h10, h11, h12, ?_, ?_, h14⟩
      · simpa only [hd] using h13
      · simpa only [hd] using h15
    · rename_i i ts ht
      simp only [Option.some.injEq] at hs
      subst hs
      have hw : (waiting { s with todo := ts, active := s.active.filter (decide <| · ≠ i) }).Sublist (waiting s) := by
        simp only [waiting, ht, creates]
        exact List.filter_sublist.append (List.Sublist.refl _)
      have hw' := (List.Sublist.refl (s.taken.map (·.1))).append hw
      have hd : drain (s.active.filter (decide <| · ≠ i)) ts = drain s.active s.todo := by rw [ht]; rfl
      refine ⟨h1, h2.sublist hw', fun j hj => h3 j (hw'.subset hj), h4, h5,
        fun j hj => h6 j (by rw [ht]; exact List.mem_cons_of_mem _ hj), h7, h8, h9, h10, h11, h12, ?_, ?_, h14⟩
      · simpa only [hd] using h13
      · simpa only [hd] using h15
  | take =>
    simp only [SyncRecv.step] at hs
    split at hs
    · rename_i i is v q ha hq
      simp only [Option.some.injEq] at hs
      subst hs
      refine ⟨?_, ?_, ?_, ?_, ?_, h6, ?_, h8, h9, h10, h11, h12, ?_, ?_, h14⟩
      · simp only [arr1, List.map_append, List.map_cons, List.map_nil, List.append_assoc, List.singleton_append]
        rw [← h1, hq]
      · simpa [waiting, ha] using h2
      · simpa [waiting, ha] using h3
      · intro p hp
        rcases List.mem_append.1 hp with hp | hp
        · exact List.mem_append_left _ (h4 p hp)
        · exact List.mem_append_right _ hp
      · exact fun j w hf => List.mem_append_left _ (h5 j w hf)
      · exact h7.trans (List.sublist_append_left _ _)
      · intro hn
        obtain ⟨k1, k2⟩ := h13 hn
        refine ⟨k1, fun hp => ?_⟩
        rcases k2 hp with k | ⟨w, k⟩
        · by_cases hi : s.calls - 1 = i
          · exact Or.inr ⟨v, by simp only; rw [hi]; simp⟩
          · refine Or.inl (mem_drain.2 ?_)
            rcases mem_drain.1 k with k | k
            · rw [ha] at k
              exact Or.inl ⟨(List.mem_cons.1 k.1).resolve_left hi, k.2⟩
            · exact Or.inr k
        · exact Or.inr ⟨w, List.mem_append_left _ k⟩
      · intro j hj
        refine h15 j (mem_drain.2 ?_)
        rcases mem_drain.1 hj with k | k
        · exact Or.inl ⟨by rw [ha]; exact List.mem_cons_of_mem _ k.1, k.2⟩
        · exact Or.inr k
    · cases hs
  | pass =>
    simp only [SyncRecv.step] at hs
    split at hs
    · cases hs
    · rename_i i v es he
      split at hs
      · rename_i hf
        simp only [Option.some.injEq] at hs
        subst hs
        have hm : (i, v) ∈ s.taken := h4 _ (by rw [he]; simp)
        refine ⟨h1, h2, h3, fun p hp => h4 p (by rw [he]; exact List.mem_cons_of_mem _ hp), ?_, h6, h7, h8, h9, h10, h11, h12, ?_, h15, ?_⟩
        · intro j w hw
          simp only [setFut] at hw
          split at hw
          · rename_i e
            cases hw
            rw [e]
            exact hm
          · exact h5 j w hw
        · intro hn
          obtain ⟨k1, k2⟩ := h13 hn
          simp only [setFut]
          split
          · simp
          · rename_i hne
            refine ⟨k1, fun hp => ?_⟩
            rcases k2 hp with k | ⟨w, k⟩
            · exact Or.inl k
            · rw [he] at k
              rcases List.mem_cons.1 k with k | k
              · exact absurd (congrArg (·.1) k) hne
              · exact Or.inr ⟨w, k⟩
        · intro j hj
          have hlt := h3 i (List.mem_append_left _ (List.mem_map.2 ⟨_, hm, rfl⟩))
          simp only at hj
          simp only [setFut]
          rw [if_neg (by omega)]
          exact h14 j hj
      · rename_i hf
        simp only [Option.some.injEq] at hs
        subst hs
        refine ⟨h1, h2, h3, fun p hp => h4 p (by rw [he]; exact List.mem_cons_of_mem _ hp), h5, h6, h7, h8, h9, h10, h11, h12, ?_, h15, h14⟩
        intro hn
        obtain ⟨k1, k2⟩ := h13 hn
        refine ⟨k1, fun hp => ?_⟩
        rcases k2 hp with k | ⟨w, k⟩
        · exact Or.inl k
        · rw [he] at k
          rcases List.mem_cons.1 k with k | k
          · have := congrArg (·.1) k
            simp only at this
            rw [this] at hp
            exact absurd hp hf
          · exact Or.inr ⟨w, k⟩

theorem Inv.run {acts : List (Act V)} {arr : List V} {s s' : St V} (h : Inv arr s) (hr : run acts s = some s') :
    Inv (arr ++ arrivals acts) s' := by
  induction acts generalizing arr s with
  | nil =>
    simp only [SyncRecv.run, Option.some.injEq] at hr
    subst hr
    simpa [arrivals] using h
  | cons a as ih =>
    simp only [SyncRecv.run] at hr
    split at hr
    · cases hr
    · rename_i s1 h1
      have := ih (h.step h1) hr
      cases a <;> simpa [arr1, arrivals, List.append_assoc] using this

theorem reach {acts : List (Act V)} {s : St V} (hr : run acts init = some s) : Inv (arrivals acts) s := by
  have := inv_init.run hr
  simpa using this

theorem count_le {α : Type} [DecidableEq α] {l l' : List α} (hl : l.Nodup) (hs : ∀ x ∈ l, x ∈ l') : l.length ≤ l'.length := by
  induction l generalizing l' with
  | nil => simp
  | cons x l ih =>
    rw [List.nodup_cons] at hl
    have hx := hs x (List.mem_cons_self ..)
    have := @ih (l'.erase x) hl.2 fun y hy =>
      (List.mem_erase_of_ne (by intro e; rw [e] at hy; exact hl.1 hy)).2 (hs y (List.mem_cons_of_mem _ hy))
    rw [List.length_erase_of_mem hx] at this
    have := List.length_pos_of_mem hx
    simp only [List.length_cons]
    omega

/-- What was taken by calls that have ended was returned, or the call raised. -/
theorem Inv.fate {arr : List V} {s : St V} (h : Inv arr s) {i : Nat} {v : V} (hm : (i, v) ∈ s.taken) (hc : i < closed s) :
    (i, v) ∈ s.got ∨ i ∈ s.late := by
  rcases h.over i hc with hl | ⟨w, hw⟩
  · exact Or.inr hl
  · rw [sorted_unique (List.pairwise_append.1 h.sorted).1 hm (h.gotS.subset hw)]
    exact Or.inl hw

/-- **C105, order.** What `recv` returned are messages that came, in the order in which they came, none twice; between calls, at
most one message is missing for every call that raised `TimeoutError`, and none if none did: the messages returned are then
the first ones that came and the rest is in the queue. -/
theorem C105_order_partial {acts : List (Act V)} {s : St V} (hr : run acts init = some s) :
    (s.got.map (·.2)).Sublist (arrivals acts) ∧
      (s.main = .idle → (arrivals acts).length ≤ s.got.length + s.queue.length + s.late.length) ∧
      (s.main = .idle → s.late = [] → s.got.map (·.2) ++ s.queue = arrivals acts) := by
  have h := reach hr
  have hT : (s.taken.map (·.1)).Pairwise (· < ·) := (List.pairwise_append.1 h.sorted).1
  have hcount : s.main = .idle → s.taken.length ≤ s.got.length + s.late.length := by
    intro hm
    have hn : (s.taken.map (·.1)).Nodup := hT.imp fun h => Nat.ne_of_lt h
    have := count_le (l' := s.got.map (·.1) ++ s.late) hn fun i hi => by
      obtain ⟨⟨j, v⟩, hp, e⟩ := List.mem_map.1 hi
      simp only at e
      subst e
      have hb : j < s.calls := h.bound j (List.mem_append_left _ (List.mem_map.2 ⟨_, hp, rfl⟩))
      rcases h.fate hp (by simpa [closed, hm] using hb) with hg | hl
      · exact List.mem_append_left _ (List.mem_map.2 ⟨_, hg, rfl⟩)
      · exact List.mem_append_right _ hl
    simpa using this
  refine ⟨?_, fun hm => ?_, fun hm hl => ?_⟩
  · rw [← h.conserve]
    exact (h.gotS.map _).trans (List.sublist_append_left _ _)
  · have := congrArg List.length h.conserve
    simp only [List.length_append, List.length_map] at this
    have := hcount hm
    omega
  · have := hcount hm
    rw [hl] at this
    rw [h.gotS.eq_of_length_le (by simpa using this), h.conserve]

/-- **C105, every call.** A call that has ended returned one message or raised `TimeoutError`, not both; a call that has not
ended did neither. -/
theorem C105_once {acts : List (Act V)} {s : St V} (hr : run acts init = some s) (i : Nat) :
    ((i ∈ s.late ∨ ∃ v, (i, v) ∈ s.got) ↔ if s.main = .idle then i < s.calls else i + 1 < s.calls) ∧
      (i ∈ s.late → ∀ v, (i, v) ∉ s.got) ∧ (∀ v w, (i, v) ∈ s.got → (i, w) ∈ s.got → v = w) := by
  have h := reach hr
  have hc : (if s.main = .idle then i < s.calls else i + 1 < s.calls) ↔ i < closed s := by
    by_cases hm : s.main = .idle
    · simp [closed, hm]
    · simp only [closed, hm, if_false]
      omega
  refine ⟨⟨?_, ?_⟩, fun hl v hv => (h.gotC _ hv).2 hl, fun v w hv hw =>
    sorted_unique (List.pairwise_append.1 h.sorted).1 (h.gotS.subset hv) (h.gotS.subset hw)⟩
  · rw [hc]
    rintro (hl | ⟨v, hv⟩)
    · exact h.lateC i hl
    · exact (h.gotC _ hv).1
  · rw [hc]
    exact h.over i

/-- One step does not let a call that does not wait take a message. -/
theorem quiet_step {s s' : St V} {a : Act V} (hs : step s a = some s') {i : Nat} (hw : i ∉ waiting s) (hc : i < s.calls) :
    i ∉ waiting s' ∧ i < s'.calls ∧ ∀ v, (i, v) ∈ s'.taken → (i, v) ∈ s.taken := by
  simp only [waiting, List.mem_append, not_or] at hw ⊢
  cases a with
  | arrive v =>
    simp only [SyncRecv.step, Option.some.injEq] at hs
    subst hs
    exact ⟨hw, hc, fun _ h => h⟩
  | call =>
    simp only [SyncRecv.step] at hs
    split at hs
    · simp only [Option.some.injEq] at hs
      subst hs
      refine ⟨⟨hw.1, ?_⟩, by simp only; omega, fun _ h => h⟩
      simp only [creates_append, creates, List.mem_append, List.mem_singleton, not_or]
      exact ⟨hw.2, by omega⟩
    · cases hs
  | expire =>
    simp only [SyncRecv.step] at hs
    split at hs
    · simp only [Option.some.injEq] at hs
      subst hs
      exact ⟨hw, hc, fun _ h => h⟩
    · cases hs
  | «return» =>
    simp only [SyncRecv.step] at hs
    split at hs
    · simp only [Option.some.injEq] at hs
      subst hs
      exact ⟨hw, hc, fun _ h => h⟩
    · cases hs
  | raise =>
    simp only [SyncRecv.step] at hs
    split at hs
    · split at hs
      · simp only [Option.some.injEq] at hs
        subst hs
        refine ⟨⟨hw.1, ?_⟩, hc, fun _ h => h⟩
        simpa [creates_append, creates] using hw.2
      · simp only [Option.some.injEq] at hs
        subst hs
        exact ⟨hw, hc, fun _ h => h⟩
    · cases hs
  | loop =>
    simp only [SyncRecv.step] at hs
    split at hs
    · cases hs
    · rename_i j ts ht
      simp only [Option.some.injEq] at hs
      subst hs
      rw [ht] at hw
      simp only [creates, List.mem_cons, not_or] at hw
      refine ⟨⟨?_, hw.2.2⟩, hc, fun _ h => h⟩
      simp only [List.mem_append, List.mem_singleton, not_or]
      exact ⟨hw.1, hw.2.1⟩
    · rename_i j ts ht
      simp only [Option.some.injEq] at hs
      subst hs
      rw [ht] at hw
      simp only [creates] at hw
      exact ⟨⟨fun h => hw.1 (List.mem_filter.1 h).1, hw.2⟩, hc, fun _ h => h⟩
  | take =>
    simp only [SyncRecv.step] at hs
    split at hs
    · rename_i j js v q ha hq
      simp only [Option.some.injEq] at hs
      subst hs
      rw [ha] at hw
      simp only [List.mem_cons, not_or] at hw
      refine ⟨⟨hw.1.2, hw.2⟩, hc, fun w h => ?_⟩
      simp only [List.mem_append, List.mem_singleton, Prod.mk.injEq] at h
      exact h.resolve_right fun h => hw.1.1 h.1
    · cases hs
  | pass =>
    simp only [SyncRecv.step] at hs
    split at hs
    · cases hs
    · split at hs
      · simp only [Option.some.injEq] at hs
        subst hs
        exact ⟨hw, hc, fun _ h => h⟩
      · simp only [Option.some.injEq] at hs
        subst hs
        exact ⟨hw, hc, fun _ h => h⟩

theorem quiet_run {acts : List (Act V)} {s s' : St V} (hr : run acts s = some s') {i : Nat} (hw : i ∉ waiting s)
    (hc : i < s.calls) : ∀ v, (i, v) ∈ s'.taken → (i, v) ∈ s.taken := by
  induction acts generalizing s with
  | nil =>
    simp only [SyncRecv.run, Option.some.injEq] at hr
    subst hr
    exact fun _ h => h
  | cons a as ih =>
    simp only [SyncRecv.run] at hr
    split at hr
    · cases hr
    · rename_i s1 h1
      obtain ⟨g1, g2, g3⟩ := quiet_step h1 hw hc
      exact fun v hv => g3 v (ih hr g1 g2 v hv)

/-- **C105, no late loss.** Once a call has raised `TimeoutError` and the loop has done what it was asked to, the call does not take
a message any more: what it has not taken by then stays for later calls. -/
theorem C105_quiet_partial {acts more : List (Act V)} {s s' : St V} (hr : run acts init = some s) (hm : run more s = some s')
    {i : Nat} (hl : i ∈ s.late) (ht : s.todo = []) {v : V} (hv : (i, v) ∈ s'.taken) : (i, v) ∈ s.taken := by
  have h := reach hr
  have hc := h.lateC i hl
  have hlt : i < s.calls := by
    simp only [closed] at hc
    split at hc <;> omega
  refine quiet_run hm ?_ hlt v hv
  intro hw
  have hd : i ∈ drain s.active s.todo := by
    simpa [waiting, ht, creates, drain] using hw
  have := h.only i hd
  simp only [closed, this.1, if_false] at hc
  omega

theorem run_append {a b : List (Act V)} {s s1 : St V} (h : run a s = some s1) : run (a ++ b) s = run b s1 := by
  induction a generalizing s with
  | nil =>
    simp only [SyncRecv.run, Option.some.injEq] at h
    rw [h]
    rfl
  | cons x a ih =>
    simp only [SyncRecv.run] at h
    split at h
    · cases h
    · rename_i s2 h2
      simp only [List.cons_append, SyncRecv.run, h2]
      exact ih h

/-- What the program does by itself: no timeout, and nothing comes. -/
def byItself : Act V → Bool
  | .loop | .take | .pass | .return => true
  | _ => false

theorem loops (s : St V) : ∃ acts, (∀ a ∈ acts, byItself a = true) ∧ arrivals acts = [] ∧
    run acts s = some { s with todo := [], active := drain s.active s.todo } := by
  generalize e : s.todo = ts
  induction ts generalizing s with
  | nil => exact ⟨[], by simp, rfl, by simp [SyncRecv.run, drain, ← e]⟩
  | cons t ts ih =>
    cases t with
    | create i =>
      obtain ⟨acts, h1, h2, h3⟩ := ih { s with todo := ts, active := s.active ++ [i] } rfl
      refine ⟨.loop :: acts, ?_, by simpa [arrivals] using h2, ?_⟩
      · intro a ha
        rcases List.mem_cons.1 ha with rfl | ha
        · rfl
        · exact h1 a ha
      · simp only [SyncRecv.run, SyncRecv.step, e]
        exact h3
    | cancel i =>
      obtain ⟨acts, h1, h2, h3⟩ := ih { s with todo := ts, active := s.active.filter (decide <| · ≠ i) } rfl
      refine ⟨.loop :: acts, ?_, by simpa [arrivals] using h2, ?_⟩
      · intro a ha
        rcases List.mem_cons.1 ha with rfl | ha
        · rfl
        · exact h1 a ha
      · simp only [SyncRecv.run, SyncRecv.step, e]
        exact h3

theorem passes (s : St V) : ∃ acts f, (∀ a ∈ acts, byItself a = true) ∧ arrivals acts = [] ∧
    run acts s = some { s with ended := [], fut := f } := by
  generalize e : s.ended = es
  induction es generalizing s with
  | nil => exact ⟨[], s.fut, by simp, rfl, by simp [SyncRecv.run, ← e]⟩
  | cons t es ih =>
    obtain ⟨i, v⟩ := t
    have go : ∀ f, step s .pass = some { s with ended := es, fut := f } → ∃ acts f, (∀ a ∈ acts, byItself a = true) ∧
        arrivals acts = [] ∧ run acts s = some { s with ended := [], fut := f } := by
      intro f hf
      obtain ⟨acts, g, h1, h2, h3⟩ := ih { s with ended := es, fut := f } rfl
      refine ⟨.pass :: acts, g, ?_, by simpa [arrivals] using h2, ?_⟩
      · intro a ha
        rcases List.mem_cons.1 ha with rfl | ha
        · rfl
        · exact h1 a ha
      · simp only [SyncRecv.run, hf]
        exact h3
    cases hf : s.fut i with
    | pending => exact go (setFut s.fut i (.done v)) (by simp only [SyncRecv.step, e, hf])
    | cancelled => exact go s.fut (by simp only [SyncRecv.step, e, hf])
    | done w => exact go s.fut (by simp only [SyncRecv.step, e, hf])

/-- The call whose task took a message can return it. -/
theorem answer_taken {arr : List V} {s : St V} (h : Inv arr s) (hm : s.main = .waits) {v : V} (hv : (s.calls - 1, v) ∈ s.taken) :
    ∃ acts s', (∀ a ∈ acts, byItself a = true) ∧ run acts s = some s' ∧ s'.main = .idle ∧
      s'.got = s.got ++ [(s.calls - 1, v)] ∧ s'.late = s.late ∧ s'.queue = s.queue := by
  obtain ⟨acts, f, h1, h2, h3⟩ := passes s
  have h' := h.run h3
  have hcur := h'.cur (by simp [hm])
  simp only at hcur
  cases hf : f (s.calls - 1) with
  | cancelled => exact absurd hf hcur.1
  | pending =>
    rcases hcur.2 hf with hd | ⟨w, hw⟩
    · exact absurd hv (free h.sorted hd rfl v)
    · simp at hw
  | done w =>
    have hw := h'.doneT _ _ hf
    have e := sorted_unique (List.pairwise_append.1 h.sorted).1 hv hw
    subst e
    refine ⟨acts ++ [.return], { s with ended := [], fut := f, main := .idle, got := s.got ++ [(s.calls - 1, v)] }, ?_, ?_, rfl, rfl, rfl,
      rfl⟩
    · intro a ha
      rcases List.mem_append.1 ha with ha | ha
      · exact h1 a ha
      · rw [List.mem_singleton.1 ha]
        rfl
    · rw [run_append h3]
      simp only [SyncRecv.run, SyncRecv.step, hm, hf]

/-- **C105, answers.** A call that waits, and whose timeout has not passed, can return as soon as there is a message: if it has not
taken one, it returns the first one of the queue. Whatever happened before, e.g. earlier calls that raised. -/
theorem C105_answer_partial {acts : List (Act V)} {s : St V} (hr : run acts init = some s) (hm : s.main = .waits) {v : V} {q : List V}
    (hq : s.queue = v :: q) :
    ∃ more s' w, (∀ a ∈ more, byItself a = true) ∧ run more s = some s' ∧ s'.main = .idle ∧ s'.late = s.late ∧
      s'.got = s.got ++ [(s.calls - 1, w)] ∧ ((s.calls - 1, w) ∈ s.taken ∨ w = v ∧ s'.queue = q) := by
  have h := reach hr
  by_cases ht : ∃ w, (s.calls - 1, w) ∈ s.taken
  · obtain ⟨w, hw⟩ := ht
    obtain ⟨more, s', g1, g2, g3, g4, g5, _⟩ := answer_taken h hm hw
    exact ⟨more, s', w, g1, g2, g3, g5, g4, Or.inl hw⟩
  · have hcur := h.cur (by simp [hm])
    have hd : s.calls - 1 ∈ drain s.active s.todo := by
      cases hf : s.fut (s.calls - 1) with
      | cancelled => exact absurd hf hcur.1
      | done w => exact absurd ⟨w, h.doneT _ _ hf⟩ ht
      | pending =>
        rcases hcur.2 hf with hd | ⟨w, hw⟩
        · exact hd
        · exact absurd ⟨w, h.endedT _ hw⟩ ht
    obtain ⟨acts1, k1, k2, k3⟩ := loops s
    have h1 := h.run k3
    cases hc : drain s.active s.todo with
    | nil => rw [hc] at hd; simp at hd
    | cons i is =>
      have hi : i = s.calls - 1 := by
        have := (h.only i (by rw [hc]; simp)).2
        omega
      rw [hi] at hc
      rw [hc] at k3 h1
      have hstep : step { s with todo := [], active := (s.calls - 1) :: is } .take = some
          { s with
            todo := [], active := is, queue := q, ended := s.ended ++ [(s.calls - 1, v)],
            taken := s.taken ++ [(s.calls - 1, v)] } := by
        simp only [SyncRecv.step, hq]
      obtain ⟨more, s', g1, g2, g3, g4, g5, g6⟩ := answer_taken (h1.step hstep) (by simpa using hm) (v := v) (by simp)
      refine ⟨acts1 ++ .take :: more, s', v, ?_, ?_, g3, g5, g4, Or.inr ⟨rfl, g6⟩⟩
      · intro a ha
        rcases List.mem_append.1 ha with ha | ha
        · exact k1 a ha
        · rcases List.mem_cons.1 ha with rfl | ha
          · rfl
          · exact g1 a ha
      · rw [run_append k3]
        simp only [SyncRecv.run, hstep]
        exact g2

/-- **C105, every call ends.** Messages can come at any time. Between calls the next one can be made. A call that waits can return, or its
timeout can pass, exactly one of the two: it returns if its result was passed on before. A call whose timeout has passed raises
`TimeoutError`, and then the next one can be made. -/
theorem C105_ends {acts : List (Act V)} {s : St V} (hr : run acts init = some s) :
    (∀ v, ∃ s', step s (.arrive v) = some s' ∧ s'.queue = s.queue ++ [v]) ∧
    ((∃ s', step s .call = some s') ↔ s.main = .idle) ∧
    (∀ s', step s .call = some s' → s'.main = .waits ∧ s'.calls = s.calls + 1) ∧
    (s.main = .waits →
      ((∃ s', step s .expire = some s' ∧ s'.main = .expired) ∧ ∀ s', step s .return ≠ some s') ∨
      ((∃ s' v, step s .return = some s' ∧ s'.main = .idle ∧ s'.got = s.got ++ [(s.calls - 1, v)] ∧ (s.calls - 1, v) ∈ s.taken) ∧
        ∀ s', step s .expire ≠ some s')) ∧
    (s.main = .expired → ∃ s', step s .raise = some s' ∧ s'.main = .idle ∧ s'.late = s.late ++ [s.calls - 1] ∧ s'.got = s.got ∧
      s'.queue = s.queue) := by
  have h := reach hr
  refine ⟨fun v => ⟨_, rfl, rfl⟩, ?_, ?_, fun hm => ?_, fun hm => ?_⟩
  · constructor
    · rintro ⟨s', h⟩
      simp only [SyncRecv.step] at h
      split at h
      · assumption
      · cases h
    · intro hm
      exact ⟨_, by simp only [SyncRecv.step, hm]; rfl⟩
  · intro s' h
    simp only [SyncRecv.step] at h
    split at h
    · cases h; exact ⟨rfl, rfl⟩
    · cases h
  · cases hf : s.fut (s.calls - 1) with
    | cancelled => exact absurd hf (h.cur (by simp [hm])).1
    | pending => exact .inl ⟨⟨_, by simp only [SyncRecv.step, hm, hf]; rfl, rfl⟩, by simp [SyncRecv.step, hm, hf]⟩
    | done v => exact .inr ⟨⟨_, v, by simp only [SyncRecv.step, hm, hf]; rfl, rfl, rfl, h.doneT _ _ hf⟩, by simp [SyncRecv.step, hm, hf]⟩
  · cases hf : s.fut (s.calls - 1) with
    | cancelled => exact absurd hf (h.cur (by simp [hm])).1
    | pending => refine ⟨_, by simp only [SyncRecv.step, hm, hf]; rfl, ?_, ?_, ?_, ?_⟩ <;> rfl
    | done v => refine ⟨_, by simp only [SyncRecv.step, hm, hf]; rfl, ?_, ?_, ?_, ?_⟩ <;> rfl

/-- The first call has raised and the second waits; its timeout can pass, and it can raise, too. -/
example : ∃ s, run [.call, .loop, .expire, .raise, .call] (init : St Nat) = some s ∧ s.main = .waits ∧
    ∃ s', run [.expire, .raise, .call] s = some s' ∧ s'.late = [0, 1] :=
  ⟨_, rfl, rfl, _, rfl, rfl⟩

/-- **C105, negation.** Two messages come; the first call raises `TimeoutError` and the second returns the second message: the first
one is returned by no call and is not in the queue any more. It was taken while the first call was about to give up. -/
theorem C105_negation : ∃ acts s, run acts (init : St Nat) = some s ∧ arrivals acts = [1, 2] ∧ s.main = .idle ∧ s.late = [0] ∧
    s.got = [(1, 2)] ∧ s.queue = [] ∧ s.todo = [] ∧ s.active = [] ∧ s.ended = [] :=
  ⟨[.call, .loop, .expire, .arrive 1, .take, .raise, .pass, .loop, .arrive 2, .call, .loop, .take, .pass, .return], _, rfl, rfl, rfl,
    rfl, rfl, rfl, rfl, rfl, rfl⟩

/-- The other way to lose it: the result is passed on after the timeout and before `cancel`, which then does nothing. -/
example : ∃ s, run [.call, .loop, .expire, .arrive 1, .take, .pass, .raise] (init : St Nat) = some s ∧ s.main = .idle ∧ s.late = [0] ∧
    s.got = [] ∧ s.queue = [] :=
  ⟨_, rfl, rfl, rfl, rfl, rfl⟩

/-- A message that comes after the loop has cancelled the first call is returned by the second one; no message is missing. -/
example : ∃ s, run [.call, .loop, .expire, .raise, .loop, .arrive 1, .call, .arrive 2, .loop, .take, .pass, .return] (init : St Nat) = some s ∧
    s.main = .idle ∧ s.late = [0] ∧ s.got = [(1, 1)] ∧ s.queue = [2] :=
  ⟨_, rfl, rfl, rfl, rfl, rfl⟩

/-- The hypotheses of `C105_quiet_partial`: the first call has raised, the loop is through, messages are there. -/
example : ∃ s, run [.call, .loop, .expire, .raise, .loop, .arrive 1] (init : St Nat) = some s ∧ 0 ∈ s.late ∧ s.todo = [] ∧
    s.taken = [] ∧ s.queue = [1] :=
  ⟨_, rfl, by decide, rfl, rfl, rfl⟩

/-- The hypotheses of `C105_answer_partial`, with a call that raised before and was not cancelled yet. -/
example : ∃ s, run [.call, .loop, .expire, .raise, .arrive 1, .call] (init : St Nat) = some s ∧ s.main = .waits ∧ s.queue = [1] ∧
    s.active = [0] ∧ s.todo = [.cancel 0, .create 1] :=
  ⟨_, rfl, rfl, rfl, rfl, rfl⟩

end SyncRecv
end Ez
