import Verif.Model.Timeout

set_option linter.unusedSectionVars false
set_option linter.unusedSimpArgs false

/-!
# Terminating when no messages arrive (C79)
-/

namespace Ez
namespace Timeout

/-! ## Specification -/

/-- Events in the order of their times. -/
def InOrder (evs : List (Int × Ev)) : Prop := evs.Pairwise (fun x y => x.1 ≤ y.1)

/-- At the latest `gap` after any time from `start`, and before `stop`, the poll wakes up. -/
def Polled (start gap stop : Int) (evs : List (Int × Ev)) : Prop :=
  ∀ a, start ≤ a → a + gap ≤ stop → ∃ w, (w, Ev.wake) ∈ evs ∧ a ≤ w ∧ w ≤ a + gap

/-! ## Lemmas -/

theorem run_snoc (limit : Int) (evs : List (Int × Ev)) (x : Int × Ev) : run limit (evs ++ [x]) = step limit (run limit evs) x.1 x.2 := by
  simp [run]

theorem snoc_ind {α : Type} {P : List α → Prop} (h0 : P []) (hs : ∀ l x, P l → P (l ++ [x])) (l : List α) : P l := by
  have : ∀ l : List α, P l.reverse := by
    intro l
    induction l with
    | nil => exact h0
    | cons x l ih => rw [List.reverse_cons]; exact hs _ x ih
  simpa using this l.reverse

/-- The last message. -/
theorem last_spec (limit : Int) (evs : List (Int × Ev)) : match (run limit evs).last with
    | none => ∀ t, (t, Ev.msg) ∉ evs
    | some l => ∃ pre post, evs = pre ++ (l, .msg) :: post ∧ ∀ t, (t, Ev.msg) ∉ post := by
  induction evs using snoc_ind with
  | h0 => simp [run]
  | hs evs x ih =>
    rw [run_snoc]
    obtain ⟨t, e⟩ := x
    cases e with
    | msg => exact ⟨evs, [], by simp, by simp⟩
    | wake =>
      have e : (step limit (run limit evs) t .wake).last = (run limit evs).last := by
        unfold step; grind
      simp only [e]
      cases h : (run limit evs).last with
      | none => rw [h] at ih; simp only at ih ⊢; grind
      | some l =>
        rw [h] at ih
        obtain ⟨pre, post, h1, h2⟩ := ih
        exact ⟨pre, post ++ [(t, .wake)], by rw [h1]; simp, by grind⟩

/-- **C79**.  The unit terminates the program only if it has received a message and none in the time before; and this happens once. -/
theorem C79_not_early {limit : Int} {evs : List (Int × Ev)} (ho : InOrder evs) {t : Int} (h : (run limit evs).ended = some t) :
    ∃ pre post, evs = pre ++ (t, .wake) :: post ∧ (∃ l, (l, Ev.msg) ∈ pre) ∧ (∀ l, (l, Ev.msg) ∈ pre → l + limit ≤ t) ∧
      (run limit pre).ended = none ∧ ∀ more, (run limit (evs ++ more)).ended = some t := by
  have keep : ∀ more, (run limit (evs ++ more)).ended = some t := by
    intro more
    induction more using snoc_ind with
    | h0 => simpa using h
    | hs more x ih =>
      rw [← List.append_assoc, run_snoc]
      obtain ⟨u, e⟩ := x
      cases e <;> simp [step, ih]
  suffices hp : ∃ pre post, evs = pre ++ (t, .wake) :: post ∧ (∃ l, (l, Ev.msg) ∈ pre) ∧ (∀ l, (l, Ev.msg) ∈ pre → l + limit ≤ t) ∧
      (run limit pre).ended = none by
    obtain ⟨pre, post, h1, h2, h3, h4⟩ := hp
    exact ⟨pre, post, h1, h2, h3, h4, keep⟩
  clear keep
  induction evs using snoc_ind with
  | h0 => simp [run] at h
  | hs evs x ih =>
    have ho' : InOrder evs := (List.pairwise_append.1 ho).1
    rw [run_snoc] at h
    by_cases he : (run limit evs).ended = some t
    · obtain ⟨pre, post, h1, h2⟩ := ih ho' he
      exact ⟨pre, post ++ [x], by rw [h1]; simp, h2⟩
    · obtain ⟨u, e⟩ := x
      cases e with
      | msg => exact absurd h he
      | wake =>
        simp only [step] at h
        have hl := last_spec limit evs
        split at h
        next l hn hs =>
          rw [hs] at hl
          split at h
          next hlt =>
            simp only [Option.some.injEq] at h; subst h
            obtain ⟨p, q, h1, h2⟩ := hl
            refine ⟨evs, [], by simp, ⟨l, by simp [h1]⟩, fun l' hl' => ?_, hn⟩
            have : l' ≤ l := by
              rw [h1] at hl' ho'
              simp only [List.mem_append, List.mem_cons, Prod.mk.injEq, and_true] at hl'
              rcases hl' with hl' | hl' | hl'
              · exact (List.pairwise_append.1 ho').2.2 _ hl' (l, .msg) (by simp)
              · omega
              · exact absurd hl' (h2 _)
            omega
          next => exact absurd h he
        next => exact absurd h he

/-- **C79** (partial: there was a message).  If messages stop after one at `l`, the program is terminated before `l + limit + gap`, where `gap` is the longest time
between two polls. -/
theorem C79_in_time_partial {limit gap : Int} (hl : 0 < limit) {evs : List (Int × Ev)} (ho : InOrder evs) {l : Int}
    (hm : (l, Ev.msg) ∈ evs) (hp : Polled l gap (l + limit + gap) evs)
    (hq : ∀ t, (t, Ev.msg) ∈ evs → t ≤ l ∨ l + limit + gap < t) :
    ∃ t, (run limit evs).ended = some t ∧ t ≤ l + limit + gap := by
  obtain ⟨w, hw, h1, h2⟩ := hp (l + limit) (by omega) (by omega)
  obtain ⟨pre, post, he⟩ := List.append_of_mem hw
  have hpre : (l, Ev.msg) ∈ pre := by
    rw [he] at hm ho
    simp only [List.mem_append, List.mem_cons, Prod.mk.injEq, reduceCtorEq, and_false, false_or] at hm
    rcases hm with hm | hm
    · exact hm
    · have := (List.pairwise_cons.1 (List.pairwise_append.1 ho).2.1).1 _ hm
      simp only at this; omega
  have hend : ∃ t, (run limit (pre ++ [(w, .wake)])).ended = some t := by
    rw [run_snoc]
    simp only [step]
    have hs := last_spec limit pre
    cases h3 : (run limit pre).last with
    | none => rw [h3] at hs; exact absurd hpre (hs _)
    | some l' =>
      rw [h3] at hs
      obtain ⟨p, q, h4, _⟩ := hs
      cases h5 : (run limit pre).ended with
      | some t => exact ⟨t, by simp [h5]⟩
      | none =>
        have hmem : (l', Ev.msg) ∈ pre := by simp [h4]
        have : l' ≤ w := by
          rw [he] at ho
          exact (List.pairwise_append.1 ho).2.2 _ hmem (w, .wake) (by simp)
        have := hq l' (by rw [he]; simp [hmem])
        exact ⟨w, by simp only; rw [if_pos (by omega)]⟩
  obtain ⟨t, ht⟩ := hend
  have ho2 : InOrder (pre ++ [(w, .wake)]) := by
    have : evs = (pre ++ [(w, .wake)]) ++ post := by rw [he]; simp
    rw [this] at ho
    exact (List.pairwise_append.1 ho).1
  obtain ⟨p, q, h3, _, _, _, h4⟩ := C79_not_early ho2 ht
  refine ⟨t, by have := h4 post; rwa [List.append_assoc, List.singleton_append, ← he] at this, ?_⟩
  have : (t, Ev.wake) ∈ pre ++ [(w, Ev.wake)] := by rw [h3]; simp
  have : t ≤ w := by
    rcases List.mem_append.1 this with hx | hx
    · exact (List.pairwise_append.1 ho2).2.2 _ hx (w, .wake) (by simp)
    · simp at hx; omega
  omega

/-- **C79**.  As long as a message came within `limit` before every poll, the program is not terminated. -/
theorem C79_kept_alive {limit : Int} {evs : List (Int × Ev)} (ho : InOrder evs)
    (h : ∀ pre w post, evs = pre ++ (w, .wake) :: post → ∃ l, (l, Ev.msg) ∈ pre ∧ w < l + limit) : (run limit evs).ended = none := by
  cases e : (run limit evs).ended with
  | none => rfl
  | some t =>
    obtain ⟨pre, post, h1, _, h2, _⟩ := C79_not_early ho e
    obtain ⟨l, h3, h4⟩ := h pre t post h1
    have := h2 l h3
    omega

/-- **C79** (violated: "terminate if no message has been received in this time").  If no message is ever received, the program is never
terminated. -/
theorem C79_never_fails (limit : Int) {evs : List (Int × Ev)} (h : ∀ t, (t, Ev.msg) ∉ evs) : (run limit evs).ended = none := by
  have : run limit evs = ⟨none, none⟩ := by
    induction evs using snoc_ind with
    | h0 => rfl
    | hs evs x ih =>
      obtain ⟨u, e⟩ := x
      cases e with
      | msg => exact absurd (by simp) (h u)
      | wake => rw [run_snoc, ih (fun t ht => h t (by simp [ht]))]; rfl
  rw [this]

/-! ## Examples -/

/-- Polls every 4, a message at 3 and one at 6; the limit is 10: terminated at 16. -/
def two : List (Int × Ev) := [(3, .msg), (4, .wake), (6, .msg), (8, .wake), (12, .wake), (16, .wake), (20, .wake)]

example : (run 10 two).ended = some 16 := by decide

theorem two_polled : Polled 6 4 20 two := by
  intro a h1 h2
  unfold two
  by_cases h3 : a ≤ 8
  · exact ⟨8, by simp, by omega, by omega⟩
  · by_cases h4 : a ≤ 12
    · exact ⟨12, by simp, by omega, by omega⟩
    · exact ⟨16, by simp, by omega, by omega⟩

theorem two_in_order : InOrder two := by unfold InOrder two; decide

example : ∃ t, (run 10 two).ended = some t ∧ t ≤ 20 :=
  C79_in_time_partial (gap := 4) (by decide) two_in_order (l := 6) (by simp [two]) two_polled (by intro t ht; simp [two] at ht; omega)

example : (run 10 [(4, .wake), (8, .wake), (1000, .wake)]).ended = none := C79_never_fails 10 (by simp)

example : (run 10 [(3, .msg), (4, .wake), (6, .msg), (8, .wake)]).ended = none := by decide

end Timeout
end Ez
