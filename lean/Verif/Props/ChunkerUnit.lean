import Verif.Model.ChunkerUnit
import Verif.Props.Chunker

/-!
# C107: `ArrayChunker` publishes the chunks of its settings

Specification: `segments` splits a run at the settings messages: the settings in force and the number of turns of the publishing loop.
-/

set_option linter.unusedSimpArgs false
set_option linter.unusedSectionVars false

namespace Ez.AA.ChunkerUnit

variable {α R A : Type} [Add R] [Sub R] [Mul R] [Div R] [NatCast R] [Inhabited A]

/-- The settings in force, and the turns of the loop until the next ones. -/
def segments (s : Settings α R) (n : Nat) : List (Act α R) → List (Settings α R × Nat)
  | [] => [(s, n)]
  | .settings t :: as => (s, n) :: segments t 0 as
  | .turn :: as => segments s (n + 1) as

/-- The number of chunks of an array. -/
def count (A : Type) [Inhabited A] (s : Settings α R) : Nat := (chunksOf s : List (AxisArray α R A)).length

/-- Invariant: what was published, and what is left of the chunks of the settings in force. -/
theorem follow {as : List (Act α R)} {s : Settings α R} {n : Nat} {st st' : St α R A} {old : List (AxisArray α R A)}
    (hr : run as st = some st') (ha : st.alive = true) (ho : st.out = old ++ (chunksOf s).take n)
    (hg : st.gen = (chunksOf s).drop n) (hs : ∀ x ∈ segments s n as, x.2 ≤ count A x.1) :
    st'.alive = true ∧ st'.out = old ++ (segments s n as).flatMap fun x => (chunksOf x.1).take x.2 := by
  induction as generalizing s n st old with
  | nil =>
    simp only [run, Option.some.injEq] at hr
    subst hr
    simp [segments, ha, ho]
  | cons a as ih =>
    cases a with
    | settings t =>
      simp only [run, step] at hr
      have := ih (s := t) (n := 0) (old := old ++ (chunksOf s).take n) hr ha (by simp [ho]) (by simp)
        (fun x hx => hs x (by simp [segments, hx]))
      simpa [segments, List.append_assoc] using this
    | turn =>
      simp only [run, step, ha, if_true] at hr
      have hlt : n < (chunksOf s : List (AxisArray α R A)).length := by
        have hmem : ∀ (as : List (Act α R)) m, ∃ k, m ≤ k ∧ (s, k) ∈ segments s m as := by
          intro as
          induction as with
          | nil => exact fun m => ⟨m, Nat.le_refl _, by simp [segments]⟩
          | cons a as ih =>
            intro m
            cases a with
            | settings t => exact ⟨m, Nat.le_refl _, by simp [segments]⟩
            | turn =>
              obtain ⟨k, hk, hm⟩ := ih (m + 1)
              exact ⟨k, by omega, by simpa [segments] using hm⟩
        obtain ⟨k, hk, hm⟩ := hmem as (n + 1)
        have := hs (s, k) (by simpa [segments] using hm)
        simp only [count] at this
        omega
      rw [hg, List.drop_eq_getElem_cons hlt] at hr
      simp only at hr
      have := ih (s := s) (n := n + 1) (old := old) hr rfl
        (by simp only [ho]; rw [List.take_succ_eq_append_getElem hlt, List.append_assoc]) rfl
        (fun x hx => hs x (by simpa [segments] using hx))
      simpa [segments] using this

/-- **C107, chunks.** As long as the loop is not asked for more chunks than an array has before new settings come, the unit publishes
the chunks of every array it is given, each time from the first one, in order, and goes on. -/
theorem C107_published_partial {as : List (Act α R)} {s : Settings α R} {st : St α R A} (hr : run as (init s) = some st)
    (hs : ∀ x ∈ segments s 0 as, x.2 ≤ count A x.1) :
    st.alive = true ∧ st.out = (segments s 0 as).flatMap fun x => (chunksOf x.1).take x.2 := by
  have := follow (old := []) (s := s) (n := 0) hr rfl (by simp [init]) (by simp [init]) hs
  simpa using this

theorem turns (cs done : List (AxisArray α R A)) :
    run (List.replicate cs.length .turn) (⟨cs, true, done⟩ : St α R A) = some ⟨[], true, done ++ cs⟩ := by
  induction cs generalizing done with
  | nil => simp [run]
  | cons c cs ih =>
    simp only [List.length_cons, List.replicate_succ, run, step, if_true]
    rw [ih]
    simp [List.append_assoc]

/-- **C107, nothing is lost.** Without settings messages, after as many turns as there are chunks, the published messages put together are
the array. -/
theorem C107_whole {s : Settings α R} (hl : 0 < s.chunkLen) {chunks : List (AxisArray α R A)}
    (h : arrayChunker s.data s.chunkLen s.axis s.fs s.tzero = .ok chunks) :
    ∃ st out, run (List.replicate chunks.length .turn) (init s) = some st ∧ st.out = chunks ∧
      AxisArray.concatenate "time" none none st.out = .ok out ∧ out.data.shape = s.data.shape ∧
      ∀ idx, InB idx s.data.shape → out.data.get idx = s.data.get idx := by
  have hc : chunksOf s = chunks := by simp only [chunksOf, h]
  obtain ⟨out, h1, h2, h3, _⟩ := C43_concatenation hl h
  refine ⟨⟨[], true, chunks⟩, out, ?_, rfl, h1, h2, h3⟩
  have := turns chunks []
  simpa [init, hc] using this

/-- **C107, the end.** The loop ends exactly when it looks for a chunk and there is none (or `array_chunker` raises). From then on nothing is
published, whatever settings come. -/
theorem C107_ended {st st' : St α R A} :
    (st.alive = true → step st .turn = some st' → (st'.alive = false ↔ st.gen = []) ∧ (st.gen = [] → st'.out = st.out)) ∧
      (st.alive = false → ∀ as : List (Act α R), run as st = some st' → st'.out = st.out ∧ st'.alive = false) := by
  refine ⟨fun ha hs => ?_, fun ha as => ?_⟩
  · simp only [step, ha, if_true] at hs
    split at hs
    · rename_i c cs hg
      cases hs
      simp [hg, ha]
    · rename_i hg
      cases hs
      simp [hg]
  · induction as generalizing st with
    | nil =>
      intro hr
      simp only [run, Option.some.injEq] at hr
      exact hr ▸ ⟨rfl, ha⟩
    | cons a as ih =>
      intro hr
      cases a with
      | settings t =>
        simp only [run, step] at hr
        exact @ih ⟨chunksOf t, st.alive, st.out⟩ ha hr
      | turn => simp [run, step, ha] at hr

/-- **C107, negation.** For all settings `s` and `t`: when the unit has published the array of `s` and its loop has found no more, settings
`t` are accepted, but not one chunk of `t` is ever published. -/
theorem C107_negation (s t : Settings α R) :
    ∃ st : St α R A, run (List.replicate (count A s) .turn ++ [.turn, .settings t]) (init s) = some st ∧ st.gen = chunksOf t ∧
      ∀ (more : List (Act α R)) (st' : St α R A), run more st = some st' → st'.out = chunksOf s := by
  have happ : ∀ (as bs : List (Act α R)) (x y : St α R A), run as x = some y → run (as ++ bs) x = run bs y := by
    intro as
    induction as with
    | nil =>
      intro bs x y h
      simp only [run, Option.some.injEq] at h
      rw [h]
      rfl
    | cons a as ih =>
      intro bs x y h
      simp only [run] at h
      split at h
      · cases h
      · rename_i z hz
        simp only [List.cons_append, run, hz]
        exact ih bs z y h
  refine ⟨⟨chunksOf t, false, chunksOf s⟩, ?_, rfl, fun more st' hr => (C107_ended.2 rfl more hr).1⟩
  refine (happ _ _ _ _ (turns (chunksOf s) [])).trans ?_
  simp [run, step]

/-- Concrete: an array of three elements in chunks of two has two chunks, which the unit publishes; another array of four
elements, given after that, has two as well, and they are not published. -/
example : ∃ (s t : Settings Nat Rat) (st : St Nat Rat _root_.Unit), count _root_.Unit s = 2 ∧ count _root_.Unit t = 2 ∧
    run ([.turn, .turn] ++ [.turn, .settings t]) (init s) = some st ∧ st.out.length = 2 ∧ st.gen.length = 2 ∧ st.alive = false := by
  let s : Settings Nat Rat := ⟨⟨[3], fun i => i.getD 0 0⟩, 2, 0, 1, 0⟩
  let t : Settings Nat Rat := ⟨⟨[4], fun i => i.getD 0 0⟩, 2, 0, 1, 0⟩
  have hs : count _root_.Unit s = 2 := by
    obtain ⟨cs, h1, h2, _⟩ := ((C43_chunks (A := _root_.Unit) (data := s.data) (len := 2) (by omega) 0 (1 : Rat) 0).2 (by simp [s]) (by simp [s])).2
      (by simp [s, normAxis])
    have : (chunksOf s : List (AxisArray Nat Rat _root_.Unit)) = cs := by
      simp only [chunksOf]
      rw [show arrayChunker s.data s.chunkLen s.axis s.fs s.tzero = .ok cs from h1]
    simp only [count, this, h2]
    simp [s, normAxis]
  have ht : count _root_.Unit t = 2 := by
    obtain ⟨cs, h1, h2, _⟩ := ((C43_chunks (A := _root_.Unit) (data := t.data) (len := 2) (by omega) 0 (1 : Rat) 0).2 (by simp [t]) (by simp [t])).2
      (by simp [t, normAxis])
    have : (chunksOf t : List (AxisArray Nat Rat _root_.Unit)) = cs := by
      simp only [chunksOf]
      rw [show arrayChunker t.data t.chunkLen t.axis t.fs t.tzero = .ok cs from h1]
    simp only [count, this, h2]
    simp [t, normAxis]
  obtain ⟨st, h1, h2, h3⟩ := C107_negation (A := _root_.Unit) s t
  rw [hs] at h1
  have h4 := h3 [] st rfl
  refine ⟨s, t, st, hs, ht, h1, by rw [h4]; exact hs, by rw [h2]; exact ht, ?_⟩
  obtain ⟨c, d, hcd⟩ : ∃ c d, (chunksOf s : List (AxisArray Nat Rat _root_.Unit)) = [c, d] := by
    have := hs
    simp only [count] at this
    match hx : (chunksOf s : List (AxisArray Nat Rat _root_.Unit)), this with
    | [c, d], _ => exact ⟨c, d, rfl⟩
  simp only [List.replicate, List.cons_append, List.nil_append, run, step, init, hcd, if_true, Option.some.injEq] at h1
  rw [← h1]

end Ez.AA.ChunkerUnit
