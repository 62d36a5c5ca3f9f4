import Verif.Model.Tracker

/-!
# C115: attaching to shared memory leaves the record of resources alone
-/

set_option linter.unusedSimpArgs false
set_option linter.unusedSectionVars false

namespace Ez
namespace Tracker

variable {T N : Type} [DecidableEq T] [DecidableEq N]

/-- Specification: the process has created `n` and not removed it. -/
def Owns (log : List (Ev N)) (n : N) : Prop := (∃ k, Ev.created k n ∈ log) ∧ Ev.removed n ∉ log

/-- Executions. -/
inductive Run : St T N → Prop
  | init : Run init
  | step {st st'} (a : Act T N) : Run st → step st a = some st' → Run st'

/-- No thread attaches to a segment. -/
def Idle (st : St T N) : Prop := ∀ t, st.doing t = .other

/-- Executions in which at most one thread at a time attaches to a segment. -/
inductive Single : St T N → Prop
  | init : Single init
  | step {st st'} (a : Act T N) : Single st → step st a = some st' → (∀ t n, a = .begin_ t n → Idle st) → Single st'

/-- Executions in which, moreover, attaching does not raise, and no other thread creates anything meanwhile. -/
inductive Calm : St T N → Prop
  | init : Calm init
  | step {st st'} (a : Act T N) : Calm st → step st a = some st' → (∀ t n, a = .begin_ t n → Idle st) → (∀ t k n, a = .create t k n → Idle st) → (∀ t, a ≠ .fail t) → Calm st'

theorem Calm.single {st : St T N} (h : Calm st) : Single st := by
  induction h with
  | init => exact .init
  | step a _ hs h1 _ _ ih => exact .step a ih hs h1

theorem Single.run {st : St T N} (h : Single st) : Run st := by
  induction h with
  | init => exact .init
  | step a _ hs _ ih => exact .step a ih hs

theorem fresh_spec {n : N} {log : List (Ev N)} (h : fresh n log = true) : (∀ k, Ev.created k n ∉ log) ∧ (∀ k, Ev.raised k n ∉ log) ∧ Ev.attached n ∉ log := by
  simp only [fresh, List.all_eq_true] at h
  refine ⟨fun k hk => ?_, fun k hk => ?_, fun hk => ?_⟩
  · simpa using h _ hk
  · simpa using h _ hk
  · simpa using h _ hk

/-- What holds in all executions. -/
structure Inv (st : St T N) : Prop where
  rec_ : ∀ n ∈ st.record, Owns st.log n ∨ Ev.attached n ∈ st.log ∨ ∃ t, st.doing t = .leaving n
  rem : ∀ n, Ev.removed n ∈ st.log → ∃ k, Ev.created k n ∈ st.log
  swept : st.over = false → ∀ ns, Ev.swept ns ∉ st.log
  over : ∀ ns, Ev.swept ns ∈ st.log → ns = st.record

theorem inv_init : Inv (init : St T N) := by constructor <;> simp [init]

theorem inv_step {st st' : St T N} {a : Act T N} (h : Inv st) (hs : step st a = some st') : Inv st' := by
  unfold step at hs
  by_cases ho : st.over = true
  · rw [if_pos ho] at hs; cases hs
  · rw [if_neg ho] at hs
    have ho' : st.over = false := by simpa using ho
    have hsw := h.swept ho'
    cases a with
    | begin_ t n =>
      simp only [begin_] at hs
      split at hs
      · rename_i hd
        cases hs
        refine ⟨fun m hm => ?_, h.rem, h.swept, h.over⟩
        rcases h.rec_ m hm with h1 | h1 | ⟨x, hx⟩
        · exact .inl h1
        · exact .inr (.inl h1)
        · refine .inr (.inr ⟨x, ?_⟩)
          simp only [setDoing]
          rw [if_neg (by rintro rfl; rw [hd] at hx; cases hx)]; exact hx
      · cases hs
    | fail t =>
      simp only [fail] at hs
      split at hs
      · rename_i n hd
        cases hs
        refine ⟨fun m hm => ?_, fun m hm => ?_, fun _ ns => by simp [note, setDoing, hsw ns], fun ns hns => absurd (by simpa [note, setDoing] using hns) (hsw ns)⟩
        · rcases h.rec_ m hm with h1 | h1 | ⟨x, hx⟩
          · left; simpa [Owns, note, setDoing] using h1
          · right; left; simp [note, setDoing, h1]
          · refine .inr (.inr ⟨x, ?_⟩)
            simp only [note, setDoing]
            rw [if_neg (by rintro rfl; rw [hd] at hx; cases hx)]; exact hx
        · have := h.rem m (by simpa [note, setDoing] using hm)
          simpa [note, setDoing] using this
      · cases hs
    | open_ t =>
      simp only [open_] at hs
      split at hs
      · rename_i n hd
        have key : ∀ r : List N, (∀ m ∈ r, m ∈ st.record ∨ m = n) → Inv (setDoing { st with record := r } t (.leaving n)) := by
          intro r hr
          refine ⟨fun m hm => ?_, h.rem, h.swept, fun ns hns => absurd hns (hsw ns)⟩
          rcases hr m hm with h0 | rfl
          · rcases h.rec_ m h0 with h1 | h1 | ⟨x, hx⟩
            · exact .inl h1
            · exact .inr (.inl h1)
            · refine .inr (.inr ⟨x, ?_⟩)
              simp only [setDoing]
              rw [if_neg (by rintro rfl; rw [hd] at hx; cases hx)]; exact hx
          · exact .inr (.inr ⟨t, by simp [setDoing]⟩)
        cases hh : st.hook <;> simp only [register, hh, Option.map_some] at hs <;> cases hs
        · rw [← hh]; exact key (st.record ++ [n]) (by intro m hm; simpa using hm)
        · exact key st.record (fun m hm => .inl hm)
      · cases hs
    | leave t =>
      simp only [leave] at hs
      split at hs
      · rename_i n hd
        cases hs
        refine ⟨fun m hm => ?_, fun m hm => ?_, fun _ ns => by simp [note, setDoing, hsw ns], fun ns hns => absurd (by simpa [note, setDoing] using hns) (hsw ns)⟩
        · rcases h.rec_ m hm with h1 | h1 | ⟨x, hx⟩
          · left; simpa [Owns, note, setDoing] using h1
          · right; left; simp [note, setDoing, h1]
          · by_cases e : x = t
            · subst e; rw [hd] at hx; cases hx; right; left; simp [note, setDoing]
            · refine .inr (.inr ⟨x, ?_⟩)
              simp only [note, setDoing]
              rw [if_neg e]; exact hx
        · have := h.rem m (by simpa [note, setDoing] using hm)
          simpa [note, setDoing] using this
      · cases hs
    | create t k n =>
      simp only [create] at hs
      split at hs
      · rename_i hd
        have hfr := fresh_spec hd.2
        have hnr : Ev.removed n ∉ st.log := fun hr => by obtain ⟨k, hk⟩ := h.rem n hr; exact hfr.1 k hk
        have old : ∀ (e : Ev N), (∀ m, e ≠ .removed m) → ∀ m ∈ st.record, Owns (st.log ++ [e]) m ∨ Ev.attached m ∈ st.log ++ [e] ∨ ∃ t, st.doing t = .leaving m := by
          intro e he m hm
          rcases h.rec_ m hm with ⟨⟨k, h1⟩, h2⟩ | h1 | h1
          · refine .inl ⟨⟨k, by simp [h1]⟩, ?_⟩
            simp only [List.mem_append, List.mem_singleton, not_or]
            exact ⟨h2, fun x => he m x.symm⟩
          · exact .inr (.inl (by simp [h1]))
          · exact .inr (.inr h1)
        have key : ∀ r : List N, (∀ m ∈ r, m ∈ st.record ∨ m = n) → Inv (note { st with record := r } (.created k n)) := by
          intro r hr
          refine ⟨fun m hm => ?_, fun m hm => ?_, fun _ ns => by simp [note, hsw ns], fun ns hns => absurd (by simpa [note] using hns) (hsw ns)⟩
          · rcases hr m hm with h0 | rfl
            · exact old _ (by simp) m h0
            · exact .inl ⟨⟨k, by simp [note]⟩, by simp [note, hnr]⟩
          · obtain ⟨k', h1⟩ := h.rem m (by simpa [note] using hm)
            exact ⟨k', by simp [note, h1]⟩
        cases hh : st.hook <;> cases k <;> simp only [register, hh] at hs <;> cases hs
        · rw [← hh]; exact key (st.record ++ [n]) (by intro m hm; simpa using hm)
        · rw [← hh]; exact key (st.record ++ [n]) (by intro m hm; simpa using hm)
        · exact key st.record (fun m hm => .inl hm)
        · refine ⟨fun m hm => old _ (by simp) m hm, fun m hm => ?_, fun _ ns => by simp [note, hsw ns], fun ns hns => absurd (by simpa [note] using hns) (hsw ns)⟩
          obtain ⟨k', h1⟩ := h.rem m (by simpa [note] using hm)
          exact ⟨k', by simp [note, h1]⟩
      · cases hs
    | remove t n =>
      simp only [remove] at hs
      split at hs
      · rename_i hd
        cases hs
        obtain ⟨_, ⟨k, hk⟩, _⟩ := hd
        refine ⟨fun m hm => ?_, fun m hm => ?_, fun _ ns => by simp [note, hsw ns], fun ns hns => absurd (by simpa [note] using hns) (hsw ns)⟩
        · simp only [note, List.mem_filter, decide_eq_true_eq] at hm
          rcases h.rec_ m hm.1 with ⟨⟨k, h1⟩, h2⟩ | h1 | h1
          · refine .inl ⟨⟨k, by simp [note, h1]⟩, ?_⟩
            simp only [note, List.mem_append, List.mem_singleton, not_or, Ev.removed.injEq]
            exact ⟨h2, hm.2⟩
          · exact .inr (.inl (by simp [note, h1]))
          · exact .inr (.inr h1)
        · simp only [note, List.mem_append, List.mem_singleton, Ev.removed.injEq] at hm
          rcases hm with hm | rfl
          · obtain ⟨k', h1⟩ := h.rem m hm
            exact ⟨k', by simp [note, h1]⟩
          · exact ⟨k, by simp [note, hk]⟩
      · cases hs
    | exit =>
      cases hs
      refine ⟨fun m hm => ?_, fun m hm => ?_, fun x => (by cases x), fun ns hns => ?_⟩
      · rcases h.rec_ m hm with ⟨⟨k, h1⟩, h2⟩ | h1 | h1
        · exact .inl ⟨⟨k, by simp [note, h1]⟩, by simp [note, h2]⟩
        · exact .inr (.inl (by simp [note, h1]))
        · exact .inr (.inr h1)
      · obtain ⟨k', h1⟩ := h.rem m (by simpa [note] using hm)
        exact ⟨k', by simp [note, h1]⟩
      · simp only [note, List.mem_append, List.mem_singleton, Ev.swept.injEq] at hns
        rcases hns with hns | rfl
        · exact absurd hns (hsw ns)
        · rfl

theorem Run.inv {st : St T N} (h : Run st) : Inv st := by
  induction h with
  | init => exact inv_init
  | step a _ hs ih => exact inv_step ih hs

/-- At most one thread attaches, and while it opens a segment, segments are ignored. -/
structure SInv (st : St T N) : Prop where
  one : ∀ t u, st.doing t ≠ .other → st.doing u ≠ .other → t = u
  hook : ∀ t n, st.doing t = .opening n → st.hook = .ignore
  rec_ : ∀ n ∈ st.record, Owns st.log n

theorem single_inv {st : St T N} (h : Single st) : SInv st := by
  induction h with
  | init => exact ⟨by simp [init], by simp [init], by simp [init]⟩
  | @step st st' a hr hs h1 ih =>
    have hi := hr.run.inv
    unfold step at hs
    by_cases ho : st.over = true
    · rw [if_pos ho] at hs; cases hs
    · rw [if_neg ho] at hs
      have upd : ∀ (t : T) (d : Doing N) (s : St T N), s.doing = st.doing → st.doing t ≠ .other →
          ∀ x y, (setDoing s t d).doing x ≠ .other → (setDoing s t d).doing y ≠ .other → x = y := by
        intro t d s es ht x y hx hy
        simp only [setDoing, es] at hx hy
        refine ih.one x y ?_ ?_
        · split at hx
          · rename_i e; rw [e]; exact ht
          · exact hx
        · split at hy
          · rename_i e; rw [e]; exact ht
          · exact hy
      cases a with
      | begin_ t n =>
        simp only [begin_] at hs
        split at hs
        · cases hs
          have hid := h1 t n rfl
          refine ⟨fun x y hx hy => ?_, fun _ _ _ => rfl, ih.rec_⟩
          simp only [setDoing] at hx hy
          split at hx
          · split at hy
            · rename_i e1 e2; rw [e1, e2]
            · exact absurd (hid y) hy
          · exact absurd (hid x) hx
        · cases hs
      | fail t =>
        simp only [fail] at hs
        split at hs
        · rename_i n hd
          cases hs
          refine ⟨upd t .other st rfl (by simp [hd]), fun x m hx => ?_, fun m hm => by simpa [Owns, note, setDoing] using ih.rec_ m hm⟩
          simp only [note, setDoing] at hx
          split at hx
          · cases hx
          · exact ih.hook x m hx
        · cases hs
      | open_ t =>
        simp only [open_] at hs
        split at hs
        · rename_i n hd
          simp only [register, ih.hook t n hd, Option.map_some] at hs
          cases hs
          refine ⟨upd t _ st rfl (by simp [hd]), fun x m hx => ?_, ih.rec_⟩
          simp only [setDoing] at hx
          split at hx
          · cases hx
          · exact ih.hook x m hx
        · cases hs
      | leave t =>
        simp only [leave] at hs
        split at hs
        · rename_i n hd
          cases hs
          refine ⟨upd t .other _ rfl (by simp [hd]), fun x m hx => ?_, fun m hm => by simpa [Owns, note, setDoing] using ih.rec_ m hm⟩
          simp only [note, setDoing] at hx
          split at hx
          · cases hx
          · rename_i e
            exact absurd (ih.one x t (by simp [hx]) (by simp [hd])) e
        · cases hs
      | create t k n =>
        have hh := inv_step hi (a := .create t k n) (st' := st') (by unfold step; rw [if_neg ho]; exact hs)
        simp only [create] at hs
        split at hs
        · rename_i hd
          have hfr := fresh_spec hd.2
          have hnr : Ev.removed n ∉ st.log := fun hr => by obtain ⟨k, hk⟩ := hi.rem n hr; exact hfr.1 k hk
          have key : ∀ r : List N, (∀ m ∈ r, m ∈ st.record ∨ m = n) → SInv (note { st with record := r } (.created k n)) := by
            intro r hr
            refine ⟨ih.one, ih.hook, fun m hm => ?_⟩
            rcases hr m hm with h0 | rfl
            · obtain ⟨⟨k', h1⟩, h2⟩ := ih.rec_ m h0
              exact ⟨⟨k', by simp [note, h1]⟩, by simp [note, h2]⟩
            · exact ⟨⟨k, by simp [note]⟩, by simp [note, hnr]⟩
          cases hk : st.hook <;> cases k <;> simp only [register, hk] at hs <;> cases hs
          · rw [← hk]; exact key (st.record ++ [n]) (by intro m hm; simpa using hm)
          · rw [← hk]; exact key (st.record ++ [n]) (by intro m hm; simpa using hm)
          · exact key st.record (fun m hm => .inl hm)
          · exact ⟨ih.one, ih.hook, fun m hm => by simpa [Owns, note] using ih.rec_ m hm⟩
        · cases hs
      | remove t n =>
        simp only [remove] at hs
        split at hs
        · cases hs
          refine ⟨ih.one, ih.hook, fun m hm => ?_⟩
          simp only [note, List.mem_filter, decide_eq_true_eq] at hm
          obtain ⟨⟨k, h1⟩, h2⟩ := ih.rec_ m hm.1
          refine ⟨⟨k, by simp [note, h1]⟩, ?_⟩
          simp only [note, List.mem_append, List.mem_singleton, not_or, Ev.removed.injEq]
          exact ⟨h2, hm.2⟩
        · cases hs
      | exit =>
        cases hs
        exact ⟨ih.one, ih.hook, fun m hm => by simpa [Owns, note] using ih.rec_ m hm⟩

/-- In calm executions the original function is there whenever no thread attaches. -/
structure CInv (st : St T N) : Prop where
  hook : Idle st → st.hook = .std
  all : ∀ n, Owns st.log n → n ∈ st.record
  nor : ∀ k n, Ev.raised k n ∉ st.log

theorem calm_inv {st : St T N} (h : Calm st) : CInv st := by
  induction h with
  | init => exact ⟨fun _ => rfl, by simp [init, Owns], by simp [init]⟩
  | @step st st' a hr hs h1 h2 h3 ih =>
    have hi := hr.single.run.inv
    unfold step at hs
    by_cases ho : st.over = true
    · rw [if_pos ho] at hs; cases hs
    · rw [if_neg ho] at hs
      cases a with
      | begin_ t n =>
        simp only [begin_] at hs
        split at hs
        · cases hs
          exact ⟨fun x => by have := x t; simp [setDoing] at this, ih.all, ih.nor⟩
        · cases hs
      | fail t => exact absurd rfl (h3 t)
      | open_ t =>
        simp only [open_] at hs
        split at hs
        · rename_i n hd
          simp only [register, (single_inv hr.single).hook t n hd, Option.map_some] at hs
          cases hs
          exact ⟨fun x => by have := x t; simp [setDoing] at this, ih.all, ih.nor⟩
        · cases hs
      | leave t =>
        simp only [leave] at hs
        split at hs
        · cases hs
          exact ⟨fun _ => rfl, fun m hm => ih.all m (by simpa [Owns, note, setDoing] using hm), fun k n => by simp [note, setDoing, ih.nor k n]⟩
        · cases hs
      | create t k n =>
        have hk := ih.hook (h2 t k n rfl)
        simp only [create, register, hk] at hs
        split at hs
        · cases hs
          refine ⟨fun _ => rfl, fun m hm => ?_, fun k n => by simp [note, ih.nor k n]⟩
          obtain ⟨⟨k', h1⟩, h2⟩ := hm
          simp only [note, List.mem_append, List.mem_singleton, not_or, Ev.created.injEq] at h1 h2 ⊢
          rcases h1 with h1 | ⟨_, rfl⟩
          · exact .inl (ih.all m ⟨⟨k', h1⟩, h2.1⟩)
          · exact .inr rfl
        · cases hs
      | remove t n =>
        simp only [remove] at hs
        split at hs
        · cases hs
          refine ⟨ih.hook, fun m hm => ?_, fun k n => by simp [note, ih.nor k n]⟩
          obtain ⟨⟨k', h1⟩, h2⟩ := hm
          simp only [note, List.mem_append, List.mem_singleton, not_or, Ev.removed.injEq, reduceCtorEq, or_false] at h1 h2 ⊢
          exact List.mem_filter.2 ⟨ih.all m ⟨⟨k', h1⟩, h2.1⟩, by simpa using h2.2⟩
        · cases hs
      | exit =>
        cases hs
        exact ⟨ih.hook, fun m hm => ih.all m (by simpa [Owns, note] using hm), fun k n => by simp [note, ih.nor k n]⟩

/-- If at most one thread at a time attaches to segments, what is removed when the process ends is its own: it was created
by it and not yet removed.  Attaching may raise, and other threads may create what they like meanwhile. -/
theorem C115_own_partial {st : St T N} (h : Single st) {ns : List N} (hs : Ev.swept ns ∈ st.log) (n : N) (hn : n ∈ ns) : Owns st.log n := by
  rw [h.run.inv.over ns hs] at hn
  exact (single_inv h).rec_ n hn

/-- If moreover attaching does not raise and nothing is created meanwhile, creating things never raises, and everything the
process has created and not removed is removed when it ends. -/
theorem C115_all_partial {st : St T N} (h : Calm st) : (∀ k n, Ev.raised k n ∉ st.log) ∧ ∀ ns, Ev.swept ns ∈ st.log → ∀ n, n ∈ ns ↔ Owns st.log n := by
  refine ⟨(calm_inv h).nor, fun ns hs n => ⟨C115_own_partial h.single hs n, fun ho => ?_⟩⟩
  rw [h.single.run.inv.over ns hs]
  exact (calm_inv h).all n ho

/-! ## Violations -/

/-- Violation: if a thread attaches and that raises, then until a segment is attached again,
creating a lock raises, and a segment that is created is not removed when the process ends. -/
theorem C115_negation_failed {st st1 st2 st3 : St T N} (h : Single st) {t : T} (hs : step st (.fail t) = some st1)
    {as : List (Act T N)} (hb : ∀ u n, Act.begin_ u n ∉ as) (hr : run as st1 = some st2) {u : T} {k : Kind} {n : N} (hc : step st2 (.create u k n) = some st3) :
    (k = .semaphore → st3.log = st2.log ++ [.raised k n]) ∧
    (k = .segment → st3.log = st2.log ++ [.created k n] ∧ ∃ ns st4, step st3 .exit = some st4 ∧ st4.log = st3.log ++ [.swept ns] ∧ n ∉ ns) := by
  have key : ∀ (as : List (Act T N)) {s s' : St T N}, Run s → Idle s → s.hook = .ignore → (∀ u n, Act.begin_ u n ∉ as) → run as s = some s' → Run s' ∧ Idle s' ∧ s'.hook = .ignore := by
    intro as
    induction as with
    | nil => intro s s' h1 h2 h3 _ hr; cases hr; exact ⟨h1, h2, h3⟩
    | cons a as ih =>
      intro s s' h1 h2 h3 hb hr
      simp only [run] at hr
      split at hr
      · rename_i s1 hs1
        have hx : Idle s1 ∧ s1.hook = .ignore := by
          have hs2 := hs1
          unfold step at hs2
          split at hs2
          · cases hs2
          · cases a with
            | begin_ u n => exact absurd (List.mem_cons_self ..) (hb u n)
            | fail u => simp only [fail, h2 u] at hs2; cases hs2
            | open_ u => simp only [open_, h2 u] at hs2; cases hs2
            | leave u => simp only [leave, h2 u] at hs2; cases hs2
            | create u k n =>
              simp only [create] at hs2
              split at hs2
              · cases k <;> simp only [register, h3] at hs2 <;> cases hs2 <;> exact ⟨h2, h3⟩
              · cases hs2
            | remove u n =>
              simp only [remove] at hs2
              split at hs2
              · cases hs2; exact ⟨h2, h3⟩
              · cases hs2
            | exit => cases hs2; exact ⟨h2, h3⟩
        exact ih (.step a h1 hs1) hx.1 hx.2 (fun u n hm => hb u n (List.mem_cons_of_mem _ hm)) hr
      · cases hr
  have hr1 : Run st1 := .step _ h.run hs
  have h1 : Idle st1 ∧ st1.hook = .ignore := by
    unfold step at hs
    split at hs
    · cases hs
    · simp only [fail] at hs
      split at hs
      · rename_i n hd
        cases hs
        refine ⟨fun x => ?_, (single_inv h).hook t n hd⟩
        simp only [note, setDoing]
        split
        · rfl
        · rename_i e
          exact Classical.byContradiction (fun hx => e ((single_inv h).one x t hx (by simp [hd])))
      · cases hs
  obtain ⟨hr2, hi2, hk2⟩ := key as hr1 h1.1 h1.2 hb hr
  unfold step at hc
  split at hc
  · cases hc
  · rename_i ho
    simp only [create] at hc
    split at hc
    · rename_i hd
      have hfr := fresh_spec hd.2
      cases k with
      | semaphore =>
        simp only [register, hk2] at hc
        cases hc
        exact ⟨fun _ => rfl, fun x => by cases x⟩
      | segment =>
        simp only [register, hk2] at hc
        cases hc
        refine ⟨(fun x => by cases x), fun _ => ⟨rfl, st2.record, _, (by unfold step; rw [if_neg (show ¬ (note st2 (Ev.created Kind.segment n)).over = true from ho)]), rfl, fun hm => ?_⟩⟩
        rcases hr2.inv.rec_ n hm with ⟨⟨k, h1⟩, _⟩ | h1 | ⟨x, hx⟩
        · exact hfr.1 k h1
        · exact hfr.2.2 h1
        · rw [hi2 x] at hx; cases hx
    · cases hc

theorem run_of_run : ∀ (as : List (Act T N)) {st st' : St T N}, Run st → run as st = some st' → Run st' := by
  intro as
  induction as with
  | nil => intro st st' h hr; cases hr; exact h
  | cons a as ih =>
    intro st st' h hr
    simp only [run] at hr
    split at hr
    · rename_i st1 hs; exact ih (.step a h hs) hr
    · cases hr

/-- Violation, witnesses.  Two threads attach at the same time: one of the segments, which another process has created, is
removed from the system when this process ends.  A thread creates a lock while another attaches: it raises.  After attaching
has raised, creating a lock raises. -/
theorem C115_negation :
    (∃ st : St Char Nat, Run st ∧ Ev.swept [2] ∈ st.log ∧ ¬ Owns st.log 2) ∧
    (∃ st : St Char Nat, Single st ∧ (∀ n, Ev.refused n ∉ st.log) ∧ Ev.raised .semaphore 5 ∈ st.log) ∧
    (∃ st : St Char Nat, Single st ∧ Idle st ∧ Ev.raised .semaphore 5 ∈ st.log) := by
  refine ⟨⟨_, run_of_run [.begin_ 'a' 1, .begin_ 'b' 2, .open_ 'a', .leave 'a', .open_ 'b', .leave 'b', .exit] .init rfl, by decide, ?_⟩, ?_, ?_⟩
  · rintro ⟨⟨k, hk⟩, _⟩; revert hk; cases k <;> decide
  · refine ⟨_, .step (.create 'b' .semaphore 5) (.step (.begin_ 'a' 1) .init rfl (fun _ _ _ _ => rfl)) rfl (by simp), ?_, by decide⟩
    intro n hn
    simp [note, setDoing, init] at hn
  · refine ⟨_, .step (.create 'a' .semaphore 5) (.step (.fail 'a') (.step (.begin_ 'a' 1) .init rfl (fun _ _ _ _ => rfl)) rfl (by simp)) rfl (by simp), ?_, by decide⟩
    intro t
    simp only [note, setDoing, init]
    split <;> rfl

/-- Until the process ends, a thread can attach to any segment; if no other thread comes between, the segment is attached and not
recorded, and things that are created afterwards are recorded.  A resource the process owns can be removed, and then is recorded no more.  The
process can end. -/
theorem C115_goes_on {st : St T N} (ho : st.over = false) :
    (∀ t n, st.doing t = .other → ∃ st', run [.begin_ t n, .open_ t, .leave t] st = some st' ∧ st'.log = st.log ++ [.attached n] ∧
      st'.record = st.record ∧ st'.over = false ∧ (∀ u, st'.doing u = st.doing u) ∧
      ∀ u k m, st'.doing u = .other → (∀ e ∈ st'.log, ∀ k, e ≠ .created k m ∧ e ≠ .raised k m ∧ e ≠ .attached m) →
        ∃ st'', step st' (.create u k m) = some st'' ∧ st''.log = st'.log ++ [.created k m] ∧ st''.record = st'.record ++ [m]) ∧
    (∀ t n, st.doing t = .other → Owns st.log n → ∃ st', step st (.remove t n) = some st' ∧ st'.log = st.log ++ [.removed n] ∧
      ∀ m, m ∈ st'.record ↔ m ∈ st.record ∧ m ≠ n) ∧
    ∃ st', step st .exit = some st' ∧ st'.log = st.log ++ [.swept st.record] := by
  refine ⟨fun t n ht => ?_, fun t n ht hw => ?_, ?_⟩
  · refine ⟨note { st with hook := .std } (.attached n), ?_, rfl, rfl, ho, fun _ => rfl, fun u k m hu hf => ?_⟩
    · simp only [run, step, ho, begin_, ht, open_, leave, setDoing, register, Option.map_some, if_true, if_false, note, Bool.false_eq_true]
      congr 2
      funext x
      by_cases e : x = t
      · simp [e, ht]
      · simp [e]
    · have hfr : fresh m (note { st with hook := .std } (.attached n)).log = true := by
        simp only [fresh, List.all_eq_true]
        intro e he
        cases e with
        | created k' x => have := (hf _ he k').1; simp only [ne_eq, Ev.created.injEq, true_and] at this; simpa using this
        | raised k' x => have := (hf _ he k').2.1; simp only [ne_eq, Ev.raised.injEq, true_and] at this; simpa using this
        | attached x => have := (hf _ he k).2.2; simp only [ne_eq, Ev.attached.injEq] at this; simpa using this
        | _ => rfl
      refine ⟨note { note { st with hook := .std } (.attached n) with record := st.record ++ [m] } (.created k m), ?_, rfl, rfl⟩
      have e0 : (note { st with hook := .std } (.attached n)).over = false := ho
      simp only [step, e0, create]
      rw [if_neg (by simp), if_pos ⟨hu, hfr⟩]
      simp [register, note, ho]
  · refine ⟨note { st with record := st.record.filter (fun x => decide (x ≠ n)) } (.removed n), ?_, rfl, fun m => ?_⟩
    · simp only [step, ho, remove]
      rw [if_neg (by simp), if_pos ⟨ht, hw⟩]
    · simp [note]
  · exact ⟨note { st with over := true } (.swept st.record), by simp [step, ho], rfl⟩

/-- A lock is recorded; while another thread attaches to segment 3, thread `a` attaches to segment 1, then creates segment 2. -/
example : ∃ st st' : St Char Nat, Run st ∧ st.over = false ∧ st.record = [5] ∧
    run [.begin_ 'a' 1, .open_ 'a', .leave 'a', .create 'a' .segment 2, .remove 'a' 5, .exit] st = some st' ∧
    st'.log = [.created .semaphore 5, .attached 1, .created .segment 2, .removed 5, .swept [2]] :=
  ⟨_, _, run_of_run [.create 'a' .semaphore 5, .begin_ 'b' 3] .init rfl, rfl, rfl, rfl, by decide⟩

/-! ## Examples -/

/-- A calm execution: a segment and a lock are created, another segment is attached, the first one is removed; the lock is
removed when the process ends. -/
example : (run [.create 'a' .segment 1, .create 'b' .semaphore 2, .begin_ 'a' 3, .open_ 'a', .leave 'a', .remove 'b' 1, .exit] (init : St Char Nat)).map (fun st => st.log) =
    some [.created .segment 1, .created .semaphore 2, .attached 3, .removed 1, .swept [2]] := by rfl

/-- It is one. -/
example : ∃ st : St Char Nat, Calm st ∧ st.log = [.created .segment 1, .attached 3, .swept [1]] := by
  have i0 : Idle (init : St Char Nat) := fun _ => rfl
  have c1 := Calm.step (.create 'a' .segment 1) (.init : Calm (init : St Char Nat)) rfl (by simp) (fun _ _ _ _ => i0) (by simp)
  have c2 := Calm.step (.begin_ 'a' 3) c1 rfl (fun _ _ _ => i0) (by simp) (by simp)
  have c3 := Calm.step (.open_ 'a') c2 rfl (by simp) (by simp) (by simp)
  have c4 := Calm.step (.leave 'a') c3 rfl (by simp) (by simp) (by simp)
  exact ⟨_, Calm.step .exit c4 rfl (by simp) (by simp) (by simp), rfl⟩

/-- The hypotheses of `C115_negation_failed`: the segment created after the failure is left behind, the one before is not. -/
example : (run [.create 'a' .segment 1, .begin_ 'a' 3, .fail 'a', .create 'b' .segment 4, .create 'b' .semaphore 5, .exit] (init : St Char Nat)).map (fun st => st.log) =
    some [.created .segment 1, .refused 3, .created .segment 4, .raised .semaphore 5, .swept [1]] := by rfl

end Tracker
end Ez
