import Verif.Model.ShmLease
import Verif.Props.Backpressure

/-!
# C49: life time of shared memory segments
-/

set_option linter.unusedSimpArgs false

namespace Ez
namespace ShmServer

/-- Run a history of events on an empty server: final state and the events with their replies. -/
def run (h : List ShmOp) : ShmServer × List (ShmOp × Option (Nat × Nat)) :=
  h.foldl (fun st op => ((st.1.step op).1, st.2 ++ [(op, (st.1.step op).2)])) (init, [])

/-- Specification: lease `l` on segment `i` was granted and its connection has not ended since. -/
def Holding (tr : List (ShmOp × Option (Nat × Nat))) (i l : Nat) : Prop :=
  ∃ pre op post, tr = pre ++ (op, some (i, l)) :: post ∧ ∀ e ∈ post, e.1 ≠ .close l

/-- No attach request names a segment that no longer exists. -/
def NoLateAttach (h : List ShmOp) : Prop :=
  ∀ pre i post, h = pre ++ .attach i :: post →
    ∀ info, (run pre).1.shms[i]? = some info → info.linked = true

theorem run_snoc (h : List ShmOp) (op : ShmOp) :
    run (h ++ [op]) = (((run h).1.step op).1, (run h).2 ++ [(op, ((run h).1.step op).2)]) := by
  simp [run]

theorem holding_snoc (tr : List (ShmOp × Option (Nat × Nat))) (e : ShmOp × Option (Nat × Nat))
    (i l : Nat) : Holding (tr ++ [e]) i l ↔
      e.2 = some (i, l) ∨ (Holding tr i l ∧ e.1 ≠ .close l) := by
  constructor
  · rintro ⟨pre, op, post, he, h1⟩
    rcases List.eq_nil_or_concat post with hp | ⟨post', x, hp⟩
    · subst hp
      have := (List.append_inj' he (by simp)).2
      left; simp at this; rw [this]
    · subst hp
      right
      have he' : tr ++ [e] = (pre ++ (op, some (i, l)) :: post') ++ [x] := by simp [he]
      obtain ⟨e1, e2⟩ := List.append_inj' he' (by simp)
      have e2 : e = x := by simpa using e2
      subst e2
      exact ⟨⟨pre, op, post', e1, fun y hy => h1 y (by simp [hy])⟩, h1 e (by simp)⟩
  · rintro (h | ⟨⟨pre, op, post, rfl, h1⟩, h2⟩)
    · exact ⟨tr, e.1, [], by simp [← h], by simp⟩
    · refine ⟨pre, op, post ++ [e], by simp, ?_⟩
      intro y hy
      simp at hy
      rcases hy with hy | rfl
      · exact h1 y hy
      · exact h2

/-- Invariant: the recorded leases are exactly the live ones, below the counter, and distinct
segments have distinct leases. -/
structure LInv (h : List ShmOp) : Prop where
  rec_ : ∀ (i l : Nat), (∃ info, (run h).1.shms[i]? = some info ∧ l ∈ info.leases) ↔ Holding (run h).2 i l
  fresh : ∀ (i : Nat) info, (run h).1.shms[i]? = some info → ∀ l ∈ info.leases, l < (run h).1.nextLease
  unl : ∀ (i : Nat) info, (run h).1.shms[i]? = some info →
    ((info.linked = true ↔ info.unlinks = 0) ∧ (info.linked = true → info.leases ≠ []))

theorem linv (h : List ShmOp) : LInv h := by
  induction h using list_snoc_induction with
  | h0 =>
    refine ⟨?_, ?_, ?_⟩
    · intro i l
      constructor
      · rintro ⟨info, h1, _⟩; simp [run, init] at h1
      · rintro ⟨pre, op, post, he, _⟩; simp [run] at he
    · intro i info h1; simp [run, init] at h1
    · intro i info h1; simp [run, init] at h1
  | hs h op ih =>
    obtain ⟨i1, i2, i3⟩ := ih
    cases op with
    | create =>
      have hst : (run (h ++ [ShmOp.create])).1 =
        ⟨(run h).1.shms ++ [⟨[(run h).1.nextLease], true, 0⟩], (run h).1.nextLease + 1⟩ := by
        rw [run_snoc]; simp [step, ShmInfo.lease, PySet.add]
      have htr : (run (h ++ [ShmOp.create])).2 = (run h).2 ++
        [(.create, some ((run h).1.shms.length, (run h).1.nextLease))] := by
        rw [run_snoc]; simp [step]
      have hget : ∀ (i : Nat) info, (run (h ++ [ShmOp.create])).1.shms[i]? = some info ↔
          (run h).1.shms[i]? = some info ∨
          (i = (run h).1.shms.length ∧ info = ⟨[(run h).1.nextLease], true, 0⟩) := by
        intro i info
        rw [hst]
        simp only
        rcases Nat.lt_or_ge i (run h).1.shms.length with hi | hi
        · rw [List.getElem?_append_left hi]
          constructor
          · exact Or.inl
          · rintro (hh | ⟨hh, _⟩)
            · exact hh
            · omega
        · rw [List.getElem?_append_right hi, List.getElem?_eq_none hi]
          rcases Nat.eq_or_lt_of_le hi with he | hlt
          · rw [he]; simp; exact eq_comm
          · rw [List.getElem?_eq_none (by simp; omega)]
            simp
            omega
      refine ⟨?_, ?_, ?_⟩
      · intro i l
        rw [htr, holding_snoc]
        simp only [hget]
        constructor
        · rintro ⟨info, hi | ⟨rfl, rfl⟩, hl⟩
          · exact Or.inr ⟨(i1 i l).1 ⟨info, hi, hl⟩, by simp⟩
          · simp at hl; subst hl; exact Or.inl rfl
        · rintro (hh | ⟨hh, _⟩)
          · simp at hh
            obtain ⟨rfl, rfl⟩ := hh
            exact ⟨_, Or.inr ⟨rfl, rfl⟩, by simp⟩
          · obtain ⟨info, e1, e2⟩ := (i1 i l).2 hh
            exact ⟨info, Or.inl e1, e2⟩
      · intro i info hi l hl
        rw [hst]
        rcases (hget i info).1 hi with hi | ⟨_, rfl⟩
        · have := i2 i info hi l hl
          simp only; omega
        · simp at hl; simp only; omega
      · intro i info hi
        rcases (hget i info).1 hi with hi | ⟨_, rfl⟩
        · exact i3 i info hi
        · simp
    | attach k =>
      cases hk : (run h).1.shms[k]? with
      | none =>
        have hst : (run (h ++ [ShmOp.attach k])).1 = (run h).1 := by
          rw [run_snoc]; simp [step, hk]
        have htr : (run (h ++ [ShmOp.attach k])).2 = (run h).2 ++ [(.attach k, none)] := by
          rw [run_snoc]; simp [step, hk]
        refine ⟨?_, ?_, ?_⟩
        · intro i l
          rw [htr, holding_snoc, hst, i1]
          simp
        · rw [hst]; exact i2
        · rw [hst]; exact i3
      | some ik =>
        have hst : (run (h ++ [ShmOp.attach k])).1 =
            ⟨(run h).1.shms.set k (ik.lease (run h).1.nextLease), (run h).1.nextLease + 1⟩ := by
          rw [run_snoc]; simp [step, hk]
        have htr : (run (h ++ [ShmOp.attach k])).2 = (run h).2 ++
            [(.attach k, some (k, (run h).1.nextLease))] := by
          rw [run_snoc]; simp [step, hk]
        have hkl : k < (run h).1.shms.length := by
          rcases Nat.lt_or_ge k (run h).1.shms.length with hh | hh
          · exact hh
          · rw [List.getElem?_eq_none hh] at hk; cases hk
        have hget : ∀ (i : Nat) info, (run (h ++ [ShmOp.attach k])).1.shms[i]? = some info ↔
            (i ≠ k ∧ (run h).1.shms[i]? = some info) ∨
            (i = k ∧ info = ik.lease (run h).1.nextLease) := by
          intro i info
          rw [hst]
          simp only [List.getElem?_set]
          by_cases hik : k = i
          · subst hik
            simp [hkl]
            exact eq_comm
          · rw [if_neg hik]
            have hik' : i ≠ k := fun hh => hik hh.symm
            simp [hik']
        refine ⟨?_, ?_, ?_⟩
        · intro i l
          rw [htr, holding_snoc]
          simp only [hget]
          constructor
          · rintro ⟨info, ⟨_, hi⟩ | ⟨rfl, rfl⟩, hl⟩
            · exact Or.inr ⟨(i1 i l).1 ⟨info, hi, hl⟩, by simp⟩
            · simp [ShmInfo.lease] at hl
              rcases hl with hl | rfl
              · exact Or.inr ⟨(i1 i l).1 ⟨ik, hk, hl⟩, by simp⟩
              · exact Or.inl rfl
          · rintro (hh | ⟨hh, _⟩)
            · simp at hh
              obtain ⟨rfl, rfl⟩ := hh
              exact ⟨_, Or.inr ⟨rfl, rfl⟩, by simp [ShmInfo.lease]⟩
            · obtain ⟨info, e1, e2⟩ := (i1 i l).2 hh
              by_cases hik : i = k
              · subst hik
                rw [hk] at e1
                injection e1 with e1
                subst e1
                exact ⟨_, Or.inr ⟨rfl, rfl⟩, by simp [ShmInfo.lease, e2]⟩
              · exact ⟨info, Or.inl ⟨hik, e1⟩, e2⟩
        · intro i info hi l hl
          rw [hst]
          simp only
          rcases (hget i info).1 hi with ⟨_, hi⟩ | ⟨_, rfl⟩
          · have := i2 i info hi l hl
            omega
          · simp [ShmInfo.lease] at hl
            rcases hl with hl | rfl
            · have := i2 k ik hk l hl
              omega
            · omega
        · intro i info hi
          rcases (hget i info).1 hi with ⟨_, hi⟩ | ⟨_, rfl⟩
          · exact i3 i info hi
          · have := i3 k ik hk
            refine ⟨this.1, ?_⟩
            intro _ hh
            have : (run h).1.nextLease ∈ (ik.lease (run h).1.nextLease).leases := by
              simp [ShmInfo.lease]
            rw [hh] at this
            simp at this
    | close k =>
      have hst : (run (h ++ [ShmOp.close k])).1 = ⟨(run h).1.shms.map
          (fun info => if k ∈ info.leases then info.release k else info), (run h).1.nextLease⟩ := by
        rw [run_snoc]; simp [step]
      have htr : (run (h ++ [ShmOp.close k])).2 = (run h).2 ++ [(.close k, none)] := by
        rw [run_snoc]; simp [step]
      have hget : ∀ (i : Nat) info, (run (h ++ [ShmOp.close k])).1.shms[i]? = some info ↔
          ∃ old, (run h).1.shms[i]? = some old ∧
            info = if k ∈ old.leases then old.release k else old := by
        intro i info
        rw [hst]
        simp only [List.getElem?_map, Option.map_eq_some_iff]
        constructor
        · rintro ⟨a, h1, h2⟩; exact ⟨a, h1, h2.symm⟩
        · rintro ⟨a, h1, h2⟩; exact ⟨a, h1, h2.symm⟩
      have hrel : ∀ old : ShmInfo, ∀ l,
          l ∈ (if k ∈ old.leases then old.release k else old).leases ↔ l ∈ old.leases ∧ l ≠ k := by
        intro old l
        split
        · unfold ShmInfo.release
          simp only
          split <;> simp
        · rename_i hk
          constructor
          · intro hl; exact ⟨hl, by rintro rfl; exact hk hl⟩
          · exact fun hl => hl.1
      refine ⟨?_, ?_, ?_⟩
      · intro i l
        rw [htr, holding_snoc]
        simp only [hget]
        constructor
        · rintro ⟨info, ⟨old, h1, rfl⟩, hl⟩
          rw [hrel] at hl
          exact Or.inr ⟨(i1 i l).1 ⟨old, h1, hl.1⟩, by simpa using fun hh => hl.2 hh.symm⟩
        · rintro (hh | ⟨hh, hne⟩)
          · cases hh
          · obtain ⟨info, e1, e2⟩ := (i1 i l).2 hh
            refine ⟨_, ⟨info, e1, rfl⟩, ?_⟩
            rw [hrel]
            exact ⟨e2, by simpa using fun hh : l = k => hne (by rw [hh])⟩
      · intro i info hi l hl
        obtain ⟨old, h1, rfl⟩ := (hget i info).1 hi
        rw [hrel] at hl
        rw [hst]
        exact i2 i old h1 l hl.1
      · intro i info hi
        obtain ⟨old, h1, rfl⟩ := (hget i info).1 hi
        obtain ⟨j1, j2⟩ := i3 i old h1
        split
        · unfold ShmInfo.release
          simp only
          split
          · simp
          · rename_i hne
            refine ⟨j1, fun _ => ?_⟩
            intro hh
            exact hne (List.length_eq_zero_iff.2 hh)
        · exact ⟨j1, j2⟩

/-- **C49 (bookkeeping, unconditional).** After any history the leases recorded for each segment are
exactly those granted and not ended; a segment that still exists has at least one live lease; it is
gone exactly when it has been removed at least once. -/
theorem C49_leases_exact (h : List ShmOp) (i : Nat) (info : ShmInfo)
    (hi : (run h).1.shms[i]? = some info) :
    (∀ l, l ∈ info.leases ↔ Holding (run h).2 i l) ∧
    (info.linked = true → ∃ l, Holding (run h).2 i l) ∧
    (info.linked = false ↔ 0 < info.unlinks) := by
  obtain ⟨i1, i2, i3⟩ := linv h
  have hmem : ∀ l, l ∈ info.leases ↔ Holding (run h).2 i l := by
    intro l
    rw [← i1]
    constructor
    · intro hl; exact ⟨info, hi, hl⟩
    · rintro ⟨info', h1, h2⟩
      rw [hi] at h1; injection h1 with h1; subst h1; exact h2
  refine ⟨hmem, ?_, ?_⟩
  · intro hl
    have := (i3 i info hi).2 hl
    obtain ⟨l, hl⟩ := List.exists_mem_of_ne_nil _ this
    exact ⟨l, (hmem l).1 hl⟩
  · have := (i3 i info hi).1
    cases hb : info.linked
    · rw [hb] at this; simp at this ⊢; omega
    · rw [hb] at this; simp at this ⊢; omega

/-- **C49 (who gets a lease).** Creating a segment and attaching to one that was created are always answered with a lease
that nobody had before; attaching to a segment that was never created is refused and changes nothing. A segment
that was just created exists. -/
theorem C49_granted (h : List ShmOp) :
    (∃ i l, (run (h ++ [.create])).2 = (run h).2 ++ [(.create, some (i, l))] ∧ (run h).1.shms[i]? = none ∧
      (∀ j, ¬ Holding (run h).2 j l) ∧ ∃ info, (run (h ++ [.create])).1.shms[i]? = some info ∧ info.linked = true) ∧
    (∀ i info, (run h).1.shms[i]? = some info →
      ∃ l, (run (h ++ [.attach i])).2 = (run h).2 ++ [(.attach i, some (i, l))] ∧ ∀ j, ¬ Holding (run h).2 j l) ∧
    (∀ i, (run h).1.shms[i]? = none →
      (run (h ++ [.attach i])).2 = (run h).2 ++ [(.attach i, none)] ∧ (run (h ++ [.attach i])).1 = (run h).1) := by
  have fresh : ∀ j, ¬ Holding (run h).2 j (run h).1.nextLease := by
    intro j hh
    obtain ⟨info, h1, h2⟩ := ((linv h).rec_ j _).2 hh
    exact Nat.lt_irrefl _ ((linv h).fresh j info h1 _ h2)
  refine ⟨⟨(run h).1.shms.length, (run h).1.nextLease, ?_, ?_, fresh, ?_⟩, fun i info hi => ?_, fun i hi => ?_⟩
  · rw [run_snoc]; rfl
  · simp
  · rw [run_snoc]
    simp only [step, List.getElem?_append_right (Nat.le_refl _), Nat.sub_self, List.getElem?_cons_zero]
    exact ⟨_, rfl, rfl⟩
  · refine ⟨_, ?_, fresh⟩
    rw [run_snoc]
    simp only [step, hi]
  · rw [run_snoc]
    simp only [step, hi, and_self]

/-- **C49 (isolation, unconditional).** The end of a connection that holds no lease on segment `i`
leaves segment `i` untouched; creating or attaching never removes anything. -/
theorem C49_isolated (h : List ShmOp) (i l : Nat) (info : ShmInfo)
    (hi : (run h).1.shms[i]? = some info) :
    (¬ Holding (run h).2 i l → (run (h ++ [.close l])).1.shms[i]? = some info) ∧
    (∀ k info', ((run (h ++ [.attach k])).1.shms[i]? = some info' ∨
        (run (h ++ [.create])).1.shms[i]? = some info') →
      info'.linked = info.linked ∧ info'.unlinks = info.unlinks) := by
  obtain ⟨hmem, _, _⟩ := C49_leases_exact h i info hi
  constructor
  · intro hn
    rw [run_snoc]
    simp only [step, List.getElem?_map, hi, Option.map_some]
    rw [if_neg (fun hh => hn ((hmem l).1 hh))]
  · intro k info' hh
    rcases hh with hh | hh
    · rw [run_snoc] at hh
      simp only [step] at hh
      split at hh
      · rw [hi] at hh; injection hh with hh; subst hh; exact ⟨rfl, rfl⟩
      · rename_i ik hk
        simp only [List.getElem?_set] at hh
        split at hh
        · rename_i hki
          subst hki
          split at hh
          · injection hh with hh
            rw [hi] at hk; injection hk with hk
            subst hk hh
            exact ⟨rfl, rfl⟩
          · cases hh
        · rw [hi] at hh; injection hh with hh; subst hh; exact ⟨rfl, rfl⟩
    · rw [run_snoc] at hh
      simp only [step] at hh
      have hlt : i < (run h).1.shms.length := by
        rcases Nat.lt_or_ge i (run h).1.shms.length with hh | hh
        · exact hh
        · rw [List.getElem?_eq_none hh] at hi; cases hi
      rw [List.getElem?_append_left hlt, hi] at hh
      injection hh with hh; subst hh; exact ⟨rfl, rfl⟩

/-- **C49 (partial).** Missing: histories in which somebody attaches to a segment that has already been
removed (see `C49_negation`). In all others, a segment exists exactly as long as some lease on it is
live, and it is removed exactly once, when the last one ends. -/
theorem C49_lifetime_partial (h : List ShmOp) (hla : NoLateAttach h) (i : Nat) (info : ShmInfo)
    (hi : (run h).1.shms[i]? = some info) :
    (info.linked = true ↔ ∃ l, Holding (run h).2 i l) ∧
    (info.unlinks = 0 ↔ ∃ l, Holding (run h).2 i l) ∧ info.unlinks ≤ 1 := by
  have key : ∀ h, NoLateAttach h → ∀ (i : Nat) info, (run h).1.shms[i]? = some info →
      (info.leases = [] → info.linked = false) ∧ (info.leases ≠ [] → info.linked = true) ∧
      info.unlinks ≤ 1 := by
    intro h
    induction h using list_snoc_induction with
    | h0 => intro _ i info hi; simp [run, init] at hi
    | hs h op ih =>
      intro hla i info hi
      have hla' : NoLateAttach h := by
        intro pre j post he
        exact hla pre j (post ++ [op]) (by simp [he])
      have ih := ih hla'
      have hinv := linv h
      rw [run_snoc] at hi
      cases op with
      | create =>
        simp only [step] at hi
        rcases Nat.lt_or_ge i (run h).1.shms.length with hlt | hge
        · rw [List.getElem?_append_left hlt] at hi
          exact ih i info hi
        · rw [List.getElem?_append_right hge] at hi
          rcases Nat.eq_or_lt_of_le hge with he | hlt
          · rw [he] at hi
            simp [ShmInfo.lease, PySet.add] at hi
            subst hi
            simp
          · rw [List.getElem?_eq_none (by simp; omega)] at hi; cases hi
      | attach k =>
        simp only [step] at hi
        split at hi
        · exact ih i info hi
        · rename_i ik hk
          have hlk := hla h k [] rfl ik hk
          simp only [List.getElem?_set] at hi
          split at hi
          · split at hi
            · injection hi with hi
              subst hi
              have := ih k ik hk
              refine ⟨?_, fun _ => hlk, this.2.2⟩
              intro hh
              have hm : (run h).1.nextLease ∈ (ik.lease (run h).1.nextLease).leases := by
                simp [ShmInfo.lease]
              rw [hh] at hm
              simp at hm
            · cases hi
          · exact ih i info hi
      | close l =>
        simp only [step, List.getElem?_map, Option.map_eq_some_iff] at hi
        obtain ⟨old, h1, h2⟩ := hi
        obtain ⟨a1, a2, a3⟩ := ih i old h1
        obtain ⟨b1, _⟩ := hinv.unl i old h1
        split at h2
        · rename_i hl
          have hlinked := a2 (List.ne_nil_of_mem hl)
          have hu : old.unlinks = 0 := b1.1 hlinked
          subst h2
          unfold ShmInfo.release
          simp only
          split
          · rename_i hz
            refine ⟨fun _ => rfl, ?_, by simp [hu]⟩
            intro hh
            exact absurd (List.length_eq_zero_iff.1 hz) hh
          · rename_i hz
            refine ⟨?_, fun _ => hlinked, a3⟩
            intro hh
            exact absurd (List.length_eq_zero_iff.2 hh) hz
        · subst h2
          exact ⟨a1, a2, a3⟩
  obtain ⟨k1, k2, k3⟩ := key h hla i info hi
  obtain ⟨hmem, _, _⟩ := C49_leases_exact h i info hi
  have hex : info.leases ≠ [] ↔ ∃ l, Holding (run h).2 i l := by
    constructor
    · intro hne
      obtain ⟨l, hl⟩ := List.exists_mem_of_ne_nil _ hne
      exact ⟨l, (hmem l).1 hl⟩
    · rintro ⟨l, hl⟩
      exact List.ne_nil_of_mem ((hmem l).2 hl)
  have hlk : info.linked = true ↔ info.leases ≠ [] := by
    constructor
    · intro h1 h2; rw [k1 h2] at h1; cases h1
    · exact k2
  refine ⟨by rw [hlk, hex], ?_, k3⟩
  rw [← hex, ← hlk]
  exact ((linv h).unl i info hi).1.symm

/-- **C49 (disagreement).** `shms` keeps removed segments, so a late attach is answered with success
although the segment is gone, and when that connection ends the segment is removed a second time
(in the code: `FileNotFoundError` from `unlink`). -/
theorem C49_negation :
    ∃ h : List ShmOp, ∃ info : ShmInfo, (run h).1.shms[0]? = some info ∧ info.unlinks = 2 ∧
      ∃ l, (ShmOp.attach 0, some (0, l)) ∈ (run h).2 ∧
        ∃ pre post, h = pre ++ .attach 0 :: post ∧
          ∃ info', (run pre).1.shms[0]? = some info' ∧ info'.linked = false := by
  refine ⟨[.create, .close 0, .attach 0, .close 1], ⟨[], false, 2⟩, rfl, rfl, 1, by decide,
    [.create, .close 0], [.close 1], rfl, ⟨[], false, 1⟩, rfl, rfl⟩

/-- Non-vacuity of the C49 theorems: a history with two leases on one segment, one of which ends; the
segment still exists; after the second ends it is removed, once. -/
example : (run [.create, .attach 0, .close 0]).1.shms = [⟨[1], true, 0⟩] ∧
    (run [.create, .attach 0, .close 0, .close 1]).1.shms = [⟨[], false, 1⟩] ∧
    NoLateAttach [.create, .attach 0, .close 0, .close 1] := by
  refine ⟨by decide, by decide, ?_⟩
  intro pre i post he info hi
  match pre, he with
  | [], he => simp at he
  | [a], he =>
    simp at he
    obtain ⟨rfl, rfl, rfl⟩ := he
    simp [run, step, init, ShmInfo.lease, PySet.add] at hi
    subst hi; rfl
  | [a, b], he => simp at he
  | [a, b, c], he => simp at he
  | a :: b :: c :: d :: t, he =>
    have := congrArg List.length he
    simp at this

end ShmServer
end Ez
