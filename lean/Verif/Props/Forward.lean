import Verif.Model.Forward

/-!
# C114: messages that are passed on keep their content
-/

set_option linter.unusedSimpArgs false
set_option linter.unusedSectionVars false

namespace Ez
namespace Forward

variable {V : Type} {cfg : Cfg}

/-- Specification: the messages that were published, in order, each with whether it has arrays. -/
def sentL (log : List (Ev V)) : List (V × Bool) := log.filterMap (fun e => match e with | .sent v a => some (v, a) | _ => none)

/-- Specification: `c` is the content of the message number `j` that was published. -/
def Right (log : List (Ev V)) (j : Nat) (c : Option V) : Prop := ∃ v a, c = some v ∧ (sentL log)[j]? = some (v, a)

/-- Executions. -/
inductive Run (cfg : Cfg) : St V → Prop
  | init : Run cfg init
  | step {st st'} (a : Act V) : Run cfg st → step cfg st a = some st' → Run cfg st'

/-- The object `o` stands for message `k`. -/
def Good (cfg : Cfg) (sl : List (V × Bool)) (k : Nat) : Obj V → Prop
  | .own v => ∃ a, sl[k]? = some (v, a) ∧ (a = true → cfg.copy = true)
  | .view i => i = k % cfg.n ∧ ∃ v, sl[k]? = some (v, true)

/-- The objects stand for the messages from `k` on. -/
def Seq (cfg : Cfg) (sl : List (V × Bool)) : Nat → List (Obj V) → Prop
  | _, [] => True
  | k, o :: q => Good cfg sl k o ∧ Seq cfg sl (k + 1) q

/-- The same with their numbers. -/
def SeqN (cfg : Cfg) (sl : List (V × Bool)) : Nat → List (Nat × Obj V) → Prop
  | _, [] => True
  | k, p :: q => p.1 = k ∧ Good cfg sl k p.2 ∧ SeqN cfg sl (k + 1) q

theorem sentL_append (l m : List (Ev V)) : sentL (l ++ m) = sentL l ++ sentL m := by simp [sentL]

theorem sentL_arrived (l : List (Ev V)) (j : Nat) (c : Option V) : sentL (l ++ [.arrived j c]) = sentL l := by simp [sentL]

theorem sentL_seen (l : List (Ev V)) (j : Nat) (c : Option V) : sentL (l ++ [.seen j c]) = sentL l := by simp [sentL]

theorem sentL_sent (l : List (Ev V)) (v : V) (a : Bool) : sentL (l ++ [.sent v a]) = sentL l ++ [(v, a)] := by simp [sentL]

theorem get_mono {sl : List (V × Bool)} {k : Nat} {x y : V × Bool} (h : sl[k]? = some x) : (sl ++ [y])[k]? = some x := by
  rw [List.getElem?_append_left]
  · exact h
  · exact (List.getElem?_eq_some_iff.1 h).1

theorem Good.mono {sl : List (V × Bool)} {x : V × Bool} {k : Nat} {o : Obj V} (h : Good cfg sl k o) : Good cfg (sl ++ [x]) k o := by
  cases o with
  | own v => obtain ⟨a, h1, h2⟩ := h; exact ⟨a, get_mono h1, h2⟩
  | view i => obtain ⟨h1, v, h2⟩ := h; exact ⟨h1, v, get_mono h2⟩

theorem Seq.mono {sl : List (V × Bool)} {x : V × Bool} : ∀ {q : List (Obj V)} {k : Nat}, Seq cfg sl k q → Seq cfg (sl ++ [x]) k q
  | [], _, _ => trivial
  | _ :: _, _, h => ⟨h.1.mono, Seq.mono h.2⟩

theorem SeqN.mono {sl : List (V × Bool)} {x : V × Bool} : ∀ {q : List (Nat × Obj V)} {k : Nat}, SeqN cfg sl k q → SeqN cfg (sl ++ [x]) k q
  | [], _, _ => trivial
  | _ :: _, _, h => ⟨h.1, h.2.1.mono, SeqN.mono h.2.2⟩

theorem Seq.snoc {sl : List (V × Bool)} {o : Obj V} : ∀ {q : List (Obj V)} {k : Nat}, Seq cfg sl k q → Good cfg sl (k + q.length) o → Seq cfg sl k (q ++ [o])
  | [], _, _, h => ⟨h, trivial⟩
  | x :: q, k, h, g => ⟨h.1, Seq.snoc h.2 (by rw [show k + 1 + q.length = k + (x :: q).length by simp; omega]; exact g)⟩

theorem SeqN.snoc {sl : List (V × Bool)} {p : Nat × Obj V} : ∀ {q : List (Nat × Obj V)} {k : Nat}, SeqN cfg sl k q → p.1 = k + q.length → Good cfg sl (k + q.length) p.2 →
    SeqN cfg sl k (q ++ [p])
  | [], _, _, e, h => ⟨e, h, trivial⟩
  | x :: q, k, h, e, g => ⟨h.1, h.2.1, SeqN.snoc h.2.2 (by rw [e]; simp; omega) (by rw [show k + 1 + q.length = k + (x :: q).length by simp; omega]; exact g)⟩

theorem SeqN.ge {sl : List (V × Bool)} : ∀ {q : List (Nat × Obj V)} {k : Nat}, SeqN cfg sl k q → ∀ p ∈ q, k ≤ p.1
  | [], _, _, _, hp => nomatch hp
  | x :: q, k, h, p, hp => by
    rcases List.mem_cons.1 hp with rfl | hp
    · exact Nat.le_of_eq h.1.symm
    · exact Nat.le_of_succ_le (SeqN.ge h.2.2 p hp)

/-- How many messages the unit has taken but not yet published. -/
def pending (st : St V) : Nat := match st.block with | some (_, _, false) => 1 | _ => 0

structure Inv (cfg : Cfg) (st : St V) : Prop where
  nx : st.next = (sentL st.log).length
  sl : ∀ k, k < st.next → st.next ≤ k + cfg.n → st.slots (k % cfg.n) = ((sentL st.log)[k]?).map (·.1)
  ow : ∀ k ∈ st.owed, st.next ≤ k + cfg.n
  tot : st.emitted + st.store.length + pending st + st.inq.length = st.next
  inq : SeqN cfg (sentL st.log) (st.emitted + st.store.length + pending st) st.inq
  inqO : ∀ p ∈ st.inq, p.1 ∈ st.owed
  blk : ∀ k o h, st.block = some (k, o, h) → Good cfg (sentL st.log) k o ∧ k ∈ st.owed ∧
    (if h then k + 1 = st.emitted + st.store.length else k = st.emitted + st.store.length)
  str : Seq cfg (sentL st.log) st.emitted st.store
  out : Seq cfg (sentL st.log) st.got st.out
  em : st.emitted = st.got + st.out.length
  cur : ∀ j o, st.cur = some (j, o) → Good cfg (sentL st.log) j o ∧ j + 1 = st.got
  own : cfg.copy = true → (∀ o ∈ st.store, ∃ v, o = .own v) ∧ (∀ o ∈ st.out, ∃ v, o = .own v) ∧ (∀ j o, st.cur = some (j, o) → ∃ v, o = .own v)
  arr : ∀ j c, Ev.arrived j c ∈ st.log → (∃ v a, (sentL st.log)[j]? = some (v, a) ∧ (c = some v ∨ (a = true ∧ cfg.copy = false ∧ cfg.later = true)))
  seen : ∀ j c, Ev.seen j c ∈ st.log → (∃ v a, (sentL st.log)[j]? = some (v, a) ∧ (c = some v ∨ (a = true ∧ cfg.copy = false)))

theorem inv_init : Inv cfg (init : St V) := by
  constructor <;> simp [init, sentL, pending, Seq, SeqN]

/-- An object whose buffer was not reused has the content of its message. -/
theorem content_right {st : St V} (h : Inv cfg st) {k : Nat} {o : Obj V} (g : Good cfg (sentL st.log) k o) (hk : st.next ≤ k + cfg.n) : Right st.log k (content st o) := by
  cases o with
  | own v => obtain ⟨a, e, _⟩ := g; exact ⟨v, a, rfl, e⟩
  | view i =>
    obtain ⟨rfl, v, e⟩ := g
    have hlt : k < st.next := by rw [h.nx]; exact (List.getElem?_eq_some_iff.1 e).1
    exact ⟨v, true, by simp [content, h.sl k hlt hk, e], e⟩

theorem good_copied {st : St V} (h : Inv cfg st) {k : Nat} {o : Obj V} (g : Good cfg (sentL st.log) k o) (hk : st.next ≤ k + cfg.n) :
    Good cfg (sentL st.log) k (copied cfg st o) ∧ (cfg.copy = true → ∃ v, copied cfg st o = .own v) := by
  unfold copied
  by_cases hc : cfg.copy = true
  · obtain ⟨v, a, e1, e2⟩ := content_right h g hk
    rw [if_pos hc, e1]
    exact ⟨⟨a, e2, fun _ => hc⟩, fun _ => ⟨v, rfl⟩⟩
  · rw [if_neg hc]; exact ⟨g, fun x => absurd x hc⟩

/-- Publishing one object of the right number. -/
theorem inv_publish {st st' : St V} {o : Obj V} (h : Inv cfg { st with store := o :: st.store }) (hs : publish cfg st o = some st')
    (hc : Right st.log st.emitted (content st o) ∨ (cfg.copy = false ∧ cfg.later = true ∧ ∃ v, (sentL st.log)[st.emitted]? = some (v, true))) :
    Inv cfg st' := by
  unfold publish at hs
  split at hs
  · cases hs
    have hstr := h.str
    have e := sentL_arrived st.log st.emitted (content st o)
    exact { nx := by simp only [note, e]; exact h.nx
            sl := by simp only [note, e]; exact h.sl
            ow := h.ow
            tot := by have := h.tot; simp [note, pending] at this ⊢; omega
            inq := by have := h.inq; simp only [note, e]; simp [pending] at this ⊢; rw [show st.emitted + 1 + st.store.length = st.emitted + (st.store.length + 1) by omega]; exact this
            inqO := h.inqO
            blk := fun k o' b hb => by
              have := h.blk k o' b hb
              simp only [note, e]
              refine ⟨this.1, this.2.1, ?_⟩
              have := this.2.2
              simp at this ⊢
              split <;> rename_i hx <;> simp [hx] at this <;> omega
            str := by simp only [note, e]; exact hstr.2
            out := by
              simp only [note, e]
              refine h.out.snoc ?_
              rw [← (show st.emitted = st.got + st.out.length from h.em)]
              exact hstr.1
            em := by have := h.em; simp [note] at this ⊢; omega
            cur := by simp only [note, e]; exact h.cur
            own := fun x => by
              obtain ⟨a, b, c⟩ := h.own x
              refine ⟨fun y hy => a y (List.mem_cons_of_mem _ hy), ?_, c⟩
              intro y hy
              rcases List.mem_append.1 hy with hy | hy
              · exact b y hy
              · rw [List.mem_singleton.1 hy]; exact a o (List.mem_cons_self ..)
            arr := fun j c hj => by
              simp only [note, List.mem_append, List.mem_singleton, Ev.arrived.injEq] at hj
              simp only [note, e]
              rcases hj with hj | ⟨rfl, rfl⟩
              · exact h.arr j c hj
              · rcases hc with ⟨v, a, e1, e2⟩ | ⟨h1, h2, v, h3⟩
                · exact ⟨v, a, e2, .inl e1⟩
                · exact ⟨v, true, h3, .inr ⟨rfl, h1, h2⟩⟩
            seen := fun j c hj => by
              simp only [note, List.mem_append, List.mem_singleton, reduceCtorEq, or_false] at hj
              simp only [note, e]
              exact h.seen j c hj }
  · cases hs

theorem inv_step (hn : 0 < cfg.n) {st st' : St V} {a : Act V} (h : Inv cfg st) (hthru : cfg.later = false → st.store = []) (hs : step cfg st a = some st') : Inv cfg st' := by
  cases a with
  | send v arrays =>
    simp only [step, send] at hs
    split at hs
    · rename_i hg
      cases hs
      have e := sentL_sent st.log v arrays
      have hnew : (sentL st.log ++ [(v, arrays)])[st.next]? = some (v, arrays) := by rw [h.nx]; simp
      have hgood : Good cfg (sentL st.log ++ [(v, arrays)]) st.next (if arrays then Obj.view (st.next % cfg.n) else .own v) := by
        cases arrays with
        | true => exact ⟨rfl, v, hnew⟩
        | false => exact ⟨false, hnew, by simp⟩
      exact { nx := by simp only [note, e]; simp [h.nx]
              sl := fun k hk hk2 => by
                simp only [note, e] at hk hk2 ⊢
                by_cases hkn : k = st.next
                · subst hkn; simp [hnew]
                · have hlt : k < st.next := by omega
                  have hmod : k % cfg.n ≠ st.next % cfg.n := by
                    intro hm
                    obtain ⟨d, hd⟩ : ∃ d, st.next = k + d := ⟨st.next - k, by omega⟩
                    have : d % cfg.n = 0 := by
                      rw [hd] at hm
                      have := Nat.sub_mod_eq_zero_of_mod_eq hm.symm
                      simpa using this
                    have := Nat.le_of_dvd (by omega) (Nat.dvd_of_mod_eq_zero this)
                    omega
                  rw [if_neg hmod, h.sl k hlt (by omega), List.getElem?_append_left (by rw [← h.nx]; exact hlt)]
              ow := fun k hk => by
                simp only [note, List.mem_append, List.mem_singleton] at hk ⊢
                rcases hk with hk | rfl
                · have h1 := h.ow k hk
                  have h2 : k % cfg.n ≠ st.next % cfg.n := by simpa using List.all_eq_true.1 hg k hk
                  have : st.next ≠ k + cfg.n := fun x => h2 (by rw [x]; simp)
                  omega
                · omega
              tot := by have := h.tot; simp [note, pending] at this ⊢; omega
              inq := by
                simp only [note, e]
                refine SeqN.snoc h.inq.mono ?_ ?_
                · show st.next = st.emitted + st.store.length + pending st + st.inq.length
                  exact h.tot.symm
                · show Good cfg _ (st.emitted + st.store.length + pending st + st.inq.length) _
                  rw [h.tot]; exact hgood
              inqO := fun p hp => by
                simp only [note, List.mem_append, List.mem_singleton] at hp ⊢
                rcases hp with hp | rfl
                · exact .inl (h.inqO p hp)
                · exact .inr rfl
              blk := fun k o b hb => by
                obtain ⟨h1, h2, h3⟩ := h.blk k o b hb
                simp only [note, e]
                exact ⟨h1.mono, List.mem_append_left _ h2, h3⟩
              str := by simp only [note, e]; exact h.str.mono
              out := by simp only [note, e]; exact h.out.mono
              em := h.em
              cur := fun j o hj => by
                simp only [note, e]
                exact ⟨(h.cur j o hj).1.mono, (h.cur j o hj).2⟩
              own := h.own
              arr := fun j c hj => by
                simp only [note, List.mem_append, List.mem_singleton, reduceCtorEq, or_false] at hj
                obtain ⟨v', a, e1, e2⟩ := h.arr j c hj
                simp only [note, e]
                exact ⟨v', a, get_mono e1, e2⟩
              seen := fun j c hj => by
                simp only [note, List.mem_append, List.mem_singleton, reduceCtorEq, or_false] at hj
                obtain ⟨v', a, e1, e2⟩ := h.seen j c hj
                simp only [note, e]
                exact ⟨v', a, get_mono e1, e2⟩ }
    · cases hs
  | take =>
    simp only [step, take] at hs
    split at hs
    · rename_i k o q hb hq
      cases hs
      have h1 := h.inq
      have ht := h.tot
      simp only [hq, pending, hb] at h1 ht
      obtain ⟨h1a, h1b, h1c⟩ := h1
      simp at h1a h1b h1c ht
      exact { nx := h.nx, sl := h.sl, ow := h.ow, tot := by simp [pending]; omega, inq := by simpa [pending] using h1c,
              inqO := fun p hp => h.inqO p (by rw [hq]; exact List.mem_cons_of_mem _ hp),
              blk := fun k' o' b hb' => by
                cases hb'
                refine ⟨?_, h.inqO (k, o) (by rw [hq]; exact List.mem_cons_self ..), by simpa using h1a⟩
                rw [h1a]; exact h1b
              str := h.str, out := h.out, em := h.em, cur := h.cur, own := h.own, arr := h.arr, seen := h.seen }
    · cases hs
  | handle =>
    simp only [step, handle] at hs
    split at hs
    · rename_i k o hb
      obtain ⟨hg, ho, hk⟩ := h.blk k o false hb
      simp at hk
      have hk2 := h.ow k ho
      obtain ⟨hg2, hown⟩ := good_copied h hg hk2
      have hcont : Right st.log k (content st (copied cfg st o)) := by
        unfold copied
        split
        · obtain ⟨v, a, e1, e2⟩ := content_right h hg hk2
          rw [e1]; exact ⟨v, a, rfl, e2⟩
        · exact content_right h hg hk2
      have ht := h.tot
      have hi := h.inq
      simp only [pending, hb] at ht hi
      have key : Inv cfg { st with block := some (k, o, true), store := st.store ++ [copied cfg st o] } ∨ cfg.later = false := by
        by_cases hl : cfg.later = true
        · left
          exact { nx := h.nx, sl := h.sl, ow := h.ow, tot := by simp [pending]; omega,
                  inq := by simp [pending]; rw [show st.emitted + (st.store.length + 1) = st.emitted + st.store.length + 1 by omega]; exact hi
                  inqO := h.inqO
                  blk := fun k' o' b hb' => by
                    cases hb'
                    exact ⟨hg, ho, by simp; omega⟩
                  str := h.str.snoc (by rw [← hk]; exact hg2)
                  out := h.out, em := h.em, cur := h.cur
                  own := fun x => by
                    obtain ⟨a, b, c⟩ := h.own x
                    refine ⟨?_, b, c⟩
                    intro y hy
                    rcases List.mem_append.1 hy with hy | hy
                    · exact a y hy
                    · rw [List.mem_singleton.1 hy]; exact hown x
                  arr := h.arr, seen := h.seen }
        · right; simpa using hl
      by_cases hl : cfg.later = true
      · rw [if_pos hl] at hs
        cases hs
        exact key.resolve_right (by simp [hl])
      · rw [if_neg hl] at hs
        have hl' : cfg.later = false := by simpa using hl
        have hst := hthru hl'
        rw [hst] at hk ht hi
        simp at hk ht hi
        refine inv_publish (st := { st with block := some (k, o, true) }) (o := copied cfg st o) ?_ hs (.inl ?_)
        · exact { nx := h.nx, sl := h.sl, ow := h.ow, tot := by simp [pending, hst]; omega,
                  inq := by simpa [pending, hst] using hi
                  inqO := h.inqO
                  blk := fun k' o' b hb' => by
                    cases hb'
                    exact ⟨hg, ho, by simp [hst]; omega⟩
                  str := ⟨by show Good cfg _ st.emitted _; rw [← hk]; exact hg2, by rw [show ({ st with block := some (k, o, true) } : St V).store = [] from hst]; trivial⟩
                  out := h.out, em := h.em, cur := h.cur
                  own := fun x => by
                    obtain ⟨a, b, c⟩ := h.own x
                    refine ⟨?_, b, c⟩
                    intro y hy
                    simp [hst] at hy
                    rw [hy]; exact hown x
                  arr := h.arr, seen := h.seen }
        · rw [← hk]; exact hcont
    · cases hs
  | leave =>
    simp only [step, leave] at hs
    split at hs
    · rename_i k o hb
      cases hs
      obtain ⟨_, _, hk⟩ := h.blk k o true hb
      simp at hk
      have hi := h.inq
      have ht := h.tot
      simp only [pending, hb] at hi ht
      exact { nx := h.nx, sl := h.sl, ow := fun j hj => h.ow j (List.mem_filter.1 hj).1, tot := by simpa [pending] using ht, inq := by simpa [pending] using hi
              inqO := fun p hp => by
                have hge := hi.ge p hp
                refine List.mem_filter.2 ⟨h.inqO p hp, ?_⟩
                simp; omega
              blk := fun k' o' b hb' => by cases hb'
              str := h.str, out := h.out, em := h.em, cur := h.cur, own := h.own, arr := h.arr, seen := h.seen }
    · cases hs
  | emit =>
    simp only [step, emit] at hs
    split at hs
    · rename_i o os hst
      have hstr := h.str
      rw [hst] at hstr
      refine inv_publish (st := { st with store := os }) (o := o) ?_ hs ?_
      · have : ({ st with store := o :: os } : St V) = st := by rw [← hst]
        show Inv cfg { st with store := o :: os }
        rw [this]; exact h
      · show Right st.log st.emitted (content st o) ∨ _
        have g := hstr.1
        cases o with
        | own v => obtain ⟨a, e, _⟩ := g; exact .inl ⟨v, a, rfl, e⟩
        | view i =>
          obtain ⟨_, v, e⟩ := g
          refine .inr ⟨?_, ?_, v, e⟩
          · cases hc : cfg.copy with
            | false => rfl
            | true =>
              obtain ⟨v, hv⟩ := (h.own hc).1 (.view i) (by rw [hst]; exact List.mem_cons_self ..)
              cases hv
          · cases hl : cfg.later with
            | true => rfl
            | false => rw [hthru hl] at hst; cases hst
    · cases hs
  | get =>
    simp only [step, get] at hs
    split at hs
    · rename_i o os hc ho
      cases hs
      have h1 := h.out
      have h2 := h.em
      rw [ho] at h1 h2
      exact { nx := h.nx, sl := h.sl, ow := h.ow, tot := h.tot, inq := h.inq, inqO := h.inqO, blk := h.blk, str := h.str, out := h1.2
              em := by simp at h2 ⊢; omega
              cur := fun j o' hj => by cases hj; exact ⟨h1.1, rfl⟩
              own := fun x => by
                obtain ⟨a, b, c⟩ := h.own x
                exact ⟨a, fun y hy => b y (by rw [ho]; exact List.mem_cons_of_mem _ hy), fun j o' hj => by cases hj; exact b o (by rw [ho]; exact List.mem_cons_self ..)⟩
              arr := h.arr, seen := h.seen }
    · cases hs
  | look =>
    simp only [step, look] at hs
    split at hs
    · rename_i j o hc
      cases hs
      have e := sentL_seen st.log j (content st o)
      have hg := (h.cur j o hc).1
      exact { nx := by simp only [note, e]; exact h.nx
              sl := by simp only [note, e]; exact h.sl
              ow := h.ow, tot := h.tot
              inq := by simp only [note, e]; exact h.inq
              inqO := h.inqO
              blk := by simp only [note, e]; exact h.blk
              str := by simp only [note, e]; exact h.str
              out := by simp only [note, e]; exact h.out
              em := h.em
              cur := by simp only [note, e]; exact h.cur
              own := h.own
              arr := fun j' c hj => by
                simp only [note, List.mem_append, List.mem_singleton, reduceCtorEq, or_false] at hj
                simp only [note, e]
                exact h.arr j' c hj
              seen := fun j' c hj => by
                simp only [note, List.mem_append, List.mem_singleton, Ev.seen.injEq] at hj
                simp only [note, e]
                rcases hj with hj | ⟨rfl, rfl⟩
                · exact h.seen j' c hj
                · cases o with
                  | own v => obtain ⟨a, e1, _⟩ := hg; exact ⟨v, a, e1, .inl rfl⟩
                  | view i =>
                    obtain ⟨_, v, e1⟩ := hg
                    refine ⟨v, true, e1, .inr ⟨rfl, ?_⟩⟩
                    cases hcp : cfg.copy with
                    | false => rfl
                    | true => obtain ⟨v, hv⟩ := (h.own hcp).2.2 _ _ hc; cases hv }
    · cases hs
  | done =>
    simp only [step] at hs
    split at hs
    · cases hs
      exact { nx := h.nx, sl := h.sl, ow := h.ow, tot := h.tot, inq := h.inq, inqO := h.inqO, blk := h.blk, str := h.str, out := h.out, em := h.em,
              cur := fun _ _ hj => by cases hj
              own := fun x => ⟨(h.own x).1, (h.own x).2.1, fun _ _ hj => by cases hj⟩
              arr := h.arr, seen := h.seen }
    · cases hs

theorem thru_run {st : St V} (h : Run cfg st) (hl : cfg.later = false) : st.store = [] := by
  induction h with
  | init => rfl
  | @step st st' a _ hs ih =>
    cases a <;> simp only [step, send, take, handle, leave, emit, get, look, publish] at hs
    · split at hs <;> cases hs; exact ih
    · split at hs <;> cases hs; exact ih
    · split at hs
      · rw [if_neg (by simp [hl])] at hs
        split at hs <;> cases hs; exact ih
      · cases hs
    · split at hs <;> cases hs; exact ih
    · rw [ih] at hs; cases hs
    · split at hs <;> cases hs; exact ih
    · split at hs <;> cases hs; exact ih
    · split at hs <;> cases hs; exact ih

theorem Run.inv (hn : 0 < cfg.n) {st : St V} (h : Run cfg st) : Inv cfg st := by
  induction h with
  | init => exact inv_init
  | step a hr hs ih => exact inv_step hn ih (thru_run hr) hs

/-- A unit that copies what it passes on — a relay by default, or a unit with a leaky input — passes on every message
with its content: message number `j` of its output is message number `j` of its input, for all receivers and whenever they
look at it. -/
theorem C114_copied (hn : 0 < cfg.n) (hc : cfg.copy = true) {st : St V} (h : Run cfg st) (j : Nat) (c : Option V)
    (he : Ev.arrived j c ∈ st.log ∨ Ev.seen j c ∈ st.log) : Right st.log j c := by
  have i := h.inv hn
  rcases he with he | he
  · obtain ⟨v, a, e1, e2 | e2⟩ := i.arr j c he
    · exact ⟨v, a, e2, e1⟩
    · rw [hc] at e2; cases e2.2.1
  · obtain ⟨v, a, e1, e2 | e2⟩ := i.seen j c he
    · exact ⟨v, a, e2, e1⟩
    · rw [hc] at e2; cases e2.2

/-- A unit that does not copy passes on messages without arrays with their content. -/
theorem C114_plain_partial (hn : 0 < cfg.n) {st : St V} (h : Run cfg st) (j : Nat) (c : Option V)
    (he : Ev.arrived j c ∈ st.log ∨ Ev.seen j c ∈ st.log) (hp : ∀ v, (sentL st.log)[j]? ≠ some (v, true)) : Right st.log j c := by
  have i := h.inv hn
  rcases he with he | he
  · obtain ⟨v, a, e1, e2 | e2⟩ := i.arr j c he
    · exact ⟨v, a, e2, e1⟩
    · rw [e2.1] at e1; exact absurd e1 (hp v)
  · obtain ⟨v, a, e1, e2 | e2⟩ := i.seen j c he
    · exact ⟨v, a, e2, e1⟩
    · rw [e2.1] at e1; exact absurd e1 (hp v)

/-- A unit that publishes messages while it handles them passes them on to other processes with their content. -/
theorem C114_elsewhere_partial (hn : 0 < cfg.n) (hl : cfg.later = false) {st : St V} (h : Run cfg st) (j : Nat) (c : Option V)
    (he : Ev.arrived j c ∈ st.log) : Right st.log j c := by
  obtain ⟨v, a, e1, e2 | e2⟩ := (h.inv hn).arr j c he
  · exact ⟨v, a, e2, e1⟩
  · rw [hl] at e2; cases e2.2.2

/-- And a receiver in its own process sees the content of the message as long as the publisher has not published more
messages since than it has buffers. -/
theorem C114_window_partial (hn : 0 < cfg.n) {st st' : St V} (h : Run cfg st) {j : Nat} {o : Obj V} (hc : st.cur = some (j, o))
    (hw : (sentL st.log).length ≤ j + cfg.n) (hs : step cfg st .look = some st') : ∃ c, st'.log = st.log ++ [.seen j c] ∧ Right st.log j c := by
  simp only [step, look, hc] at hs
  cases hs
  have i := h.inv hn
  exact ⟨_, rfl, content_right i (i.cur j o hc).1 (by rw [i.nx]; exact hw)⟩

/-! ## Violations -/

/-- Violation: if the unit does not copy and the publisher has published more messages since than it has buffers, a
receiver in the unit's process that handles message `j` sees the content of a later message. -/
theorem C114_negation_overwritten (hn : 0 < cfg.n) (hcp : cfg.copy = false) {st st' : St V} (h : Run cfg st) {j : Nat} {o : Obj V} (hc : st.cur = some (j, o)) {v : V}
    (ha : (sentL st.log)[j]? = some (v, true)) (hw : j + cfg.n < (sentL st.log).length) (hs : step cfg st .look = some st') :
    ∃ k c, j < k ∧ st'.log = st.log ++ [.seen j c] ∧ Right st.log k c := by
  simp only [step, look, hc] at hs
  cases hs
  have i := h.inv hn
  have hg := (i.cur j o hc).1
  cases o with
  | own w =>
    obtain ⟨a, e1, e2⟩ := hg
    rw [ha] at e1; cases e1
    have := e2 rfl
    rw [hcp] at this; cases this
  | view s =>
    obtain ⟨rfl, _⟩ := hg
    have hnx := i.nx
    -- the last message in that buffer
    let q := (st.next - 1 - j) / cfg.n
    have hq : cfg.n * q + (st.next - 1 - j) % cfg.n = st.next - 1 - j := Nat.div_add_mod _ _
    have hlt := Nat.mod_lt (st.next - 1 - j) hn
    have hq1 : 1 ≤ q := (Nat.le_div_iff_mul_le hn).2 (by omega)
    have hnq : cfg.n ≤ cfg.n * q := Nat.le_mul_of_pos_right _ hq1
    have hk : (j + cfg.n * q) % cfg.n = j % cfg.n := by simp
    refine ⟨j + cfg.n * q, _, by omega, rfl, ?_⟩
    have hkn : j + cfg.n * q < st.next := by omega
    have hsl := i.sl (j + cfg.n * q) hkn (by omega)
    rw [hk] at hsl
    obtain ⟨w, hw'⟩ : ∃ w, (sentL st.log)[j + cfg.n * q]? = some w := ⟨_, List.getElem?_eq_getElem (by rw [← hnx]; exact hkn)⟩
    exact ⟨w.1, w.2, by simp [content, hsl, hw'], hw'⟩

theorem run_of_run : ∀ (as : List (Act V)) {st st' : St V}, Run cfg st → run cfg as st = some st' → Run cfg st' := by
  intro as
  induction as with
  | nil => intro st st' h hr; cases hr; exact h
  | cons a as ih =>
    intro st st' h hr
    simp only [run] at hr
    split at hr
    · rename_i st1 hs; exact ih (.step a h hs) hr
    · cases hr

/-- What the unit and the receiver do; not publishing something new, and not looking at a message. -/
def Act.own : Act V → Bool
  | .send _ _ => false
  | .look => false
  | _ => true

/-- How much they have left to do. -/
def work (st : St V) : Nat :=
  6 * st.inq.length + (match st.block with | none => 0 | some (_, _, false) => 5 | some (_, _, true) => 1) + 3 * st.store.length +
    2 * st.out.length + inUse st

/-- What has been published has arrived, and the publisher waits only for messages that the unit has not left. -/
structure Arr (st : St V) : Prop where
  arr : ∀ j, j < st.emitted → ∃ c, Ev.arrived j c ∈ st.log
  owe : ∀ k ∈ st.owed, k ∈ st.inq.map (·.1) ∨ ∃ o h, st.block = some (k, o, h)

theorem arr_publish {st st' : St V} {o : Obj V} (h : Arr st) (hs : publish cfg st o = some st') : Arr st' := by
  unfold publish at hs
  split at hs
  · cases hs
    refine ⟨fun j hj => ?_, h.owe⟩
    simp only [note] at hj ⊢
    by_cases e : j = st.emitted
    · exact ⟨content st o, by simp [e]⟩
    · obtain ⟨c, hc⟩ := h.arr j (by omega)
      exact ⟨c, by simp [hc]⟩
  · cases hs

theorem work_publish {st st' : St V} {o : Obj V} (hs : publish cfg st o = some st') : work st' = work st + 2 := by
  unfold publish at hs
  split at hs
  · cases hs
    simp only [work, note, inUse, List.length_append, List.length_singleton]
    omega
  · cases hs

theorem arr_step {st st' : St V} {a : Act V} (h : Arr st) (hs : step cfg st a = some st') :
    Arr st' ∧ (a.own = true → work st' + 1 = work st ∧ sentL st'.log = sentL st.log ∨ work st' < work st ∧ sentL st'.log = sentL st.log) := by
  have hpub : ∀ {s s' : St V} {o : Obj V}, publish cfg s o = some s' → sentL s'.log = sentL s.log := by
    intro s s' o hp
    unfold publish at hp
    split at hp
    · cases hp; simp [note, sentL_arrived]
    · cases hp
  cases a with
  | send v a =>
    refine ⟨?_, by simp [Act.own]⟩
    simp only [step, send] at hs
    split at hs
    · cases hs
      refine ⟨fun j hj => ?_, fun k hk => ?_⟩
      · obtain ⟨c, hc⟩ := h.arr j hj
        exact ⟨c, by simp [note, hc]⟩
      · simp only [note, List.mem_append, List.mem_singleton] at hk ⊢
        rcases hk with hk | rfl
        · rcases h.owe k hk with hk | hk
          · exact .inl (by simp only [List.map_append, List.mem_append]; exact .inl hk)
          · exact .inr hk
        · exact .inl (by simp)
    · cases hs
  | take =>
    simp only [step, take] at hs
    split at hs
    · rename_i hb hq
      cases hs
      refine ⟨⟨h.arr, fun k hk => ?_⟩, fun _ => .inl ⟨by simp only [work, hb, hq, inUse, List.length_cons]; omega, rfl⟩⟩
      rcases h.owe k hk with hk | ⟨o, b, hk⟩
      · rw [hq] at hk
        simp only [List.map_cons, List.mem_cons] at hk
        rcases hk with rfl | hk
        · exact .inr ⟨_, _, rfl⟩
        · exact .inl hk
      · rw [hb] at hk; cases hk
    · cases hs
  | handle =>
    simp only [step, handle] at hs
    split at hs
    · rename_i k o hb
      split at hs
      · cases hs
        refine ⟨⟨h.arr, fun k' hk => ?_⟩, fun _ => .inl ⟨by simp only [work, hb, inUse, List.length_append, List.length_singleton]; omega, rfl⟩⟩
        rcases h.owe k' hk with hk | ⟨o', b, hk⟩
        · exact .inl hk
        · rw [hb] at hk; cases hk; exact .inr ⟨_, _, rfl⟩
      · have h1 : Arr { st with block := some (k, o, true) } := by
          refine ⟨h.arr, fun k' hk => ?_⟩
          rcases h.owe k' hk with hk | ⟨o', b, hk⟩
          · exact .inl hk
          · rw [hb] at hk; cases hk; exact .inr ⟨_, _, rfl⟩
        refine ⟨arr_publish h1 hs, fun _ => .inr ⟨?_, (hpub hs).trans rfl⟩⟩
        rw [work_publish hs]
        simp only [work, hb, inUse]
        omega
    · cases hs
  | leave =>
    simp only [step, leave] at hs
    split at hs
    · rename_i k o hb
      cases hs
      refine ⟨⟨h.arr, fun k' hk => ?_⟩, fun _ => .inl ⟨by simp only [work, hb, inUse]; omega, rfl⟩⟩
      simp only [List.mem_filter, decide_eq_true_eq] at hk
      rcases h.owe k' hk.1 with hk' | ⟨o', b, hk'⟩
      · exact .inl hk'
      · rw [hb] at hk'; cases hk'; exact absurd rfl hk.2
    · cases hs
  | emit =>
    simp only [step, emit] at hs
    split at hs
    · rename_i o os ho
      refine ⟨arr_publish (st := { st with store := os }) ⟨h.arr, h.owe⟩ hs, fun _ => .inl ⟨?_, (hpub hs).trans rfl⟩⟩
      rw [work_publish hs]
      simp only [work, ho, inUse, List.length_cons]
      omega
    · cases hs
  | get =>
    simp only [step, get] at hs
    split at hs
    · rename_i hc ho
      cases hs
      exact ⟨⟨h.arr, h.owe⟩, fun _ => .inl ⟨by simp only [work, hc, ho, inUse, List.length_cons]; omega, rfl⟩⟩
    · cases hs
  | look =>
    refine ⟨?_, by simp [Act.own]⟩
    simp only [step, look] at hs
    split at hs
    · cases hs
      refine ⟨fun j hj => ?_, h.owe⟩
      obtain ⟨c, hc⟩ := h.arr j hj
      exact ⟨c, by simp [note, hc]⟩
    · cases hs
  | done =>
    simp only [step] at hs
    split at hs
    · rename_i hc
      cases hs
      exact ⟨⟨h.arr, h.owe⟩, fun _ => .inl ⟨by simp only [work, hc, inUse], rfl⟩⟩
    · cases hs

theorem Run.arr {st : St V} (h : Run cfg st) : Arr st := by
  induction h with
  | init => exact ⟨fun j hj => absurd hj (Nat.not_lt_zero j), fun k hk => by cases hk⟩
  | step _ _ hs ih => exact (arr_step ih hs).1

theorem arr_run : ∀ (as : List (Act V)) {st st' : St V}, Run cfg st → (∀ a ∈ as, a.own = true) → run cfg as st = some st' →
    Run cfg st' ∧ as.length + work st' ≤ work st ∧ sentL st'.log = sentL st.log
  | [], st, st', h, _, hr => by cases hr; exact ⟨h, by simp, rfl⟩
  | a :: as, st, st', h, ha, hr => by
    simp only [run] at hr
    split at hr
    · rename_i st1 hs
      obtain ⟨h1, h2, h3⟩ := arr_run as (h.step a hs) (fun b hb => ha b (List.mem_cons_of_mem _ hb)) hr
      have := (arr_step h.arr hs).2 (ha a (List.mem_cons_self ..))
      refine ⟨h1, ?_, ?_⟩
      · simp only [List.length_cons]; omega
      · rcases this with ⟨_, e⟩ | ⟨_, e⟩ <;> rw [h3, e]
    · cases hr

/-- Every message arrives: as long as nothing new is published, the unit and the receiver do only finitely many steps, and when they
have nothing left to do, every message that was published has arrived, and the publisher can publish the next one. -/
theorem C114_goes_on (hn : 0 < cfg.n) (hm : 0 < cfg.m) {st : St V} (h : Run cfg st) {as : List (Act V)} {st' : St V}
    (ha : ∀ a ∈ as, a.own = true) (hr : run cfg as st = some st') :
    as.length ≤ work st ∧
    ((∀ a, a.own = true → step cfg st' a = none) →
      (∀ j, j < (sentL st.log).length → ∃ c, Ev.arrived j c ∈ st'.log) ∧ ∀ v a, (step cfg st' (.send v a)).isSome = true) := by
  obtain ⟨h1, h2, h3⟩ := arr_run as h ha hr
  refine ⟨by omega, fun hq => ?_⟩
  have hi := h1.inv hn
  have hcur : st'.cur = none := by
    cases hc : st'.cur with
    | none => rfl
    | some x => have := hq .done rfl; simp [step, hc] at this
  have hout : st'.out = [] := by
    cases ho : st'.out with
    | nil => rfl
    | cons x l => have := hq .get rfl; simp [step, get, hcur, ho] at this
  have hpub : ∀ (s : St V) (o : Obj V), s.emitted = st'.emitted → s.got = st'.got → s.cur = st'.cur → (publish cfg s o).isSome = true := by
    intro s o e1 e2 e3
    have := hi.em
    rw [hout] at this
    unfold publish
    rw [if_pos (by simp only [inUse, e3, hcur, e1, e2, this, List.length_nil]; omega)]
    rfl
  have hst : st'.store = [] := by
    cases ho : st'.store with
    | nil => rfl
    | cons x l =>
      have e := hq .emit rfl
      have := hpub { st' with store := l } x rfl rfl rfl
      simp only [step, emit, ho] at e
      rw [e] at this
      cases this
  have hblk : st'.block = none := by
    cases hb : st'.block with
    | none => rfl
    | some x =>
      obtain ⟨k, o, b⟩ := x
      cases b with
      | true => have := hq .leave rfl; simp [step, leave, hb] at this
      | false =>
        have e := hq .handle rfl
        simp only [step, handle, hb] at e
        split at e
        · cases e
        · have := hpub { st' with block := some (k, o, true) } (copied cfg st' o) rfl rfl rfl
          rw [e] at this
          cases this
  have hinq : st'.inq = [] := by
    cases ho : st'.inq with
    | nil => rfl
    | cons x l => have := hq .take rfl; simp [step, take, hblk, ho] at this
  have hem : st'.emitted = (sentL st.log).length := by
    have := hi.tot
    rw [hst, hinq] at this
    simp only [pending, hblk, List.length_nil] at this
    rw [← h3, ← hi.nx]
    omega
  refine ⟨fun j hj => h1.arr.arr j (by omega), fun v a => ?_⟩
  have howed : st'.owed = [] := by
    cases ho : st'.owed with
    | nil => rfl
    | cons k l =>
      rcases h1.arr.owe k (by rw [ho]; simp) with hk | ⟨o, b, hk⟩
      · rw [hinq] at hk; cases hk
      · rw [hblk] at hk; cases hk
  simp [step, send, howed]

/-- Two messages were published; the unit publishes one, the receiver does not take it yet; five steps of them are left. -/
example : ∃ st st' : St Nat, Run ⟨true, false, 2, 1⟩ st ∧ sentL st.log = [(10, true), (20, false)] ∧
    run ⟨true, false, 2, 1⟩ [.take, .handle, .leave, .take, .get, .done, .handle, .leave, .get, .done] st = some st' ∧
    st'.log = st.log ++ [.arrived 0 (some 10), .arrived 1 (some 20)] ∧ (step ⟨true, false, 2, 1⟩ st' .take).isNone :=
  ⟨_, _, (Run.init.step (.send 10 true) rfl).step (.send 20 false) rfl, rfl, rfl, rfl, rfl⟩

/-- Violation, witnesses: a receiver in the process of a unit like `DebugLog` sees the content of the second message while
it handles the first; and `MessageQueue` publishes the content of the second message twice and that of the first never. -/
theorem C114_negation :
    (∃ st : St Nat, Run ⟨false, false, 1, 1⟩ st ∧ sentL st.log = [(10, true), (20, true)] ∧ Ev.seen 0 (some 20) ∈ st.log) ∧
    (∃ st : St Nat, Run ⟨false, true, 1, 1⟩ st ∧ sentL st.log = [(10, true), (20, true)] ∧ Ev.arrived 0 (some 20) ∈ st.log ∧ Ev.arrived 1 (some 20) ∈ st.log) := by
  refine ⟨?_, ?_⟩
  · exact ⟨_, run_of_run [.send 10 true, .take, .handle, .leave, .get, .send 20 true, .look] .init rfl, rfl, by decide⟩
  · exact ⟨_, run_of_run [.send 10 true, .take, .handle, .leave, .send 20 true, .take, .handle, .leave, .emit, .get, .done, .emit] .init rfl, rfl, by decide, by decide⟩

/-! ## Examples -/

/-- A relay: the receiver sees the first message although its buffer was used again. -/
example : (run ⟨true, false, 1, 1⟩ [.send 10 true, .take, .handle, .leave, .get, .send 20 true, .look] (init : St Nat)).map (fun st => st.log) =
    some [.sent 10 true, .arrived 0 (some 10), .sent 20 true, .seen 0 (some 10)] := by rfl

/-- Without copying, within the window of two buffers, and after it. -/
example : (run ⟨false, false, 2, 1⟩ [.send 10 true, .take, .handle, .leave, .get, .send 20 true, .look, .send 30 true, .look] (init : St Nat)).map (fun st => st.log) =
    some [.sent 10 true, .arrived 0 (some 10), .sent 20 true, .seen 0 (some 10), .sent 30 true, .seen 0 (some 30)] := by rfl

/-- A message without arrays. -/
example : (run ⟨false, true, 1, 1⟩ [.send 10 false, .take, .handle, .leave, .send 20 true, .emit, .get, .look] (init : St Nat)).map (fun st => st.log) =
    some [.sent 10 false, .sent 20 true, .arrived 0 (some 10), .seen 0 (some 10)] := by rfl

end Forward
end Ez
