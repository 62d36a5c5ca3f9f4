import Verif.Model.Unsubscribe

/-!
# C112: routing updates while messages are in use
-/

set_option linter.unusedSimpArgs false
set_option linter.unusedSectionVars false

namespace Ez
namespace Unsub

variable {P S : Type} [DecidableEq P] [DecidableEq S]

/-- The updates the server has sent to a subscriber. -/
def sentTo (s : S) (log : List (Ev P S)) : List (List P) :=
  log.filterMap (fun e => match e with | .sent s' ps => if s' = s then some ps else none | _ => none)

/-- The updates a subscriber has confirmed. -/
def confirmedBy (s : S) (log : List (Ev P S)) : List (List P) :=
  log.filterMap (fun e => match e with | .confirmed s' ps => if s' = s then some ps else none | _ => none)

/-- The clients of a publisher's channel in this process. -/
def clients (st : St P S) (p : P) : List S := (st.reg p).getD []

/-- Executions. -/
inductive Run : St P S → Prop
  | init : Run init
  | step {st st'} (a : Act P S) : Run st → step st a = some st' → Run st'

/-- Executions in which subscriber `s` is not closed and no update takes a publisher away from it while an array made
from one of its messages is in use, unless the channel has another client. -/
inductive Quiet (s : S) : St P S → Prop
  | init : Quiet s init
  | step {st st'} (a : Act P S) : Quiet s st → step st a = some st' → a ≠ .close s →
      (∀ ps new old, a = .update s ps new old → ∀ p ∈ old, p ∈ st.held → ∃ s', s' ≠ s ∧ s' ∈ clients st p) → Quiet s st'

theorem Quiet.run {s : S} {st : St P S} (h : Quiet s st) : Run st := by
  induction h with
  | init => exact .init
  | step a _ hs _ _ ih => exact .step a ih hs

/-- As far as subscriber `s` is concerned, the states agree. -/
structure Same (s : S) (st st' : St P S) : Prop where
  subs : st'.subs s = st.subs s
  cl : ∀ p, s ∈ clients st' p ↔ s ∈ clients st p
  sent : sentTo s st'.log = sentTo s st.log
  conf : confirmedBy s st'.log = confirmedBy s st.log

theorem Same.refl (s : S) (st : St P S) : Same s st st := ⟨rfl, fun _ => Iff.rfl, rfl, rfl⟩

theorem Same.trans {s : S} {a b c : St P S} (h : Same s a b) (k : Same s b c) : Same s a c :=
  ⟨k.subs.trans h.subs, fun p => (k.cl p).trans (h.cl p), k.sent.trans h.sent, k.conf.trans h.conf⟩

theorem same_setSub {s s' : S} (hs : s' ≠ s) (st : St P S) (x : Sub P) : Same s st (setSub st s' x) :=
  ⟨by simp [setSub, Ne.symm hs], fun _ => Iff.rfl, rfl, rfl⟩

theorem same_logEv {s s' : S} (hs : s' ≠ s) (st : St P S) (e : Ev P S)
    (he : (∃ ps, e = .sent s' ps) ∨ (∃ ps, e = .confirmed s' ps) ∨ ∃ s'' x, e = .ended s'' x) : Same s st (logEv st e) := by
  rcases he with ⟨ps, rfl⟩ | ⟨ps, rfl⟩ | ⟨s'', x, rfl⟩ <;>
    exact ⟨rfl, fun _ => Iff.rfl, by simp [sentTo, logEv, hs], by simp [confirmedBy, logEv, hs]⟩

theorem same_register {s s' : S} (hs : s' ≠ s) (st : St P S) (p : P) : Same s st (register st s' p) := by
  refine ⟨by simp [register, setSub, setReg, Ne.symm hs], fun q => ?_, rfl, rfl⟩
  simp only [clients, register, setSub, setReg]
  by_cases e : q = p
  · subst e
    simp only [if_true, Option.getD_some]
    split <;> simp [Ne.symm hs]
  · simp [e]

theorem unregister_subs (st : St P S) (s : S) (p : P) :
    (unregister st s p).1.subs = st.subs ∧ (unregister st s p).1.log = st.log := by
  unfold unregister
  split
  · exact ⟨rfl, rfl⟩
  · split
    · split <;> exact ⟨rfl, rfl⟩
    · exact ⟨rfl, rfl⟩

theorem same_unregister {s s' : S} (hs : s' ≠ s) (st : St P S) (p : P) : Same s st (unregister st s' p).1 := by
  obtain ⟨h1, h2⟩ := unregister_subs st s' p
  refine ⟨by rw [h1], fun q => ?_, by rw [h2], by rw [h2]⟩
  unfold unregister
  split
  · exact Iff.rfl
  · rename_i cl hcl
    split
    · split
      · rename_i hf
        by_cases e : q = p
        · subst e
          simp only [clients, setReg, if_true, Option.getD_none, hcl, Option.getD_some, List.not_mem_nil, false_iff]
          intro h
          have : s ∈ cl.filter (fun x => decide (x ≠ s')) := List.mem_filter.2 ⟨h, by simp [Ne.symm hs]⟩
          rw [hf] at this
          cases this
        · simp [clients, setReg, e]
      · by_cases e : q = p
        · subst e
          simp [clients, setReg, hcl, Ne.symm hs]
        · simp [clients, setReg, e]
    · exact Iff.rfl

theorem same_unregisterAll {s s' : S} (hs : s' ≠ s) : ∀ (ps : List P) (st : St P S), Same s st (unregisterAll st s' ps).1 := by
  intro ps
  induction ps with
  | nil => intro st; exact Same.refl s st
  | cons p ps ih =>
    intro st
    have h := same_unregister hs st p
    simp only [unregisterAll]
    split
    · rename_i st1 e
      rw [e] at h
      exact h.trans (ih st1)
    · rename_i st1 x e
      rw [e] at h
      exact h

theorem same_finish {s s' : S} (hs : s' ≠ s) (st : St P S) (e : Option Err) : Same s st (finish st s' e) := by
  have h := same_unregisterAll hs (st.subs s').chans st
  unfold finish
  split
  · rename_i st1 e1
    rw [e1] at h
    exact (h.trans (same_setSub hs _ _)).trans (same_logEv hs _ _ (Or.inr (Or.inr ⟨_, _, rfl⟩)))
  · rename_i st1 x e1
    rw [e1] at h
    exact (h.trans (same_setSub hs _ _)).trans (same_logEv hs _ _ (Or.inr (Or.inr ⟨_, _, rfl⟩)))

theorem same_leaveAll {s s' : S} (hs : s' ≠ s) : ∀ (ps : List P) (st : St P S), Same s st (leaveAll st s' ps).1 := by
  intro ps
  induction ps with
  | nil => intro st; exact Same.refl s st
  | cons p ps ih =>
    intro st
    have h := same_unregister hs st p
    simp only [leaveAll]
    split
    · rename_i st1 e
      rw [e] at h
      exact (h.trans (same_setSub hs _ _)).trans (ih _)
    · rename_i st1 x e
      rw [e] at h
      exact h

theorem same_registers {s s' : S} (hs : s' ≠ s) : ∀ (ps : List P) (st : St P S),
    Same s st (ps.foldl (fun st p => register st s' p) st) := by
  intro ps
  induction ps with
  | nil => intro st; exact Same.refl s st
  | cons p ps ih => intro st; exact (same_register hs st p).trans (ih _)

theorem same_update {s s' : S} (hs : s' ≠ s) (st : St P S) (ps new old : List P) : Same s st (update st s' ps new old) := by
  have h1 := same_registers hs new st
  have h2 := same_leaveAll hs old (new.foldl (fun st p => register st s' p) st)
  unfold update
  dsimp only
  split
  · rename_i st2 e
    rw [e] at h2
    exact (h1.trans h2).trans (same_logEv hs _ _ (Or.inr (Or.inl ⟨_, rfl⟩)))
  · rename_i st2 x e
    rw [e] at h2
    exact (h1.trans h2).trans (same_finish hs _ _)

/-- What the other subscribers do, and what the program does with messages, does not matter to a subscriber. -/
theorem same_step {s : S} {st st' : St P S} {a : Act P S} (hs : step st a = some st')
    (ha : a ≠ .close s) (hu : ∀ ps new old, a ≠ .update s ps new old) : Same s st st' := by
  cases a with
  | update s' ps new old =>
    have hne : s' ≠ s := fun e => hu ps new old (by rw [e])
    simp only [step] at hs
    split at hs
    · split at hs
      · split at hs
        · cases hs
          exact (same_logEv hne _ _ (Or.inl ⟨_, rfl⟩)).trans (same_update hne _ _ _ _)
        · cases hs
      · cases hs
        exact same_logEv hne _ _ (Or.inl ⟨_, rfl⟩)
    · cases hs
  | hold p =>
    simp only [step] at hs
    split at hs
    · cases hs; exact ⟨rfl, fun _ => Iff.rfl, rfl, rfl⟩
    · cases hs
  | free p =>
    simp only [step] at hs
    cases hs; exact ⟨rfl, fun _ => Iff.rfl, rfl, rfl⟩
  | close s' =>
    have hne : s' ≠ s := fun e => ha (by rw [e])
    simp only [step] at hs
    split at hs
    · cases hs
      exact same_finish hne _ _
    · cases hs

theorem registers_own (s : S) : ∀ (new : List P) (st : St P S),
    let st' := new.foldl (fun st p => register st s p) st
    (st'.subs s = { st.subs s with chans := (st.subs s).chans ++ new }) ∧ st'.held = st.held ∧ st'.log = st.log ∧
    ∀ p, s ∈ clients st' p ↔ s ∈ clients st p ∨ p ∈ new := by
  intro new
  induction new with
  | nil => intro st; simp
  | cons p ps ih =>
    intro st
    obtain ⟨h1, h2, h3, h4⟩ := ih (register st s p)
    have r1 : (register st s p).subs s = { st.subs s with chans := (st.subs s).chans ++ [p] } := by
      simp [register, setSub, setReg]
    have r2 : ∀ q, s ∈ clients (register st s p) q ↔ s ∈ clients st q ∨ q = p := by
      intro q
      simp only [clients, register, setSub, setReg]
      by_cases e : q = p
      · subst e
        simp only [if_true, Option.getD_some, or_true, iff_true]
        split
        · assumption
        · simp
      · simp [e]
    refine ⟨?_, h2, h3, fun q => ?_⟩
    · rw [List.foldl_cons, h1, r1]; simp
    · rw [List.foldl_cons, h4 q, r2 q, List.mem_cons, or_assoc]

/-- Leaving a channel the subscriber is a client of. -/
theorem unregister_own {st : St P S} {s : S} {p : P} (h : s ∈ clients st p) :
    (∀ q, s ∈ clients (unregister st s p).1 q ↔ s ∈ clients st q ∧ q ≠ p) ∧
    (∀ q ∈ (unregister st s p).1.held, q ∈ st.held) ∧
    ((unregister st s p).2 = none ∨ (unregister st s p).2 = some .buffer ∧ (unregister st s p).1.reg p = none) ∧
    (((unregister st s p).2 = some .buffer) ↔ p ∈ st.held ∧ ∀ s' ∈ clients st p, s' = s) := by
  unfold unregister
  split
  · rename_i e
    simp [clients, e] at h
  · rename_i cl e
    have hm : s ∈ cl := by simpa [clients, e] using h
    rw [if_pos hm]
    have hq : ∀ q, q ≠ p → ∀ x, (setReg st p x).reg q = st.reg q := fun q hq x => by simp [setReg, hq]
    split
    · rename_i hf
      have hall : ∀ s' ∈ clients st p, s' = s := by
        intro s' hs'
        have hs' : s' ∈ cl := by simpa [clients, e] using hs'
        by_cases e' : s' = s
        · exact e'
        · have : s' ∈ cl.filter (fun x => decide (x ≠ s)) := List.mem_filter.2 ⟨hs', by simp [e']⟩
          rw [hf] at this; cases this
      refine ⟨?_, ?_, ?_, ?_⟩
      · intro q
        by_cases eq : q = p
        · subst eq; simp [clients, setReg]
        · simp [clients, setReg, eq]
      · intro q hq; exact (List.mem_filter.1 hq).1
      · split
        · exact Or.inr ⟨rfl, by simp [setReg]⟩
        · exact Or.inl rfl
      · split
        · rename_i hh; simp [hh]; exact hall
        · rename_i hh; simp [hh]
    · rename_i hf
      refine ⟨?_, fun q hq => hq, Or.inl rfl, ?_⟩
      · intro q
        by_cases eq : q = p
        · subst eq; simp [clients, setReg]
        · simp [clients, setReg, eq]
      · simp only [reduceCtorEq, false_iff, not_and]
        intro _ hall
        apply hf
        rw [List.filter_eq_nil_iff]
        intro x hx
        have := hall x (by simpa [clients, e] using hx)
        simp [this]

theorem leaveAll_own {s : S} : ∀ (old : List P) (st : St P S), old.Nodup → (∀ p ∈ old, s ∈ clients st p) →
    (∀ p ∈ old, p ∈ st.held → ∃ s', s' ≠ s ∧ s' ∈ clients st p) →
    let r := leaveAll st s old
    r.2 = none ∧ r.1.subs s = { st.subs s with chans := (st.subs s).chans.filter (fun q => decide (q ∉ old)) } ∧
    r.1.log = st.log ∧ ∀ p, s ∈ clients r.1 p ↔ s ∈ clients st p ∧ p ∉ old := by
  intro old
  induction old with
  | nil =>
    intro st _ _ _
    have e : (st.subs s).chans.filter (fun q => decide (q ∉ ([] : List P))) = (st.subs s).chans :=
      List.filter_eq_self.2 (by simp)
    refine ⟨rfl, ?_, rfl, by simp [leaveAll]⟩
    show st.subs s = _
    rw [e]
  | cons p ps ih =>
    intro st hn hc hh
    have hp := hc p (List.mem_cons_self ..)
    obtain ⟨u1, u2, u3, u4⟩ := unregister_own hp
    obtain ⟨v1, v2⟩ := unregister_subs st s p
    have hnb : ¬ (unregister st s p).2 = some .buffer := by
      rw [u4]
      rintro ⟨h1, h2⟩
      obtain ⟨s', h3, h4⟩ := hh p (List.mem_cons_self ..) h1
      exact h3 (h2 s' h4)
    have hnone : (unregister st s p).2 = none := by
      rcases u3 with u3 | ⟨u3, _⟩
      · exact u3
      · exact absurd u3 hnb
    have hno := List.nodup_cons.1 hn
    have e : unregister st s p = ((unregister st s p).1, none) := by rw [← hnone]
    simp only [leaveAll]
    rw [e]
    dsimp only
    have hne : ∀ q ∈ ps, q ≠ p := fun q hq e => hno.1 (e ▸ hq)
    have := ih (setSub (unregister st s p).1 s
      { (unregister st s p).1.subs s with chans := ((unregister st s p).1.subs s).chans.filter (fun q => decide (q ≠ p)) })
      hno.2 ?_ ?_
    · obtain ⟨k1, k2, k3, k4⟩ := this
      refine ⟨k1, ?_, k3.trans v2, ?_⟩
      · rw [k2]
        simp only [setSub, if_true, v1, List.filter_filter]
        congr 1
        apply List.filter_congr
        intro q _
        simp [Bool.and_comm]
      · intro q
        rw [k4 q]
        show s ∈ clients (unregister st s p).1 q ∧ q ∉ ps ↔ _
        rw [u1 q, and_assoc, List.mem_cons, not_or]
    · intro q hq
      show s ∈ clients (unregister st s p).1 q
      exact (u1 q).2 ⟨hc q (List.mem_cons_of_mem _ hq), hne q hq⟩
    · intro q hq hqh
      obtain ⟨s', h3, h4⟩ := hh q (List.mem_cons_of_mem _ hq) (u2 q hqh)
      exact ⟨s', h3, ((same_unregister (Ne.symm h3) st p).cl q).2 h4⟩

theorem unregister_none {st : St P S} {s : S} {p q : P} (h : st.reg q = none) : (unregister st s p).1.reg q = none := by
  unfold unregister
  split
  · exact h
  · rename_i cl e
    have hq : q ≠ p := fun x => by rw [x, e] at h; cases h
    split
    · split <;> simp [setReg, hq, h]
    · exact h

/-- Leaving all channels does not succeed if one of them is not registered. -/
theorem unregisterAll_fails {s : S} : ∀ (ps : List P) (st : St P S) {q : P}, q ∈ ps → st.reg q = none →
    (unregisterAll st s ps).2 ≠ none := by
  intro ps
  induction ps with
  | nil => intro st q hq _; cases hq
  | cons p ps ih =>
    intro st q hq hn
    simp only [unregisterAll]
    split
    · rename_i st1 e
      have hn1 : st1.reg q = none := by have := unregister_none (s := s) (p := p) hn; rw [e] at this; exact this
      rcases List.mem_cons.1 hq with rfl | hq'
      · have : (unregister st s q).2 = some .key := by simp [unregister, hn]
        rw [e] at this; cases this
      · exact ih st1 hq' hn1
    · simp

theorem unregisterAll_subs {s : S} : ∀ (ps : List P) (st : St P S),
    (unregisterAll st s ps).1.subs = st.subs ∧ (unregisterAll st s ps).1.log = st.log := by
  intro ps
  induction ps with
  | nil => intro st; exact ⟨rfl, rfl⟩
  | cons p ps ih =>
    intro st
    have h := unregister_subs st s p
    simp only [unregisterAll]
    split
    · rename_i st1 e
      rw [e] at h
      exact ⟨(ih st1).1.trans h.1, (ih st1).2.trans h.2⟩
    · rename_i st1 x e
      rw [e] at h
      exact h

/-- Leaving a channel in use fails, and leaves a channel in the list that is not registered. -/
theorem leaveAll_fails {s : S} : ∀ (old : List P) (st : St P S), old.Nodup → (∀ p ∈ old, s ∈ clients st p) →
    (∀ p ∈ old, p ∈ (st.subs s).chans) → (∃ p ∈ old, p ∈ st.held ∧ ∀ s' ∈ clients st p, s' = s) →
    let r := leaveAll st s old
    r.2 ≠ none ∧ (∃ q ∈ (r.1.subs s).chans, r.1.reg q = none) ∧ r.1.log = st.log ∧ (r.1.subs s).conn = (st.subs s).conn := by
  intro old
  induction old with
  | nil => intro st _ _ _ h; obtain ⟨p, hp, _⟩ := h; cases hp
  | cons p ps ih =>
    intro st hn hc hch hh
    have hp := hc p (List.mem_cons_self ..)
    obtain ⟨u1, u2, u3, u4⟩ := unregister_own hp
    obtain ⟨v1, v2⟩ := unregister_subs st s p
    have hno := List.nodup_cons.1 hn
    have hne : ∀ q ∈ ps, q ≠ p := fun q hq e => hno.1 (e ▸ hq)
    rcases u3 with u3 | ⟨u3, u5⟩
    · have e : unregister st s p = ((unregister st s p).1, none) := by rw [← u3]
      simp only [leaveAll]
      rw [e]
      dsimp only
      have := ih (setSub (unregister st s p).1 s
        { (unregister st s p).1.subs s with chans := ((unregister st s p).1.subs s).chans.filter (fun q => decide (q ≠ p)) })
        hno.2 ?_ ?_ ?_
      · obtain ⟨k1, k2, k3, k4⟩ := this
        refine ⟨k1, k2, k3.trans v2, k4.trans ?_⟩
        simp [setSub, v1]
      · intro q hq
        show s ∈ clients (unregister st s p).1 q
        exact (u1 q).2 ⟨hc q (List.mem_cons_of_mem _ hq), hne q hq⟩
      · intro q hq
        simp only [setSub, if_true, v1, List.mem_filter, decide_eq_true_eq]
        exact ⟨hch q (List.mem_cons_of_mem _ hq), hne q hq⟩
      · obtain ⟨q, hq, hqh, hqs⟩ := hh
        have hqp : q ≠ p := by
          intro e'
          subst e'
          rw [u4.2 ⟨hqh, hqs⟩] at u3
          cases u3
        have hq' : q ∈ ps := by
          rcases List.mem_cons.1 hq with h | h
          · exact absurd h hqp
          · exact h
        refine ⟨q, hq', ?_, ?_⟩
        · show q ∈ (unregister st s p).1.held
          unfold unregister
          split
          · exact hqh
          · split
            · split
              · exact List.mem_filter.2 ⟨hqh, by simp [hqp]⟩
              · exact hqh
            · exact hqh
        · intro s' hs'
          have hs' : s' ∈ clients (unregister st s p).1 q := hs'
          by_cases e' : s' = s
          · exact e'
          · exact hqs s' (((same_unregister (s := s') (s' := s) (fun x => e' x.symm) st p).cl q).1 hs')
    · have e : unregister st s p = ((unregister st s p).1, some .buffer) := by rw [← u3]
      simp only [leaveAll]
      rw [e]
      refine ⟨by simp, ⟨p, ?_, u5⟩, v2, by simp [v1]⟩
      rw [v1]
      exact hch p (List.mem_cons_self ..)

/-- What holds of a subscriber whose task runs. -/
def Own (s : S) (st : St P S) : Prop :=
  (st.subs s).running = true → (st.subs s).conn = true ∧ ∀ p, s ∈ clients st p ↔ p ∈ (st.subs s).chans

theorem own_of_same {s : S} {st st' : St P S} (h : Same s st st') (ho : Own s st) : Own s st' := by
  intro hr
  rw [h.subs] at hr ⊢
  exact ⟨(ho hr).1, fun p => (h.cl p).trans ((ho hr).2 p)⟩

/-- The guard of an update. -/
structure Guard (x : Sub P) (ps new old : List P) : Prop where
  nodup : old.Nodup
  new_ : ∀ p ∈ new, p ∈ ps ∧ p ∉ x.chans
  all : ∀ p ∈ ps, p ∈ new ∨ p ∈ x.chans
  old_ : ∀ p ∈ old, p ∈ x.chans ∧ p ∉ ps
  rest : ∀ p ∈ x.chans, p ∈ old ∨ p ∈ ps

theorem step_update {st st' : St P S} {s : S} {ps new old : List P} (hr : (st.subs s).running = true)
    (hs : step st (.update s ps new old) = some st') :
    Guard (st.subs s) ps new old ∧ st' = update (logEv st (.sent s ps)) s ps new old := by
  simp only [step] at hs
  split at hs
  · split at hs
    · rename_i hg
      cases hs
      simp only [Bool.and_eq_true, List.all_eq_true, decide_eq_true_eq] at hg
      obtain ⟨⟨⟨⟨⟨_, g2⟩, g3⟩, g4⟩, g5⟩, g6⟩ := hg
      exact ⟨⟨g2, g3, g4, g5, g6⟩, rfl⟩
    · cases hs
  · cases hs

theorem finish_running (st : St P S) (s : S) (e : Option Err) : ((finish st s e).subs s).running = false := by
  unfold finish
  split <;> simp [logEv, setSub]

/-- The outcome of an update that leaves no channel in use. -/
theorem update_ok {st : St P S} {s : S} {ps new old : List P} (ho : ∀ p, s ∈ clients st p ↔ p ∈ (st.subs s).chans)
    (hg : Guard (st.subs s) ps new old) (hh : ∀ p ∈ old, p ∈ st.held → ∃ s', s' ≠ s ∧ s' ∈ clients st p) :
    (update st s ps new old).subs s =
      { st.subs s with chans := ((st.subs s).chans ++ new).filter (fun q => decide (q ∉ old)) } ∧
    (update st s ps new old).log = st.log ++ [.confirmed s ps] ∧
    (∀ p, s ∈ clients (update st s ps new old) p ↔ (s ∈ clients st p ∨ p ∈ new) ∧ p ∉ old) := by
  obtain ⟨r1, r2, r3, r4⟩ := registers_own s new st
  obtain ⟨l1, l2, l3, l4⟩ := leaveAll_own old (new.foldl (fun st p => register st s p) st) hg.nodup
    (fun p hp => (r4 p).2 (Or.inl ((ho p).2 (hg.old_ p hp).1)))
    (fun p hp hq => by
      obtain ⟨s', h1, h2⟩ := hh p hp (r2 ▸ hq)
      exact ⟨s', h1, ((same_registers (Ne.symm h1) new st).cl p).2 h2⟩)
  unfold update
  dsimp only
  split
  · rename_i st2 e
    rw [e] at l1 l2 l3 l4
    refine ⟨?_, ?_, fun p => ?_⟩
    · show st2.subs s = _
      rw [l2, r1]
    · show st2.log ++ [_] = _
      rw [l3, r3]
    · show s ∈ clients st2 p ↔ _
      rw [l4 p, r4 p]
  · rename_i st2 x e
    rw [e] at l1
    cases l1

/-- The outcome of an update that leaves a channel in use. -/
theorem update_fails {st : St P S} {s : S} {ps new old : List P} (ho : ∀ p, s ∈ clients st p ↔ p ∈ (st.subs s).chans)
    (hg : Guard (st.subs s) ps new old) (hh : ¬ ∀ p ∈ old, p ∈ st.held → ∃ s', s' ≠ s ∧ s' ∈ clients st p) :
    ((update st s ps new old).subs s).running = false ∧
    ((update st s ps new old).subs s).conn = (st.subs s).conn ∧
    (∃ e, (update st s ps new old).log = st.log ++ [.ended s (some e)]) := by
  obtain ⟨r1, r2, r3, r4⟩ := registers_own s new st
  have hx : ∃ p ∈ old, p ∈ st.held ∧ ∀ s' ∈ clients st p, s' = s := by
    apply Classical.byContradiction
    intro hn
    apply hh
    intro p hp hq
    apply Classical.byContradiction
    intro hn'
    refine hn ⟨p, hp, hq, fun s' hs' => ?_⟩
    apply Classical.byContradiction
    intro hne
    exact hn' ⟨s', hne, hs'⟩
  obtain ⟨p0, hp0, hq0, hs0⟩ := hx
  obtain ⟨l1, ⟨q, l2, l3⟩, l4, l5⟩ := leaveAll_fails (s := s) old (new.foldl (fun st p => register st s p) st) hg.nodup
    (fun p hp => (r4 p).2 (Or.inl ((ho p).2 (hg.old_ p hp).1)))
    (fun p hp => by rw [r1]; exact List.mem_append_left _ (hg.old_ p hp).1)
    ⟨p0, hp0, r2 ▸ hq0, fun s' hs' => by
      by_cases e : s' = s
      · exact e
      · exact hs0 s' (((same_registers (s := s') (s' := s) (fun x => e x.symm) new st).cl p0).1 hs')⟩
  unfold update
  dsimp only
  split
  · rename_i st2 e
    rw [e] at l1
    exact absurd rfl l1
  · rename_i st2 x e
    rw [e] at l2 l3 l4 l5
    refine ⟨finish_running _ _ _, ?_⟩
    have hf := unregisterAll_fails (s := s) (st2.subs s).chans st2 l2 l3
    have hsub := unregisterAll_subs (s := s) (st2.subs s).chans st2
    unfold finish
    split
    · rename_i st3 e3
      rw [e3] at hf
      exact absurd rfl hf
    · rename_i st3 x3 e3
      rw [e3] at hsub
      refine ⟨?_, x3, ?_⟩
      · have h1 : (st3.subs s).conn = (st2.subs s).conn := by rw [hsub.1]
        have h2 := l5.trans (by rw [r1])
        simpa [logEv, setSub] using h1.trans h2
      · have h1 : st3.log = st2.log := hsub.2
        have h2 : st2.log = _ := l4
        simp [logEv, setSub, h1, h2, r3]

theorem own_run {st : St P S} (h : Run st) (s : S) : Own s st := by
  induction h with
  | init => intro _; exact ⟨rfl, fun p => by simp [clients, init]⟩
  | @step st st' a h' hs ih =>
    by_cases hc : a = .close s
    · subst hc
      simp only [step] at hs
      split at hs
      · cases hs
        intro hr
        rw [finish_running] at hr; cases hr
      · cases hs
    · by_cases hu : ∃ ps new old, a = .update s ps new old
      · obtain ⟨ps, new, old, rfl⟩ := hu
        by_cases hr : (st.subs s).running = true
        · obtain ⟨hg, e⟩ := step_update hr hs
          subst e
          by_cases hh : ∀ p ∈ old, p ∈ st.held → ∃ s', s' ≠ s ∧ s' ∈ clients st p
          · obtain ⟨u1, _, u3⟩ := update_ok (st := logEv st (.sent s ps)) (ih hr).2 hg hh
            intro _
            rw [u1]
            refine ⟨(ih hr).1, fun p => ?_⟩
            rw [u3 p]
            have := (ih hr).2 p
            show (s ∈ clients st p ∨ p ∈ new) ∧ p ∉ old ↔ _
            rw [this]
            simp [logEv, or_and_right]
          · intro hr'
            rw [(update_fails (st := logEv st (.sent s ps)) (ih hr).2 hg (fun h => hh h)).1] at hr'
            cases hr'
        · have e : st' = logEv st (.sent s ps) := by
            simp only [step] at hs
            split at hs
            · cases hs; rfl
            · cases hs
          subst e
          intro hr'
          exact absurd hr' hr
      · exact own_of_same (same_step hs hc (fun ps new old e => hu ⟨ps, new, old, e⟩)) ih

/-- A subscriber whose task has ended does nothing. -/
theorem ended_step {s : S} {st st' : St P S} {a : Act P S} (hr : (st.subs s).running = false) (hs : step st a = some st') :
    st'.subs s = st.subs s ∧ confirmedBy s st'.log = confirmedBy s st.log := by
  by_cases hc : a = .close s
  · subst hc
    simp [step, hr] at hs
  · by_cases hu : ∃ ps new old, a = .update s ps new old
    · obtain ⟨ps, new, old, rfl⟩ := hu
      simp only [step, hr] at hs
      split at hs
      · cases hs
        exact ⟨rfl, by simp [logEv, confirmedBy]⟩
      · cases hs
    · have h := same_step hs hc (fun ps new old e => hu ⟨ps, new, old, e⟩)
      exact ⟨h.subs, h.conf⟩

theorem ended_run {s : S} : ∀ (as : List (Act P S)) {st st' : St P S}, (st.subs s).running = false →
    run as st = some st' → st'.subs s = st.subs s ∧ confirmedBy s st'.log = confirmedBy s st.log := by
  intro as
  induction as with
  | nil => intro st st' _ h; cases h; exact ⟨rfl, rfl⟩
  | cons a as ih =>
    intro st st' hr h
    simp only [run] at h
    split at h
    · rename_i st1 hs
      obtain ⟨h1, h2⟩ := ended_step hr hs
      obtain ⟨k1, k2⟩ := ih (by rw [h1]; exact hr) h
      exact ⟨k1.trans h1, k2.trans h2⟩
    · cases h

theorem unregisterAll_held {s : S} : ∀ (ps : List P) (st : St P S) {q : P}, q ∈ ps → q ∈ st.held →
    (∀ s' ∈ clients st q, s' = s) → (unregisterAll st s ps).2 ≠ none := by
  intro ps
  induction ps with
  | nil => intro st q hq; cases hq
  | cons p ps ih =>
    intro st q hq hh hc
    simp only [unregisterAll]
    split
    · rename_i st1 e
      by_cases hqp : q = p
      · subst hqp
        exfalso
        by_cases hm : s ∈ clients st q
        · have := (unregister_own hm).2.2.2.2 ⟨hh, hc⟩
          rw [e] at this; cases this
        · have : (unregister st s q).2 = some .key := by
            unfold unregister
            split
            · rfl
            · rename_i cl e'
              rw [if_neg (by simpa [clients, e'] using hm)]
          rw [e] at this; cases this
      · have hq' : q ∈ ps := by
          rcases List.mem_cons.1 hq with h | h
          · exact absurd h hqp
          · exact h
        have e1 : st1 = (unregister st s p).1 := by rw [e]
        refine ih st1 hq' ?_ ?_
        · rw [e1]
          unfold unregister
          split
          · exact hh
          · split
            · split
              · exact List.mem_filter.2 ⟨hh, by simp [hqp]⟩
              · exact hh
            · exact hh
        · intro s' hs'
          by_cases e' : s' = s
          · exact e'
          · rw [e1] at hs'
            exact hc s' (((same_unregister (s := s') (s' := s) (fun x => e' x.symm) st p).cl q).1 hs')
    · simp

/-- **C112**, as far as it holds: a subscriber confirms every update, its channels are those of the publishers of the last
update and it is a client of exactly these, if no update takes away a publisher while an array made from one of its
messages is in use, unless another subscriber of the process uses the channel. -/
theorem C112_follows_partial {s : S} {st : St P S} (h : Quiet s st) :
    confirmedBy s st.log = sentTo s st.log ∧
    (∀ p, p ∈ (st.subs s).chans ↔ p ∈ (sentTo s st.log).getLast?.getD []) ∧
    (∀ p, s ∈ clients st p ↔ p ∈ (st.subs s).chans) ∧ (st.subs s).running = true := by
  have key : confirmedBy s st.log = sentTo s st.log ∧
      (∀ p, p ∈ (st.subs s).chans ↔ p ∈ (sentTo s st.log).getLast?.getD []) ∧ (st.subs s).running = true := by
    induction h with
    | init => simp [init, confirmedBy, sentTo]
    | @step st st' a h' hs hc hx ih =>
      obtain ⟨i1, i2, i3⟩ := ih
      by_cases hu : ∃ ps new old, a = .update s ps new old
      · obtain ⟨ps, new, old, rfl⟩ := hu
        obtain ⟨hg, e⟩ := step_update i3 hs
        obtain ⟨u1, u2, _⟩ := update_ok (st := logEv st (.sent s ps)) (own_run h'.run s i3).2 hg (hx ps new old rfl)
        subst e
        have e1 : sentTo s (st.log ++ [.sent s ps] ++ [.confirmed s ps]) = sentTo s st.log ++ [ps] := by simp [sentTo]
        have e2 : confirmedBy s (st.log ++ [.sent s ps] ++ [.confirmed s ps]) = confirmedBy s st.log ++ [ps] := by
          simp [confirmedBy]
        rw [u2, u1]
        refine ⟨?_, ?_, i3⟩
        · show confirmedBy s (st.log ++ [.sent s ps] ++ [.confirmed s ps]) = _
          exact e2.trans ((congrArg (· ++ [ps]) i1).trans e1.symm)
        · intro p
          show p ∈ ((st.subs s).chans ++ new).filter (fun q => decide (q ∉ old)) ↔
            p ∈ (sentTo s (st.log ++ [.sent s ps] ++ [.confirmed s ps])).getLast?.getD []
          rw [e1]
          simp only [List.mem_filter, List.mem_append, decide_eq_true_eq, List.getLast?_append, List.getLast?_singleton,
            Option.some_or, Option.getD_some]
          constructor
          · rintro ⟨h1 | h1, h2⟩
            · rcases hg.rest p h1 with h3 | h3
              · exact absurd h3 h2
              · exact h3
            · exact (hg.new_ p h1).1
          · intro h1
            refine ⟨(hg.all p h1).symm, fun h2 => (hg.old_ p h2).2 h1⟩
      · have h := same_step hs hc (fun ps new old e => hu ⟨ps, new, old, e⟩)
        rw [h.subs, h.sent, h.conf]
        exact ⟨i1, i2, i3⟩
  exact ⟨key.1, key.2.1, (own_run h.run s key.2.2).2, key.2.2⟩

/-- **C112**, why it fails: an update that takes away a publisher while an array made from one of its messages is in use,
in a process where nobody else uses the channel, ends the subscriber's task. The update and all later ones are not
confirmed, and its channels do not change any more; but the server does not see the subscriber go: the connection stays
open. -/
theorem C112_negation_deaf {s : S} {st st' st'' : St P S} (h : Run st) (hr : (st.subs s).running = true)
    {ps new old : List P} (hs : step st (.update s ps new old) = some st') {p : P} (hp : p ∈ old) (hh : p ∈ st.held)
    (hc : ∀ s' ∈ clients st p, s' = s) {as : List (Act P S)} (ha : run as st' = some st'') :
    confirmedBy s st''.log = confirmedBy s st.log ∧ st''.subs s = st'.subs s ∧ (st''.subs s).conn = true := by
  obtain ⟨hg, e⟩ := step_update hr hs
  have ho := own_run h s hr
  obtain ⟨u1, u2, x, u3⟩ := update_fails (st := logEv st (.sent s ps)) ho.2 hg (fun hn => by
    obtain ⟨s', h1, h2⟩ := hn p hp hh
    exact h1 (hc s' h2))
  rw [← e] at u1 u2 u3
  obtain ⟨k1, k2⟩ := ended_run as u1 ha
  refine ⟨k2.trans ?_, k1, by rw [k1, u2]; exact ho.1⟩
  rw [u3]
  simp [confirmedBy, logEv]

/-- **C112**: likewise, a subscriber that is closed while an array made from a message of one of its publishers is in use
stays connected to the server. -/
theorem C112_negation_close {s : S} {st st' st'' : St P S} (h : Run st) (hr : (st.subs s).running = true)
    (hs : step st (.close s) = some st') {p : P} (hp : p ∈ (st.subs s).chans) (hh : p ∈ st.held)
    (hc : ∀ s' ∈ clients st p, s' = s) {as : List (Act P S)} (ha : run as st' = some st'') :
    (st''.subs s).running = false ∧ (st''.subs s).conn = true := by
  have ho := own_run h s hr
  simp only [step, hr, if_true] at hs
  cases hs
  have hf := unregisterAll_held (s := s) (st.subs s).chans st hp hh hc
  have hsub := unregisterAll_subs (s := s) (st.subs s).chans st
  have hrun := finish_running st s none
  obtain ⟨k1, _⟩ := ended_run as hrun ha
  rw [k1]
  refine ⟨hrun, ?_⟩
  unfold finish
  split
  · rename_i st3 e3
    rw [e3] at hf
    exact absurd rfl hf
  · rename_i st3 x3 e3
    rw [e3] at hsub
    have h1 : (st3.subs s).conn = (st.subs s).conn := by rw [hsub.1]
    simpa [logEv, setSub] using h1.trans ho.1

/-- **C112** fails: subscriber `s` is told of publisher 1, gets an array from it, and while it uses it is told that it has
no publishers, and later that it has publisher 2. -/
theorem C112_negation :
    (run [.update 's' [1] [1] [], .hold 1, .update 's' [] [] [1], .free 1, .update 's' [2] [] []] (init : St Nat Char)).map
      (fun st => (sentTo 's' st.log, confirmedBy 's' st.log, st.subs 's')) =
    some ([[1], [], [2]], [[1]], { chans := [1], running := false, conn := true }) := by decide

theorem run_of_run : ∀ (as : List (Act P S)) {st st' : St P S}, Run st → run as st = some st' → Run st' := by
  intro as
  induction as with
  | nil => intro st st' h hr; cases hr; exact h
  | cons a as ih =>
    intro st st' h hr
    simp only [run] at hr
    split at hr
    · rename_i st1 hs
      exact ih (h.step a hs) hr
    · cases hr

/-- The other subscriber of the channel keeps it open: the update is confirmed although an array is in use. -/
example : ∃ st : St Nat Char, Quiet 's' st ∧ 1 ∈ st.held ∧ sentTo 's' st.log = [[1, 2], [2]] ∧ clients st 1 = ['t'] := by
  have i1 : Quiet 's' _ := .step (.update 's' [1, 2] [1, 2] []) (.init : Quiet 's' (init : St Nat Char)) rfl
    (by decide) (by intro _ _ _ h; cases h; intro p hp; cases hp)
  have i2 := i1.step (.update 't' [1] [1] []) rfl (by decide) (by intro _ _ _ h; simp at h)
  have i3 := i2.step (.hold 1) rfl (by decide) (by intro _ _ _ h; simp at h)
  have i4 := i3.step (.update 's' [2] [] [1]) rfl (by decide) (by
    intro _ _ _ h; cases h; intro p hp hq
    have : p = 1 := by simpa using hp
    subst this
    exact ⟨'t', by decide, by decide⟩)
  exact ⟨_, i4, by decide, by decide, by decide⟩

/-- The hypotheses of the two negations. -/
example : ∃ st st' : St Nat Char, Run st ∧ (st.subs 's').running = true ∧ step st (.update 's' [2] [2] [1]) = some st' ∧
    1 ∈ st.held ∧ (∀ s' ∈ clients st 1, s' = 's') ∧ 1 ∈ (st.subs 's').chans :=
  ⟨_, _, run_of_run [.update 's' [1] [1] [], .hold 1] .init rfl, by decide, rfl, by decide, by decide, by decide⟩

theorem step_update_new {st st' : St P S} {s : S} {ps new old : List P} (hr : (st.subs s).running = true)
    (hs : step st (.update s ps new old) = some st') : new.Nodup := by
  simp only [step] at hs
  split at hs
  · split at hs
    · rename_i hg
      simp only [Bool.and_eq_true, List.all_eq_true, decide_eq_true_eq] at hg
      exact hg.1.1.1.1.1
    · cases hs
  · cases hs

/-- The keys of `self._channels` are distinct. -/
theorem nodup_run {st : St P S} (h : Run st) (s : S) : (st.subs s).running = true → (st.subs s).chans.Nodup := by
  induction h with
  | init => intro _; exact List.nodup_nil
  | @step st st' a h' hs ih =>
    intro hr
    by_cases hu : ∃ ps new old, a = .update s ps new old
    · obtain ⟨ps, new, old, rfl⟩ := hu
      by_cases hr0 : (st.subs s).running = true
      · have hn := step_update_new hr0 hs
        obtain ⟨hg, e⟩ := step_update hr0 hs
        subst e
        by_cases hh : ∀ p ∈ old, p ∈ st.held → ∃ s', s' ≠ s ∧ s' ∈ clients st p
        · obtain ⟨u1, _⟩ := update_ok (st := logEv st (.sent s ps)) (own_run h' s hr0).2 hg hh
          rw [u1]
          refine List.Nodup.sublist List.filter_sublist ?_
          rw [List.nodup_append]
          exact ⟨ih hr0, hn, fun a ha b hb e => (hg.new_ b hb).2 (e ▸ ha)⟩
        · obtain ⟨u1, _⟩ := update_fails (st := logEv st (.sent s ps)) (own_run h' s hr0).2 hg hh
          rw [u1] at hr; cases hr
      · have := ended_step (s := s) (Bool.eq_false_iff.2 hr0) hs
        simp_all
    · by_cases hc : a = .close s
      · subst hc
        simp only [step] at hs
        split at hs
        · cases hs
          rw [finish_running] at hr
          cases hr
        · cases hs
      · have h := same_step hs hc (fun ps new old e => hu ⟨ps, new, old, e⟩)
        rw [h.subs] at hr ⊢
        exact ih hr

theorem distinct (l : List P) : ∃ l' : List P, l'.Nodup ∧ ∀ p, p ∈ l' ↔ p ∈ l := by
  induction l with
  | nil => exact ⟨[], List.nodup_nil, by simp⟩
  | cons p l ih =>
    obtain ⟨l', h1, h2⟩ := ih
    by_cases e : p ∈ l'
    · refine ⟨l', h1, fun q => ?_⟩
      rw [h2 q, List.mem_cons]
      exact ⟨.inr, fun h => h.elim (fun x => x ▸ (h2 p).1 e) id⟩
    · exact ⟨p :: l', List.nodup_cons.2 ⟨e, h1⟩, fun q => by simp [h2 q]⟩

/-- Leaving all channels, if nothing of theirs is in use. -/
theorem unregisterAll_own {s : S} : ∀ (old : List P) (st : St P S), old.Nodup → (∀ p ∈ old, s ∈ clients st p) →
    (∀ p ∈ old, p ∈ st.held → ∃ s', s' ≠ s ∧ s' ∈ clients st p) →
    (unregisterAll st s old).2 = none ∧ ∀ p, s ∈ clients (unregisterAll st s old).1 p ↔ s ∈ clients st p ∧ p ∉ old := by
  intro old
  induction old with
  | nil => intro st _ _ _; exact ⟨rfl, fun p => by simp [unregisterAll]⟩
  | cons p ps ih =>
    intro st hn hc hh
    have hp := hc p (List.mem_cons_self ..)
    obtain ⟨u1, u2, u3, u4⟩ := unregister_own hp
    have hnone : (unregister st s p).2 = none := by
      rcases u3 with u3 | ⟨u3, _⟩
      · exact u3
      · obtain ⟨h1, h2⟩ := u4.1 u3
        obtain ⟨s', h3, h4⟩ := hh p (List.mem_cons_self ..) h1
        exact absurd (h2 s' h4) h3
    have hno := List.nodup_cons.1 hn
    have e : unregister st s p = ((unregister st s p).1, none) := by rw [← hnone]
    simp only [unregisterAll]
    rw [e]
    dsimp only
    have hne : ∀ q ∈ ps, q ≠ p := fun q hq e => hno.1 (e ▸ hq)
    obtain ⟨k1, k2⟩ := ih (unregister st s p).1 hno.2 (fun q hq => (u1 q).2 ⟨hc q (List.mem_cons_of_mem _ hq), hne q hq⟩)
      (fun q hq hqh => by
        obtain ⟨s', h3, h4⟩ := hh q (List.mem_cons_of_mem _ hq) (u2 q hqh)
        exact ⟨s', h3, ((same_unregister (Ne.symm h3) st p).cl q).2 h4⟩)
    refine ⟨k1, fun q => ?_⟩
    rw [k2 q, u1 q, and_assoc, List.mem_cons, not_or]

/-- **C112**, as far as it holds: a subscriber whose task runs takes every update of the server and can be closed at any time. If no
array made from a message of a channel that it leaves is in use, or another subscriber of the process uses that channel, the
update is confirmed, and the subscriber goes on with the channels of the update; after `close` the connection to the server is closed, the task
has ended without an exception and the subscriber is a client of no channel; the other subscribers keep theirs. -/
theorem C112_goes_on_partial {s : S} {st : St P S} (h : Run st) (hr : (st.subs s).running = true) :
    (∀ ps, ∃ new old, (step st (.update s ps new old)).isSome = true) ∧
    (∀ ps new old st', step st (.update s ps new old) = some st' →
      (∀ p ∈ (st.subs s).chans, p ∉ ps → p ∈ st.held → ∃ s', s' ≠ s ∧ s' ∈ clients st p) →
      st'.log = st.log ++ [.sent s ps, .confirmed s ps] ∧ (st'.subs s).running = true ∧ (∀ p, s ∈ clients st' p ↔ p ∈ ps) ∧
      ∀ s', s' ≠ s → st'.subs s' = st.subs s' ∧ ∀ p, s' ∈ clients st' p ↔ s' ∈ clients st p) ∧
    (step st (.close s)).isSome = true ∧
    (∀ st', step st (.close s) = some st' →
      (∀ p ∈ (st.subs s).chans, p ∈ st.held → ∃ s', s' ≠ s ∧ s' ∈ clients st p) →
      (st'.subs s).conn = false ∧ (st'.subs s).running = false ∧ st'.log = st.log ++ [.ended s none] ∧ (∀ p, s ∉ clients st' p) ∧
      ∀ s', s' ≠ s → st'.subs s' = st.subs s' ∧ ∀ p, s' ∈ clients st' p ↔ s' ∈ clients st p) := by
  obtain ⟨o1, o2⟩ := own_run h s hr
  have hn := nodup_run h s hr
  refine ⟨fun ps => ?_, fun ps new old st' hs hh => ?_, ?_, fun st' hs hh => ?_⟩
  · obtain ⟨new, d1, d2⟩ := distinct (ps.filter (fun p => decide (p ∉ (st.subs s).chans)))
    refine ⟨new, (st.subs s).chans.filter (fun p => decide (p ∉ ps)), ?_⟩
    simp only [step]
    rw [if_pos o1, if_pos hr, if_pos]
    · rfl
    · simp only [Bool.and_eq_true, List.all_eq_true, decide_eq_true_eq, d2, List.mem_filter]
      refine ⟨⟨⟨⟨⟨d1, hn.sublist List.filter_sublist⟩, fun p hp => hp⟩, fun p hp => ?_⟩, fun p hp => hp⟩, fun p hp => ?_⟩
      · by_cases e : p ∈ (st.subs s).chans
        · exact .inr e
        · exact .inl ⟨hp, e⟩
      · by_cases e : p ∈ ps
        · exact .inr e
        · exact .inl ⟨hp, e⟩
  · obtain ⟨hg, e⟩ := step_update hr hs
    obtain ⟨u1, u2, u3⟩ := update_ok (st := logEv st (.sent s ps)) o2 hg (fun p hp => hh p (hg.old_ p hp).1 (hg.old_ p hp).2)
    subst e
    refine ⟨?_, ?_, fun p => ?_, fun s' hs' => ?_⟩
    · rw [u2]; simp [logEv]
    · rw [u1]; exact hr
    · rw [u3 p]
      show (s ∈ clients st p ∨ _) ∧ _ ↔ _
      rw [o2 p]
      constructor
      · rintro ⟨h1 | h1, h2⟩
        · exact (hg.rest p h1).resolve_left h2
        · exact (hg.new_ p h1).1
      · exact fun h1 => ⟨(hg.all p h1).symm, fun h2 => (hg.old_ p h2).2 h1⟩
    · have k := same_update (s := s') (s' := s) (Ne.symm hs') (logEv st (.sent s ps)) ps new old
      exact ⟨k.subs, k.cl⟩
  · simp [step, hr]
  · simp only [step, hr, if_true] at hs
    cases hs
    have hk := fun s' (hs' : s' ≠ s) => same_finish (s := s') (s' := s) (Ne.symm hs') st none
    obtain ⟨k1, k2⟩ := unregisterAll_own (st.subs s).chans st hn (fun p hp => (o2 p).2 hp) hh
    have e3 := (unregisterAll_subs (s := s) (st.subs s).chans st)
    refine ⟨?_, finish_running .., ?_, fun p => ?_, fun s' hs' => ⟨(hk s' hs').subs, (hk s' hs').cl⟩⟩
    · unfold finish
      split
      · simp [logEv, setSub]
      · rename_i e; rw [e] at k1; cases k1
    · unfold finish
      split
      · rename_i st1 e
        rw [e] at e3
        show st1.log ++ _ = _
        rw [show st1.log = st.log from e3.2]
      · rename_i e; rw [e] at k1; cases k1
    · unfold finish
      split
      · rename_i st1 e
        rw [e] at k2
        show ¬ s ∈ clients st1 p
        rw [k2 p, o2 p]
        simp
      · rename_i e; rw [e] at k1; cases k1

/-- Two subscribers use the channel of publisher 7, the first also that of 8; an array of 7 is in use. The first is told 8 and 9, then closed. -/
example : ∃ st st' : St Nat Bool, Run st ∧ (st.subs true).running = true ∧ st.held = [7] ∧
    run [.update true [8, 9] [9] [7], .close true] st = some st' ∧ (st'.subs true).conn = false ∧ clients st' 7 = [false] ∧
    clients st' 8 = [] :=
  ⟨_, _, ((Run.init.step (.update true [7, 8] [7, 8] []) rfl).step (.update false [7] [7] []) rfl).step (.hold 7) rfl, rfl, rfl, rfl, rfl, rfl,
    rfl⟩

end Unsub
end Ez
