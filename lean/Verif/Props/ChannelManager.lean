import Verif.Model.ChannelManager
import Verif.Lemmas.Py

/-!
# C38: the channels of one process
-/

set_option linter.unusedSectionVars false
set_option linter.unusedSimpArgs false

namespace Ez
namespace Mgr
variable {P C K : Type} [DecidableEq P] [DecidableEq C] [DecidableEq K]

/-- Specification, one event: the channel client `c` of publisher `p` was given last and has not given back. -/
def servingStep (p : P) (c : C) (r : Option Nat) (e : Act P C K × Reply P C) : Option Nat :=
  match e with
  | (_, .channel p' c' n) => if p' = p ∧ c' = c then some n else r
  | (.unregister p' c', .done) => if p' = p ∧ c' = c then none else r
  | _ => r

/-- Specification: the channel that serves client `c` of publisher `p` after a history. -/
def serving (h : List (Act P C K × Reply P C)) (p : P) (c : C) : Option Nat := h.foldl (servingStep p c) none

/-- Specification: histories in which no registration for a publisher starts while the channel for the same publisher
is being created. -/
inductive Serial : List (Act P C K × Reply P C) → Manager P C K → Prop
  | init : Serial [] .init
  | step {h m} (a : Act P C K) : Serial h m →
      (∀ k p c, a = .register k p c → ∀ k' c', m.pending.get? k' ≠ some (p, c')) →
      Serial (h ++ [(a, (step m a).1)]) (step m a).2

theorem Serial.run {h : List (Act P C K × Reply P C)} {m : Manager P C K} (r : Serial h m) : Run h m := by
  induction r with
  | init => exact .init
  | step a _ _ ih => exact .step a ih

theorem serving_snoc (h : List (Act P C K × Reply P C)) (e) (p : P) (c : C) :
    serving (h ++ [e]) p c = servingStep p c (serving h p c) e := by
  simp [serving]

theorem mem_add {s : PySet C} {x y : C} : y ∈ PySet.add s x ↔ y ∈ s ∨ y = x := by
  unfold PySet.add
  split
  · constructor
    · exact Or.inl
    · rintro (h | rfl) <;> assumption
  · simp

theorem mem_discard {s : PySet C} {x y : C} : y ∈ PySet.discard s x ↔ y ∈ s ∧ y ≠ x := by
  simp [PySet.discard]

theorem registerClient_get (chans : List (Chan P C)) (n i : Nat) (c : C) :
    (registerClient chans n c)[i]? =
      if n = i then (chans[i]?).map (fun ch => { ch with clients := PySet.add ch.clients c }) else chans[i]? := by
  unfold registerClient
  rw [List.getElem?_modify]
  split
  · subst_vars; simp
  · cases chans[i]? <;> simp [*]

/-- The part of the invariant that every run has. -/
structure Inv (m : Manager P C K) (f : P → C → Option Nat) : Prop where
  reg : ∀ p n, m.registry.get? p = some n → ∃ ch, m.chans[n]? = some ch ∧ ch.pub = p ∧ ch.opened = true
  used : ∀ (n : Nat) (ch : Chan P C), m.chans[n]? = some ch → (ch.opened = true ↔ ch.clients ≠ [])
  served : ∀ p c n, f p c = some n → ∃ ch, m.chans[n]? = some ch ∧ ch.pub = p ∧ c ∈ ch.clients

/-- The part that needs serial registrations. -/
structure Inv' (m : Manager P C K) (f : P → C → Option Nat) : Prop where
  only : ∀ (n : Nat) (ch : Chan P C), m.chans[n]? = some ch → ch.opened = true → m.registry.get? ch.pub = some n
  known : ∀ (n : Nat) (ch : Chan P C) c, m.chans[n]? = some ch → c ∈ ch.clients → f ch.pub c = some n
  wait : ∀ k p c, m.pending.get? k = some (p, c) → m.registry.get? p = none
  one : ∀ k p c k' c', m.pending.get? k = some (p, c) → m.pending.get? k' = some (p, c') → k = k'

theorem step_inv {m : Manager P C K} {f : P → C → Option Nat} (I : Inv m f) (a : Act P C K) :
    Inv (step m a).2 (fun p c => servingStep p c (f p c) (a, (step m a).1)) ∧
    (Inv' m f → (∀ k p c, a = .register k p c → ∀ k' c', m.pending.get? k' ≠ some (p, c')) →
      Inv' (step m a).2 (fun p c => servingStep p c (f p c) (a, (step m a).1))) := by
  cases a with
  | register k p c =>
    by_cases hk : (m.pending.get? k).isSome = true
    · simp only [step, hk, if_true, servingStep]
      exact ⟨I, fun J _ => J⟩
    · simp only [step, hk, if_false, register, Bool.false_eq_true]
      cases hr : m.registry.get? p with
      | none =>
        simp only [servingStep]
        refine ⟨⟨I.reg, I.used, I.served⟩, ?_⟩
        intro J hs
        refine ⟨J.only, J.known, ?_, ?_⟩
        · intro k' p' c' h
          simp only [PyDict.get?_set] at h
          split at h
          · cases h; exact hr
          · exact J.wait k' p' c' h
        · intro k1 p1 c1 k2 c2 h1 h2
          simp only [PyDict.get?_set] at h1 h2
          split at h1
          · cases h1
            split at h2
            · simp_all
            · exact absurd h2 (hs k p c rfl k2 c2)
          · split at h2
            · cases h2
              exact absurd h1 (hs k p c rfl k1 c1)
            · exact J.one k1 p1 c1 k2 c2 h1 h2
      | some n =>
        obtain ⟨ch, hch, hpub, hop⟩ := I.reg p n hr
        simp only [servingStep]
        have hget : ∀ i ch', (registerClient m.chans n c)[i]? = some ch' →
            ∃ ch0, m.chans[i]? = some ch0 ∧ ch'.pub = ch0.pub ∧ ch'.opened = ch0.opened ∧
              (∀ d, d ∈ ch'.clients ↔ d ∈ ch0.clients ∨ (i = n ∧ d = c)) := by
          intro i ch' h
          rw [registerClient_get] at h
          split at h
          · rename_i hi
            subst hi
            rw [hch] at h
            cases h
            exact ⟨ch, hch, rfl, rfl, fun d => by simp [mem_add]⟩
          · rename_i hi
            exact ⟨ch', h, rfl, rfl, fun d => by simp [Ne.symm hi]⟩
        have hput : ∀ i ch0, m.chans[i]? = some ch0 → ∃ ch', (registerClient m.chans n c)[i]? = some ch' ∧
            ch'.pub = ch0.pub ∧ ch'.opened = ch0.opened ∧
              (∀ d, d ∈ ch'.clients ↔ d ∈ ch0.clients ∨ (i = n ∧ d = c)) := by
          intro i ch0 h
          have : ∃ ch', (registerClient m.chans n c)[i]? = some ch' := by
            rw [registerClient_get, h]
            split <;> simp
          obtain ⟨ch', h'⟩ := this
          obtain ⟨ch1, e, r⟩ := hget i ch' h'
          rw [h] at e; cases e
          exact ⟨ch', h', r⟩
        refine ⟨⟨?_, ?_, ?_⟩, ?_⟩
        · intro p' n' h
          obtain ⟨ch0, a1, a2, a3⟩ := I.reg p' n' h
          obtain ⟨ch', b1, b2, b3, _⟩ := hput n' ch0 a1
          exact ⟨ch', b1, b2.trans a2, b3.trans a3⟩
        · intro i ch' h
          obtain ⟨ch0, a1, _, a3, a4⟩ := hget i ch' h
          rw [a3, I.used i ch0 a1]
          constructor
          · intro hne e
            obtain ⟨d, hd⟩ := List.exists_mem_of_ne_nil _ hne
            have := (a4 d).2 (Or.inl hd)
            rw [e] at this; cases this
          · intro hne e
            obtain ⟨d, hd⟩ := List.exists_mem_of_ne_nil _ hne
            rcases (a4 d).1 hd with h' | ⟨rfl, _⟩
            · rw [e] at h'; cases h'
            · rw [a1] at hch; cases hch
              exact (I.used _ _ a1).1 hop e
        · intro p' c' n' h
          split at h
          · rename_i he
            obtain ⟨rfl, rfl⟩ := he
            cases h
            obtain ⟨ch', b1, b2, b3, b4⟩ := hput n ch hch
            exact ⟨ch', b1, b2.trans hpub, (b4 c).2 (Or.inr ⟨rfl, rfl⟩)⟩
          · obtain ⟨ch0, a1, a2, a3⟩ := I.served p' c' n' h
            obtain ⟨ch', b1, b2, b3, b4⟩ := hput n' ch0 a1
            exact ⟨ch', b1, b2.trans a2, (b4 c').2 (Or.inl a3)⟩
        · intro J hs
          refine ⟨?_, ?_, J.wait, J.one⟩
          · intro i ch' h ho
            obtain ⟨ch0, a1, a2, a3, _⟩ := hget i ch' h
            rw [a2]
            exact J.only i ch0 a1 (a3 ▸ ho)
          · intro i ch' d h hd
            obtain ⟨ch0, a1, a2, _, a4⟩ := hget i ch' h
            rw [a2]
            rcases (a4 d).1 hd with h' | ⟨rfl, rfl⟩
            · have := J.known i ch0 d a1 h'
              split
              · rename_i he
                obtain ⟨rfl, rfl⟩ := he
                have h3 := J.only i ch0 a1 ((I.used i ch0 a1).2 (List.ne_nil_of_mem h'))
                rw [hr] at h3
                exact h3
              · exact this
            · rw [hch] at a1; cases a1
              simp [hpub]
  | createFailed k =>
    cases hk : m.pending.get? k with
    | none =>
      simp only [step, hk, servingStep]
      exact ⟨I, fun J _ => J⟩
    | some pc =>
      simp only [step, hk, servingStep]
      refine ⟨⟨I.reg, I.used, I.served⟩, ?_⟩
      intro J _
      refine ⟨J.only, J.known, ?_, ?_⟩
      · intro k' p c h
        rw [PyDict.get?_pop] at h
        split at h
        · cases h
        · exact J.wait k' p c h
      · intro k1 p c k2 c2 h1 h2
        rw [PyDict.get?_pop] at h1 h2
        split at h1
        · cases h1
        · split at h2
          · cases h2
          · exact J.one k1 p c k2 c2 h1 h2
  | created k =>
    cases hk : m.pending.get? k with
    | none =>
      simp only [step, hk, servingStep]
      exact ⟨I, fun J _ => J⟩
    | some pc =>
      obtain ⟨p, c⟩ := pc
      simp only [step, hk, created, servingStep]
      have hget : ∀ i, (registerClient (m.chans ++ [{ pub := p, clients := [], opened := true }]) m.chans.length c)[i]? =
          if i = m.chans.length then some { pub := p, clients := [c], opened := true } else m.chans[i]? := by
        intro i
        rw [registerClient_get]
        by_cases hi : i = m.chans.length
        · subst hi; simp [PySet.add]
        · have hi' : m.chans.length ≠ i := fun e => hi e.symm
          simp only [hi', hi, if_false]
          rw [List.getElem?_append]
          split
          · rfl
          · rename_i hlt
            have : ∃ j, i - m.chans.length = j + 1 := ⟨i - m.chans.length - 1, by omega⟩
            obtain ⟨j, hj⟩ := this
            rw [hj]
            simp
            omega
      have hlt : ∀ i ch, m.chans[i]? = some ch → i ≠ m.chans.length := by
        intro i ch h e
        subst e
        simp at h
      refine ⟨⟨?_, ?_, ?_⟩, ?_⟩
      · intro p' n h
        rw [PyDict.get?_set] at h
        split at h
        · cases h
          rename_i hp
          exact ⟨{ pub := p, clients := [c], opened := true }, by rw [hget, if_pos rfl], hp.symm, rfl⟩
        · obtain ⟨ch, a1, a2, a3⟩ := I.reg p' n h
          exact ⟨ch, by rw [hget, if_neg (hlt _ _ a1)]; exact a1, a2, a3⟩
      · intro i ch h
        rw [hget] at h
        split at h
        · cases h; simp
        · exact I.used i ch h
      · intro p' c' n h
        split at h
        · rename_i he
          obtain ⟨rfl, rfl⟩ := he
          cases h
          exact ⟨{ pub := p, clients := [c], opened := true }, by rw [hget, if_pos rfl], rfl, by simp⟩
        · obtain ⟨ch, a1, a2, a3⟩ := I.served p' c' n h
          exact ⟨ch, by rw [hget, if_neg (hlt _ _ a1)]; exact a1, a2, a3⟩
      · intro J _
        have hnone := J.wait k p c hk
        refine ⟨?_, ?_, ?_, ?_⟩
        · intro i ch h ho
          rw [hget] at h
          rw [PyDict.get?_set]
          split at h
          · cases h; simp [*]
          · have h3 := J.only i ch h ho
            split
            · rename_i hp
              rw [hp, hnone] at h3; cases h3
            · exact h3
        · intro i ch d h hd
          rw [hget] at h
          split at h
          · cases h
            simp only [List.mem_singleton] at hd
            subst hd
            simp [*]
          · have h3 := J.known i ch d h hd
            have h4 := J.only i ch h ((I.used i ch h).2 (List.ne_nil_of_mem hd))
            split
            · rename_i he
              rw [← he.1, hnone] at h4; cases h4
            · exact h3
        · intro k' p' c' h
          rw [PyDict.get?_pop] at h
          rw [PyDict.get?_set]
          split at h
          · cases h
          · split
            · rename_i hne hp
              subst hp
              exact absurd (J.one k' p' c' k c h hk) hne
            · exact J.wait k' p' c' h
        · intro k1 p1 c1 k2 c2 h1 h2
          rw [PyDict.get?_pop] at h1 h2
          split at h1
          · cases h1
          · split at h2
            · cases h2
            · exact J.one k1 p1 c1 k2 c2 h1 h2
  | unregister p c =>
    simp only [step, unregister]
    cases hr : m.registry.get? p with
    | none =>
      simp only [servingStep]
      exact ⟨I, fun J _ => J⟩
    | some n =>
      obtain ⟨ch, hch, hpub, hop⟩ := I.reg p n hr
      have hltn : n < m.chans.length := by
        have := List.getElem?_eq_some_iff.1 hch
        exact this.1
      simp only [hch]
      by_cases hc : c ∈ ch.clients
      · simp only [hc, not_true_eq_false, if_false]
        by_cases hl : (PySet.discard ch.clients c).length = 0
        · simp only [hl, if_true, servingStep]
          have hnil : PySet.discard ch.clients c = [] := List.length_eq_zero_iff.1 hl
          have honly : ∀ d, d ∈ ch.clients → d = c := by
            intro d hd
            refine Decidable.byContradiction (fun hne => ?_)
            have := mem_discard.2 ⟨hd, hne⟩
            rw [hnil] at this; cases this
          have hget : ∀ i, (m.chans.set n { ch with clients := PySet.discard ch.clients c, opened := false })[i]? =
              if i = n then some { ch with clients := [], opened := false } else m.chans[i]? := by
            intro i
            rw [List.getElem?_set]
            by_cases hi : n = i
            · subst hi; simp [hltn, hnil]
            · have hi' : i ≠ n := fun e => hi e.symm
              simp [hi, hi']
          refine ⟨⟨?_, ?_, ?_⟩, ?_⟩
          · intro p' n' h
            rw [PyDict.get?_pop] at h
            split at h
            · cases h
            · rename_i hne
              obtain ⟨ch', a1, a2, a3⟩ := I.reg p' n' h
              refine ⟨ch', ?_, a2, a3⟩
              rw [hget, if_neg]
              · exact a1
              · rintro rfl
                rw [hch] at a1; cases a1
                exact hne (a2.symm.trans hpub)
          · intro i ch' h
            rw [hget] at h
            split at h
            · cases h; simp
            · exact I.used i ch' h
          · intro p' c' n' h
            split at h
            · cases h
            · rename_i hne
              obtain ⟨ch', a1, a2, a3⟩ := I.served p' c' n' h
              refine ⟨ch', ?_, a2, a3⟩
              rw [hget, if_neg]
              · exact a1
              · rintro rfl
                rw [hch] at a1; cases a1
                exact hne ⟨hpub.symm.trans a2, (honly c' a3).symm⟩
          · intro J _
            refine ⟨?_, ?_, ?_, J.one⟩
            · intro i ch' h ho
              rw [hget] at h
              rw [PyDict.get?_pop]
              split at h
              · cases h; cases ho
              · rename_i hi
                have h3 := J.only i ch' h ho
                split
                · rename_i hp
                  rw [hp, hr] at h3
                  exact absurd (Option.some.inj h3).symm hi
                · exact h3
            · intro i ch' d h hd
              rw [hget] at h
              split at h
              · cases h; cases hd
              · rename_i hi
                have h3 := J.known i ch' d h hd
                split
                · rename_i he
                  have h4 := J.only i ch' h ((I.used i ch' h).2 (List.ne_nil_of_mem hd))
                  rw [← he.1, hr] at h4
                  exact absurd (Option.some.inj h4).symm hi
                · exact h3
            · intro k p' c' h
              rw [PyDict.get?_pop]
              split
              · rfl
              · exact J.wait k p' c' h
        · simp only [hl, if_false, servingStep]
          have hget : ∀ i, (m.chans.set n { ch with clients := PySet.discard ch.clients c })[i]? =
              if i = n then some { ch with clients := PySet.discard ch.clients c } else m.chans[i]? := by
            intro i
            rw [List.getElem?_set]
            by_cases hi : n = i
            · subst hi; simp [hltn]
            · have hi' : i ≠ n := fun e => hi e.symm
              simp [hi, hi']
          refine ⟨⟨?_, ?_, ?_⟩, ?_⟩
          · intro p' n' h
            obtain ⟨ch', a1, a2, a3⟩ := I.reg p' n' h
            rw [hget]
            split
            · rename_i hi
              subst hi
              rw [hch] at a1; cases a1
              exact ⟨_, rfl, a2, a3⟩
            · exact ⟨ch', a1, a2, a3⟩
          · intro i ch' h
            rw [hget] at h
            split at h
            · cases h
              simp only [hop, true_iff]
              intro e
              rw [e] at hl
              exact hl rfl
            · exact I.used i ch' h
          · intro p' c' n' h
            split at h
            · cases h
            · rename_i hne
              obtain ⟨ch', a1, a2, a3⟩ := I.served p' c' n' h
              rw [hget]
              split
              · rename_i hi
                subst hi
                rw [hch] at a1; cases a1
                refine ⟨_, rfl, a2, mem_discard.2 ⟨a3, ?_⟩⟩
                rintro rfl
                exact hne ⟨hpub.symm.trans a2, rfl⟩
              · exact ⟨ch', a1, a2, a3⟩
          · intro J _
            refine ⟨?_, ?_, J.wait, J.one⟩
            · intro i ch' h ho
              rw [hget] at h
              split at h
              · rename_i hi
                cases h
                subst hi
                exact J.only _ ch hch hop
              · exact J.only i ch' h ho
            · intro i ch' d h hd
              rw [hget] at h
              split at h
              · rename_i hi
                cases h
                subst hi
                obtain ⟨hd1, hd2⟩ := mem_discard.1 hd
                rw [if_neg (fun he => hd2 he.2.symm)]
                exact J.known _ ch d hch hd1
              · rename_i hi
                have h3 := J.known i ch' d h hd
                split
                · rename_i he
                  have h4 := J.only i ch' h ((I.used i ch' h).2 (List.ne_nil_of_mem hd))
                  rw [← he.1, hr] at h4
                  exact absurd (Option.some.inj h4).symm hi
                · exact h3
      · simp only [hc, not_false_eq_true, if_true, servingStep]
        exact ⟨I, fun J _ => J⟩

theorem inv_init : Inv (Manager.init : Manager P C K) (fun p c => serving ([] : List (Act P C K × Reply P C)) p c) ∧
    Inv' (Manager.init : Manager P C K) (fun p c => serving ([] : List (Act P C K × Reply P C)) p c) := by
  refine ⟨⟨?_, ?_, ?_⟩, ⟨?_, ?_, ?_, ?_⟩⟩ <;> simp [Manager.init, serving, PyDict.get?_nil]

theorem run_inv {h : List (Act P C K × Reply P C)} {m : Manager P C K} (r : Run h m) : Inv m (serving h) := by
  induction r with
  | init => exact inv_init.1
  | @step h m a _ ih =>
    have := (step_inv ih a).1
    have e : serving (h ++ [(a, (step m a).1)]) = fun p c => servingStep p c (serving h p c) (a, (step m a).1) := by
      funext p c; exact serving_snoc h _ p c
    rw [e]; exact this

theorem serial_inv {h : List (Act P C K × Reply P C)} {m : Manager P C K} (r : Serial h m) : Inv' m (serving h) := by
  induction r with
  | init => exact inv_init.2
  | @step h m a r hs ih =>
    have := (step_inv (run_inv r.run) a).2 ih hs
    have e : serving (h ++ [(a, (step m a).1)]) = fun p c => servingStep p c (serving h p c) (a, (step m a).1) := by
      funext p c; exact serving_snoc h _ p c
    rw [e]; exact this

/-- **C38 (every history).** A channel is open exactly while it lists clients, a client that registered and has not
unregistered is served by an open channel of its publisher that lists it, and what the registry offers to newcomers is
an open channel of the right publisher. -/
theorem C38_clients_are_served {h : List (Act P C K × Reply P C)} {m : Manager P C K} (r : Run h m) :
    (∀ (n : Nat) (ch : Chan P C), m.chans[n]? = some ch → (ch.opened = true ↔ ch.clients ≠ [])) ∧
    (∀ p c n, serving h p c = some n → ∃ ch, m.chans[n]? = some ch ∧ ch.pub = p ∧ ch.opened = true ∧ c ∈ ch.clients) ∧
    (∀ p n, m.registry.get? p = some n → ∃ ch, m.chans[n]? = some ch ∧ ch.pub = p ∧ ch.opened = true) := by
  have I := run_inv r
  refine ⟨I.used, ?_, I.reg⟩
  intro p c n h
  obtain ⟨ch, a, b, d⟩ := I.served p c n h
  exact ⟨ch, a, b, (I.used n ch a).2 (List.ne_nil_of_mem d), d⟩

/-- **C38 (partial).** If no registration for a publisher starts while the channel for it is being created: there is at
most one open channel per publisher; there is one exactly while some client is registered; all clients of a publisher
are served by the same channel; and a registered client can always unregister. Missing: overlapping registrations, see
`C38_negation_two_channels`. -/
theorem C38_one_channel_partial {h : List (Act P C K × Reply P C)} {m : Manager P C K} (r : Serial h m) :
    (∀ (n : Nat) (ch : Chan P C) (n' : Nat) (ch' : Chan P C), m.chans[n]? = some ch → m.chans[n']? = some ch' → ch.opened = true → ch'.opened = true →
      ch.pub = ch'.pub → n = n') ∧
    (∀ (n : Nat) (ch : Chan P C), m.chans[n]? = some ch → (ch.opened = true ↔ ∃ c, serving h ch.pub c = some n)) ∧
    (∀ p c c' n n', serving h p c = some n → serving h p c' = some n' → n = n') ∧
    (∀ p c n, serving h p c = some n → (step m (.unregister p c)).1 = .done) := by
  have I := run_inv r.run
  have J := serial_inv r
  have reg : ∀ p c n, serving h p c = some n → m.registry.get? p = some n ∧
      ∃ ch, m.chans[n]? = some ch ∧ c ∈ ch.clients := by
    intro p c n hs
    obtain ⟨ch, a, b, d⟩ := I.served p c n hs
    have := J.only n ch a ((I.used n ch a).2 (List.ne_nil_of_mem d))
    rw [b] at this
    exact ⟨this, ch, a, d⟩
  refine ⟨?_, ?_, ?_, ?_⟩
  · intro n ch n' ch' h1 h2 o1 o2 hp
    have a := J.only n ch h1 o1
    have b := J.only n' ch' h2 o2
    rw [hp, b] at a
    exact (Option.some.inj a).symm
  · intro n ch hn
    constructor
    · intro ho
      obtain ⟨c, hc⟩ := List.exists_mem_of_ne_nil _ ((I.used n ch hn).1 ho)
      exact ⟨c, J.known n ch c hn hc⟩
    · rintro ⟨c, hc⟩
      obtain ⟨ch', a, _, d⟩ := I.served _ c n hc
      rw [hn] at a; cases a
      exact (I.used n ch hn).2 (List.ne_nil_of_mem d)
  · intro p c c' n n' h1 h2
    have a := (reg p c n h1).1
    rw [(reg p c' n' h2).1] at a
    exact (Option.some.inj a).symm
  · intro p c n hs
    obtain ⟨a, ch, b, d⟩ := reg p c n hs
    simp only [step, unregister, a, b, d, not_true_eq_false, if_false]
    split <;> rfl

/-- Specification: the registration the call `k` is waiting for, by the replies. -/
def asked (k : K) (r : Option (P × C)) (e : Act P C K × Reply P C) : Option (P × C) :=
  match e with
  | (.register k' p c, .waiting) => if k' = k then some (p, c) else r
  | (.created k', _) | (.createFailed k', _) => if k' = k then none else r
  | _ => r

theorem pending_run {h : List (Act P C K × Reply P C)} {m : Manager P C K} (r : Run h m) (k : K) :
    m.pending.get? k = h.foldl (asked k) none := by
  induction r with
  | init => rfl
  | @step h m a r ih =>
    rw [List.foldl_append, ← ih]
    simp only [List.foldl_cons, List.foldl_nil]
    cases a with
    | register k' p c =>
      simp only [step]
      split
      · simp [asked]
      · unfold register
        split
        · simp [asked]
        · simp only [asked, PyDict.get?_set]
          by_cases hk : k' = k
          · subst hk; simp
          · have hk' : k ≠ k' := fun e => hk e.symm
            simp [hk, hk']
    | created k' =>
      simp only [step]
      split
      · rename_i e; simp only [asked]; split
        · rename_i hk; rw [← hk, e]
        · rfl
      · simp only [asked, created, PyDict.get?_pop]
        by_cases hk : k' = k
        · subst hk; simp
        · have hk' : k ≠ k' := fun e => hk e.symm
          simp [hk, hk']
    | createFailed k' =>
      simp only [step]
      split
      · rename_i e; simp only [asked]; split
        · rename_i hk; rw [← hk, e]
        · rfl
      · simp only [asked, PyDict.get?_pop]
        by_cases hk : k' = k
        · subst hk; simp
        · have hk' : k ≠ k' := fun e => hk e.symm
          simp [hk, hk']
    | unregister p c =>
      simp only [step, unregister]
      split
      · rfl
      · split
        · rfl
        · split
          · rfl
          · split <;> rfl

/-- **C38 (answers).** Under the same condition: a new call is answered with the channel that serves the clients of this
publisher, or waits if there are none; a call that waited is answered with a channel for its publisher and client; and who
is not registered cannot unregister. -/
theorem C38_answers_partial {h : List (Act P C K × Reply P C)} {m : Manager P C K} (r : Serial h m) :
    (∀ k p c c' n, h.foldl (asked k) none = none → serving h p c' = some n → (step m (.register k p c)).1 = .channel p c n) ∧
    (∀ k p c, h.foldl (asked k) none = none → (∀ c', serving h p c' = none) → (step m (.register k p c)).1 = .waiting) ∧
    (∀ k p c, h.foldl (asked k) none = some (p, c) → ∃ n, (step m (.created k)).1 = .channel p c n) ∧
    (∀ p c, serving h p c = none → (step m (.unregister p c)).1 = .keyError) := by
  have I := run_inv r.run
  have J := serial_inv r
  refine ⟨?_, ?_, ?_, ?_⟩
  · intro k p c c' n hk hs
    rw [← pending_run r.run] at hk
    obtain ⟨ch, a, b, d⟩ := I.served p c' n hs
    have := J.only n ch a ((I.used n ch a).2 (List.ne_nil_of_mem d))
    rw [b] at this
    simp [step, hk, register, this]
  · intro k p c hk hs
    rw [← pending_run r.run] at hk
    have : m.registry.get? p = none := by
      cases e : m.registry.get? p with
      | none => rfl
      | some n =>
        obtain ⟨ch, a, b, d⟩ := I.reg p n e
        obtain ⟨c', hc⟩ := List.exists_mem_of_ne_nil _ ((I.used n ch a).1 d)
        have := J.known n ch c' a hc
        rw [b, hs c'] at this
        cases this
    simp [step, hk, register, this]
  · intro k p c hk
    rw [← pending_run r.run] at hk
    exact ⟨m.chans.length, by simp only [step, hk, created]⟩
  · intro p c hs
    simp only [step, unregister]
    split
    · rfl
    · rename_i n e
      obtain ⟨ch, a, b, d⟩ := I.reg p n e
      rw [a]
      simp only
      split
      · rfl
      · rename_i hc
        have := J.known n ch c a (Classical.not_not.1 hc)
        rw [b, hs] at this
        cases this

/-- Running a list of events. -/
def exec : List (Act P C K) → List (Act P C K × Reply P C) × Manager P C K → List (Act P C K × Reply P C) × Manager P C K
  | [], s => s
  | a :: as, s => exec as (s.1 ++ [(a, (step s.2 a).1)], (step s.2 a).2)

theorem exec_run : ∀ (as : List (Act P C K)) (s : List (Act P C K × Reply P C) × Manager P C K), Run s.1 s.2 →
    Run (exec as s).1 (exec as s).2
  | [], _, h => h
  | a :: as, _, h => exec_run as _ (.step a h)

/-- Two clients of publisher 7 one after the other, both leave. -/
example : ((exec (P := Nat) (C := Nat) (K := Nat) [.register 0 7 1, .created 0, .register 1 7 2, .unregister 7 1, .unregister 7 2]
      ([], .init)).1.map (·.2)) = [.waiting, .channel 7 1 0, .channel 7 2 0, .done, .done] := by decide

/-- A history as `C38_one_channel_partial` asks for, in which both clients are served by channel 0. -/
example : ∃ (h : List (Act Nat Nat Nat × Reply Nat Nat)) (m : Manager Nat Nat Nat), Serial h m ∧
    serving h 7 1 = some 0 ∧ serving h 7 2 = some 0 := by
  refine ⟨_, _, .step (.register 1 7 2) (.step (.created 0) (.step (.register 0 7 1) .init ?_) ?_) ?_, ?_, ?_⟩
  · intro k p c _ k' c'
    simp [Manager.init, PyDict.get?_nil]
  · intro k p c h; cases h
  · intro k p c _ k' c' h
    simp [step, register, created, Manager.init, PyDict.get?, PyDict.set, PyDict.pop, PyDict.keys] at h
  · decide
  · decide

/-- A call that waits, and one that does not. -/
example : ∃ (h : List (Act Nat Nat Nat × Reply Nat Nat)) (m : Manager Nat Nat Nat), Serial h m ∧
    h.foldl (asked 0) none = some (7, 1) ∧ h.foldl (asked 1) none = none ∧ serving h 7 1 = none := by
  refine ⟨_, _, .step (.register 0 7 1) .init ?_, ?_, ?_, ?_⟩
  · intro k p c _ k' c'
    simp [Manager.init, PyDict.get?_nil]
  · decide
  · decide
  · decide

/-- **C38 fails for overlapping registrations.** Clients 1 and 2 register for publisher 7 before its channel exists. Two
channels for 7 end up open. Client 1 is served by the first one but cannot unregister, so this channel stays open. -/
theorem C38_negation_two_channels :
    ∃ (h : List (Act Nat Nat Nat × Reply Nat Nat)) (m : Manager Nat Nat Nat), Run h m ∧
      (∃ ch ch', m.chans[0]? = some ch ∧ m.chans[1]? = some ch' ∧ ch.opened = true ∧ ch'.opened = true ∧
        ch.pub = 7 ∧ ch'.pub = 7) ∧
      serving h 7 1 = some 0 ∧ serving h 7 2 = some 1 ∧ (step m (.unregister 7 1)).1 = .keyError := by
  refine ⟨_, _, exec_run [.register 0 7 1, .register 1 7 2, .created 0, .created 1] ([], .init) .init, ?_, ?_, ?_, ?_⟩
  · exact ⟨_, _, rfl, rfl, rfl, rfl, rfl, rfl⟩
  · decide
  · decide
  · decide

end Mgr
end Ez
