import Verif.Lemmas.Departure

/-! # Steps do not look at the wires and caches of channels whose publisher is gone -/

set_option linter.unusedSectionVars false
set_option linter.unusedSimpArgs false

namespace Ez.Depart
open Sys
variable {P K S V : Type} [DecidableEq P] [DecidableEq K] [DecidableEq S]
variable {cfg : Cfg P K S} {strict : K → Prop} {G : K → Bool} {W : K → List (Nat × Payload V)}
  {X : K → MessageCache (Obj V) Unit} {st st' : Sys.St P K S V}

/-- Outcome of a step in `st` and of the same step in `over G W X st`. -/
inductive Same (G : K → Bool) (W : K → List (Nat × Payload V)) :
    Res (Sys.St P K S V) → Res (Sys.St P K S V) → Prop where
  | disabled : Same G W .disabled .disabled
  | raised (e : Err) : Same G W (.raised e) (.raised e)
  | ok {st' : Sys.St P K S V} (X' : K → MessageCache (Obj V) Unit) (hc : Clean G st') :
      Same G W (.ok (over G W X' st')) (.ok st')

theorem Same.of {x y : Except Err (Sys.St P K S V)} (h : x = y.map (over G W X))
    (hc : ∀ st', y = .ok st' → Clean G st') : Same G W (Res.ofExcept x) (Res.ofExcept y) := by
  subst h
  cases y with
  | error e => exact .raised e
  | ok st' => exact .ok X (hc st' rfl)

theorem Same.eq {x : Sys.St P K S V} (X : K → MessageCache (Obj V) Unit) (h : x = over G W X st')
    (hc : Clean G st') : Same G W (.ok x) (.ok st') := by
  subst h
  exact .ok X hc

theorem Same.same {x : Sys.St P K S V} (X : K → MessageCache (Obj V) Unit) (h : x = over G W X st')
    (hc : Clean G st) (hs : st'.sub = st.sub) : Same G W (.ok x) (.ok st') := by
  subst h
  exact .ok X (hc.congr hs)

theorem Same.ite {c : Prop} (i j : Decidable c) {a b a' b' : Res (Sys.St P K S V)}
    (h1 : c → Same G W a a') (h2 : ¬ c → Same G W b b') : Same G W (@ite _ c i a b) (@ite _ c j a' b') := by
  by_cases hc : c
  · rw [if_pos hc, if_pos hc]; exact h1 hc
  · rw [if_neg hc, if_neg hc]; exact h2 hc

theorem mem_rotateOut_sub {p : P} {x : P × Nat} : ∀ (n : Nat) (q : List (P × Nat)),
    x ∈ rotateOut p n q → x ∈ q := by
  intro n
  induction n with
  | zero => intro q h; exact h
  | succ n ih =>
    intro q h
    cases q with
    | nil => simp [rotateOut] at h
    | cons y q =>
      obtain ⟨p', m⟩ := y
      simp only [rotateOut] at h
      have := ih _ h
      split at this
      · rcases List.mem_append.1 this with h | h
        · exact List.mem_cons_of_mem _ h
        · simp only [List.mem_singleton] at h; rw [h]; exact List.mem_cons_self ..
      · exact List.mem_cons_of_mem _ this

theorem over_step (hi : Inv cfg strict none st) (hc : Clean G st) (hw : ∀ k, G k = true → W k = [])
    (a : Sys.Act P K S V) (ho : ∀ k, G k = true → owner cfg a ≠ some (cfg.pubOf k))
    (hd : ∀ k, G k = true → a ≠ .deliver k) :
    Same G W (Sys.step cfg (over G W X st) a) (Sys.step cfg st a) := by
  have hl : ∀ k, ∀ c ∈ (st.chan k).clients, (st.sub c).chans (cfg.pubOf k) = some k :=
    fun k c h => (hi.cl c k).1 h
  have hg : ∀ p, owner cfg a = some p → ∀ k, cfg.pubOf k = p → G k = false := by
    intro p hp k hk
    cases e : G k with
    | false => rfl
    | true => exact absurd (by rw [hp, hk]) (ho k e)
  have hgp : ∀ p, owner cfg a = some p → ∀ k ∈ (st.pub p).chans, G k = false :=
    fun p hp k hk => hg p hp k ((hi.pub p).chansPub k hk).1
  cases a with
  | bcast p v =>
    simp only [Sys.step, over_pub]
    split
    · refine Same.ite _ _ (fun hr => ?_) (fun hr => ?_)
      · obtain ⟨h1, h2⟩ := over_afterGate (W := W) (X := X) (cfg := cfg) (v := v) (hgp p rfl) hc hl
        exact Same.of h1 h2
      · exact .same X rfl hc rfl
    · exact .disabled
  | gateResume p =>
    simp only [Sys.step, over_pub]
    split
    · rename_i v _
      obtain ⟨h1, h2⟩ := over_afterGate (W := W) (X := X) (cfg := cfg) (v := v) (hgp p rfl) hc hl
      exact Same.of h1 h2
    · exact .disabled
  | slotResume p =>
    simp only [Sys.step, over_pub]
    split
    · rename_i v _
      obtain ⟨h1, h2⟩ := over_begin (W := W) (X := X) (cfg := cfg) (v := v) (hgp p rfl) hc hl
      exact Same.of h1 h2
    · exact .disabled
  | send p ok =>
    simp only [Sys.step, over_pub]
    split
    · rename_i v k todo hj
      have hk : k ∈ (st.pub p).chans :=
        (((hi.pub p).todo v _ hj).2.2 k (List.mem_cons_self ..)).1
      obtain ⟨h1, h2⟩ := over_sendTo (W := W) (X := X) (cfg := cfg) (p := p) (v := v) (todo := todo)
        (ok := ok) (hgp p rfl k hk) hc
      exact Same.of h1 h2
    · exact .disabled
  | finish p =>
    simp only [Sys.step, over_pub]
    split
    · exact .same X rfl hc rfl
    · exact .disabled
  | pause p =>
    simp only [Sys.step]
    exact .same X rfl hc rfl
  | resume p =>
    simp only [Sys.step]
    exact .same X rfl hc rfl
  | sync p =>
    simp only [Sys.step, over_pub]
    refine Same.ite _ _ (fun hr => ?_) (fun hr => ?_)
    · exact .same X rfl hc rfl
    · exact .same X rfl hc rfl
  | syncReturn p =>
    simp only [Sys.step, over_pub]
    refine Same.ite _ _ (fun hr => ?_) (fun hr => ?_)
    · exact .disabled
    · exact .same X rfl hc rfl
  | deliver k =>
    cases hk : G k with
    | true => exact absurd rfl (hd k hk)
    | false =>
      simp only [Sys.step, over_chan hk]
      split
      · rename_i m pl rest _
        obtain ⟨h1, h2⟩ := over_deliver (W := W) (X := X) (cfg := cfg) (m := m) (pl := pl) (rest := rest)
          hk hc (hl k)
        exact Same.of h1 h2
      · exact .disabled
  | ack k =>
    have hk := hg _ rfl k rfl
    simp only [Sys.step, over_chan hk]
    split
    · rw [over_setChan hk]
      exact Same.of (over_pubFree _ _) (fun st' h => hc.congr (pubFree_sub h :))
    · exact .disabled
  | recv s =>
    simp only [Sys.step, over_sub]
    split
    · exact .disabled
    · rename_i p m q hq
      split
      · rename_i hn
        refine Same.eq X rfl ?_
        intro s' p' k' m' h1 h2
        by_cases hs : s' = s
        · subst hs
          simp only [setSub, upd_same] at h1 ⊢
          have := hc s' p' k' m' h1 h2
          rw [hq] at this
          exact ⟨fun h => this.1 (List.mem_cons_of_mem _ h), this.2⟩
        · simp only [setSub, upd_ne _ _ hs] at h1 ⊢
          exact hc s' p' k' m' h1 h2
      · rename_i k hk
        have hgk : G k = false := by
          cases e : G k with
          | false => rfl
          | true =>
            have := (hc s p k m hk e).1
            rw [hq] at this
            exact absurd (List.mem_cons_self ..) this
        have e : lookup cfg (over G W X st) k m = lookup cfg st k m := by
          unfold lookup
          rw [over_chan hgk]
          have : ∀ o, deref cfg (over G W X st) k o = deref cfg st k o := by intro o; cases o <;> rfl
          cases (st.chan k).cache.get m with
          | error e => rfl
          | ok o => simp only [this]
        rw [e]
        cases lookup cfg st k m with
        | error e => exact .raised e
        | ok v =>
          simp only
          refine Same.eq X rfl ?_
          intro s' p' k' m' h1 h2
          by_cases hs : s' = s
          · subst hs
            simp only [addLog, setSub, upd_same] at h1 ⊢
            have h3 := hc s' p' k' m' h1 h2
            rw [hq] at h3
            refine ⟨fun h => h3.1 (List.mem_cons_of_mem _ h), fun h => ?_⟩
            rcases List.mem_append.1 h with h | h
            · exact h3.2 h
            · simp only [List.mem_singleton] at h
              exact h3.1 (by rw [h]; exact List.mem_cons_self ..)
          · simp only [addLog, setSub, upd_ne _ _ hs] at h1 ⊢
            exact hc s' p' k' m' h1 h2
  | release s j =>
    simp only [Sys.step, over_sub]
    split
    · exact .disabled
    · rename_i p m hj
      split
      · exact .disabled
      · rename_i k hk
        have hgk : G k = false := by
          cases e : G k with
          | false => rfl
          | true =>
            exact absurd (List.mem_of_getElem? hj) (hc s p k m hk e).2
        have h1 : Clean G (setSub st s { st.sub s with held := (st.sub s).held.eraseIdx j }) := by
          intro s' p' k' m' h1 h2
          by_cases hs : s' = s
          · subst hs
            simp only [setSub, upd_same] at h1 ⊢
            have h3 := hc s' p' k' m' h1 h2
            exact ⟨h3.1, fun h => h3.2 (List.mem_of_mem_eraseIdx h)⟩
          · simp only [setSub, upd_ne _ _ hs] at h1 ⊢
            exact hc s' p' k' m' h1 h2
        refine Same.of (X := X) ?_ ?_
        · rw [over_setSub, over_releaseBp hgk]
          cases releaseBp cfg (setSub st s { st.sub s with held := (st.sub s).held.eraseIdx j }) k m s <;> rfl
        · intro st' h
          cases hr : releaseBp cfg (setSub st s { st.sub s with held := (st.sub s).held.eraseIdx j }) k m s with
          | error e => rw [hr] at h; cases h
          | ok st2 =>
            rw [hr] at h
            cases h
            exact (h1.congr (releaseBp_sub hr)).congr rfl
  | link s k =>
    simp only [Sys.step, over_sub, over_closed, over_opened]
    split
    · exact .disabled
    · rename_i hcond
      have hn : (st.sub s).chans (cfg.pubOf k) = none := by
        cases e : (st.sub s).chans (cfg.pubOf k) with
        | none => rfl
        | some k' => rw [e] at hcond; simp at hcond
      have e := over_setChan' (G := G) (W := W) (X := X) (st := st) k
        (fun c => { c with clients := (st.chan k).clients ++ [s] }) (fun _ _ _ => rfl)
      simp only [over_clients, over_opened, over_closed, over_bp, over_acks] at e ⊢
      rw [e]
      refine Same.eq X rfl ?_
      intro s' p' k' m' h1 h2
      by_cases hs : s' = s
      · subst hs
        simp only [addLog, setSub, setChan, upd_same] at h1 ⊢
        by_cases hp : p' = cfg.pubOf k
        · subst hp
          have h3 : ¬ ((cfg.pubOf k, m') ∈ (st.sub s').queue ∨ (cfg.pubOf k, m') ∈ (st.sub s').held) := by
            intro h
            obtain ⟨k0, h0⟩ := (hi.sub s').linked _ _ h
            rw [hn] at h0; cases h0
          exact ⟨fun h => h3 (Or.inl h), fun h => h3 (Or.inr h)⟩
        · rw [upd_ne _ _ hp] at h1
          exact hc s' p' k' m' h1 h2
      · simp only [addLog, setSub, setChan, upd_ne _ _ hs] at h1 ⊢
        exact hc s' p' k' m' h1 h2
  | unlink s k =>
    simp only [Sys.step, over_sub, over_bp]
    split
    · exact .disabled
    · split
      · exact .raised _
      · rename_i bp hb
        have e := over_setChan' (G := G) (W := W) (X := X) (st := st) k
          (fun c => { c with bp := bp, clients := (st.chan k).clients.filter (· != s) }) (fun _ _ _ => rfl)
        simp only [over_clients, over_opened, over_closed, over_bp, over_acks] at e ⊢
        rw [e]
        refine Same.eq X rfl ?_
        intro s' p' k' m' h1 h2
        by_cases hs : s' = s
        · subst hs
          simp only [addLog, setSub, setChan, upd_same] at h1 ⊢
          by_cases hp : p' = cfg.pubOf k
          · subst hp
            rw [upd_same] at h1; cases h1
          · rw [upd_ne _ _ hp] at h1
            have h3 := hc s' p' k' m' h1 h2
            exact ⟨fun h => h3.1 (mem_rotateOut_sub _ _ h), h3.2⟩
        · simp only [addLog, setSub, setChan, upd_ne _ _ hs] at h1 ⊢
          exact hc s' p' k' m' h1 h2
  | connect k =>
    have hk := hg _ rfl k rfl
    simp only [Sys.step, over_pub, over_opened, over_closed]
    split
    · exact .disabled
    · split
      · exact .disabled
      · rw [over_chan hk, over_setChan hk]
        exact .same X rfl hc rfl
  | close k =>
    simp only [Sys.step, over_opened, over_closed, over_clients]
    split
    · have e : setChan (over G W X st) k { (over G W X st).chan k with
          closed := true, wire := [], cache := ((over G W X st).chan k).cache.clear } =
          over G W (upd X k (X k).clear) (setChan st k { st.chan k with
            closed := true, wire := [], cache := (st.chan k).cache.clear }) := by
        unfold setChan over
        simp only [Sys.St.mk.injEq, true_and, and_true]
        funext k'
        by_cases e : k' = k
        · subst e
          cases h : G k' with
          | false => simp [upd, h]
          | true => simp [upd, h, hw k' h]
        · simp [upd, e]
      simp only [over_clients, over_opened, over_closed, over_bp, over_acks] at e ⊢
      rw [e]
      exact .ok _ (hc.congr rfl)
    · exact .disabled
  | eof k =>
    have hk := hg _ rfl k rfl
    simp only [Sys.step, over_pub, over_closed]
    split
    · exact .disabled
    · refine Same.ite _ _ (fun _ => ?_) (fun _ => ?_)
      · refine Same.of (X := X) ?_ ?_
        · rw [over_chan hk, over_setChan hk, over_pubFree]
          cases pubFree cfg (setChan st k { st.chan k with acks := [] }) k none <;> rfl
        · intro st' h
          cases hr : pubFree cfg (setChan st k { st.chan k with acks := [] }) k none with
          | error e => rw [hr] at h; cases h
          | ok st2 =>
            rw [hr] at h
            cases h
            exact (hc.congr (pubFree_sub hr :)).congr rfl
      · exact .disabled

end Ez.Depart
