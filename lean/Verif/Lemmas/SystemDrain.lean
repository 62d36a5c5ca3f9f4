import Verif.Lemmas.SystemReach

/-! # Draining: a bound on the number of steps, and what is left at the end -/

set_option linter.unusedSectionVars false
set_option linter.unusedSimpArgs false

namespace Ez.Sys
variable {P K S V : Type} [DecidableEq P] [DecidableEq K] [DecidableEq S]
variable {cfg : Cfg P K S} {strict : K → Prop} {st st' st'' : St P K S V}

/-- Steps by which readers make progress: messages and acknowledgements arrive, subscribers receive and
finish, publishers notice closed connections. -/
def Act.drains : Act P K S V → Bool
  | .deliver _ => true
  | .ack _ => true
  | .recv _ => true
  | .release _ _ => true
  | .eof _ => true
  | _ => false

theorem sum_congr {α : Type} (l : List α) (f g : α → Nat) (h : ∀ x ∈ l, f x ≤ g x) :
    (l.map f).sum ≤ (l.map g).sum := by
  induction l with
  | nil => simp
  | cons a l ih =>
    simp only [List.map_cons, List.sum_cons]
    have := h a (List.mem_cons_self ..)
    have := ih (fun x hx => h x (List.mem_cons_of_mem _ hx))
    omega

/-- Changing one summand. -/
theorem sum_change {α : Type} {l : List α} (hn : l.Nodup) {a : α} (ha : a ∈ l) {f g : α → Nat}
    (h : ∀ x, x ≠ a → g x ≤ f x) {d e : Nat} (hd : g a + d ≤ f a + e) :
    (l.map g).sum + d ≤ (l.map f).sum + e := by
  induction l with
  | nil => cases ha
  | cons b l ih =>
    obtain ⟨hb, hn⟩ := List.nodup_cons.1 hn
    simp only [List.map_cons, List.sum_cons]
    rcases List.mem_cons.1 ha with rfl | ha
    · have := sum_congr l g f (fun x hx => h x (fun e => hb (e ▸ hx)))
      omega
    · have h1 := ih hn ha
      have h2 := h b (fun e => hb (e ▸ ha))
      omega

variable (cfg) in
/-- Work left at a channel. -/
def chanWork (N : Nat) (st : St P K S V) (k : K) : Nat :=
  (4 * N + 2) * (st.chan k).wire.length + (st.chan k).acks.length +
    (if (st.chan k).closed = true ∧ k ∈ (st.pub (cfg.pubOf k)).chans then 1 else 0)

/-- Work left at a subscriber. -/
def subWork (st : St P K S V) (s : S) : Nat :=
  3 * (st.sub s).queue.length + 2 * (st.sub s).held.length

variable (cfg) in
/-- Upper bound on the number of draining steps left. -/
def work (ks : List K) (ss : List S) (st : St P K S V) : Nat :=
  (ks.map (chanWork cfg ss.length st)).sum + (ss.map (subWork st)).sum

variable {ks : List K} {ss : List S}

theorem work_chan (hk : ks.Nodup) {k : K} (hm : k ∈ ks) (hs : st'.sub = st.sub)
    (hc : ∀ k', k' ≠ k → st'.chan k' = st.chan k') (hp : ∀ p, (st'.pub p).chans = (st.pub p).chans)
    {d e : Nat} (h : chanWork cfg ss.length st' k + d ≤ chanWork cfg ss.length st k + e) :
    work cfg ks ss st' + d ≤ work cfg ks ss st + e := by
  unfold work
  have h1 := sum_change hk hm (f := chanWork cfg ss.length st) (g := chanWork cfg ss.length st')
    (by intro x hx; unfold chanWork; rw [hc x hx, hp]; exact Nat.le_refl _) h
  have h2 : ss.map (subWork st') = ss.map (subWork st) := by
    apply List.map_congr_left; intro s _; unfold subWork; rw [hs]
  rw [h2]
  omega

theorem work_sub (hn : ss.Nodup) {s : S} (hm : s ∈ ss) (hc : st'.chan = st.chan)
    (hp : ∀ p, (st'.pub p).chans = (st.pub p).chans)
    (ho : ∀ s', s' ≠ s → st'.sub s' = st.sub s')
    {d e : Nat} (h : subWork st' s + d ≤ subWork st s + e) :
    work cfg ks ss st' + d ≤ work cfg ks ss st + e := by
  unfold work
  have h1 := sum_change hn hm (f := subWork st) (g := subWork st')
    (by intro x hx; unfold subWork; rw [ho x hx]; exact Nat.le_refl _) h
  have h2 : ks.map (chanWork cfg ss.length st') = ks.map (chanWork cfg ss.length st) := by
    apply List.map_congr_left; intro k _; unfold chanWork; rw [hc, hp]
  rw [h2]
  omega

theorem work_setSub (hn : ss.Nodup) (hsa : ∀ s, s ∈ ss) (st : St P K S V) (s : S) (sb : SubSt P K) (d e : Nat)
    (h : 3 * sb.queue.length + 2 * sb.held.length + d ≤
      3 * (st.sub s).queue.length + 2 * (st.sub s).held.length + e) :
    work cfg ks ss (setSub st s sb) + d ≤ work cfg ks ss st + e := by
  apply work_sub (cfg := cfg) (ks := ks) (st := st) (st' := setSub st s sb) hn (hsa s) rfl (fun _ => rfl)
  · intro s' hs'; simp only [setSub, upd_ne _ _ hs']
  · simp only [subWork, setSub, upd_same]; omega

theorem work_setChan (hk : ks.Nodup) (hka : ∀ k, k ∈ ks) (st : St P K S V) (k : K) (ch : ChanSt S V) (d e : Nat)
    (hc : ch.closed = (st.chan k).closed)
    (h : (4 * ss.length + 2) * ch.wire.length + ch.acks.length + d ≤
      (4 * ss.length + 2) * (st.chan k).wire.length + (st.chan k).acks.length + e) :
    work cfg ks ss (setChan st k ch) + d ≤ work cfg ks ss st + e := by
  apply work_chan (cfg := cfg) (ss := ss) (st := st) (st' := setChan st k ch) hk (hka k) rfl ?_ (fun _ => rfl)
  · unfold chanWork
    simp only [setChan, upd_same, hc]
    omega
  · intro k' hk'; simp only [setChan, upd_ne _ _ hk']

theorem releaseBp_work (hk : ks.Nodup) {k : K} (hm : k ∈ ks) {m : Nat} {c : S}
    (h : releaseBp cfg st k m c = .ok st') : work cfg ks ss st' ≤ work cfg ks ss st + 1 := by
  obtain ⟨e1, e2, e3, ch, e4, e5, e6, e7⟩ := releaseBp_eff h
  have := work_chan (cfg := cfg) (ss := ss) (d := 0) (e := 1) hk hm e2 (by
    intro k' hk'; rw [e4, upd_ne _ _ hk']) e1.chans (by
    unfold chanWork
    rw [e4, upd_same, e5, e7, e1.chans]
    omega)
  exact this

theorem putNowait_spec {α : Type} {mx : Int} {q q' : List α} {x : α} {d : Option α}
    (h : LeakyQueue.putNowait mx q x = (d, q')) :
    (d = none ∧ q'.length ≤ q.length + 1) ∨ (d ≠ none ∧ q'.length = q.length) := by
  unfold LeakyQueue.putNowait at h
  split at h
  · unfold LeakyQueue.dropOldest LeakyQueue.getNowait at h
    cases q with
    | nil => simp at h; obtain ⟨rfl, rfl⟩ := h; simp
    | cons y q => simp at h; obtain ⟨rfl, rfl⟩ := h; simp
  · simp only [Prod.mk.injEq] at h
    obtain ⟨rfl, rfl⟩ := h
    simp

theorem putNotif_work (hk : ks.Nodup) (hka : ∀ k, k ∈ ks) (hn : ss.Nodup) (hsa : ∀ s, s ∈ ss) {c : S}
    {item : P × Nat} (h : putNotif cfg st c item = .ok st') : work cfg ks ss st' ≤ work cfg ks ss st + 4 := by
  have key : ∀ (sb : SubSt P K) (e : Nat), sb.held = (st.sub c).held →
      3 * sb.queue.length ≤ 3 * (st.sub c).queue.length + e →
      work cfg ks ss (setSub st c sb) ≤ work cfg ks ss st + e := by
    intro sb e hh he
    exact work_setSub hn hsa st c sb 0 e (by rw [hh]; omega)
  unfold putNotif at h
  split at h
  · simp only [Except.ok.injEq] at h
    subst h
    exact Nat.le_trans (key _ 3 rfl (by simp; omega)) (by omega)
  · split at h
    · rename_i q hpn
      simp only [Except.ok.injEq] at h
      subst h
      exact Nat.le_trans (key _ 3 rfl (by rcases putNowait_spec hpn with e | e <;> (show 3 * q.length ≤ _; omega))) (by omega)
    · rename_i d q hpn
      split at h
      · simp only [Except.ok.injEq] at h
        subst h
        exact Nat.le_trans (key _ 3 rfl (by rcases putNowait_spec hpn with e | e <;> (show 3 * q.length ≤ _; omega))) (by omega)
      · rename_i k' _
        cases hr : releaseBp cfg (setSub st c { st.sub c with queue := q }) k' d.2 c with
        | error e => rw [hr] at h; cases h
        | ok st1 =>
          rw [hr] at h
          simp only [Except.map, Except.ok.injEq] at h
          subst h
          have h1 := releaseBp_work (ss := ss) hk (hka k') hr
          have h2 := key { st.sub c with queue := q } 3 rfl
            (by rcases putNowait_spec hpn with e | e <;> (show 3 * q.length ≤ _; omega))
          exact Nat.le_trans h1 (Nat.add_le_add_right h2 1)

theorem setChan_work (hk : ks.Nodup) (hka : ∀ k, k ∈ ks) {k : K} {ch : ChanSt S V} {e : Nat}
    (h1 : ch.wire = (st.chan k).wire) (h2 : ch.acks.length ≤ (st.chan k).acks.length + e)
    (h3 : ch.closed = (st.chan k).closed) :
    work cfg ks ss (setChan st k ch) ≤ work cfg ks ss st + e := by
  exact work_setChan hk hka st k ch 0 e h3 (by rw [h1]; omega)

theorem notifyLoop_work (hk : ks.Nodup) (hka : ∀ k, k ∈ ks) (hn : ss.Nodup) (hsa : ∀ s, s ∈ ss) {k : K}
    {m : Nat} (cs : List S) : ∀ {st st' : St P K S V}, notifyLoop cfg k m cs st = .ok st' →
    work cfg ks ss st' ≤ work cfg ks ss st + 4 * cs.length := by
  induction cs with
  | nil =>
    intro st st' h
    simp only [notifyLoop, Except.ok.injEq] at h
    subst h
    simp
  | cons c cs ih =>
    intro st st' h
    simp only [notifyLoop] at h
    split at h
    · cases h
    · rename_i bp _
      split at h
      · cases h
      · rename_i st1 hp
        have h1 := putNotif_work hk hka hn hsa hp
        have h2 := ih h
        have h3 := work_setChan (cfg := cfg) (ss := ss) hk hka st k { st.chan k with bp := bp } 0 0 rfl (Nat.le_refl _)
        have h4 : work cfg ks ss st1 ≤ work cfg ks ss st + 0 + 4 := Nat.le_trans h1 (Nat.add_le_add_right h3 4)
        simp only [List.length_cons]
        omega

theorem notify_work (hk : ks.Nodup) (hka : ∀ k, k ∈ ks) (hn : ss.Nodup) (hsa : ∀ s, s ∈ ss) {k : K} {m : Nat} {b : Bool}
    (h : notify cfg st k m = .ok (st', b)) :
    work cfg ks ss st' ≤ work cfg ks ss st + 4 * (st.chan k).clients.length := by
  unfold notify at h
  split at h
  · cases h
  · rename_i st1 hl
    split at h
    · cases h
    · simp only [Except.ok.injEq, Prod.mk.injEq] at h
      obtain ⟨rfl, _⟩ := h
      exact notifyLoop_work hk hka hn hsa _ hl

theorem nodup_length_le {α : Type} [DecidableEq α] {l ss : List α} (hl : l.Nodup) (h : ∀ x ∈ l, x ∈ ss) :
    l.length ≤ ss.length := by
  induction l generalizing ss with
  | nil => simp
  | cons a l ih =>
    obtain ⟨ha, hl⟩ := List.nodup_cons.1 hl
    have hm := h a (List.mem_cons_self ..)
    have := ih (ss := ss.erase a) hl (by
      intro x hx
      refine (List.mem_erase_of_ne ?_).2 (h x (List.mem_cons_of_mem _ hx))
      intro e; exact ha (e ▸ hx))
    rw [List.length_erase_of_mem hm] at this
    have : 0 < ss.length := List.length_pos_of_mem hm
    simp only [List.length_cons]
    omega

/-- Every draining step uses up work. -/
theorem drain_work (h : Inv cfg strict none st) (hk : ks.Nodup) (hka : ∀ k, k ∈ ks) (hn : ss.Nodup)
    (hsa : ∀ s, s ∈ ss) {a : Act P K S V} (ha : a.drains = true) (hs : step cfg st a = .ok st') :
    work cfg ks ss st' + 1 ≤ work cfg ks ss st := by
  cases a with
  | deliver k =>
    simp only [step] at hs
    split at hs
    · rename_i m pl rest hw
      have hs := ofExcept_eq_ok hs
      have hcl : (st.chan k).clients.length ≤ ss.length :=
        nodup_length_le (h.chan k).nodup (fun x _ => hsa x)
      unfold deliver at hs
      split at hs
      · cases hs
      · split at hs
        · cases hs
        · rename_i cache _
          have h1 : work cfg ks ss (addLog (setChan st k { st.chan k with cache := cache, wire := rest }) (.arrived k))
              + (4 * ss.length + 2) ≤ work cfg ks ss st + 0 := by
            refine work_setChan hk hka st k { st.chan k with cache := cache, wire := rest } _ _ rfl ?_
            simp only [hw, List.length_cons, Nat.mul_add, Nat.mul_one]
            omega
          split at hs
          · cases hs
          · rename_i st1 hnf
            simp only [Except.ok.injEq] at hs
            subst hs
            have h2 := notify_work hk hka hn hsa hnf
            simp only [addLog, setChan, upd_same] at h1 h2
            omega
          · rename_i st1 hnf
            split at hs
            · cases hs
            · rename_i cache' _
              simp only [Except.ok.injEq] at hs
              have h2 := notify_work hk hka hn hsa hnf
              have h3 : work cfg ks ss st' ≤ work cfg ks ss st1 + 1 := by
                rw [← hs]
                exact work_setChan hk hka st1 k _ 0 1 rfl (by simp; omega)
              simp only [addLog, setChan, upd_same] at h1 h2
              omega
    · cases hs
  | ack k =>
    simp only [step] at hs
    split at hs
    · rename_i m rest hw
      obtain ⟨e1, e2, e3, _⟩ := pubFree_eff (ofExcept_eq_ok hs)
      have h1 := work_setChan (cfg := cfg) (ss := ss) hk hka st k { st.chan k with acks := rest } 1 0 rfl
        (by simp only [hw, List.length_cons]; omega)
      have h2 : work cfg ks ss st' = work cfg ks ss (setChan st k { st.chan k with acks := rest }) := by
        unfold work
        congr 2
        · apply List.map_congr_left; intro k' _; unfold chanWork; rw [e3, e1.chans]
        · apply List.map_congr_left; intro s _; unfold subWork; rw [e2]
      rw [h2]
      exact h1
    · cases hs
  | recv s =>
    simp only [step] at hs
    split at hs
    · cases hs
    · rename_i p m q hq
      obtain ⟨k, hk'⟩ := (h.sub s).linked p m (Or.inl (by rw [hq]; exact List.mem_cons_self ..))
      obtain ⟨v, h1, _, _⟩ := recv_ok h hq hk'
      simp only [hk', h1, Res.ok.injEq] at hs
      subst hs
      exact work_setSub hn hsa st s _ 1 0 (by
        simp only [hq, List.length_cons, List.length_append, List.length_nil]; omega)
  | release s j =>
    simp only [step] at hs
    split at hs
    · cases hs
    · rename_i p m hj
      split at hs
      · cases hs
      · rename_i k hk'
        obtain ⟨st1, h1, _, _, _, _⟩ := release_ok h hj hk'
        rw [h1] at hs
        simp only [Except.map, Res.ofExcept, Res.ok.injEq] at hs
        subst hs
        have h2 := releaseBp_work (ss := ss) hk (hka k) h1
        have h3 : work cfg ks ss (setSub st s { st.sub s with held := (st.sub s).held.eraseIdx j }) + 2 ≤
            work cfg ks ss st + 0 := by
          have hjl : j < (st.sub s).held.length := by
            rcases Nat.lt_or_ge j (st.sub s).held.length with e | e
            · exact e
            · rw [List.getElem?_eq_none e] at hj; cases hj
          refine work_setSub hn hsa st s { st.sub s with held := (st.sub s).held.eraseIdx j } 2 0 ?_
          simp only [List.length_eraseIdx, hjl, if_true]
          omega
        have h4 : work cfg ks ss (addLog st1 (.done s k m)) = work cfg ks ss st1 := rfl
        omega
  | eof k =>
    simp only [step] at hs
    split at hs
    · cases hs
    · split at hs
      · rename_i hc
        simp only [Bool.and_eq_true, decide_eq_true_eq] at hc
        have hs := ofExcept_eq_ok hs
        cases hp : pubFree cfg (setChan st k { st.chan k with acks := [] }) k none with
        | error e => rw [hp] at hs; cases hs
        | ok st1 =>
          rw [hp] at hs
          simp only [Except.map, Except.ok.injEq] at hs
          obtain ⟨e1, e2, e3, _⟩ := pubFree_eff hp
          have f1 : st'.sub = st.sub := by rw [← hs]; exact e2
          have f2 : st'.chan = upd st.chan k { st.chan k with acks := [] } := by rw [← hs]; exact e3
          have f3 : ∀ k', k' ∈ (st'.pub (cfg.pubOf k')).chans → k' ∈ (st.pub (cfg.pubOf k')).chans ∧ k' ≠ k := by
            intro k' hm
            rw [← hs] at hm
            simp only [setPub] at hm
            by_cases hp' : cfg.pubOf k' = cfg.pubOf k
            · rw [hp', upd_same] at hm
              have hm : k' ∈ (st1.pub (cfg.pubOf k)).chans.filter (· != k) := hm
              rw [e1.chans, List.mem_filter] at hm
              rw [hp']
              exact ⟨hm.1, by simpa using hm.2⟩
            · rw [upd_ne _ _ hp', e1.chans] at hm
              exact ⟨hm, fun e => hp' (by rw [e])⟩
          have hch : ∀ k', k' ≠ k → chanWork cfg ss.length st' k' ≤ chanWork cfg ss.length st k' := by
            intro k' hk'
            unfold chanWork
            rw [f2, upd_ne _ _ hk']
            split
            · rename_i hh
              rw [if_pos ⟨hh.1, (f3 k' hh.2).1⟩]
              exact Nat.le_refl _
            · omega
          unfold work
          have h2 : ss.map (subWork st') = ss.map (subWork st) := by
            apply List.map_congr_left; intro s _; unfold subWork; rw [f1]
          rw [h2]
          have := sum_change hk (hka k) (d := 1) (e := 0) hch (by
            unfold chanWork
            rw [f2, upd_same, if_neg (fun hh => (f3 k hh.2).2 rfl), if_pos ⟨hc.1, hc.2⟩]
            simp only [List.length_nil]
            omega)
          omega
      · cases hs
  | _ => cases ha

/-- When no draining step is possible, an orderly system has no leases left (unless a publisher is in
the middle of handing out a message). -/
theorem drained (hwf : cfg.WF) {p : P} (h : Inv cfg strict none st) (hst : ∀ k, cfg.pubOf k = p → strict k)
    (hd : ∀ a : Act P K S V, a.drains = true → step cfg st a = .disabled)
    (hj : ∀ v todo, (st.pub p).job ≠ .sending v todo) : NoLease (st.pub p) := by
  intro k i hh
  have hp := h.pubT p
  have hmem := hp.holdsMem k i hh
  have hkp := (hp.chansPub k hmem).1
  subst hkp
  have hc := h.chan k
  have hcl : (st.chan k).closed = false := by
    cases hcl : (st.chan k).closed with
    | false => rfl
    | true =>
      exfalso
      have h1 := hd (.eof k) rfl
      obtain ⟨st1, h2, _⟩ := eof_ok h hj hcl
      cases hjj : (st.pub (cfg.pubOf k)).job with
      | sending v todo => exact hj _ _ hjj
      | _ =>
        simp only [step, hjj] at h1
        rw [if_pos (by simp [hcl, hmem]), h2] at h1
        cases h1
  obtain ⟨m, _, hl⟩ := hc.noleak (hst k rfl) hcl i hh
  have hne := step_ok hwf h
  rcases hl with (hl | ⟨c, hl⟩ | hl) | hl
  · have h1 := hd (.deliver k) rfl
    simp only [step] at h1
    cases hw : (st.chan k).wire with
    | nil => rw [hw] at hl; cases hl
    | cons x rest =>
      obtain ⟨m', pl⟩ := x
      obtain ⟨st1, h2, _⟩ := deliver_ok h hw
      rw [hw] at h1
      simp only [h2] at h1
      cases h1
  · obtain ⟨hlk, hl⟩ := hl
    rcases hl with hl | hl
    · have h1 := hd (.recv c) rfl
      simp only [step] at h1
      cases hq : (st.sub c).queue with
      | nil => rw [hq] at hl; cases hl
      | cons x q =>
        obtain ⟨p', m'⟩ := x
        obtain ⟨k', hk'⟩ := (h.sub c).linked p' m' (Or.inl (by rw [hq]; exact List.mem_cons_self ..))
        obtain ⟨v, h2, _, _⟩ := recv_ok h hq hk'
        rw [hq] at h1
        simp only [hk', h2] at h1
        cases h1
    · obtain ⟨j, hj'⟩ := List.getElem?_of_mem hl
      have h1 := hd (.release c j) rfl
      obtain ⟨st1, h2, _⟩ := release_ok h hj' hlk
      simp only [step] at h1
      rw [hj'] at h1
      simp only [hlk, h2] at h1
      cases h1
  · have h1 := hd (.ack k) rfl
    simp only [step] at h1
    cases ha : (st.chan k).acks with
    | nil => rw [ha] at hl; cases hl
    | cons m' rest =>
      obtain ⟨st1, h2, _⟩ := ack_ok h ha
      rw [ha] at h1
      simp only [h2] at h1
      cases h1
  · cases hl

end Ez.Sys
