import Verif.Model.Departure
import Verif.Lemmas.SystemReach

/-!
# Channels whose publisher is gone

`over G W X st` is the state `st` with another content of the wires and caches of the channels in `G`.
If no subscriber has an unfinished message of a channel in `G`, no step looks at those.
-/

set_option linter.unusedSectionVars false
set_option linter.unusedSimpArgs false

namespace Ez.Depart
open Sys
variable {P K S V : Type} [DecidableEq P] [DecidableEq K] [DecidableEq S]
variable {cfg : Cfg P K S} {G : K → Bool} {W : K → List (Nat × Payload V)}
  {X : K → MessageCache (Obj V) Unit} {st st' : Sys.St P K S V}

def over (G : K → Bool) (W : K → List (Nat × Payload V)) (X : K → MessageCache (Obj V) Unit)
    (st : Sys.St P K S V) : Sys.St P K S V :=
  { st with chan := fun k => if G k then { st.chan k with wire := W k, cache := X k } else st.chan k }

@[simp] theorem over_pub : (over G W X st).pub = st.pub := rfl
@[simp] theorem over_sub : (over G W X st).sub = st.sub := rfl
@[simp] theorem over_log : (over G W X st).log = st.log := rfl
@[simp] theorem over_setPub (p : P) (x : PubSt K V) :
    setPub (over G W X st) p x = over G W X (setPub st p x) := rfl
@[simp] theorem over_setSub (s : S) (x : SubSt P K) :
    setSub (over G W X st) s x = over G W X (setSub st s x) := rfl
@[simp] theorem over_addLog (e : Ev P K S V) :
    addLog (over G W X st) e = over G W X (addLog st e) := rfl

theorem over_chan {k : K} (h : G k = false) : (over G W X st).chan k = st.chan k := by
  simp [over, h]

@[simp] theorem over_acks (k : K) : ((over G W X st).chan k).acks = (st.chan k).acks := by
  simp only [over]; split <;> rfl
@[simp] theorem over_clients (k : K) : ((over G W X st).chan k).clients = (st.chan k).clients := by
  simp only [over]; split <;> rfl
@[simp] theorem over_bp (k : K) : ((over G W X st).chan k).bp = (st.chan k).bp := by
  simp only [over]; split <;> rfl
@[simp] theorem over_opened (k : K) : ((over G W X st).chan k).opened = (st.chan k).opened := by
  simp only [over]; split <;> rfl
@[simp] theorem over_closed (k : K) : ((over G W X st).chan k).closed = (st.chan k).closed := by
  simp only [over]; split <;> rfl

theorem over_setChan {k : K} (h : G k = false) (x : ChanSt S V) :
    setChan (over G W X st) k x = over G W X (setChan st k x) := by
  unfold setChan over
  simp only [Sys.St.mk.injEq, true_and, and_true]
  funext k'
  by_cases e : k' = k
  · subst e; simp [upd, h]
  · simp [upd, e]

/-- An update of fields other than the wire and the cache. -/
theorem over_setChan' (k : K) (f : ChanSt S V → ChanSt S V)
    (hf : ∀ c w x, f { c with wire := w, cache := x } = { f c with wire := w, cache := x }) :
    setChan (over G W X st) k (f ((over G W X st).chan k)) = over G W X (setChan st k (f (st.chan k))) := by
  unfold setChan over
  simp only [Sys.St.mk.injEq, true_and, and_true]
  funext k'
  by_cases e : k' = k
  · subst e
    cases h : G k' with
    | false => simp [upd, h]
    | true =>
      simp only [upd, if_true, h]
      exact hf _ _ _
  · simp [upd, e]

theorem over_pubFree (k : K) (i : Option Nat) :
    pubFree cfg (over G W X st) k i = (pubFree cfg st k i).map (over G W X) := by
  unfold pubFree
  simp only [over_pub]
  cases (st.pub (cfg.pubOf k)).bp.free k i <;> rfl

theorem over_releaseBp {k : K} (h : G k = false) (m : Nat) (c : S) :
    releaseBp cfg (over G W X st) k m c = (releaseBp cfg st k m c).map (over G W X) := by
  unfold releaseBp
  simp only [over_chan h]
  cases (st.chan k).bp.free c (some (m % cfg.n (cfg.pubOf k))) with
  | none => rfl
  | some bp =>
    simp only
    cases bp.available (m % cfg.n (cfg.pubOf k)) with
    | none => rfl
    | some b =>
      cases b with
      | false => simp only [over_setChan h]; rfl
      | true =>
        simp only
        cases (st.chan k).cache.release m with
        | error e => rfl
        | ok cache =>
          simp only [over_setChan h]
          split
          · rw [over_pubFree]
          · rfl

/-- No subscriber has an unfinished message of a channel in `G`. -/
def Clean (G : K → Bool) (st : Sys.St P K S V) : Prop :=
  ∀ s p k m, (st.sub s).chans p = some k → G k = true →
    (p, m) ∉ (st.sub s).queue ∧ (p, m) ∉ (st.sub s).held

theorem Clean.congr (h : Clean G st) (e : st'.sub = st.sub) : Clean G st' := by
  intro s p k m; rw [e]; exact h s p k m

theorem pubFree_sub {k : K} {i : Option Nat} (h : pubFree cfg st k i = .ok st') : st'.sub = st.sub := by
  simp only [pubFree] at h
  split at h
  · cases h
  · cases h; rfl

theorem releaseBp_sub {k : K} {m : Nat} {c : S} (h : releaseBp cfg st k m c = .ok st') :
    st'.sub = st.sub := by
  simp only [releaseBp] at h
  split at h
  · cases h
  · split at h
    · cases h
    · cases h; rfl
    · split at h
      · cases h
      · split at h
        · exact (pubFree_sub h :)
        · cases h; rfl

theorem putNowait_cases {α : Type} (mx : Int) (q : List α) (x : α) :
    LeakyQueue.putNowait mx q x = (none, q ++ [x]) ∨
    ∃ d q', q = d :: q' ∧ LeakyQueue.putNowait mx q x = (some d, q' ++ [x]) := by
  unfold LeakyQueue.putNowait LeakyQueue.dropOldest LeakyQueue.getNowait
  split
  · cases q with
    | nil => exact Or.inl rfl
    | cons d q' => exact Or.inr ⟨d, q', rfl, rfl⟩
  · exact Or.inl rfl

/-- What `putNotif` does to the subscribers. -/
theorem putNotif_subs {c : S} {item : P × Nat} (h : putNotif cfg st c item = .ok st') :
    (∀ s, (st'.sub s).chans = (st.sub s).chans ∧ (st'.sub s).held = (st.sub s).held ∧
      ∀ x ∈ (st'.sub s).queue, x ∈ (st.sub s).queue ∨ (s = c ∧ x = item)) := by
  have key : ∀ q, (∀ x ∈ q, x ∈ (st.sub c).queue ∨ x = item) →
      st'.sub = (setSub st c { st.sub c with queue := q }).sub →
      (∀ s, (st'.sub s).chans = (st.sub s).chans ∧ (st'.sub s).held = (st.sub s).held ∧
        ∀ x ∈ (st'.sub s).queue, x ∈ (st.sub s).queue ∨ (s = c ∧ x = item)) := by
    intro q hq e s
    rw [e]
    by_cases hs : s = c
    · subst hs
      simp only [setSub, upd_same, true_and]
      exact hq
    · simp only [setSub, upd_ne _ _ hs]
      exact ⟨trivial, trivial, fun x hx => Or.inl hx⟩
  unfold putNotif at h
  split at h
  · cases h
    exact key _ (by intro x hx; simpa using hx) rfl
  · rename_i mx hmx
    rcases putNowait_cases mx (st.sub c).queue item with e | ⟨d, q', e0, e⟩
    · rw [e] at h
      cases h
      exact key _ (by intro x hx; simpa using hx) rfl
    · rw [e] at h
      have hq : ∀ x ∈ q' ++ [item], x ∈ (st.sub c).queue ∨ x = item := by
        intro x hx
        rw [e0]
        simp only [List.mem_append, List.mem_singleton] at hx
        rcases hx with hx | hx
        · exact Or.inl (List.mem_cons_of_mem _ hx)
        · exact Or.inr hx
      simp only at h
      split at h
      · cases h
        exact key _ hq rfl
      · rename_i k' hk'
        cases hr : releaseBp cfg (setSub st c { st.sub c with queue := q' ++ [item] }) k' d.2 c with
        | error e => rw [hr] at h; cases h
        | ok st2 =>
          rw [hr] at h
          cases h
          exact key _ hq (releaseBp_sub hr :)

theorem putNotif_clean {c : S} {item : P × Nat} (hc : Clean G st)
    (hi : ∀ k', (st.sub c).chans item.1 = some k' → G k' = false)
    (h : putNotif cfg st c item = .ok st') : Clean G st' := by
  intro s p k m h1 h2
  obtain ⟨e1, e2, e3⟩ := putNotif_subs h s
  rw [e1] at h1
  have h3 := hc s p k m h1 h2
  refine ⟨fun hm => ?_, by rw [e2]; exact h3.2⟩
  rcases e3 _ hm with h4 | ⟨rfl, h4⟩
  · exact h3.1 h4
  · rw [← h4] at hi
    rw [hi k h1] at h2; cases h2

theorem over_putNotif {c : S} {item : P × Nat} (hc : Clean G st) :
    putNotif cfg (over G W X st) c item = (putNotif cfg st c item).map (over G W X) := by
  unfold putNotif
  simp only [over_sub]
  split
  · rfl
  · rename_i mx hmx
    rcases putNowait_cases mx (st.sub c).queue item with e | ⟨d, q', e0, e⟩
    · rw [e]; rfl
    · rw [e]
      simp only
      split
      · rfl
      · rename_i k' hk'
        have hg : G k' = false := by
          cases hg : G k' with
          | false => rfl
          | true =>
            have := (hc c d.1 k' d.2 hk' hg).1
            rw [e0] at this
            exact absurd (List.mem_cons_self ..) this
        rw [over_setSub, over_releaseBp hg]
        cases releaseBp cfg (setSub st c { st.sub c with queue := q' ++ [item] }) k' d.2 c <;> rfl

theorem over_notifyLoop {k : K} {m : Nat} (hk : G k = false) (cs : List S) : ∀ {st : Sys.St P K S V},
    Clean G st → (∀ c ∈ cs, (st.sub c).chans (cfg.pubOf k) = some k) →
    notifyLoop cfg k m cs (over G W X st) = (notifyLoop cfg k m cs st).map (over G W X) ∧
    ∀ st', notifyLoop cfg k m cs st = .ok st' → Clean G st' := by
  induction cs with
  | nil =>
    intro st hc _
    exact ⟨rfl, fun st' h => by cases h; exact hc⟩
  | cons c cs ih =>
    intro st hc hl
    simp only [notifyLoop, over_bp]
    cases (st.chan k).bp.lease c (m % cfg.n (cfg.pubOf k)) with
    | none => exact ⟨rfl, fun _ h => by cases h⟩
    | some bp =>
      simp only
      have h1 : Clean G (setChan st k { st.chan k with bp := bp }) := hc.congr rfl
      have h2 : setChan (over G W X st) k { (over G W X st).chan k with bp := bp } =
          over G W X (setChan st k { st.chan k with bp := bp }) := by
        rw [over_chan hk, over_setChan hk]
      rw [h2, over_putNotif h1]
      cases h3 : putNotif cfg (setChan st k { st.chan k with bp := bp }) c (cfg.pubOf k, m) with
      | error e => exact ⟨rfl, fun _ h => by cases h⟩
      | ok st2 =>
        have h4 := putNotif_subs h3
        have hlc := hl c (List.mem_cons_self ..)
        have h5 : Clean G st2 := putNotif_clean h1
          (by
            intro k' e
            have e' : (st.sub c).chans (cfg.pubOf k) = some k' := e
            rw [hlc] at e'; cases e'; exact hk) h3
        exact ih h5 (fun c' hc' => by
          rw [(h4 c').1]; exact hl c' (List.mem_cons_of_mem _ hc'))

theorem over_notify {k : K} {m : Nat} (hk : G k = false) (hc : Clean G st)
    (hl : ∀ c ∈ (st.chan k).clients, (st.sub c).chans (cfg.pubOf k) = some k) :
    notify cfg (over G W X st) k m = (notify cfg st k m).map (fun x => (over G W X x.1, x.2)) ∧
    ∀ st' b, notify cfg st k m = .ok (st', b) → Clean G st' := by
  unfold notify
  rw [over_clients]
  obtain ⟨h1, h2⟩ := over_notifyLoop (W := W) (X := X) hk (m := m) (st.chan k).clients hc hl
  rw [h1]
  cases h3 : notifyLoop cfg k m (st.chan k).clients st with
  | error e => exact ⟨rfl, fun _ _ h => by cases h⟩
  | ok st2 =>
    simp only [Except.map, over_bp]
    cases (st2.chan k).bp.available (m % cfg.n (cfg.pubOf k)) with
    | none => exact ⟨rfl, fun _ _ h => by cases h⟩
    | some b =>
      refine ⟨rfl, fun st' b' h => ?_⟩
      simp only [Except.ok.injEq, Prod.mk.injEq] at h
      rw [← h.1]
      exact h2 _ h3

theorem over_putLocal {k : K} {m : Nat} {v : V} (hk : G k = false) (hc : Clean G st)
    (hl : ∀ c ∈ (st.chan k).clients, (st.sub c).chans (cfg.pubOf k) = some k) :
    putLocal cfg (over G W X st) k m v = (putLocal cfg st k m v).map (over G W X) ∧
    ∀ st', putLocal cfg st k m v = .ok st' → Clean G st' := by
  unfold putLocal
  split
  · exact ⟨rfl, fun _ h => by cases h⟩
  · have hc1 : Clean G (addLog st (.arrived k)) := hc.congr rfl
    obtain ⟨h1, h2⟩ := over_notify (W := W) (X := X) hk (m := m) hc1 hl
    rw [over_addLog, h1]
    cases h3 : notify cfg (addLog st (.arrived k)) k m with
    | error e => exact ⟨rfl, fun _ h => by cases h⟩
    | ok x =>
      obtain ⟨st2, b⟩ := x
      have h4 := h2 _ _ h3
      cases b with
      | false => exact ⟨rfl, fun st' h => by cases h; exact h4⟩
      | true =>
        simp only [Except.map, over_chan hk, over_setChan hk]
        cases (st2.chan k).cache.putLocal (.val v) m with
        | error e => exact ⟨rfl, fun _ h => by cases h⟩
        | ok cache =>
          simp only [over_pub]
          split
          · exact ⟨rfl, fun _ h => by cases h⟩
          · refine ⟨rfl, fun st' h => ?_⟩
            cases h
            exact h4.congr rfl

theorem ite_over {α β : Type} (f : α → β) {c : Prop} (i j : Decidable c) {a b : α} {a' b' : β}
    (ha : a' = f a) (hb : b' = f b) : @ite β c i a' b' = f (@ite α c j a b) := by
  subst ha hb
  by_cases hc : c
  · rw [if_pos hc, if_pos hc]
  · rw [if_neg hc, if_neg hc]

theorem over_begin {p : P} {v : V} (hk : ∀ k ∈ (st.pub p).chans, G k = false) (hc : Clean G st)
    (hl : ∀ k, ∀ c ∈ (st.chan k).clients, (st.sub c).chans (cfg.pubOf k) = some k) :
    begin cfg (over G W X st) p v = (begin cfg st p v).map (over G W X) ∧
    ∀ st', begin cfg st p v = .ok st' → Clean G st' := by
  unfold begin
  simp only [over_pub, over_setPub, over_addLog]
  cases hf : (st.pub p).chans.find? (fun k => cfg.mode k == .local) with
  | none =>
    simp only
    refine ⟨?_, fun st' h => ?_⟩
    · simp only [Except.map, over_pub]
      exact congrArg Except.ok (ite_over (over G W X) _ _ rfl rfl)
    · cases h
      split <;> exact hc.congr rfl
  | some k =>
    simp only
    obtain ⟨h1, h2⟩ := over_putLocal (W := W) (X := X) (cfg := cfg) (m := (st.pub p).msgId) (v := v)
      (hk k (List.mem_of_find?_eq_some hf))
      (st := addLog (setPub st p { st.pub p with
        job := .sending v ((st.pub p).chans.filter (fun k => cfg.mode k != .local)) }) (.bcast p v))
      (hc.congr rfl) (hl k)
    rw [h1]
    cases h3 : putLocal cfg (addLog (setPub st p { st.pub p with
        job := .sending v ((st.pub p).chans.filter (fun k => cfg.mode k != .local)) }) (.bcast p v))
        k (st.pub p).msgId v with
    | error e => exact ⟨rfl, fun _ h => by cases h⟩
    | ok st2 =>
      simp only [Except.map, over_pub]
      refine ⟨?_, fun st' h => ?_⟩
      · exact congrArg Except.ok (ite_over (over G W X) _ _ rfl rfl)
      · cases h
        split
        · exact (h2 _ h3).congr rfl
        · exact h2 _ h3

theorem over_afterGate {p : P} {v : V} (hk : ∀ k ∈ (st.pub p).chans, G k = false) (hc : Clean G st)
    (hl : ∀ k, ∀ c ∈ (st.chan k).clients, (st.sub c).chans (cfg.pubOf k) = some k) :
    afterGate cfg (over G W X st) p v = (afterGate cfg st p v).map (over G W X) ∧
    ∀ st', afterGate cfg st p v = .ok st' → Clean G st' := by
  unfold afterGate
  simp only [over_pub]
  split
  · exact ⟨rfl, fun _ h => by cases h⟩
  · exact over_begin hk hc hl
  · exact ⟨rfl, fun st' h => by cases h; exact hc.congr rfl⟩

theorem over_sendTo {p : P} {v : V} {k : K} {todo : List K} {ok : Bool} (hk : G k = false)
    (hc : Clean G st) :
    sendTo cfg (over G W X st) p v k todo ok = (sendTo cfg st p v k todo ok).map (over G W X) ∧
    ∀ st', sendTo cfg st p v k todo ok = .ok st' → Clean G st' := by
  unfold sendTo
  simp only [over_pub, over_chan hk]
  split
  · exact ⟨rfl, fun st' h => by cases h; exact hc.congr rfl⟩
  · split
    · exact ⟨rfl, fun _ h => by cases h⟩
    · split
      · exact ⟨rfl, fun st' h => by cases h; exact hc.congr rfl⟩
      · refine ⟨?_, fun st' h => by cases h; exact hc.congr rfl⟩
        rw [over_setPub, over_setChan hk]; rfl

theorem over_deliver {k : K} {m : Nat} {pl : Payload V} {rest : List (Nat × Payload V)} (hk : G k = false)
    (hc : Clean G st)
    (hl : ∀ c ∈ (st.chan k).clients, (st.sub c).chans (cfg.pubOf k) = some k) :
    deliver cfg (over G W X st) k m pl rest = (deliver cfg st k m pl rest).map (over G W X) ∧
    ∀ st', deliver cfg st k m pl rest = .ok st' → Clean G st' := by
  unfold deliver
  have ha : arriving cfg (over G W X st) k m pl = arriving cfg st k m pl := by cases pl <;> rfl
  rw [ha]
  cases arriving cfg st k m pl with
  | error e => exact ⟨rfl, fun _ h => by cases h⟩
  | ok o =>
    simp only [over_chan hk]
    cases (st.chan k).cache.putFromMem () o m with
    | error e => exact ⟨rfl, fun _ h => by cases h⟩
    | ok cache =>
      simp only [over_setChan hk, over_addLog]
      obtain ⟨h1, h2⟩ := over_notify (W := W) (X := X) (cfg := cfg) hk (m := m)
        (st := addLog (setChan st k { st.chan k with cache := cache, wire := rest }) (.arrived k))
        (hc.congr rfl) (by
          intro c hcc
          have : c ∈ (st.chan k).clients := by
            simpa [addLog, setChan] using hcc
          exact hl c this)
      rw [h1]
      cases h3 : notify cfg (addLog (setChan st k { st.chan k with cache := cache, wire := rest })
          (.arrived k)) k m with
      | error e => exact ⟨rfl, fun _ h => by cases h⟩
      | ok x =>
        obtain ⟨st2, b⟩ := x
        have h4 := h2 _ _ h3
        cases b with
        | true => exact ⟨rfl, fun st' h => by cases h; exact h4⟩
        | false =>
          simp only [Except.map, over_chan hk]
          cases (st2.chan k).cache.release m with
          | error e => exact ⟨rfl, fun _ h => by cases h⟩
          | ok cache =>
            refine ⟨?_, fun st' h => by cases h; exact h4.congr rfl⟩
            simp only [over_setChan hk]

end Ez.Depart
