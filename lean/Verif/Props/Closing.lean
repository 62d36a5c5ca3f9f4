import Verif.Model.Closing

/-!
# C101: closing a subscriber

`Subscriber.close` should end the subscriber's task, so that `wait_closed` returns and the subscriber has left all channels.
-/

set_option linter.unusedSectionVars false
set_option linter.unusedSimpArgs false

namespace Ez
namespace Closing
variable {P : Type} [DecidableEq P]

/-! ## Specification -/

/-- The subscriber's task is on its way out: it reads no more updates. -/
def Finishing (s : St P) : Prop :=
  match s.sub with
  | .cleaning _ _ | .closing | .ended => True
  | _ => False

/-- Steps of the subscriber's task and of the tasks of the channel it waits for. -/
def Own (s : St P) (a : Act P) : Prop :=
  a = .go ∨ ∃ p rest, s.sub = .cleaning p rest ∧ (a = .pubStep p ∨ a = .graphStep p ∨ a = .shmStep p)

/-- How many tasks of a channel have not ended. -/
def unfinished (c : Chan) : Nat :=
  (if c.pub = .ended then 0 else 1) + (if c.graph = .ended then 0 else 1) + (if c.shm = .ended then 0 else 1)

/-- How many of its own steps a finishing subscriber takes at most. -/
def work (s : St P) : Nat :=
  match s.sub with
  | .cleaning p rest => 4 * rest.length + 2 + unfinished (s.chan p)
  | .closing => 1
  | _ => 0

/-- The subscriber has left: it is a client of no channel, the channels it alone used are out of the registry, and its
connection to the graph server is closed. -/
def Gone (s : St P) : Prop :=
  s.connected = false ∧ ∀ p, (s.chan p).mine = false ∧ ((s.chan p).live = true → (s.chan p).others = true)

/-- No channel is waiting for the end of an old segment. -/
def Steady (s : St P) : Prop := ∀ p, (s.chan p).pub ≠ .switching

/-! ## Invariants -/

/-- What holds of a channel at all times. -/
structure CInv (c : Chan) : Prop where
  mine : c.mine = true → c.live = true
  used : c.live = true → c.mine = true ∨ c.others = true
  others : c.others = true → c.live = true
  shm : c.pub ≠ .reading → c.shm ≠ .reading

theorem Aux.cancel_ne (a : Aux) : a.cancel ≠ .reading := by cases a <;> simp [Aux.cancel]

theorem cancelPub_shm (c : Chan) (h : c.pub ≠ .reading → c.shm ≠ .reading) :
    c.cancelPub.pub ≠ .reading → c.cancelPub.shm ≠ .reading := by
  rcases c with ⟨l, m, o, p, g, sh⟩
  cases p <;> cases sh <;> simp_all [Chan.cancelPub, Aux.cancel]

theorem cancelPub_flags (c : Chan) :
    c.cancelPub.live = c.live ∧ c.cancelPub.mine = c.mine ∧ c.cancelPub.others = c.others ∧ c.cancelPub.graph = c.graph := by
  rcases c with ⟨l, m, o, p, g, sh⟩
  cases p <;> simp [Chan.cancelPub]

theorem close_flags (c : Chan) :
    c.close.live = false ∧ c.close.mine = c.mine ∧ c.close.others = c.others ∧ c.close.graph ≠ .reading := by
  rcases c with ⟨l, m, o, p, g, sh⟩
  cases p <;> simp [Chan.close, Chan.cancelPub, Aux.cancel_ne]

theorem CInv.closed {c : Chan} (h : CInv c) (ho : c.others = false) : CInv { c with mine := false }.close := by
  obtain ⟨h1, h2, h3, h4⟩ := close_flags { c with mine := false }
  refine ⟨by rw [h2]; simp, by rw [h1]; simp, by rw [h3]; simp [ho], ?_⟩
  simp only [Chan.close]
  exact cancelPub_shm _ h.shm

theorem CInv.interrupt {c : Chan} (h : CInv c) : CInv c.interrupt := by
  have f := cancelPub_flags c
  simp only [Chan.interrupt]
  split
  · refine ⟨?_, ?_, ?_, cancelPub_shm c h.shm⟩
    · rw [f.1, f.2.1]; exact h.mine
    · rw [f.1, f.2.1, f.2.2.1]; exact h.used
    · rw [f.1, f.2.2.1]; exact h.others
  · split
    · exact ⟨h.mine, h.used, h.others, h.shm⟩
    · exact ⟨h.mine, h.used, h.others, fun _ => Aux.cancel_ne _⟩

theorem interrupt_flags (c : Chan) :
    c.interrupt.live = c.live ∧ c.interrupt.mine = c.mine ∧ c.interrupt.others = c.others := by
  have f := cancelPub_flags c
  simp only [Chan.interrupt]
  split
  · exact ⟨f.1, f.2.1, f.2.2.1⟩
  · split <;> exact ⟨rfl, rfl, rfl⟩

theorem setChan_same (s : St P) (p : P) (c : Chan) : (s.setChan p c).chan p = c := by simp [St.setChan]

theorem setChan_other (s : St P) {p q : P} (c : Chan) (h : q ≠ p) : (s.setChan p c).chan q = s.chan q := by
  simp [St.setChan, h]

/-- The channels of the subscriber are those it is a client of. -/
def Listed (s : St P) : Prop := s.channels.Nodup ∧ s.connected = true ∧ ∀ p, p ∈ s.channels ↔ (s.chan p).mine = true

/-- What holds of the subscriber at all times. -/
def SInv (s : St P) : Prop :=
  match s.sub with
  | .reading | .draining => Listed s
  | .registering p adds rms => Listed s ∧ (p :: adds).Nodup ∧ (∀ q ∈ p :: adds, q ∉ s.channels) ∧ rms.Nodup ∧
      (∀ q ∈ rms, q ∈ s.channels)
  | .waiting p rms => s.channels.Nodup ∧ s.connected = true ∧ p ∈ s.channels ∧
      ((s.chan p).mine = false ∧ (s.chan p).live = false) ∧ (∀ q, q ≠ p → (q ∈ s.channels ↔ (s.chan q).mine = true)) ∧
      rms.Nodup ∧ p ∉ rms ∧ (∀ q ∈ rms, q ∈ s.channels)
  | .cleaning p rest => rest.Nodup ∧ p ∉ rest ∧ (s.chan p).live = false ∧ (∀ q, q ∈ rest ↔ (s.chan q).mine = true)
  | .closing | .ended => s.connected = false ∧ ∀ q, (s.chan q).mine = false

structure Inv (s : St P) : Prop where
  chan : ∀ p, CInv (s.chan p)
  sub : SInv s

theorem chan_set {s : St P} {p : P} {c : Chan} (h : ∀ q, CInv (s.chan q)) (hc : CInv c) : ∀ q, CInv ((s.setChan p c).chan q) := by
  intro q
  simp only [St.setChan]
  split
  · exact hc
  · exact h q

theorem inv_removing (rms : List P) : ∀ (s : St P), (∀ p, CInv (s.chan p)) → Listed s → rms.Nodup →
    (∀ q ∈ rms, q ∈ s.channels) → Inv (removing rms s) := by
  induction rms with
  | nil => intro s hc hl _ _; exact ⟨hc, hl⟩
  | cons p rms ih =>
    intro s hc hl hn hm
    have hpm : p ∈ s.channels := hm p (by simp)
    simp only [List.nodup_cons] at hn
    simp only [removing]
    split
    · rename_i ho
      refine ih _ ?_ ?_ hn.2 ?_
      · refine chan_set hc ⟨by simp, fun _ => Or.inr ho, (hc p).others, (hc p).shm⟩
      · refine ⟨hl.1.erase p, hl.2.1, ?_⟩
        intro q
        by_cases hq : q = p
        · subst hq
          simp only [setChan_same]
          simp [hl.1.mem_erase_iff]
        · simp only [setChan_other _ _ hq]
          rw [← hl.2.2 q, hl.1.mem_erase_iff]
          simp [hq]
      · intro q hq
        have hqp : q ≠ p := fun e => hn.1 (e ▸ hq)
        exact (hl.1.mem_erase_iff).2 ⟨hqp, hm q (by simp [hq])⟩
    · rename_i ho
      have ho' : (s.chan p).others = false := by simpa using ho
      have f := close_flags { s.chan p with mine := false }
      refine ⟨chan_set hc ((hc p).closed ho'), ?_⟩
      simp only [SInv]
      refine ⟨hl.1, hl.2.1, hpm, ?_, ?_, hn.2, hn.1, fun q hq => hm q (by simp [hq])⟩
      · simp only [St.setChan, if_true]
        exact ⟨f.2.1, f.1⟩
      · intro q hq
        simp only [St.setChan, hq, if_false]
        exact hl.2.2 q

theorem inv_adding (adds : List P) : ∀ (rms : List P) (s : St P), (∀ p, CInv (s.chan p)) → Listed s → adds.Nodup →
    (∀ q ∈ adds, q ∉ s.channels) → rms.Nodup → (∀ q ∈ rms, q ∈ s.channels) → Inv (adding adds rms s) := by
  induction adds with
  | nil => intro rms s hc hl _ _ h1 h2; exact inv_removing rms s hc hl h1 h2
  | cons p adds ih =>
    intro rms s hc hl hn hd hr hm
    simp only [adding]
    split
    · rename_i hlive
      have hn' := List.nodup_cons.1 hn
      refine ih rms _ (chan_set hc ⟨fun _ => hlive, fun _ => Or.inl rfl, (hc p).others, (hc p).shm⟩) ?_ hn'.2 ?_ hr ?_
      · refine ⟨?_, hl.2.1, ?_⟩
        · simp only
          rw [List.nodup_append]
          refine ⟨hl.1, by simp, ?_⟩
          intro x hx y hy e
          cases List.mem_singleton.1 hy
          exact hd p (by simp) (e ▸ hx)
        · intro q
          by_cases hq : q = p
          · subst hq; simp [St.setChan]
          · simp [St.setChan, hq, hl.2.2 q]
      · intro q hq
        simp only [List.mem_append, List.mem_singleton, not_or]
        exact ⟨hd q (by simp [hq]), fun e => hn'.1 (e ▸ hq)⟩
      · intro q hq
        exact List.mem_append_left _ (hm q hq)
    · refine ⟨hc, ?_⟩
      simp only [SInv]
      exact ⟨hl, hn, hd, hr, hm⟩

theorem inv_cleanup (rest : List P) : ∀ (s : St P), (∀ p, CInv (s.chan p)) → rest.Nodup →
    (∀ q, q ∈ rest ↔ (s.chan q).mine = true) → Inv (cleanup rest s) := by
  induction rest with
  | nil =>
    intro s hc _ hm
    refine ⟨hc, ?_⟩
    simp only [cleanup, SInv]
    exact ⟨trivial, fun q => by simpa using hm q⟩
  | cons p rest ih =>
    intro s hc hn hm
    have hn' := List.nodup_cons.1 hn
    simp only [cleanup]
    split
    · rename_i ho
      refine ih _ (chan_set hc ⟨by simp, fun _ => Or.inr ho, (hc p).others, (hc p).shm⟩) hn'.2 ?_
      intro q
      by_cases hq : q = p
      · subst hq; simp [St.setChan, hn'.1]
      · simp only [St.setChan, hq, if_false]
        rw [← hm q]; simp [hq]
    · rename_i ho
      have ho' : (s.chan p).others = false := by simpa using ho
      have f := close_flags { s.chan p with mine := false }
      refine ⟨chan_set hc ((hc p).closed ho'), ?_⟩
      simp only [SInv]
      refine ⟨hn'.2, hn'.1, ?_, ?_⟩
      · simp only [St.setChan, if_true]; exact f.1
      · intro q
        by_cases hq : q = p
        · subst hq
          simp only [St.setChan, if_true, f.2.1]
          simp [hn'.1]
        · simp only [St.setChan, hq, if_false]
          rw [← hm q]; simp [hq]

/-- A change of one channel that keeps whether it is live and the subscriber's. -/
theorem inv_set {s : St P} (h : Inv s) {p : P} {c : Chan} (hc : CInv c) (hm : c.mine = (s.chan p).mine)
    (hl' : c.live = true → (s.chan p).live = true) :
    Inv (s.setChan p c) := by
  have hmine : ∀ q, ((s.setChan p c).chan q).mine = (s.chan q).mine := by
    intro q
    by_cases hq : q = p
    · subst hq; simp [St.setChan, hm]
    · simp [St.setChan, hq]
  have hdead : ∀ q, (s.chan q).live = false → ((s.setChan p c).chan q).live = false := by
    intro q hd
    by_cases hq : q = p
    · subst hq
      simp only [St.setChan, if_true]
      cases hcl : c.live with
      | false => rfl
      | true => rw [hl' hcl] at hd; cases hd
    · simp [St.setChan, hq, hd]
  have hL : Listed s → Listed (s.setChan p c) := by
    rintro ⟨h1, h2, h3⟩
    exact ⟨h1, h2, fun q => by rw [hmine q]; exact h3 q⟩
  refine ⟨chan_set h.chan hc, ?_⟩
  have hs := h.sub
  have hsub : (s.setChan p c).sub = s.sub := rfl
  simp only [SInv, hsub] at hs ⊢
  cases hss : s.sub with
  | reading => rw [hss] at hs; exact hL hs
  | draining => rw [hss] at hs; exact hL hs
  | registering q adds rms => rw [hss] at hs; exact ⟨hL hs.1, hs.2⟩
  | waiting q rms =>
    rw [hss] at hs
    obtain ⟨h1, h2, h3, h4, h5, h6⟩ := hs
    refine ⟨h1, h2, h3, ⟨by rw [hmine q]; exact h4.1, hdead q h4.2⟩, ?_, h6⟩
    intro r hr
    rw [hmine r]
    exact h5 r hr
  | cleaning q rest =>
    rw [hss] at hs
    exact ⟨hs.1, hs.2.1, hdead q hs.2.2.1, fun r => by rw [hmine r]; exact hs.2.2.2 r⟩
  | closing => rw [hss] at hs; exact ⟨hs.1, fun r => by rw [hmine r]; exact hs.2 r⟩
  | ended => rw [hss] at hs; exact ⟨hs.1, fun r => by rw [hmine r]; exact hs.2 r⟩

theorem inv_close {s : St P} (h : Inv s) : Inv (close s) := by
  have hs := h.sub
  simp only [SInv] at hs
  simp only [close]
  cases hss : s.sub with
  | reading => rw [hss] at hs; exact inv_cleanup _ s h.chan hs.1 hs.2.2
  | draining => rw [hss] at hs; exact inv_cleanup _ s h.chan hs.1 hs.2.2
  | registering p a r => rw [hss] at hs; exact inv_cleanup _ s h.chan hs.1.1 hs.1.2.2
  | waiting p r =>
    have f := interrupt_flags (s.chan p)
    exact inv_set h (h.chan p).interrupt f.2.1 (by rw [f.1]; exact id)
  | cleaning p r =>
    have f := interrupt_flags (s.chan p)
    exact inv_set h (h.chan p).interrupt f.2.1 (by rw [f.1]; exact id)
  | closing => rw [hss] at hs; exact ⟨h.chan, hs⟩
  | ended => exact h

theorem nodup_eraseDups (l : List P) : l.eraseDups.Nodup := by
  induction h : l.length using Nat.strongRecOn generalizing l with
  | _ n ih =>
    cases l with
    | nil => simp
    | cons a l =>
      rw [List.eraseDups_cons, List.nodup_cons]
      refine ⟨?_, ih _ ?_ _ rfl⟩
      · simp
      · subst h
        have := List.length_filter_le (fun b => !b == a) l
        simp only [List.length_cons]
        omega

theorem inv_step (a : Act P) (s s' : St P) (h : Inv s) (hs : step a s = some s') : Inv s' := by
  have hi := h.sub
  simp only [SInv] at hi
  cases a with
  | update new =>
    simp only [step] at hs
    split at hs <;> cases hs
    rename_i hss
    rw [hss] at hi
    refine inv_adding _ _ s h.chan hi ((nodup_eraseDups new).filter _) ?_ (hi.1.filter _) ?_
    · intro q hq; simpa using (List.mem_filter.1 hq).2
    · intro q hq; exact (List.mem_filter.1 hq).1
  | created =>
    simp only [step] at hs
    split at hs <;> cases hs
    rename_i p adds rms hss
    rw [hss] at hi
    obtain ⟨hl, hn, hd, hr, hm⟩ := hi
    have hn' := List.nodup_cons.1 hn
    refine inv_adding _ _ _ (chan_set h.chan ⟨fun _ => rfl, fun _ => Or.inl rfl, fun _ => rfl, by simp [Chan.new]⟩) ?_ hn'.2 ?_
      hr ?_
    · refine ⟨?_, hl.2.1, ?_⟩
      · simp only
        rw [List.nodup_append]
        refine ⟨hl.1, by simp, ?_⟩
        intro x hx y hy e
        cases List.mem_singleton.1 hy
        exact hd p (by simp) (e ▸ hx)
      · intro q
        by_cases hq : q = p
        · subst hq; simp [St.setChan, Chan.new]
        · simp [St.setChan, hq, hl.2.2 q]
    · intro q hq
      simp only [List.mem_append, List.mem_singleton, not_or]
      exact ⟨hd q (by simp [hq]), fun e => hn'.1 (e ▸ hq)⟩
    · intro q hq
      exact List.mem_append_left _ (hm q hq)
  | go =>
    simp only [step] at hs
    split at hs
    · rename_i p rms hss
      split at hs <;> cases hs
      rw [hss] at hi
      obtain ⟨h1, h2, h3, h4, h5, h6, h7, h8⟩ := hi
      refine inv_removing rms _ h.chan ⟨h1.erase p, h2, ?_⟩ h6 ?_
      · intro q
        by_cases hq : q = p
        · subst hq; simp [h1.mem_erase_iff, h4.1]
        · simp only [h1.mem_erase_iff]; rw [← h5 q hq]; simp [hq]
      · intro q hq
        exact (h1.mem_erase_iff).2 ⟨fun e => h7 (e ▸ hq), h8 q hq⟩
    · rename_i hss
      cases hs
      rw [hss] at hi
      exact ⟨h.chan, hi⟩
    · rename_i p rest hss
      split at hs <;> cases hs
      rw [hss] at hi
      exact inv_cleanup rest s h.chan hi.1 hi.2.2.2
    · rename_i hss
      cases hs
      rw [hss] at hi
      exact ⟨h.chan, hi⟩
    · cases hs
  | eof =>
    simp only [step] at hs
    split at hs <;> cases hs
    rename_i hss
    rw [hss] at hi
    exact inv_cleanup _ s h.chan hi.1 hi.2.2
  | close => cases hs; exact inv_close h
  | grow p =>
    simp only [step] at hs
    split at hs <;> cases hs
    exact inv_set h ⟨(h.chan p).mine, (h.chan p).used, (h.chan p).others, fun _ => Aux.cancel_ne _⟩ rfl id
  | pubStep p =>
    simp only [step] at hs
    split at hs
    · rename_i hp
      split at hs <;> cases hs
      exact inv_set h ⟨(h.chan p).mine, (h.chan p).used, (h.chan p).others, fun _ => (h.chan p).shm (by simp [hp])⟩ rfl id
    · cases hs
      exact inv_set h ⟨(h.chan p).mine, (h.chan p).used, (h.chan p).others, by simp⟩ rfl id
    · rename_i hp
      cases hs
      exact inv_set h ⟨(h.chan p).mine, (h.chan p).used, (h.chan p).others, fun _ => (h.chan p).shm (by simp [hp])⟩ rfl id
    · cases hs
  | pubEof p =>
    simp only [step] at hs
    split at hs <;> cases hs
    exact inv_set h ⟨(h.chan p).mine, (h.chan p).used, (h.chan p).others, fun _ => Aux.cancel_ne _⟩ rfl id
  | graphStep p =>
    simp only [step] at hs
    split at hs <;> cases hs
    exact inv_set h ⟨(h.chan p).mine, (h.chan p).used, (h.chan p).others, (h.chan p).shm⟩ rfl id
  | graphEof p =>
    simp only [step] at hs
    split at hs <;> cases hs
    exact inv_set h ⟨(h.chan p).mine, (h.chan p).used, (h.chan p).others, (h.chan p).shm⟩ rfl id
  | shmStep p =>
    simp only [step] at hs
    split at hs <;> cases hs
    exact inv_set h ⟨(h.chan p).mine, (h.chan p).used, (h.chan p).others, by simp⟩ rfl id
  | shmEof p =>
    simp only [step] at hs
    split at hs <;> cases hs
    exact inv_set h ⟨(h.chan p).mine, (h.chan p).used, (h.chan p).others, by simp⟩ rfl id
  | join p =>
    simp only [step] at hs
    split at hs <;> cases hs
    rename_i hc
    exact inv_set h ⟨(h.chan p).mine, fun _ => Or.inr rfl, fun _ => hc.1, (h.chan p).shm⟩ rfl id
  | leave p =>
    simp only [step] at hs
    split at hs <;> cases hs
    rename_i hc
    have f := close_flags { s.chan p with others := false }
    split
    · rename_i hm
      exact inv_set h ⟨fun _ => hc.1, fun _ => Or.inl hm, by simp, (h.chan p).shm⟩ rfl id
    · rename_i hm
      have hm' : (s.chan p).mine = false := by simpa using hm
      refine inv_set h ⟨by rw [f.2.1]; simp [hm'], by rw [f.1]; simp, by rw [f.2.2.1]; simp, ?_⟩ f.2.1 (by rw [f.1]; simp)
      simp only [Chan.close]
      exact cancelPub_shm _ (h.chan p).shm

theorem inv_init (others : P → Bool) : Inv (init others) := by
  refine ⟨?_, ?_⟩
  · intro p
    simp only [init]
    split <;> constructor <;> simp
  · simp only [SInv, init, Listed]
    refine ⟨by simp, trivial, ?_⟩
    intro p
    split <;> simp

theorem inv_run (as : List (Act P)) : ∀ (s t : St P), Inv s → run as s = some t → Inv t := by
  induction as with
  | nil => intro s t h hr; cases hr; exact h
  | cons a as ih =>
    intro s t h hr
    simp only [run] at hr
    split at hr
    · cases hr
    · rename_i s' hs
      exact ih s' t (inv_step a s s' h hs) hr

/-- What holds of a finishing subscriber when no channel is waiting for an old segment. -/
structure Fin (s : St P) : Prop where
  fin : Finishing s
  steady : Steady s
  shut : ∀ p rest, s.sub = .cleaning p rest →
    ((s.chan p).pub = .closing ∨ (s.chan p).pub = .ended) ∧ (s.chan p).graph ≠ .reading

theorem cancelPub_steady {c : Chan} (h : c.pub ≠ .switching) : c.cancelPub.pub = .closing ∨ c.cancelPub.pub = .ended := by
  rcases c with ⟨l, m, o, p, g, sh⟩
  cases p <;> simp_all [Chan.cancelPub]

theorem steady_set {s : St P} {p : P} {c : Chan} (h : Steady s) (hc : c.pub ≠ .switching) : Steady (s.setChan p c) := by
  intro q
  simp only [St.setChan]
  split
  · exact hc
  · exact h q

theorem close_steady {c : Chan} (h : c.pub ≠ .switching) : c.close.pub = .closing ∨ c.close.pub = .ended := by
  simp only [Chan.close]
  exact cancelPub_steady (c := { c with live := false }) h

theorem ne_switching {x : PubTask} (h : x = .closing ∨ x = .ended) : x ≠ .switching := by
  rcases h with h | h <;> simp [h]

theorem fin_cleanup (rest : List P) : ∀ (s : St P), Steady s → Fin (cleanup rest s) := by
  induction rest with
  | nil => intro s hs; exact ⟨trivial, hs, by simp [cleanup]⟩
  | cons p rest ih =>
    intro s hs
    simp only [cleanup]
    split
    · exact ih _ (steady_set hs (hs p))
    · have hc := close_steady (c := { s.chan p with mine := false }) (hs p)
      refine ⟨trivial, steady_set hs (ne_switching hc), ?_⟩
      intro q r hq
      cases hq
      simp only [St.setChan, if_true]
      exact ⟨hc, (close_flags _).2.2.2⟩

theorem unfinished_le (c : Chan) : unfinished c ≤ 3 := by
  simp only [unfinished]
  split <;> split <;> split <;> omega

theorem work_cleanup (rest : List P) : ∀ (s : St P), work (cleanup rest s) ≤ 4 * rest.length + 1 := by
  induction rest with
  | nil => intro s; simp [cleanup, work]
  | cons p rest ih =>
    intro s
    simp only [cleanup]
    split
    · refine Nat.le_trans (ih _) ?_
      simp only [List.length_cons]; omega
    · simp only [work, List.length_cons]
      simp only [St.setChan, if_true]
      have := unfinished_le { s.chan p with mine := false }.close
      dsimp only at this ⊢
      omega

theorem fin_set {s : St P} (h : Fin s) {p : P} {c : Chan} (hc : c.pub ≠ .switching)
    (hl : ∀ rest, s.sub = .cleaning p rest → (c.pub = .closing ∨ c.pub = .ended) ∧ c.graph ≠ .reading ∧
      unfinished c ≤ unfinished (s.chan p)) : Fin (s.setChan p c) ∧ work (s.setChan p c) ≤ work s := by
  have hsub : (s.setChan p c).sub = s.sub := rfl
  refine ⟨⟨?_, steady_set h.steady hc, ?_⟩, ?_⟩
  · have := h.fin
    simp only [Finishing, hsub]
    exact this
  · intro q rest hq
    rw [hsub] at hq
    by_cases e : q = p
    · subst e
      simp only [St.setChan, if_true]
      exact ⟨(hl rest hq).1, (hl rest hq).2.1⟩
    · simp only [St.setChan, e, if_false]
      exact h.shut q rest hq
  · simp only [work, hsub]
    cases hss : s.sub with
    | cleaning q rest =>
      simp only
      by_cases e : q = p
      · subst e
        simp only [St.setChan, if_true]
        have := (hl rest hss).2.2
        omega
      · simp [St.setChan, e]
    | _ => simp

theorem aux_closing {a : Aux} (h : a ≠ .reading) : (if a.cancel = .ended then 0 else 1) ≤ (if a = .ended then (0 : Nat) else 1) := by
  cases a <;> simp_all [Aux.cancel]

theorem cancel_le {c : Chan} (h : c.pub = .closing ∨ c.pub = .ended) : unfinished c.cancelPub ≤ unfinished c := by
  rcases h with h | h
  · simp only [Chan.cancelPub, h, unfinished]
    simp
  · simp only [Chan.cancelPub, h]
    exact Nat.le_refl _

theorem interrupt_le {c : Chan} (h : c.pub = .closing ∨ c.pub = .ended) (hg : c.graph ≠ .reading) (hs : c.shm ≠ .reading) :
    (c.interrupt.pub = .closing ∨ c.interrupt.pub = .ended) ∧ c.interrupt.graph ≠ .reading ∧
      unfinished c.interrupt ≤ unfinished c := by
  have hsw := ne_switching h
  simp only [Chan.interrupt]
  split
  · exact ⟨cancelPub_steady hsw, by rw [(cancelPub_flags c).2.2.2]; exact hg, cancel_le h⟩
  · split
    · refine ⟨h, Aux.cancel_ne _, ?_⟩
      have := aux_closing hg
      simp only [unfinished]
      omega
    · refine ⟨h, hg, ?_⟩
      have := aux_closing hs
      simp only [unfinished]
      omega

theorem fin_close {s : St P} (hi : Inv s) (h : Fin s) : Fin (close s) ∧ work (close s) ≤ work s := by
  have hf := h.fin
  simp only [Finishing] at hf
  simp only [close]
  cases hss : s.sub with
  | reading => simp [hss] at hf
  | registering p a r => simp [hss] at hf
  | waiting p r => simp [hss] at hf
  | draining => simp [hss] at hf
  | cleaning p r =>
    have hp := h.shut p r hss
    have hle := interrupt_le hp.1 hp.2 ((hi.chan p).shm (by rcases hp.1 with e | e <;> simp [e]))
    simp only
    exact fin_set h (ne_switching hle.1) (fun _ _ => hle)
  | closing => exact ⟨⟨trivial, h.steady, by simp⟩, by simp [work, hss]⟩
  | ended => exact ⟨h, by simp⟩

theorem work_lt {s : St P} {p : P} {rest : List P} {c : Chan} (h : s.sub = .cleaning p rest)
    (hc : unfinished c < unfinished (s.chan p)) : work (s.setChan p c) < work s := by
  have hsub : (s.setChan p c).sub = s.sub := rfl
  simp only [work, hsub, h, setChan_same]
  omega

theorem fin_step (a : Act P) (s s' : St P) (hi : Inv s) (h : Fin s) (hg : ∀ p, a ≠ .grow p) (hs : step a s = some s') :
    Fin s' ∧ work s' ≤ work s ∧ (Own s a → work s' < work s) := by
  have hf := h.fin
  simp only [Finishing] at hf
  have no : ∀ {x : St P} {b : Prop}, (x.sub = x.sub) → (Fin x ∧ work x ≤ work s) → (¬ Own s a) →
      Fin x ∧ work x ≤ work s ∧ (Own s a → work x < work s) := fun _ h1 h2 => ⟨h1.1, h1.2, fun h3 => absurd h3 h2⟩
  cases a with
  | update new => simp only [step] at hs; split at hs <;> cases hs; rename_i e; simp [e] at hf
  | created => simp only [step] at hs; split at hs <;> cases hs; rename_i e; simp [e] at hf
  | eof => simp only [step] at hs; split at hs <;> cases hs; rename_i e; simp [e] at hf
  | close => cases hs; exact no (b := True) rfl (fin_close hi h) (by simp [Own])
  | go =>
    simp only [step] at hs
    split at hs
    · rename_i e; simp [e] at hf
    · rename_i e; simp [e] at hf
    · rename_i p rest hss
      split at hs <;> cases hs
      have hw := work_cleanup rest s
      have hlt : work (cleanup rest s) < work s := by
        simp only [work, hss] at hw ⊢
        omega
      exact ⟨fin_cleanup rest s h.steady, Nat.le_of_lt hlt, fun _ => hlt⟩
    · rename_i hss
      cases hs
      exact ⟨⟨trivial, h.steady, by simp⟩, by simp [work, hss], fun _ => by simp [work, hss]⟩
    · cases hs
  | grow p => exact absurd rfl (hg p)
  | pubStep p =>
    simp only [step] at hs
    split at hs
    · rename_i e; exact absurd e (h.steady p)
    · rename_i hp
      cases hs
      have hne : ∀ rest, s.sub ≠ .cleaning p rest := by
        intro rest hr
        have := (h.shut p rest hr).1
        simp [hp] at this
      have := fin_set h (p := p) (c := { s.chan p with pub := .reading, shm := .reading }) (by simp)
        (fun rest hr => absurd hr (hne rest))
      refine ⟨this.1, this.2, ?_⟩
      rintro (e | ⟨q, rest, hq, e | e | e⟩) <;> cases e
      exact absurd hq (hne rest)
    · rename_i hp
      cases hs
      have hlt : unfinished { s.chan p with pub := .ended } < unfinished (s.chan p) := by
        simp only [unfinished, hp]; simp
      have := fin_set h (p := p) (c := { s.chan p with pub := .ended }) (by simp)
        (fun rest hr => ⟨Or.inr rfl, (h.shut p rest hr).2, Nat.le_of_lt hlt⟩)
      refine ⟨this.1, this.2, ?_⟩
      rintro (e | ⟨q, rest, hq, e | e | e⟩) <;> cases e
      exact work_lt hq hlt
    · cases hs
  | pubEof p =>
    simp only [step] at hs
    split at hs <;> cases hs
    rename_i hp
    refine no (b := True) rfl (fin_set h (by simp) ?_) (by simp [Own])
    intro rest hr
    have := (h.shut p rest hr).1
    simp [hp] at this
  | graphStep p =>
    simp only [step] at hs
    split at hs <;> cases hs
    rename_i hp
    have hlt : unfinished { s.chan p with graph := .ended } < unfinished (s.chan p) := by
      simp only [unfinished, hp]; simp
    have := fin_set h (p := p) (c := { s.chan p with graph := .ended }) (h.steady p)
      (fun rest hr => ⟨(h.shut p rest hr).1, by simp, Nat.le_of_lt hlt⟩)
    refine ⟨this.1, this.2, ?_⟩
    rintro (e | ⟨q, rest, hq, e | e | e⟩) <;> cases e
    exact work_lt hq hlt
  | graphEof p =>
    simp only [step] at hs
    split at hs <;> cases hs
    rename_i hp
    refine no (b := True) rfl (fin_set h (h.steady p) ?_) (by simp [Own])
    intro rest hr
    exact absurd hp (h.shut p rest hr).2
  | shmStep p =>
    simp only [step] at hs
    split at hs <;> cases hs
    rename_i hp
    have hlt : unfinished { s.chan p with shm := .ended } < unfinished (s.chan p) := by
      simp only [unfinished, hp]; simp
    have := fin_set h (p := p) (c := { s.chan p with shm := .ended }) (h.steady p)
      (fun rest hr => ⟨(h.shut p rest hr).1, (h.shut p rest hr).2, Nat.le_of_lt hlt⟩)
    refine ⟨this.1, this.2, ?_⟩
    rintro (e | ⟨q, rest, hq, e | e | e⟩) <;> cases e
    exact work_lt hq hlt
  | shmEof p =>
    simp only [step] at hs
    split at hs <;> cases hs
    rename_i hp
    refine no (b := True) rfl (fin_set h (h.steady p) ?_) (by simp [Own])
    intro rest hr
    refine ⟨(h.shut p rest hr).1, (h.shut p rest hr).2, ?_⟩
    simp [unfinished, hp]
  | join p =>
    simp only [step] at hs
    split at hs <;> cases hs
    refine no (b := True) rfl (fin_set h (h.steady p) ?_) (by simp [Own])
    intro rest hr
    exact ⟨(h.shut p rest hr).1, (h.shut p rest hr).2, Nat.le_refl _⟩
  | leave p =>
    simp only [step] at hs
    split at hs <;> cases hs
    rename_i hc
    have hne : ∀ rest, s.sub ≠ .cleaning p rest := by
      intro rest hr
      have := hi.sub
      simp only [SInv, hr] at this
      rw [this.2.2.1] at hc
      simp at hc
    refine no (b := True) rfl (fin_set h ?_ (fun rest hr => absurd hr (hne rest))) (by simp [Own])
    split
    · exact h.steady p
    · exact ne_switching (close_steady (c := { s.chan p with others := false }) (h.steady p))

theorem fin_run (as : List (Act P)) : ∀ (s t : St P), Inv s → Fin s → (∀ p, .grow p ∉ as) → run as s = some t →
    Inv t ∧ Fin t ∧ work t ≤ work s := by
  induction as with
  | nil => intro s t hi h _ hr; cases hr; exact ⟨hi, h, Nat.le_refl _⟩
  | cons a as ih =>
    intro s t hi h hg hr
    simp only [run] at hr
    split at hr
    · cases hr
    · rename_i s' hs
      have h1 := fin_step a s s' hi h (fun p e => hg p (by simp [e])) hs
      have h2 := ih s' t (inv_step a s s' hi hs) h1.1 (fun p e => hg p (by simp [e])) hr
      exact ⟨h2.1, h2.2.1, Nat.le_trans h2.2.2 h1.2.1⟩

theorem fin_progress {s : St P} (hi : Inv s) (h : Fin s) (hne : s.sub ≠ .ended) : ∃ a s', Own s a ∧ (∀ p, a ≠ .grow p) ∧
    step a s = some s' := by
  have hf := h.fin
  simp only [Finishing] at hf
  cases hss : s.sub with
  | reading => simp [hss] at hf
  | registering p a r => simp [hss] at hf
  | waiting p r => simp [hss] at hf
  | draining => simp [hss] at hf
  | ended => exact absurd hss hne
  | closing => exact ⟨.go, { s with sub := .ended }, Or.inl rfl, by simp, by simp [step, hss]⟩
  | cleaning p rest =>
    obtain ⟨hp, hg⟩ := h.shut p rest hss
    rcases hp with hp | hp
    · exact ⟨.pubStep p, s.setChan p { s.chan p with pub := .ended }, Or.inr ⟨p, rest, hss, Or.inl rfl⟩, by simp, by simp only [step, hp]⟩
    · have hsh := (hi.chan p).shm (by simp [hp])
      by_cases hg' : (s.chan p).graph = .ended
      · by_cases hs' : (s.chan p).shm = .ended
        · exact ⟨.go, cleanup rest s, Or.inl rfl, by simp, by simp [step, hss, Chan.closed, hp, hg', hs']⟩
        · have : (s.chan p).shm = .closing := by cases e : (s.chan p).shm <;> simp_all
          exact ⟨.shmStep p, s.setChan p { s.chan p with shm := .ended }, Or.inr ⟨p, rest, hss, Or.inr (Or.inr rfl)⟩, by simp, by simp only [step, this, if_true]⟩
      · have : (s.chan p).graph = .closing := by cases e : (s.chan p).graph <;> simp_all
        exact ⟨.graphStep p, s.setChan p { s.chan p with graph := .ended }, Or.inr ⟨p, rest, hss, Or.inr (Or.inl rfl)⟩, by simp, by simp only [step, this, if_true]⟩

theorem fin_ends (n : Nat) : ∀ (s : St P), Inv s → Fin s → work s ≤ n → ∃ as t, run as s = some t ∧ as.length ≤ n ∧ t.sub = .ended := by
  induction n with
  | zero =>
    intro s hi h hw
    by_cases hne : s.sub = .ended
    · exact ⟨[], s, rfl, by simp, hne⟩
    · obtain ⟨a, s', ho, hg, hs⟩ := fin_progress hi h hne
      have := (fin_step a s s' hi h hg hs).2.2 ho
      omega
  | succ n ih =>
    intro s hi h hw
    by_cases hne : s.sub = .ended
    · exact ⟨[], s, rfl, by simp, hne⟩
    · obtain ⟨a, s', ho, hg, hs⟩ := fin_progress hi h hne
      have hf := fin_step a s s' hi h hg hs
      have hlt := hf.2.2 ho
      obtain ⟨as, t, hr, hl, ht⟩ := ih s' (inv_step a s s' hi hs) hf.1 (by omega)
      exact ⟨a :: as, t, by simp [run, hs, hr], by simp; omega, ht⟩

theorem fin_of_end {s s' : St P} (hw : ∀ p rms, s.sub ≠ .waiting p rms) (hs : Steady s) (hf : ¬ Finishing s) {a : Act P}
    (ha : a = .close ∨ a = .eof) (h : step a s = some s') : Fin s' := by
  rcases ha with ha | ha <;> subst ha
  · cases h
    simp only [Finishing] at hf
    cases hss : s.sub with
    | reading => simp only [close, hss]; exact fin_cleanup _ s hs
    | draining => simp only [close, hss]; exact fin_cleanup _ s hs
    | registering p a r => simp only [close, hss]; exact fin_cleanup _ s hs
    | waiting p r => exact absurd hss (hw p r)
    | cleaning p r => simp [hss] at hf
    | closing => simp [hss] at hf
    | ended => simp [hss] at hf
  · simp only [step] at h
    split at h <;> cases h
    exact fin_cleanup _ s hs

/-! ## C101 -/

/-- Unless it is removing a channel just then, or one of its channels is waiting for the end of an old segment then or later: a
subscriber that is closed, or loses the graph server, reads no more updates; each step of its task or of the tasks it waits
for brings it nearer to the end and no other step takes it farther away; it can always take such a step; and at the end it has
left all channels and the graph server. -/
theorem C101_ends_partial (others : P → Bool) (pre : List (Act P)) (s s' : St P) (hr : run pre (init others) = some s)
    (hw : ∀ p rms, s.sub ≠ .waiting p rms) (hst : Steady s) (hf : ¬ Finishing s)
    (a : Act P) (ha : a = .close ∨ a = .eof) (hs : step a s = some s')
    (as : List (Act P)) (hg : ∀ p, .grow p ∉ as) (t : St P) (ht : run as s' = some t) :
    Finishing t ∧
    (∀ b t', (∀ p, b ≠ .grow p) → step b t = some t' → work t' ≤ work t ∧ (Own t b → work t' < work t)) ∧
    (t.sub ≠ .ended → ∃ b t', Own t b ∧ step b t = some t') ∧
    (∃ bs u, run bs t = some u ∧ bs.length ≤ work t ∧ u.sub = .ended) ∧
    (t.sub = .ended → Gone t) := by
  have hi := inv_run pre _ _ (inv_init others) hr
  have hi' := inv_step a s s' hi hs
  have hfin := fin_of_end hw hst hf ha hs
  obtain ⟨hti, htf, -⟩ := fin_run as s' t hi' hfin hg ht
  refine ⟨htf.fin, ?_, ?_, fin_ends _ t hti htf (Nat.le_refl _), ?_⟩
  · intro b t' hb hbt
    exact (fin_step b t t' hti htf hb hbt).2
  · intro hne
    obtain ⟨b, t', h1, -, h2⟩ := fin_progress hti htf hne
    exact ⟨b, t', h1, h2⟩
  · intro he
    have := hti.sub
    simp only [SInv, he] at this
    refine ⟨this.1, fun p => ⟨this.2 p, fun hl => ?_⟩⟩
    rcases (hti.chan p).used hl with h | h
    · rw [this.2 p] at h; cases h
    · exact h

/-- Two publishers; the subscriber is closed while it is registering with the second. -/
def two : List (Act Nat) := [.update [0, 1], .created]

def noOthers : Nat → Bool := fun _ => false

example : ∃ s s' t, run two (init noOthers) = some s ∧ s.sub = .registering 1 [] [] ∧ step .close s = some s' ∧
    s'.sub = .cleaning 0 [] ∧ run [.pubStep 0, .graphStep 0, .shmStep 0, .go, .go] s' = some t ∧ t.sub = .ended ∧
    (t.chan 0).live = false := ⟨_, _, _, rfl, rfl, rfl, rfl, rfl, rfl, rfl⟩

/-- A channel that only the subscriber uses has ended, is being ended, or is still to be left. -/
def Ending (p : P) (s : St P) : Prop :=
  (s.chan p).live = false ∧ (s.chan p).closed = true ∨ (∃ rest, s.sub = .cleaning p rest ∧ (s.chan p).live = false) ∨
    ((s.chan p).others = false ∧ ∃ q rest, s.sub = .cleaning q rest ∧ p ∈ rest)

theorem ending_cleanup (p : P) (rest : List P) : ∀ (s : St P), rest.Nodup → p ∈ rest → (s.chan p).others = false →
    Ending p (cleanup rest s) := by
  induction rest with
  | nil => intro s _ h; cases h
  | cons q rest ih =>
    intro s hn hp ho
    have hn' := List.nodup_cons.1 hn
    simp only [cleanup]
    split
    · rename_i hq
      have hpq : p ≠ q := by intro e; subst e; rw [ho] at hq; cases hq
      refine ih _ hn'.2 (by simpa [hpq] using hp) ?_
      rw [setChan_other _ _ hpq]; exact ho
    · by_cases hpq : p = q
      · subst hpq
        refine Or.inr (Or.inl ⟨rest, rfl, ?_⟩)
        simp only [St.setChan, if_true]
        exact (close_flags _).1
      · refine Or.inr (Or.inr ⟨?_, q, rest, rfl, by simpa [hpq] using hp⟩)
        simp only [St.setChan, hpq, if_false]
        exact ho

theorem ending_closed_cleanup (p : P) (rest : List P) : ∀ (s : St P), p ∉ rest → (s.chan p).live = false ∧ (s.chan p).closed = true →
    ((cleanup rest s).chan p).live = false ∧ ((cleanup rest s).chan p).closed = true := by
  induction rest with
  | nil => intro s _ h; exact h
  | cons q rest ih =>
    intro s hp h
    simp only [List.mem_cons, not_or] at hp
    simp only [cleanup]
    split
    · refine ih _ hp.2 ?_
      rw [setChan_other _ _ hp.1]; exact h
    · simp only [St.setChan, hp.1, if_false]
      exact h

theorem ending_set {p q : P} {s : St P} (h : Ending p s) {c : Chan}
    (h1 : p = q → (s.chan p).live = false → c.live = false ∧ ((s.chan p).closed = true → c.closed = true))
    (h2 : p = q → (s.chan p).others = false → c.others = false) : Ending p (s.setChan q c) := by
  by_cases e : p = q
  · subst e
    rcases h with ⟨g1, g2⟩ | ⟨rest, g1, g2⟩ | ⟨g1, g2⟩
    · exact Or.inl ⟨by rw [setChan_same]; exact (h1 rfl g1).1, by rw [setChan_same]; exact (h1 rfl g1).2 g2⟩
    · exact Or.inr (Or.inl ⟨rest, g1, by rw [setChan_same]; exact (h1 rfl g2).1⟩)
    · exact Or.inr (Or.inr ⟨by rw [setChan_same]; exact h2 rfl g1, g2⟩)
  · rcases h with ⟨g1, g2⟩ | ⟨rest, g1, g2⟩ | ⟨g1, g2⟩
    · exact Or.inl ⟨by rw [setChan_other _ _ e]; exact g1, by rw [setChan_other _ _ e]; exact g2⟩
    · exact Or.inr (Or.inl ⟨rest, g1, by rw [setChan_other _ _ e]; exact g2⟩)
    · exact Or.inr (Or.inr ⟨by rw [setChan_other _ _ e]; exact g1, g2⟩)

theorem interrupt_closed (c : Chan) (h : c.closed = true) : c.interrupt.closed = true := by
  simp only [Chan.closed, decide_eq_true_eq] at h
  simp [Chan.interrupt, Chan.closed, h, Aux.cancel]

theorem ending_step {p : P} (a : Act P) (s s' : St P) (hi : Inv s) (hf : Finishing s) (h : Ending p s) (ha : a ≠ .join p)
    (hs : step a s = some s') : Ending p s' := by
  simp only [Finishing] at hf
  have cl : ∀ {c : Chan}, c.closed = true → c.pub = .ended ∧ c.graph = .ended ∧ c.shm = .ended := by
    intro c hc; simpa [Chan.closed] using hc
  cases a with
  | update new => simp only [step] at hs; split at hs <;> cases hs; rename_i e; simp [e] at hf
  | created => simp only [step] at hs; split at hs <;> cases hs; rename_i e; simp [e] at hf
  | eof => simp only [step] at hs; split at hs <;> cases hs; rename_i e; simp [e] at hf
  | close =>
    cases hs
    simp only [close]
    cases hss : s.sub with
    | cleaning q r =>
      have f := interrupt_flags (s.chan q)
      refine ending_set h (fun e hl => ?_) (fun e ho => ?_)
      · subst e; exact ⟨by rw [f.1]; exact hl, interrupt_closed _⟩
      · subst e; rw [f.2.2]; exact ho
    | closing =>
      rcases h with h | ⟨r, h, -⟩ | ⟨-, q, r, h, -⟩
      · exact Or.inl h
      · rw [hss] at h; cases h
      · rw [hss] at h; cases h
    | ended => exact h
    | _ => simp [hss] at hf
  | go =>
    have hsi := hi.sub
    simp only [SInv] at hsi
    simp only [step] at hs
    split at hs
    · rename_i e; simp [e] at hf
    · rename_i e; simp [e] at hf
    · rename_i q rest hss
      split at hs <;> cases hs
      rename_i hc
      rw [hss] at hsi
      have fin : ∀ (hl : (s.chan p).live = false), (s.chan p).closed = true → Ending p (cleanup rest s) := by
        intro hl hcl
        refine Or.inl (ending_closed_cleanup p rest s ?_ ⟨hl, hcl⟩)
        intro hm
        have h1 := (hsi.2.2.2 p).1 hm
        rw [(hi.chan p).mine h1] at hl; cases hl
      rcases h with ⟨g1, g2⟩ | ⟨r, g1, g2⟩ | ⟨g1, q', r, g2, g3⟩
      · exact fin g1 g2
      · rw [hss] at g1; cases g1; exact fin g2 hc
      · rw [hss] at g2; cases g2
        exact ending_cleanup p rest s hsi.1 g3 g1
    · rename_i hss
      cases hs
      rcases h with h | ⟨r, h, -⟩ | ⟨-, q, r, h, -⟩
      · exact Or.inl h
      · rw [hss] at h; cases h
      · rw [hss] at h; cases h
    · cases hs
  | grow q =>
    simp only [step] at hs; split at hs <;> cases hs
    rename_i hq
    exact ending_set h (fun e hl => ⟨by subst e; exact hl, fun hc => by subst e; rw [(cl hc).1] at hq; cases hq⟩)
      (fun e ho => by subst e; exact ho)
  | pubStep q =>
    simp only [step] at hs
    split at hs
    · rename_i hq
      split at hs <;> cases hs
      exact ending_set h (fun e hl => ⟨by subst e; exact hl, fun hc => by subst e; rw [(cl hc).1] at hq; cases hq⟩)
        (fun e ho => by subst e; exact ho)
    · rename_i hq
      cases hs
      exact ending_set h (fun e hl => ⟨by subst e; exact hl, fun hc => by subst e; rw [(cl hc).1] at hq; cases hq⟩)
        (fun e ho => by subst e; exact ho)
    · rename_i hq
      cases hs
      exact ending_set h (fun e hl => ⟨by subst e; exact hl, fun hc => by subst e; rw [(cl hc).1] at hq; cases hq⟩)
        (fun e ho => by subst e; exact ho)
    · cases hs
  | pubEof q =>
    simp only [step] at hs; split at hs <;> cases hs
    rename_i hq
    exact ending_set h (fun e hl => ⟨by subst e; exact hl, fun hc => by subst e; rw [(cl hc).1] at hq; cases hq⟩)
      (fun e ho => by subst e; exact ho)
  | graphStep q =>
    simp only [step] at hs; split at hs <;> cases hs
    rename_i hq
    exact ending_set h (fun e hl => ⟨by subst e; exact hl, fun hc => by subst e; rw [(cl hc).2.1] at hq; cases hq⟩)
      (fun e ho => by subst e; exact ho)
  | graphEof q =>
    simp only [step] at hs; split at hs <;> cases hs
    rename_i hq
    exact ending_set h (fun e hl => ⟨by subst e; exact hl, fun hc => by subst e; rw [(cl hc).2.1] at hq; cases hq⟩)
      (fun e ho => by subst e; exact ho)
  | shmStep q =>
    simp only [step] at hs; split at hs <;> cases hs
    rename_i hq
    exact ending_set h (fun e hl => ⟨by subst e; exact hl, fun hc => by subst e; rw [(cl hc).2.2] at hq; cases hq⟩)
      (fun e ho => by subst e; exact ho)
  | shmEof q =>
    simp only [step] at hs; split at hs <;> cases hs
    rename_i hq
    exact ending_set h (fun e hl => ⟨by subst e; exact hl, fun hc => by subst e; rw [(cl hc).2.2] at hq; cases hq⟩)
      (fun e ho => by subst e; exact ho)
  | join q =>
    simp only [step] at hs; split at hs <;> cases hs
    exact ending_set h (fun e _ => by subst e; exact absurd rfl ha) (fun e _ => by subst e; exact absurd rfl ha)
  | leave q =>
    simp only [step] at hs; split at hs <;> cases hs
    rename_i hq
    refine ending_set h (fun e hl => ?_) (fun e _ => ?_)
    · subst e; rw [hl] at hq; simp at hq
    · subst e
      split
      · rfl
      · exact (close_flags _).2.2.1

/-- A closed subscriber waits for the end of all tasks of the channels that it alone uses. -/
theorem C101_awaits_partial (others : P → Bool) (pre : List (Act P)) (s s' : St P) (hr : run pre (init others) = some s)
    (hw : ∀ p rms, s.sub ≠ .waiting p rms) (hst : Steady s) (hf : ¬ Finishing s)
    (a : Act P) (ha : a = .close ∨ a = .eof) (hs : step a s = some s')
    (as : List (Act P)) (hg : ∀ p, .grow p ∉ as) (t : St P) (ht : run as s' = some t)
    (p : P) (hm : (s.chan p).mine = true) (ho : (s.chan p).others = false) (hj : .join p ∉ as) :
    t.sub = .ended → (t.chan p).pub = .ended ∧ (t.chan p).graph = .ended ∧ (t.chan p).shm = .ended := by
  have hi := inv_run pre _ _ (inv_init others) hr
  have hi' := inv_step a s s' hi hs
  have hfin := fin_of_end hw hst hf ha hs
  have h0 : Ending p s' := by
    have hl : Listed s → Ending p (cleanup s.channels s) := fun hl => ending_cleanup p _ s hl.1 ((hl.2.2 p).2 hm) ho
    have hsi := hi.sub
    simp only [SInv] at hsi
    simp only [Finishing] at hf
    rcases ha with ha | ha <;> subst ha
    · cases hs
      simp only [close]
      cases hss : s.sub with
      | reading => rw [hss] at hsi; exact hl hsi
      | draining => rw [hss] at hsi; exact hl hsi
      | registering q r1 r2 => rw [hss] at hsi; exact hl hsi.1
      | waiting q r => exact absurd hss (hw q r)
      | cleaning q r => simp [hss] at hf
      | closing => simp [hss] at hf
      | ended => simp [hss] at hf
    · simp only [step] at hs
      split at hs <;> cases hs
      rename_i hss
      rw [hss] at hsi
      exact hl hsi
  have key : ∀ (as : List (Act P)) (x y : St P), Inv x → Fin x → (∀ p, .grow p ∉ as) → .join p ∉ as → Ending p x →
      run as x = some y → Ending p y := by
    intro as
    induction as with
    | nil => intro x y _ _ _ _ h hr; cases hr; exact h
    | cons b as ih =>
      intro x y hx hfx hg hj h hr
      simp only [run] at hr
      split at hr
      · cases hr
      · rename_i x' hs
        exact ih x' y (inv_step b x x' hx hs) (fin_step b x x' hx hfx (fun p e => hg p (by simp [e])) hs).1
          (fun p e => hg p (by simp [e])) (fun e => hj (by simp [e]))
          (ending_step b x x' hx hfx.fin h (fun e => hj (by simp [e])) hs) hr
  intro he
  rcases key as s' t hi' hfin hg hj h0 ht with ⟨-, h⟩ | ⟨r, h, -⟩ | ⟨-, q, r, h, -⟩
  · simpa [Chan.closed] using h
  · rw [he] at h; cases h
  · rw [he] at h; cases h

/-- While the subscriber is removing a channel, closing it only hurries the end of that channel: the request is lost. -/
theorem C101_lost (s : St P) (p : P) (rms : List P) (h : s.sub = .waiting p rms) :
    (close s).sub = .waiting p rms ∧ (close s).channels = s.channels ∧ (close s).connected = s.connected ∧
    (∀ q, q ≠ p → (close s).chan q = s.chan q) ∧ ((close s).chan p).mine = (s.chan p).mine := by
  simp only [close, h]
  refine ⟨h, rfl, rfl, fun q hq => setChan_other _ _ hq, ?_⟩
  rw [setChan_same]
  exact (interrupt_flags _).2.1

theorem live_removing (rms : List P) : ∀ s : St P, ¬ Finishing (removing rms s) := by
  induction rms with
  | nil => intro s; simp [removing, Finishing]
  | cons p rms ih =>
    intro s
    simp only [removing]
    split
    · exact ih _
    · simp [Finishing]

theorem live_adding (adds rms : List P) : ∀ s : St P, ¬ Finishing (adding adds rms s) := by
  induction adds with
  | nil => intro s; exact live_removing rms s
  | cons p adds ih =>
    intro s
    simp only [adding]
    split
    · exact ih _
    · simp [Finishing]

theorem live_step (a : Act P) (s s' : St P) (h : ¬ Finishing s) (ha : a ≠ .close) (hb : a ≠ .eof) (hs : step a s = some s') :
    ¬ Finishing s' := by
  have set : ∀ p c, ¬ Finishing (s.setChan p c) := fun _ _ => h
  cases a with
  | close => exact absurd rfl ha
  | eof => exact absurd rfl hb
  | update new => simp only [step] at hs; split at hs <;> cases hs; exact live_adding _ _ _
  | created => simp only [step] at hs; split at hs <;> cases hs; exact live_adding _ _ _
  | go =>
    simp only [Finishing] at h
    simp only [step] at hs
    split at hs
    · split at hs <;> cases hs; exact live_removing _ _
    · cases hs; simp [Finishing]
    · rename_i e; simp [e] at h
    · rename_i e; simp [e] at h
    · cases hs
  | grow p => simp only [step] at hs; split at hs <;> cases hs; exact set _ _
  | pubStep p =>
    simp only [step] at hs
    split at hs
    · split at hs <;> cases hs; exact set _ _
    · cases hs; exact set _ _
    · cases hs; exact set _ _
    · cases hs
  | pubEof p => simp only [step] at hs; split at hs <;> cases hs; exact set _ _
  | graphStep p => simp only [step] at hs; split at hs <;> cases hs; exact set _ _
  | graphEof p => simp only [step] at hs; split at hs <;> cases hs; exact set _ _
  | shmStep p => simp only [step] at hs; split at hs <;> cases hs; exact set _ _
  | shmEof p => simp only [step] at hs; split at hs <;> cases hs; exact set _ _
  | join p => simp only [step] at hs; split at hs <;> cases hs; exact set _ _
  | leave p => simp only [step] at hs; split at hs <;> cases hs; exact set _ _

theorem live_run (as : List (Act P)) : ∀ (s t : St P), ¬ Finishing s → .close ∉ as → .eof ∉ as → run as s = some t →
    ¬ Finishing t := by
  induction as with
  | nil => intro s t h _ _ hr; cases hr; exact h
  | cons a as ih =>
    intro s t h ha hb hr
    simp only [run] at hr
    split at hr
    · cases hr
    · rename_i s' hs
      exact ih s' t (live_step a s s' h (fun e => ha (by simp [e])) (fun e => hb (by simp [e])) hs) (fun e => ha (by simp [e]))
        (fun e => hb (by simp [e])) hr

/-- In general a subscriber that is closed while it removes a channel does not end, whatever happens, unless it is closed again
or the graph server goes: `wait_closed` hangs. -/
theorem C101_ignored (s : St P) (p : P) (rms : List P) (h : s.sub = .waiting p rms) (as : List (Act P)) (ha : .close ∉ as)
    (hb : .eof ∉ as) (t : St P) (ht : run as (close s) = some t) : ¬ Finishing t := by
  refine live_run as (close s) t ?_ ha hb ht
  simp [Finishing, (C101_lost s p rms h).1]

/-- The subscriber of two publishers is removing the first. -/
def dropping : List (Act Nat) := [.update [0, 1], .created, .created, .go, .update [1]]

/-- The code violates the claim: the closed subscriber removes the channel, answers the graph server, and goes on reading, still
a client of the other channel. -/
theorem C101_goes_on : ∃ s t, run dropping (init noOthers) = some s ∧ s.sub = .waiting 0 [] ∧
    run [.graphStep 0, .shmStep 0, .go, .go] (close s) = some t ∧ t.sub = .reading ∧ (t.chan 1).mine = true ∧
    t.connected = true ∧
    ∀ as u, .close ∉ as → .eof ∉ as → run as t = some u → u.sub ≠ .ended := by
  refine ⟨_, _, rfl, rfl, rfl, rfl, rfl, rfl, ?_⟩
  intro as u ha hb hr he
  have := live_run as _ u (by simp [Finishing]) ha hb hr
  simp [Finishing, he] at this

/-- The subscriber waits for a channel whose task has not noticed that it is to end. -/
structure Stuck (s : St Nat) : Prop where
  sub : s.sub = .cleaning 0 []
  live : (s.chan 0).live = false
  pub : (s.chan 0).pub = .reading ∨ (s.chan 0).pub = .switching ∨ (s.chan 0).pub = .attaching

theorem stuck_set {s : St Nat} (h : Stuck s) {p : Nat} {c : Chan}
    (hc : p = 0 → c.live = false ∧ (c.pub = .reading ∨ c.pub = .switching ∨ c.pub = .attaching)) : Stuck (s.setChan p c) := by
  by_cases e : (0 : Nat) = p
  · subst e
    exact ⟨h.sub, by simp [St.setChan, (hc rfl).1], by simpa [St.setChan] using (hc rfl).2⟩
  · exact ⟨h.sub, by simp [St.setChan, e, h.live], by simpa [St.setChan, e] using h.pub⟩

theorem stuck_step (a : Act Nat) (s s' : St Nat) (h : Stuck s) (ha : a ≠ .close) (hb : a ≠ .pubEof 0) (hs : step a s = some s') :
    Stuck s' := by
  cases a with
  | close => exact absurd rfl ha
  | eof => simp [step, h.sub] at hs
  | update new => simp [step, h.sub] at hs
  | created => simp [step, h.sub] at hs
  | go =>
    simp only [step, h.sub] at hs
    split at hs
    · rename_i hc
      simp only [Chan.closed, decide_eq_true_eq] at hc
      have := h.pub
      simp [hc.1] at this
    · cases hs
  | grow p =>
    simp only [step] at hs; split at hs <;> cases hs
    exact stuck_set h (fun e => by subst e; exact ⟨h.live, Or.inr (Or.inl rfl)⟩)
  | pubStep p =>
    simp only [step] at hs
    split at hs
    · split at hs <;> cases hs
      exact stuck_set h (fun e => by subst e; exact ⟨h.live, Or.inr (Or.inr rfl)⟩)
    · cases hs
      exact stuck_set h (fun e => by subst e; exact ⟨h.live, Or.inl rfl⟩)
    · rename_i hp
      cases hs
      refine stuck_set h (fun e => ?_)
      subst e
      have := h.pub
      simp [hp] at this
    · cases hs
  | pubEof p =>
    simp only [step] at hs; split at hs <;> cases hs
    exact stuck_set h (fun e => by subst e; exact absurd rfl hb)
  | graphStep p =>
    simp only [step] at hs; split at hs <;> cases hs
    exact stuck_set h (fun e => by subst e; exact ⟨h.live, h.pub⟩)
  | graphEof p =>
    simp only [step] at hs; split at hs <;> cases hs
    exact stuck_set h (fun e => by subst e; exact ⟨h.live, h.pub⟩)
  | shmStep p =>
    simp only [step] at hs; split at hs <;> cases hs
    exact stuck_set h (fun e => by subst e; exact ⟨h.live, h.pub⟩)
  | shmEof p =>
    simp only [step] at hs; split at hs <;> cases hs
    exact stuck_set h (fun e => by subst e; exact ⟨h.live, h.pub⟩)
  | join p =>
    simp only [step] at hs; split at hs <;> cases hs
    rename_i hc
    refine stuck_set h (fun e => ?_)
    subst e
    simp [h.live] at hc
  | leave p =>
    simp only [step] at hs; split at hs <;> cases hs
    rename_i hc
    refine stuck_set h (fun e => ?_)
    subst e
    simp [h.live] at hc

theorem stuck_run (as : List (Act Nat)) : ∀ (s t : St Nat), Stuck s → .close ∉ as → .pubEof 0 ∉ as → run as s = some t →
    Stuck t := by
  induction as with
  | nil => intro s t h _ _ hr; cases hr; exact h
  | cons a as ih =>
    intro s t h ha hb hr
    simp only [run] at hr
    split at hr
    · cases hr
    · rename_i s' hs
      exact ih s' t (stuck_step a s s' h (fun e => ha (by simp [e])) (fun e => hb (by simp [e])) hs) (fun e => ha (by simp [e]))
        (fun e => hb (by simp [e])) hr

/-- The code violates the claim: when the publisher has just moved to a larger segment, the channel misses that it was closed.
It attaches the new segment and goes on receiving for no client, and the closed subscriber waits for it until the publisher
goes, or `close` is called again. -/
theorem C101_hangs : ∃ s t, run [.update [0], .created, .go, .grow 0] (init noOthers) = some s ∧
    run [.pubStep 0, .pubStep 0, .graphStep 0] (close s) = some t ∧ t.sub = .cleaning 0 [] ∧
    (t.chan 0).pub = .reading ∧ (t.chan 0).shm = .reading ∧ (t.chan 0).live = false ∧
    ∀ as u, .close ∉ as → .pubEof 0 ∉ as → run as t = some u → u.sub = .cleaning 0 [] := by
  refine ⟨_, _, rfl, rfl, rfl, rfl, rfl, rfl, ?_⟩
  intro as u ha hb hr
  exact (stuck_run as _ u ⟨rfl, rfl, Or.inl rfl⟩ ha hb hr).sub

end Closing
end Ez
