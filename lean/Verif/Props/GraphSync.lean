import Verif.Model.GraphSync
import Verif.Lemmas.Py

/-!
# C80: synchronizing a graph

`GraphContext.sync` asks the publishers one after the other to pause and to drain.
-/

set_option linter.unusedSectionVars false
set_option linter.unusedSimpArgs false

namespace Ez
namespace GraphSync

variable {P : Type} [DecidableEq P]

/-! ## Specification -/

/-- Publishers which do not run and have nothing in flight. -/
def Quiet (cfg : Cfg P) (s : St P) : Prop := ∀ p ∈ cfg.order, s.running p = false ∧ s.inflight p = 0

/-- A broadcast finds no free buffer. -/
def Act.waits : Act P → Prop
  | .emitWait _ | .putWait _ => True
  | _ => False

/-- Steps which neither start something new nor are commands of clients. -/
def Act.works : Act P → Prop
  | .emit _ | .emitWait _ | .cmd _ => False
  | _ => True

/-- Units publish only on publishers which are asked after the ones they are subscribed to. -/
def UpstreamFirst (cfg : Cfg P) : Prop := ∀ p q, cfg.fwd p q → ∃ a b, cfg.order = a ++ p :: b ∧ q ∈ b

/-- Steps which are possible whichever buffers are free. -/
def Certain (s : St P) : Act P → Prop
  | .put i => ∃ h q qs, s.held[i]? = some h ∧ h.todo = q :: qs ∧ s.inflight q = 0
  | .take _ _ | .done _ | .recv _ | .drained _ => True
  | _ => False

/-! ## Lemmas -/

theorem upd_same {α : Type} (f : P → α) (p : P) (a : α) : upd f p a p = a := by simp [upd]

theorem upd_ne {α : Type} (f : P → α) {p q : P} (a : α) (h : q ≠ p) : upd f p a q = f q := by simp [upd, h]

theorem upd_apply {α : Type} (f : P → α) (p q : P) (a : α) : upd f p a q = if q = p then a else f q := rfl

theorem steps_append {cfg : Cfg P} {s s1 s2 : St P} {as bs : List (Act P)} (h1 : Steps cfg s as s1) (h2 : Steps cfg s1 bs s2) :
    Steps cfg s (as ++ bs) s2 := by
  induction h1 with
  | nil => exact h2
  | cons h _ ih => exact .cons h (ih h2)

/-- What the commands on the way and the server have to do with one another. -/
structure Inv (cfg : Cfg P) (s : St P) : Prop where
  nodup : cfg.order.Nodup
  dr : ∀ p, s.draining p = true → (∃ rest, s.server = some (p :: rest)) ∧ s.running p = false ∧ s.inbox p = []
  ib : ∀ p, Cmd.sync ∈ s.inbox p →
    (∃ rest, s.server = some (p :: rest)) ∧ s.draining p = false ∧ ∃ pre, s.inbox p = pre ++ [.sync] ∧ Cmd.sync ∉ pre
  sv : ∀ l, s.server = some l → ∃ pre p rest, cfg.order = pre ++ l ∧ l = p :: rest ∧ (s.draining p = true ∨ Cmd.sync ∈ s.inbox p) ∧
    ∀ q ∈ pre, s.running q = false ∧ s.inbox q = []

theorem inv_init {cfg : Cfg P} (h : cfg.order.Nodup) : Inv cfg (init : St P) :=
  ⟨h, by simp [init], by simp [init], by simp [init]⟩

/-- Asking the next publisher, all before being paused. -/
theorem inv_ask {cfg : Cfg P} {s : St P} {pre l : List P} (hn : cfg.order.Nodup) (ho : cfg.order = pre ++ l)
    (h1 : ∀ p, s.draining p = false) (h2 : ∀ p, Cmd.sync ∉ s.inbox p) (h3 : ∀ q ∈ pre, s.running q = false ∧ s.inbox q = []) :
    Inv cfg (ask s l) := by
  cases l with
  | nil => exact ⟨hn, by simp [ask, h1], by simp [ask, h2], by simp [ask]⟩
  | cons p rest =>
    have hp : p ∉ pre := by rw [ho] at hn; grind [List.nodup_append]
    refine ⟨hn, by simp [ask, h1], ?_, ?_⟩
    · intro q hq
      simp only [ask, upd_apply] at hq ⊢
      by_cases e : q = p
      · subst e
        exact ⟨⟨rest, rfl⟩, h1 _, s.inbox q, by simp, h2 _⟩
      · rw [if_neg e] at hq; exact absurd hq (h2 _)
    · intro l hl
      simp only [ask, Option.some.injEq] at hl
      subst hl
      refine ⟨pre, p, rest, ho, rfl, .inr (by simp [ask, upd]), ?_⟩
      intro q hq
      have : q ≠ p := fun e => hp (e ▸ hq)
      simp only [ask, upd_apply, if_neg this]
      exact h3 q hq

theorem inv_step {cfg : Cfg P} {s s' : St P} {a : Act P} (h : Inv cfg s) (hs : Step cfg s a s') : Inv cfg s' := by
  have hfree : s.server = none → (∀ p, s.draining p = false) ∧ (∀ p, Cmd.sync ∉ s.inbox p) := by
    intro h0
    constructor
    · intro p
      cases e : s.draining p with
      | false => rfl
      | true => obtain ⟨⟨r, hr⟩, _⟩ := h.dr p e; rw [h0] at hr; simp at hr
    · intro p e
      obtain ⟨⟨r, hr⟩, _⟩ := h.ib p e; rw [h0] at hr; simp at hr
  cases hs with
  | emit | emitWait | emitLate | take | put | putWait | done => exact ⟨h.nodup, h.dr, h.ib, h.sv⟩
  | @tell c hc h0 =>
    obtain ⟨f1, f2⟩ := hfree h0
    refine ⟨h.nodup, fun p hp => by simp [f1] at hp, ?_, ?_⟩
    · intro p hp
      simp only at hp
      split at hp
      · rcases List.mem_append.1 hp with h3 | h3
        · exact absurd h3 (f2 p)
        · exact absurd (List.mem_singleton.1 h3).symm hc
      · exact absurd hp (f2 p)
    · intro l hl; simp only [h0] at hl; simp at hl
  | sync h0 =>
    obtain ⟨f1, f2⟩ := hfree h0
    exact inv_ask (pre := []) h.nodup rfl f1 f2 (by simp)
  | @recvPause p cs hi hd =>
    refine ⟨h.nodup, ?_, ?_, ?_⟩
    · intro q hq
      have : q ≠ p := fun e => by subst e; simp only [hd] at hq; simp at hq
      simp only [upd_apply, if_neg this]
      exact h.dr q hq
    · intro q hq
      by_cases e : q = p
      · subst e
        simp only [upd_same] at hq ⊢
        obtain ⟨x, y, pre, e1, e2⟩ := h.ib q (by simp [hi, hq])
        refine ⟨x, y, ?_⟩
        rw [hi] at e1
        cases pre with
        | nil => simp at e1
        | cons c pre =>
          simp only [List.cons_append, List.cons.injEq] at e1
          exact ⟨pre, e1.2, fun hh => e2 (by simp [hh])⟩
      · simp only [upd_apply, if_neg e] at hq ⊢
        exact h.ib q hq
    · intro l hl
      obtain ⟨pre, p0, rest, e1, e2, e3, e4⟩ := h.sv l hl
      refine ⟨pre, p0, rest, e1, e2, ?_, ?_⟩
      · rcases e3 with e3 | e3
        · exact .inl e3
        · right
          by_cases e : p0 = p
          · subst e; rw [hi] at e3; simpa [upd] using e3
          · simpa [upd, e] using e3
      · intro q hq
        have := e4 q hq
        have hne : q ≠ p := fun e => by subst e; rw [hi] at this; simp at this
        simpa [upd, hne] using this
  | @recvResume p cs hi hd =>
    refine ⟨h.nodup, ?_, ?_, ?_⟩
    · intro q hq
      have : q ≠ p := fun e => by subst e; simp only [hd] at hq; simp at hq
      simp only [upd_apply, if_neg this]
      exact h.dr q hq
    · intro q hq
      by_cases e : q = p
      · subst e
        simp only [upd_same] at hq ⊢
        obtain ⟨x, y, pre, e1, e2⟩ := h.ib q (by simp [hi, hq])
        refine ⟨x, y, ?_⟩
        rw [hi] at e1
        cases pre with
        | nil => simp at e1
        | cons c pre =>
          simp only [List.cons_append, List.cons.injEq] at e1
          exact ⟨pre, e1.2, fun hh => e2 (by simp [hh])⟩
      · simp only [upd_apply, if_neg e] at hq ⊢
        exact h.ib q hq
    · intro l hl
      obtain ⟨pre, p0, rest, e1, e2, e3, e4⟩ := h.sv l hl
      refine ⟨pre, p0, rest, e1, e2, ?_, ?_⟩
      · rcases e3 with e3 | e3
        · exact .inl e3
        · right
          by_cases e : p0 = p
          · subst e; rw [hi] at e3; simpa [upd] using e3
          · simpa [upd, e] using e3
      · intro q hq
        have := e4 q hq
        have hne : q ≠ p := fun e => by subst e; rw [hi] at this; simp at this
        simpa [upd, hne] using this
  | @recvSync p cs hi hd =>
    obtain ⟨⟨rest, hsv⟩, _, pre, e1, e2⟩ := h.ib p (by simp [hi])
    have hcs : cs = [] := by
      rw [hi] at e1
      cases pre with
      | nil => simpa using e1
      | cons c pre => simp only [List.cons_append, List.cons.injEq] at e1; exact absurd (by simp [← e1.1]) e2
    subst hcs
    refine ⟨h.nodup, ?_, ?_, ?_⟩
    · intro q hq
      by_cases e : q = p
      · subst e; exact ⟨⟨rest, hsv⟩, by simp [upd], by simp [upd]⟩
      · simp only [upd_apply, if_neg e] at hq ⊢; exact h.dr q hq
    · intro q hq
      by_cases e : q = p
      · subst e; simp [upd] at hq
      · simp only [upd_apply, if_neg e] at hq ⊢; exact h.ib q hq
    · intro l hl
      obtain ⟨pre, p0, rest', e1, e2, e3, e4⟩ := h.sv l hl
      simp only [hsv, Option.some.injEq] at hl
      subst hl
      obtain ⟨rfl, rfl⟩ := List.cons.inj e2
      refine ⟨pre, p, rest, e1, rfl, .inl (by simp [upd]), ?_⟩
      intro q hq
      have := e4 q hq
      have hne : q ≠ p := fun e => by subst e; rw [hi] at this; simp at this
      simpa [upd, hne] using this
  | @drained p rest hd hq h0 =>
    obtain ⟨pre, p0, rest', e1, e2, e3, e4⟩ := h.sv _ h0
    obtain ⟨rfl, rfl⟩ := List.cons.inj e2
    obtain ⟨_, d1, d2⟩ := h.dr p hd
    refine inv_ask (pre := pre ++ [p]) h.nodup (by simp [e1]) ?_ ?_ ?_
    · intro q
      by_cases e : q = p
      · simp [upd, e]
      · simp only [upd_apply, if_neg e]
        cases e' : s.draining q with
        | false => rfl
        | true => obtain ⟨⟨r, hr⟩, _⟩ := h.dr q e'; rw [h0] at hr; simp at hr; exact absurd hr.1.symm e
    · intro q hq
      obtain ⟨⟨r, hr⟩, hq2, _⟩ := h.ib q hq
      rw [h0] at hr; simp at hr
      rw [← hr.1, hd] at hq2; simp at hq2
    · intro q hq
      rcases List.mem_append.1 hq with h5 | h5
      · exact e4 q h5
      · rw [List.mem_singleton] at h5; subst h5; exact ⟨d1, d2⟩

theorem inv_steps {cfg : Cfg P} {s s' : St P} {as : List (Act P)} (h : Inv cfg s) (hs : Steps cfg s as s') : Inv cfg s' := by
  induction hs with
  | nil => exact h
  | cons h1 _ ih => exact ih (inv_step h h1)

theorem inflight_send (cfg : Cfg P) (s : St P) (p q : P) :
    (s.send cfg p).inflight q = s.inflight q + if q = p then cfg.subs p else 0 := by
  unfold St.inflight St.send
  simp only [upd_apply]
  by_cases e : q = p
  · subst e; simp; omega
  · simp [e]

theorem inflight_take (s : St P) {p : P} {qs : List P} {n : Nat} (hf : s.flying p = n + 1) (q : P) :
    St.inflight { s with flying := upd s.flying p n, held := ⟨p, false, qs⟩ :: s.held } q = s.inflight q := by
  unfold St.inflight
  simp only [upd_apply, List.filter_cons]
  by_cases e : q = p
  · subst e; simp [hf]; omega
  · simp [e, Ne.symm e]

theorem filter_set {l : List (Unit P)} {i : Nat} {h h' : Unit P} (hi : l[i]? = some h) (hs : h'.src = h.src) (q : P) :
    ((l.set i h').filter (fun u => decide (u.src = q))).length = (l.filter (fun u => decide (u.src = q))).length := by
  induction l generalizing i with
  | nil => simp
  | cons x l ih =>
    cases i with
    | zero => simp at hi; subst hi; simp only [List.set_cons_zero, List.filter_cons, hs]; split <;> simp
    | succ i => simp at hi; simp only [List.set_cons_succ, List.filter_cons]; split <;> simp [ih hi]

theorem inflight_set (s : St P) {i : Nat} {h h' : Unit P} (hi : s.held[i]? = some h) (hs : h'.src = h.src) (q : P) :
    St.inflight { s with held := s.held.set i h' } q = s.inflight q := by
  unfold St.inflight
  simp only [filter_set hi hs]

theorem inflight_erase (s : St P) (i : Nat) (q : P) : St.inflight { s with held := s.held.eraseIdx i } q ≤ s.inflight q := by
  unfold St.inflight
  have : ((s.held.eraseIdx i).filter (fun u => decide (u.src = q))).length ≤ (s.held.filter (fun u => decide (u.src = q))).length :=
    ((List.eraseIdx_sublist ..).filter _).length_le
  simp only; omega

theorem inflight_ask (s : St P) (l : List P) (q : P) : (ask s l).inflight q = s.inflight q := by
  cases l <;> rfl

/-- Nobody waits for a buffer. -/
def NoWait (s : St P) : Prop := (∀ p, s.waiting p = 0) ∧ ∀ h ∈ s.held, h.waits = false

theorem noWait_step {cfg : Cfg P} {s s' : St P} {a : Act P} (h : NoWait s) (hs : Step cfg s a s') (hw : ¬ a.waits) : NoWait s' := by
  obtain ⟨h1, h2⟩ := h
  cases hs with
  | emitWait | putWait => exact absurd trivial hw
  | emit | tell | recvPause | recvResume | recvSync => exact ⟨h1, h2⟩
  | emitLate h => rw [h1] at h; simp at h
  | take hf hq =>
    refine ⟨h1, ?_⟩
    intro u hu
    rcases List.mem_cons.1 hu with e | e
    · rw [e]
    · exact h2 u e
  | put hi hr =>
    refine ⟨h1, ?_⟩
    intro u hu
    rcases List.mem_or_eq_of_mem_set hu with e | e
    · exact h2 u e
    · rw [e]
  | done hi => exact ⟨h1, fun u hu => h2 u (List.mem_of_mem_eraseIdx hu)⟩
  | sync | drained => constructor <;> (unfold ask; split <;> assumption)

/-- The publishers which have answered have nothing in flight. -/
def Emptied (cfg : Cfg P) (s : St P) : Prop := ∀ pre l, s.server = some l → cfg.order = pre ++ l → ∀ q ∈ pre, s.inflight q = 0

theorem emptied_step {cfg : Cfg P} {s s' : St P} {a : Act P} (hi : Inv cfg s) (hn : NoWait s) (he : Emptied cfg s)
    (hs : Step cfg s a s') (hw : ¬ a.waits) : Emptied cfg s' := by
  have key : ∀ pre l, s.server = some l → cfg.order = pre ++ l → ∀ q ∈ pre, s.running q = false := by
    intro pre l h1 h2 q hq
    obtain ⟨pre', p, rest, e1, _, _, e4⟩ := hi.sv l h1
    have : pre = pre' := List.append_cancel_right (h2.symm.trans e1)
    exact (e4 q (this ▸ hq)).1
  cases hs with
  | emitWait | putWait => exact absurd trivial hw
  | emitLate h => rw [hn.1] at h; simp at h
  | recvPause | recvResume | recvSync => exact he
  | tell hc h0 => intro pre l hl; simp only [h0] at hl; simp at hl
  | @emit p hp hr =>
    intro pre l h1 h2 q hq
    have := key pre l h1 h2 q hq
    rw [inflight_send, if_neg (fun e => by rw [e, hr] at this; simp at this)]
    exact he pre l h1 h2 q hq
  | take hf hq => intro pre l h1 h2 q hq; rw [inflight_take s hf]; exact he pre l h1 h2 q hq
  | @put i p q w qs hi' hr =>
    intro pre l h1 h2 r hq
    have := key pre l h1 h2 r hq
    have hw : w = false := hn.2 _ (List.mem_of_getElem? hi')
    have hr : s.running q = true := by simpa [hw] using hr
    rw [inflight_send, if_neg (fun e => by rw [e, hr] at this; simp at this), inflight_set s (h' := ⟨p, false, qs⟩) hi' rfl]
    exact he pre l h1 h2 r hq
  | @done i p w hi' =>
    intro pre l h1 h2 q hq
    have := he pre l h1 h2 q hq
    have := inflight_erase s i q
    omega
  | sync h0 =>
    intro pre l h1 h2 q hq
    have : l = cfg.order := by
      cases e : cfg.order with
      | nil => rw [e] at h1; simp [ask] at h1
      | cons p r => rw [e] at h1; simpa [ask] using h1.symm
    subst this
    have : pre = [] := List.append_cancel_right (h2.symm.trans (List.nil_append _).symm)
    subst this; simp at hq
  | @drained p rest hd hq h0 =>
    obtain ⟨pre', p0, rest', e1, e2, _, e4⟩ := hi.sv _ h0
    intro pre l h1 h2 q hq'
    have : l = rest := by
      cases rest with
      | nil => simp [ask] at h1
      | cons p r => simpa [ask] using h1.symm
    subst this
    have : pre = pre' ++ [p] := by
      apply List.append_cancel_right (bs := l)
      rw [← h2, e1]; simp
    subst this
    rw [inflight_ask]
    rcases List.mem_append.1 hq' with h5 | h5
    · exact he pre' _ h0 e1 q h5
    · rw [List.mem_singleton] at h5; subst h5; exact hq

/-- Which step answers. -/
theorem reply_step {cfg : Cfg P} {s s' : St P} {a : Act P} (hs : Step cfg s a s') (hr : s'.replies = s.replies + 1) :
    (cfg.order = [] ∧ s' = ask s [] ∧ a = .cmd .sync) ∨ ∃ p, a = .drained p ∧ s.server = some [p] ∧ s.draining p = true ∧ s.inflight p = 0 ∧
      s' = ask { s with draining := upd s.draining p false } [] := by
  cases hs with
  | sync h0 =>
    cases e : cfg.order with
    | nil => exact .inl ⟨rfl, rfl, rfl⟩
    | cons p r => rw [e] at hr; simp [ask] at hr
  | @drained p rest hd hq h0 =>
    cases rest with
    | nil => exact .inr ⟨p, rfl, h0, hd, hq, rfl⟩
    | cons => simp [ask] at hr
  | _ => simp [St.send] at hr

theorem replies_step {cfg : Cfg P} {s s' : St P} {a : Act P} (hs : Step cfg s a s') :
    s'.replies = s.replies ∨ s'.replies = s.replies + 1 := by
  cases hs with
  | sync h0 => cases e : cfg.order <;> simp [ask]
  | @drained p rest hd hq h0 => cases rest <;> simp [ask]
  | _ => simp [St.send]

/-- Nothing moves. -/
structure Still (cfg : Cfg P) (s : St P) : Prop where
  quiet : Quiet cfg s
  wait : NoWait s
  inbox : ∀ p ∈ cfg.order, Cmd.resume ∉ s.inbox p

theorem still_ask {cfg : Cfg P} {s : St P} (h : Still cfg s) (l : List P) : Still cfg (ask s l) := by
  obtain ⟨h1, h2, h3⟩ := h
  cases l with
  | nil => exact ⟨h1, h2, h3⟩
  | cons p r =>
    refine ⟨h1, h2, ?_⟩
    intro q hq
    have := h3 q hq
    simp only [ask, upd_apply]
    split
    · rename_i e; subst e; simp [this]
    · exact this

theorem still_step {cfg : Cfg P} {s s' : St P} {a : Act P} (h : Still cfg s) (hs : Step cfg s a s') (hw : ¬ a.waits)
    (hc : a ≠ .cmd .resume) : Still cfg s' := by
  have hn := noWait_step h.wait hs hw
  obtain ⟨h1, h2, h3⟩ := h
  cases hs with
  | emitWait | putWait => exact absurd trivial hw
  | emitLate h => rw [h2.1] at h; simp at h
  | @emit p hp hr => rw [(h1 p hp).1] at hr; simp at hr
  | take hf hq => exact ⟨fun q hq => by rw [inflight_take s hf]; exact h1 q hq, hn, h3⟩
  | @put i p q w qs hi' hr =>
    refine ⟨?_, hn, h3⟩
    have hw : w = false := h2.2 _ (List.mem_of_getElem? hi')
    have hr : s.running q = true := by simpa [hw] using hr
    intro r hr'
    refine ⟨(h1 r hr').1, ?_⟩
    rw [inflight_send, if_neg (fun e => by have := (h1 r hr').1; rw [e, hr] at this; simp at this), inflight_set s (h' := ⟨p, false, qs⟩) hi' rfl]
    exact (h1 r hr').2
  | @done i p w hi' =>
    refine ⟨fun q hq => ⟨(h1 q hq).1, ?_⟩, hn, h3⟩
    have := (h1 q hq).2
    have := inflight_erase s i q
    omega
  | @tell c hc' h0 =>
    refine ⟨h1, hn, ?_⟩
    intro p hp
    simp only [hp, if_true]
    intro e
    rcases List.mem_append.1 e with e | e
    · exact h3 p hp e
    · rw [List.mem_singleton] at e; exact hc (by rw [e])
  | sync h0 => exact still_ask ⟨h1, h2, h3⟩ _
  | @recvPause p cs hi hd =>
    refine ⟨fun q hq => ⟨?_, (h1 q hq).2⟩, hn, ?_⟩
    · simp only [upd_apply]; split
      · rfl
      · exact (h1 q hq).1
    · intro q hq
      have := h3 q hq
      simp only [upd_apply]; split
      · rename_i e; subst e; rw [hi] at this; exact fun e => this (by simp [e])
      · exact this
  | @recvResume p cs hi hd =>
    by_cases hp : p ∈ cfg.order
    · exact absurd (by simp [hi]) (h3 p hp)
    · have hne : ∀ q ∈ cfg.order, q ≠ p := fun q hq e => hp (e ▸ hq)
      refine ⟨fun q hq => ⟨?_, (h1 q hq).2⟩, hn, ?_⟩
      · simp only [upd_apply, if_neg (hne q hq)]; exact (h1 q hq).1
      · intro q hq
        simp only [upd_apply, if_neg (hne q hq)]; exact h3 q hq
  | @recvSync p cs hi hd =>
    refine ⟨fun q hq => ⟨?_, (h1 q hq).2⟩, hn, ?_⟩
    · simp only [upd_apply]; split
      · rfl
      · exact (h1 q hq).1
    · intro q hq
      have := h3 q hq
      simp only [upd_apply]; split
      · rename_i e; subst e; rw [hi] at this; exact fun e => this (by simp [e])
      · exact this
  | @drained p rest hd hq h0 => exact still_ask (s := { s with draining := upd s.draining p false }) ⟨h1, h2, h3⟩ _

theorem all_steps {cfg : Cfg P} {s s' : St P} {as : List (Act P)} (hi : Inv cfg s) (hn : NoWait s) (he : Emptied cfg s)
    (hs : Steps cfg s as s') (hw : ∀ a ∈ as, ¬ a.waits) : Inv cfg s' ∧ NoWait s' ∧ Emptied cfg s' := by
  induction hs with
  | nil => exact ⟨hi, hn, he⟩
  | cons h1 _ ih =>
    have hwa := hw _ List.mem_cons_self
    exact ih (inv_step hi h1) (noWait_step hn h1 hwa) (emptied_step hi hn he h1 hwa) (fun a ha => hw a (by simp [ha]))

/-- The publishers which have answered are among those which have been drained. -/
def Answered (cfg : Cfg P) (s : St P) (as : List (Act P)) : Prop :=
  ∀ pre l, s.server = some l → cfg.order = pre ++ l → ∀ q ∈ pre, .drained q ∈ as

theorem answered_step {cfg : Cfg P} {s s' : St P} {a : Act P} {as : List (Act P)} (hi : Inv cfg s) (h : Answered cfg s as)
    (hs : Step cfg s a s') (ha : a ≠ .cmd .sync) : Answered cfg s' (as ++ [a]) := by
  have keep : s'.server = s.server → Answered cfg s' (as ++ [a]) := by
    intro e pre l h1 h2 q hq
    exact List.mem_append.2 (.inl (h pre l (e ▸ h1) h2 q hq))
  cases hs with
  | sync => exact absurd rfl ha
  | @drained p rest hd hq h0 =>
    obtain ⟨pre', p0, rest', e1, e2, _, e4⟩ := hi.sv _ h0
    intro pre l h1 h2 q hq'
    have : l = rest := by
      cases rest with
      | nil => simp [ask] at h1
      | cons p r => simpa [ask] using h1.symm
    subst this
    have : pre = pre' ++ [p] := by
      apply List.append_cancel_right (bs := l)
      rw [← h2, e1]; simp
    subst this
    rcases List.mem_append.1 hq' with h5 | h5
    · exact List.mem_append.2 (.inl (h pre' _ h0 e1 q h5))
    · rw [List.mem_singleton] at h5; subst h5; simp
  | _ => exact keep rfl

theorem answered_steps {cfg : Cfg P} {s s' : St P} {as bs : List (Act P)} (hi : Inv cfg s) (h : Answered cfg s as)
    (hs : Steps cfg s bs s') (ha : .cmd .sync ∉ bs) : Answered cfg s' (as ++ bs) := by
  induction hs generalizing as with
  | nil => simpa using h
  | @cons s s1 s' b bs h1 _ ih =>
    simp only [List.mem_cons, not_or] at ha
    have := ih (inv_step hi h1) (answered_step hi h h1 (Ne.symm ha.1)) ha.2
    simpa using this

theorem steps_split {cfg : Cfg P} {s s2 : St P} {as bs : List (Act P)} (h : Steps cfg s (as ++ bs) s2) :
    ∃ s1, Steps cfg s as s1 ∧ Steps cfg s1 bs s2 := by
  induction as generalizing s with
  | nil => exact ⟨s, .nil s, h⟩
  | cons a as ih =>
    cases h with
    | cons h1 t => obtain ⟨s1, t1, t2⟩ := ih t; exact ⟨s1, .cons h1 t1, t2⟩

/-! ## What an answer of `sync` says -/

/-- When `sync` is answered, all publishers are paused, and each has been drained since the server took up the command. -/
theorem C80_paused {cfg : Cfg P} {s s' : St P} {bs as : List (Act P)} {a : Act P} (hn : cfg.order.Nodup)
    (h : Steps cfg init (bs ++ .cmd .sync :: as) s) (hc : .cmd .sync ∉ as) (hs : Step cfg s a s') (hr : s'.replies = s.replies + 1)
    (ha : a ≠ .cmd .sync) :
    ∀ p ∈ cfg.order, s'.running p = false ∧ .drained p ∈ as ++ [a] := by
  obtain ⟨s0, t1, t2⟩ := steps_split h
  cases t2 with
  | @cons _ s1 _ _ _ t3 t4 =>
    have i0 := inv_steps (inv_init hn) t1
    have i1 := inv_step i0 t3
    have a1 : Answered cfg s1 [] := by
      intro pre l h1 h2
      cases t3 with
      | tell hc => exact absurd rfl hc
      | sync h0 =>
        have : l = cfg.order := by
          cases e : cfg.order with
          | nil => rw [e] at h1; simp [ask] at h1
          | cons p r => rw [e] at h1; simpa [ask] using h1.symm
        subst this
        have : pre = [] := List.append_cancel_right (h2.symm.trans (List.nil_append _).symm)
        simp [this]
    have i2 := inv_steps i1 t4
    have a2 := answered_steps i1 a1 t4 hc
    rw [List.nil_append] at a2
    rcases reply_step hs hr with ⟨_, _, e⟩ | ⟨p, rfl, h1, hd, hq, rfl⟩
    · exact absurd e ha
    · obtain ⟨pre, p0, rest, e1, e2, e3, e4⟩ := i2.sv _ h1
      obtain ⟨rfl, rfl⟩ := List.cons.inj e2
      obtain ⟨_, d1, d2⟩ := i2.dr p hd
      intro q hq'
      rw [e1] at hq'
      rcases List.mem_append.1 hq' with h5 | h5
      · exact ⟨(e4 q h5).1, List.mem_append.2 (.inl (a2 pre _ h1 e1 q h5))⟩
      · rw [List.mem_singleton] at h5; subst h5; exact ⟨d1, by simp⟩

/-- `sync`, `_partial`: if no broadcast had to wait for a buffer, then when `sync` is answered nothing is in flight in the graph, and
nothing will be before somebody calls `resume`. -/
theorem C80_quiet_partial {cfg : Cfg P} {s s' s2 : St P} {as bs : List (Act P)} {a : Act P} (hn : cfg.order.Nodup)
    (h : Steps cfg init as s) (hw : ∀ x ∈ as, ¬ x.waits) (hs : Step cfg s a s') (hr : s'.replies = s.replies + 1)
    (h2 : Steps cfg s' bs s2) (hw2 : ∀ x ∈ bs, ¬ x.waits) (hc : .cmd .resume ∉ bs) : Quiet cfg s2 := by
  obtain ⟨i1, i2, i3⟩ := all_steps (inv_init hn) ⟨by simp [init], by simp [init]⟩ (fun _ _ hl => by simp [init] at hl) h hw
  have still : Still cfg s' := by
    rcases reply_step hs hr with ⟨e, rfl, _⟩ | ⟨p, rfl, h1, hd, hq, rfl⟩
    · exact ⟨by intro p hp; rw [e] at hp; simp at hp, i2, by intro p hp; rw [e] at hp; simp at hp⟩
    · obtain ⟨pre, p0, rest, e1, e2, e3, e4⟩ := i1.sv _ h1
      obtain ⟨rfl, rfl⟩ := List.cons.inj e2
      obtain ⟨_, d1, d2⟩ := i1.dr p hd
      refine ⟨?_, i2, ?_⟩
      · intro q hq'
        rw [e1] at hq'
        rw [inflight_ask]
        rcases List.mem_append.1 hq' with h5 | h5
        · exact ⟨(e4 q h5).1, i3 pre _ h1 e1 q h5⟩
        · rw [List.mem_singleton] at h5; subst h5; exact ⟨d1, hq⟩
      · intro q hq'
        rw [e1] at hq'
        simp only [ask]
        rcases List.mem_append.1 hq' with h5 | h5
        · simp [(e4 q h5).2]
        · rw [List.mem_singleton] at h5; subst h5; simp [d2]
  have : ∀ {s' s2 : St P} {bs : List (Act P)}, Still cfg s' → Steps cfg s' bs s2 → (∀ x ∈ bs, ¬ x.waits) → .cmd .resume ∉ bs → Still cfg s2 := by
    intro s' s2 bs st h2 hw2 hc
    induction h2 with
    | nil => exact st
    | cons h1 _ ih =>
      simp only [List.mem_cons, not_or] at hc
      exact ih (still_step st h1 (hw2 _ (by simp)) (Ne.symm hc.1)) (fun x hx => hw2 x (by simp [hx])) hc.2
  exact (this still h2 hw2 hc).quiet

/-! ## Whether `sync` is answered -/

/-- Lists of the same length, compared at the first place where they differ. -/
inductive Lx : List Nat → List Nat → Prop where
  | head {a b : Nat} {l m : List Nat} (h : a < b) (hl : l.length = m.length) : Lx (a :: l) (b :: m)
  | tail {a : Nat} {l m : List Nat} (h : Lx l m) : Lx (a :: l) (a :: m)

theorem lx_length {l m : List Nat} (h : Lx l m) : l.length = m.length := by
  induction h with
  | head _ h => simp [h]
  | tail _ h => simp [h]

theorem lx_wf : WellFounded Lx := by
  have : ∀ n, ∀ l : List Nat, l.length = n → Acc Lx l := by
    intro n
    induction n with
    | zero =>
      intro l hl
      have : l = [] := List.length_eq_zero_iff.1 hl
      subst this
      exact ⟨_, fun y hy => nomatch hy⟩
    | succ n ih =>
      have : ∀ b : Nat, ∀ m : List Nat, m.length = n → Acc Lx (b :: m) := by
        intro b
        induction b using Nat.strongRecOn with
        | ind b ihb =>
          intro m hm
          have := ih m hm
          induction this with
          | intro m _ ihm =>
            refine ⟨_, fun y hy => ?_⟩
            cases hy with
            | head h hl => exact ihb _ h _ (hl.trans hm)
            | tail h => exact ihm _ h ((lx_length h).trans hm)
      intro l hl
      cases l with
      | nil => simp at hl
      | cons b m => exact this b m (by simpa using hl)
  exact ⟨fun l => this _ l rfl⟩

theorem lx_append {k l m : List Nat} (h : Lx l m) : Lx (k ++ l) (k ++ m) := by
  induction k with
  | nil => exact h
  | cons a k ih => exact .tail ih

theorem lx_append_right {l m x y : List Nat} (h : Lx l m) (hl : x.length = y.length) : Lx (l ++ x) (m ++ y) := by
  induction h with
  | head h hl' => exact .head h (by simp [hl', hl])
  | tail _ ih => exact .tail ih

/-- What a unit still has to do. -/
def Unit.work (u : Unit P) : Nat := 2 * u.todo.length + 1 + if u.waits then 0 else 1

/-- What the units which handle messages of `p` still have to do. -/
def load (held : List (Unit P)) (p : P) : Nat := ((held.filter (fun u => decide (u.src = p))).map Unit.work).sum

/-- What has to happen with the messages of `p`. -/
def St.part (s : St P) (p : P) : List Nat := [s.waiting p, s.flying p, load s.held p]

/-- What still has to happen, the first being the most important. -/
def St.rank (cfg : Cfg P) (s : St P) : List Nat :=
  (s.server.getD []).length :: (cfg.order.flatMap s.part ++ [(cfg.order.map (fun p => (s.inbox p).length)).sum])

/-- Only registered publishers have messages or commands, and units publish where they may. -/
structure Inside (cfg : Cfg P) (s : St P) : Prop where
  fly : ∀ p, 0 < s.flying p → p ∈ cfg.order
  wait : ∀ p, 0 < s.waiting p → p ∈ cfg.order
  inbox : ∀ p, s.inbox p ≠ [] → p ∈ cfg.order
  src : ∀ u ∈ s.held, u.src ∈ cfg.order
  todo : ∀ u ∈ s.held, ∀ q ∈ u.todo, cfg.fwd u.src q

theorem fwd_mem {cfg : Cfg P} (ht : UpstreamFirst cfg) {p q : P} (h : cfg.fwd p q) : q ∈ cfg.order := by
  obtain ⟨a, b, e, hq⟩ := ht p q h
  rw [e]; simp [hq]

theorem inside_init (cfg : Cfg P) : Inside cfg (init : St P) := ⟨by simp [init], by simp [init], by simp [init], by simp [init], by simp [init]⟩

theorem inside_ask {cfg : Cfg P} {s : St P} {l : List P} (h : Inside cfg s) (hl : ∀ p ∈ l, p ∈ cfg.order) : Inside cfg (ask s l) := by
  obtain ⟨h1, h2, h3, h4, h5⟩ := h
  cases l with
  | nil => exact ⟨h1, h2, h3, h4, h5⟩
  | cons p r =>
    refine ⟨h1, h2, ?_, h4, h5⟩
    intro q hq
    simp only [ask, upd_apply] at hq
    split at hq
    · rename_i e; exact hl q (by simp [e])
    · exact h3 q hq

theorem inside_send {cfg : Cfg P} {s : St P} {p : P} (h : Inside cfg s) (hp : p ∈ cfg.order) : Inside cfg (s.send cfg p) := by
  obtain ⟨h1, h2, h3, h4, h5⟩ := h
  refine ⟨?_, h2, h3, h4, h5⟩
  intro q hq
  simp only [St.send, upd_apply] at hq
  split at hq
  · rename_i e; exact e ▸ hp
  · exact h1 q hq

theorem inside_step {cfg : Cfg P} {s s' : St P} {a : Act P} (ht : UpstreamFirst cfg) (hi : Inv cfg s) (h : Inside cfg s)
    (hs : Step cfg s a s') : Inside cfg s' := by
  have h0 := h
  obtain ⟨h1, h2, h3, h4, h5⟩ := h
  cases hs with
  | emit hp hr => exact inside_send h0 hp
  | @emitWait p hp hr hf =>
    refine ⟨h1, ?_, h3, h4, h5⟩
    intro q hq
    simp only [upd_apply] at hq
    split at hq
    · rename_i e; exact e ▸ hp
    · exact h2 q hq
  | @emitLate p n hw =>
    have hp := h2 p (by omega)
    refine inside_send ⟨h1, ?_, h3, h4, h5⟩ hp
    intro q hq
    simp only [upd_apply] at hq
    split at hq
    · rename_i e; exact e ▸ hp
    · exact h2 q hq
  | @take p qs n hf hq =>
    have hp := h1 p (by omega)
    refine ⟨?_, h2, h3, ?_, ?_⟩
    · intro q hq
      simp only [upd_apply] at hq
      split at hq
      · rename_i e; exact e ▸ hp
      · exact h1 q hq
    · intro u hu
      rcases List.mem_cons.1 hu with e | e
      · rw [e]; exact hp
      · exact h4 u e
    · intro u hu
      rcases List.mem_cons.1 hu with e | e
      · rw [e]; exact hq
      · exact h5 u e
  | @put i p q w qs hi' hr =>
    have hm := List.mem_of_getElem? hi'
    refine inside_send ⟨h1, h2, h3, ?_, ?_⟩ (fwd_mem ht (h5 _ hm q (by simp)))
    · intro u hu
      rcases List.mem_or_eq_of_mem_set hu with e | e
      · exact h4 u e
      · rw [e]; exact (h4 _ hm :)
    · intro u hu
      rcases List.mem_or_eq_of_mem_set hu with e | e
      · exact h5 u e
      · rw [e]; exact fun r hr => h5 _ hm r (by simp [hr])
  | @putWait i p q qs hi' hr hf =>
    have hm := List.mem_of_getElem? hi'
    refine ⟨h1, h2, h3, ?_, ?_⟩
    · intro u hu
      rcases List.mem_or_eq_of_mem_set hu with e | e
      · exact h4 u e
      · rw [e]; exact (h4 _ hm :)
    · intro u hu
      rcases List.mem_or_eq_of_mem_set hu with e | e
      · exact h5 u e
      · rw [e]; exact (h5 _ hm :)
  | done hi' => exact ⟨h1, h2, h3, fun u hu => h4 u (List.mem_of_mem_eraseIdx hu), fun u hu => h5 u (List.mem_of_mem_eraseIdx hu)⟩
  | tell hc h0 =>
    refine ⟨h1, h2, ?_, h4, h5⟩
    intro p hp
    simp only at hp
    split at hp
    · assumption
    · exact h3 p hp
  | sync => exact inside_ask ⟨h1, h2, h3, h4, h5⟩ (fun p hp => hp)
  | recvPause hi' hd | recvResume hi' hd | recvSync hi' hd =>
    refine ⟨h1, h2, ?_, h4, h5⟩
    intro q hq
    simp only [upd_apply] at hq
    split at hq
    · rename_i e; exact e ▸ h3 _ (by simp [hi'])
    · exact h3 q hq
  | @drained p rest hd hq h0 =>
    obtain ⟨pre', p0, rest', e1, e2, _, e4⟩ := hi.sv _ h0
    exact inside_ask (s := { s with draining := upd s.draining p false }) ⟨h1, h2, h3, h4, h5⟩ (fun q hq => by rw [e1]; simp [hq])

theorem lx_parts {f g : P → List Nat} {o a b : List P} {p : P} (ho : o = a ++ p :: b) (ha : ∀ q ∈ a, f q = g q) (hp : Lx (f p) (g p))
    (hb : ∀ q, (f q).length = (g q).length) {x y : Nat} : Lx (o.flatMap f ++ [x]) (o.flatMap g ++ [y]) := by
  subst ho
  refine lx_append_right ?_ rfl
  rw [List.flatMap_append, List.flatMap_append]
  have e : a.flatMap f = a.flatMap g := by
    clear hp
    induction a with
    | nil => rfl
    | cons c a ih => simp only [List.flatMap_cons]; rw [ha c (by simp), ih (fun q hq => ha q (by simp [hq]))]
  rw [e]
  refine lx_append ?_
  rw [List.flatMap_cons, List.flatMap_cons]
  refine lx_append_right hp ?_
  rw [List.length_flatMap, List.length_flatMap]
  simp [hb]

theorem load_cons (u : Unit P) (l : List (Unit P)) (p : P) : load (u :: l) p = (if u.src = p then u.work else 0) + load l p := by
  unfold load
  rw [List.filter_cons]
  by_cases e : u.src = p <;> simp [e]

theorem load_set {l : List (Unit P)} {i : Nat} {h h' : Unit P} (hi : l[i]? = some h) (hs : h'.src = h.src) (q : P) :
    load (l.set i h') q + (if h.src = q then h.work else 0) = load l q + if h.src = q then h'.work else 0 := by
  induction l generalizing i with
  | nil => simp at hi
  | cons x l ih =>
    cases i with
    | zero => simp at hi; subst hi; simp only [List.set_cons_zero, load_cons, hs]; omega
    | succ i => simp at hi; simp only [List.set_cons_succ, load_cons]; have := ih hi; omega

theorem load_erase {l : List (Unit P)} {i : Nat} {h : Unit P} (hi : l[i]? = some h) (q : P) :
    load (l.eraseIdx i) q + (if h.src = q then h.work else 0) = load l q := by
  induction l generalizing i with
  | nil => simp at hi
  | cons x l ih =>
    cases i with
    | zero => simp at hi; subst hi; simp only [List.eraseIdx_cons_zero, load_cons]; omega
    | succ i => simp at hi; simp only [List.eraseIdx_cons_succ, load_cons]; have := ih hi; omega

theorem sum_lt {f g : P → Nat} {o : List P} {p : P} (hp : p ∈ o) (h : f p < g p) (hq : ∀ q, f q ≤ g q) : (o.map f).sum < (o.map g).sum := by
  have le : ∀ o : List P, (o.map f).sum ≤ (o.map g).sum := by
    intro o
    induction o with
    | nil => simp
    | cons c o ih => simp only [List.map_cons, List.sum_cons]; have := hq c; omega
  induction o with
  | nil => simp at hp
  | cons c o ih =>
    simp only [List.map_cons, List.sum_cons]
    rcases List.mem_cons.1 hp with e | e
    · subst e; have := le o; omega
    · have := ih e; have := hq c; omega

/-- Working steps lower the rank. -/
theorem rank_step {cfg : Cfg P} {s s' : St P} {a : Act P} (ht : UpstreamFirst cfg) (hi : Inv cfg s) (h : Inside cfg s)
    (hs : Step cfg s a s') (ha : a.works) : Lx (s'.rank cfg) (s.rank cfg) := by
  have at_p : ∀ {p : P}, p ∈ cfg.order → s'.server = s.server → (∀ a b, cfg.order = a ++ p :: b → ∀ q ∈ a, s'.part q = s.part q) →
      Lx (s'.part p) (s.part p) → Lx (s'.rank cfg) (s.rank cfg) := by
    intro p hp e1 e2 e3
    obtain ⟨a, b, e⟩ := List.append_of_mem hp
    unfold St.rank
    rw [e1]
    exact .tail (lx_parts e (e2 a b e) e3 (fun q => by simp [St.part]))
  have before : ∀ {p : P} {a b : List P}, cfg.order = a ++ p :: b → ∀ q ∈ a, q ≠ p := by
    intro p a b e q hq e'
    have := hi.nodup
    rw [e] at this
    subst e'
    grind [List.nodup_append]
  have at_inbox : ∀ {p : P} {c : Cmd} {cs : List Cmd}, s.inbox p = c :: cs → s'.server = s.server → s'.part = s.part → s'.inbox = upd s.inbox p cs →
      Lx (s'.rank cfg) (s.rank cfg) := by
    intro p c cs e1 e2 e3 e4
    unfold St.rank
    rw [e2, e3, e4]
    refine .tail (lx_append (.head ?_ rfl))
    refine sum_lt (h.inbox p (by simp [e1])) (by simp [upd, e1]) ?_
    intro q
    simp only [upd_apply]
    split
    · rename_i e; subst e; simp [e1]
    · exact Nat.le_refl _
  cases hs with
  | emit | emitWait | tell | sync => exact absurd ha id
  | @emitLate p n hw =>
    refine at_p (h.wait p (by omega)) rfl ?_ ?_
    · intro a b e q hq
      have := before e q hq
      simp [St.part, St.send, upd, this]
    · simp only [St.part, St.send, upd_same]
      exact .head (by omega) rfl
  | @take p qs n hf hq =>
    refine at_p (h.fly p (by omega)) rfl ?_ ?_
    · intro a b e q hq
      have := before e q hq
      simp [St.part, upd, this, load_cons, Ne.symm this]
    · simp only [St.part, upd_same]
      exact .tail (.head (by omega) rfl)
  | @put i p q w qs hi' hr =>
    have hm := List.mem_of_getElem? hi'
    obtain ⟨a', b', e', hqb⟩ := ht p q (h.todo _ hm q (by simp))
    refine at_p (p := p) (h.src _ hm) rfl ?_ ?_
    · intro a b e r hr
      have h1 := before e r hr
      have h2 : r ≠ q := by
        intro e2
        subst e2
        have hn := hi.nodup
        obtain ⟨x, y, exy⟩ := List.append_of_mem hqb
        have : a = a' := by
          have : ∀ (a a' b b' : List P), a ++ p :: b = a' ++ p :: b' → (a ++ p :: b).Nodup → a = a' := by
            intro a
            induction a with
            | nil =>
              intro a' b b' e hn
              cases a' with
              | nil => rfl
              | cons c a' => simp at e; obtain ⟨rfl, e⟩ := e; rw [e] at hn; simp at hn
            | cons c a ih =>
              intro a' b b' e hn
              cases a' with
              | nil => simp at e; obtain ⟨rfl, e⟩ := e; simp at hn
              | cons c' a' => simp at e; obtain ⟨rfl, e⟩ := e; rw [ih a' b b' e (by simpa using (List.nodup_cons.1 hn).2)]
          exact this a a' b b' (e.symm.trans e') (e ▸ hn)
        subst this
        rw [e'] at hn
        grind [List.nodup_append]
      have := load_set (h' := ⟨p, false, qs⟩) hi' rfl r
      rw [if_neg (Ne.symm h1), if_neg (Ne.symm h1)] at this
      simp only [St.part, St.send, upd_ne _ _ h2]
      simpa using this
    · have hpq : p ≠ q := by
        intro e; subst e
        have := hi.nodup
        rw [e'] at this
        grind [List.nodup_append]
      have := load_set (h' := ⟨p, false, qs⟩) hi' rfl p
      simp only [St.part, St.send, upd_ne _ _ hpq]
      refine .tail (.tail (.head ?_ rfl))
      simp [Unit.work] at this
      split at this <;> omega
  | @putWait i p q qs hi' hr hf =>
    have hm := List.mem_of_getElem? hi'
    refine at_p (p := p) (h.src _ hm) rfl ?_ ?_
    · intro a b e r hr
      have h1 := before e r hr
      have := load_set (h' := ⟨p, true, q :: qs⟩) hi' rfl r
      rw [if_neg (Ne.symm h1), if_neg (Ne.symm h1)] at this
      simp only [St.part]
      simpa using this
    · have := load_set (h' := ⟨p, true, q :: qs⟩) hi' rfl p
      simp only [St.part]
      refine .tail (.tail (.head ?_ rfl))
      simp [Unit.work] at this
      omega
  | @done i p w hi' =>
    have hm := List.mem_of_getElem? hi'
    refine at_p (p := p) (h.src _ hm) rfl ?_ ?_
    · intro a b e r hr
      have h1 := before e r hr
      have := load_erase hi' r
      rw [if_neg (Ne.symm h1)] at this
      simp only [St.part]
      simpa using this
    · have := load_erase hi' p
      simp only [St.part]
      refine .tail (.tail (.head ?_ rfl))
      simp [Unit.work] at this
      omega
  | recvPause hi' hd | recvResume hi' hd | recvSync hi' hd => exact at_inbox hi' rfl rfl rfl
  | @drained p rest hd hq h0 =>
    unfold St.rank
    refine .head ?_ ?_
    · rw [h0]; cases rest <;> simp [ask]
    · simp [List.length_flatMap, St.part]

/-- The publishers which have not been asked run and have no commands to read. -/
def Ready (s : St P) : Prop :=
  ∀ l, s.server = some l → ∃ p rest, l = p :: rest ∧ (s.draining p = true ∨ s.inbox p = [.sync]) ∧
    ∀ q ∈ rest, s.running q = true ∧ s.inbox q = []

theorem ready_ask {s : St P} {l : List P} (h : ∀ q ∈ l, s.running q = true ∧ s.inbox q = []) (hn : l.Nodup) : Ready (ask s l) := by
  intro m hm
  cases l with
  | nil => simp [ask] at hm
  | cons p rest =>
    simp only [ask, Option.some.injEq] at hm
    subst hm
    refine ⟨p, rest, rfl, .inr (by simp [ask, upd, (h p (by simp)).2]), ?_⟩
    intro q hq
    have hne : q ≠ p := fun e => by subst e; exact (List.nodup_cons.1 hn).1 hq
    simpa [ask, upd, hne] using h q (by simp [hq])

theorem ready_step {cfg : Cfg P} {s s' : St P} {a : Act P} (hi : Inv cfg s) (h : Ready s) (hs : Step cfg s a s')
    (ha : ∀ c, a ≠ .cmd c) : Ready s' := by
  have hrest : ∀ p rest, s.server = some (p :: rest) → (p :: rest).Nodup := by
    intro p rest h0
    obtain ⟨pre, _, _, e1, _⟩ := hi.sv _ h0
    have := hi.nodup
    rw [e1] at this
    exact (List.nodup_append.1 this).2.1
  cases hs with
  | tell | sync => exact absurd rfl (ha _)
  | emit | emitWait | emitLate | take | put | putWait | done => exact h
  | @recvPause p cs hi' hd =>
    intro l hl
    obtain ⟨p0, rest, e, h1, h2⟩ := h l hl
    refine ⟨p0, rest, e, ?_, ?_⟩
    · rcases h1 with h1 | h1
      · exact .inl h1
      · by_cases ep : p0 = p
        · subst ep; rw [hi'] at h1; simp at h1
        · exact .inr (by simpa [upd, ep] using h1)
    · intro q hq
      have := h2 q hq
      have hne : q ≠ p := fun e => by subst e; rw [hi'] at this; simp at this
      simpa [upd, hne] using this
  | @recvResume p cs hi' hd =>
    intro l hl
    obtain ⟨p0, rest, e, h1, h2⟩ := h l hl
    refine ⟨p0, rest, e, ?_, ?_⟩
    · rcases h1 with h1 | h1
      · exact .inl h1
      · by_cases ep : p0 = p
        · subst ep; rw [hi'] at h1; simp at h1
        · exact .inr (by simpa [upd, ep] using h1)
    · intro q hq
      have := h2 q hq
      have hne : q ≠ p := fun e => by subst e; rw [hi'] at this; simp at this
      simpa [upd, hne] using this
  | @recvSync p cs hi' hd =>
    intro l hl
    obtain ⟨p0, rest, e, h1, h2⟩ := h l hl
    refine ⟨p0, rest, e, ?_, ?_⟩
    · by_cases ep : p0 = p
      · exact .inl (by simp [upd, ep])
      · rcases h1 with h1 | h1
        · exact .inl (by simpa [upd, ep] using h1)
        · exact .inr (by simpa [upd, ep] using h1)
    · intro q hq
      have := h2 q hq
      have hne : q ≠ p := fun e => by subst e; rw [hi'] at this; simp at this
      simpa [upd, hne] using this
  | @drained p rest hd hq h0 =>
    obtain ⟨p0, rest', e, h1, h2⟩ := h _ h0
    obtain ⟨rfl, rfl⟩ := List.cons.inj e
    exact ready_ask (s := { s with draining := upd s.draining p false }) h2 (List.nodup_cons.1 (hrest _ _ h0)).2

/-- The last element of a list with a property. -/
theorem last_with (f : P → Nat) : ∀ l : List P, (∀ p ∈ l, f p = 0) ∨ ∃ a p b, l = a ++ p :: b ∧ 0 < f p ∧ ∀ q ∈ b, f q = 0
  | [] => .inl (by simp)
  | p :: l => by
    rcases last_with f l with h | ⟨a, q, b, e, h1, h2⟩
    · by_cases hp : f p = 0
      · exact .inl (by simpa [hp] using h)
      · exact .inr ⟨[], p, l, rfl, by omega, h⟩
    · exact .inr ⟨p :: a, q, b, by simp [e], h1, h2⟩

/-- Something can be done while `sync` is not answered. -/
theorem progress {cfg : Cfg P} {s : St P} (ht : UpstreamFirst cfg) (hi : Inv cfg s) (h : Inside cfg s) (hr : Ready s)
    (hs : s.server ≠ none) : ∃ a s', Step cfg s a s' ∧ a.works ∧ Certain s a := by
  obtain ⟨l, hl⟩ := Option.ne_none_iff_exists'.1 hs
  obtain ⟨p, rest, rfl, h1, h2⟩ := hr l hl
  by_cases hd : s.draining p = true
  · rcases last_with s.inflight (p :: rest) with h0 | ⟨a, q, b, e, hq, hb⟩
    · exact ⟨_, _, .drained hd (h0 p (by simp)) hl, trivial, trivial⟩
    · by_cases hf : s.flying q = 0
      · have : ∃ u ∈ s.held, u.src = q := by
          unfold St.inflight at hq
          rw [hf, Nat.zero_add] at hq
          obtain ⟨u, hu⟩ := List.exists_mem_of_length_pos hq
          simp at hu
          exact ⟨u, hu.1, hu.2⟩
        obtain ⟨u, hu, hsrc⟩ := this
        obtain ⟨i, hi'⟩ := List.getElem?_of_mem hu
        obtain ⟨src, w, todo⟩ := u
        simp only at hsrc
        subst hsrc
        cases todo with
        | nil => exact ⟨_, _, .done hi', trivial, trivial⟩
        | cons r rs =>
          obtain ⟨pre, _, _, e1, _⟩ := hi.sv _ hl
          obtain ⟨a', b', e', hrb⟩ := ht src r (h.todo _ hu r (by simp))
          have hn := hi.nodup
          have e2 : cfg.order = (pre ++ a) ++ src :: b := by rw [e1, e]; simp
          have hb' : b' = b := by
            have : ∀ (a a' b b' : List P), a ++ src :: b = a' ++ src :: b' → (a ++ src :: b).Nodup → b = b' := by
              intro a
              induction a with
              | nil =>
                intro a' b b' e hn
                cases a' with
                | nil => simpa using e
                | cons c a' => simp at e; obtain ⟨rfl, e⟩ := e; rw [e] at hn; simp at hn
              | cons c a ih =>
                intro a' b b' e hn
                cases a' with
                | nil => simp at e; obtain ⟨rfl, e⟩ := e; simp at hn
                | cons c' a' => simp at e; obtain ⟨rfl, e⟩ := e; exact ih a' b b' e (by simpa using (List.nodup_cons.1 hn).2)
            exact this _ _ _ _ (e'.symm.trans e2) (e' ▸ hn)
          subst hb'
          have hrr : r ∈ rest := by
            cases a with
            | nil => simp at e; rw [e.2]; exact hrb
            | cons c a => simp at e; rw [e.2]; simp [hrb]
          exact ⟨_, _, .put hi' (.inl (h2 r hrr).1), trivial, _, r, rs, hi', rfl, hb r hrb⟩
      · obtain ⟨n, hn⟩ := Nat.exists_eq_succ_of_ne_zero hf
        exact ⟨_, _, .take (qs := []) hn (by simp), trivial, trivial⟩
  · have hd : s.draining p = false := by simpa using hd
    rcases h1 with h1 | h1
    · rw [hd] at h1; simp at h1
    · exact ⟨_, _, .recvSync h1 hd, trivial, trivial⟩

theorem live_steps {cfg : Cfg P} {s s' : St P} {as : List (Act P)} (ht : UpstreamFirst cfg) (hi : Inv cfg s) (h : Inside cfg s)
    (hs : Steps cfg s as s') : Inv cfg s' ∧ Inside cfg s' := by
  induction hs with
  | nil => exact ⟨hi, h⟩
  | cons h1 _ ih => exact ih (inv_step hi h1) (inside_step ht hi h h1)

/-- `sync` is not held up, `_partial`: if all publishers run when the server takes up the command, and units publish only on publishers
which are asked after the ones they are subscribed to, then until the answer there always is something which can happen whichever buffers
are free, other than tasks publishing something new.  (Missing: other orders, and publishers which are paused; see `C80_deadlock` and
`C80_paused_deadlock`.) -/
theorem C80_progress_partial {cfg : Cfg P} {s0 s1 s : St P} {bs as : List (Act P)} (hn : cfg.order.Nodup) (ht : UpstreamFirst cfg)
    (h0 : Steps cfg init bs s0) (hrun : ∀ p ∈ cfg.order, s0.running p = true ∧ s0.inbox p = []) (h1 : Step cfg s0 (.cmd .sync) s1)
    (h2 : Steps cfg s1 as s) (hc : ∀ c, .cmd c ∉ as) (hs : s.server ≠ none) :
    ∃ a s', Step cfg s a s' ∧ a.works ∧ Certain s a := by
  obtain ⟨i0, j0⟩ := live_steps ht (inv_init hn) (inside_init cfg) h0
  have i1 := inv_step i0 h1
  have j1 := inside_step ht i0 j0 h1
  obtain ⟨i2, j2⟩ := live_steps ht i1 j1 h2
  have r1 : Ready s1 := by
    cases h1 with
    | tell hc => exact absurd rfl hc
    | sync => exact ready_ask hrun hn
  have r2 : Ready s := by
    clear hs i2 j2 j1 h1
    induction h2 with
    | nil => exact r1
    | cons h3 _ ih =>
      refine ih ?_ (inv_step i1 h3) (ready_step i1 r1 h3 ?_)
      · intro c hc'; exact hc c (by simp [hc'])
      · intro c e; exact hc c (by simp [e])
  exact progress ht i2 j2 r2 hs

/-- Units finish: if units publish only on publishers which are asked after the ones they are subscribed to, it cannot go on forever
without tasks publishing something new or clients giving commands. -/
theorem C80_finite {cfg : Cfg P} {bs : List (Act P)} (hn : cfg.order.Nodup) (ht : UpstreamFirst cfg) (f : Nat → St P) (g : Nat → Act P)
    (h0 : Steps cfg init bs (f 0)) (h : ∀ n, Step cfg (f n) (g n) (f (n + 1))) : ∃ n, ¬ (g n).works := by
  apply Classical.byContradiction
  intro hno
  have hw : ∀ n, (g n).works := fun n => Classical.byContradiction fun hh => hno ⟨n, hh⟩
  have inv : ∀ n, Inv cfg (f n) ∧ Inside cfg (f n) := by
    intro n
    induction n with
    | zero => exact live_steps ht (inv_init hn) (inside_init cfg) h0
    | succ n ih => exact ⟨inv_step ih.1 (h n), inside_step ht ih.1 ih.2 (h n)⟩
  have : ∀ l, ∀ n, (f n).rank cfg = l → False := by
    intro l
    induction l using lx_wf.induction with
    | _ l ih =>
      intro n e
      exact ih _ (e ▸ rank_step ht (inv n).1 (inv n).2 (h n) (hw n)) (n + 1) rfl
  exact this _ 0 rfl

/-- While the server waits for no publisher, only a command changes this. -/
theorem idle_step {cfg : Cfg P} {s s' : St P} {a : Act P} (hs : Step cfg s a s') (h : s.server = none) (ha : ∀ c, a ≠ .cmd c) :
    s'.server = none := by
  cases hs with
  | sync => exact absurd rfl (ha _)
  | drained _ _ hs => rw [h] at hs; cases hs
  | _ => exact h

/-- The last command which was told to `p` is on its way, or has been followed. -/
def Told (s : St P) (p : P) (c : Cmd) : Prop :=
  (s.inbox p = [] → s.running p = decide (c = .resume)) ∧ (s.inbox p ≠ [] → (s.inbox p).getLast? = some c)

theorem told_step {cfg : Cfg P} {s s' : St P} {a : Act P} {p : P} {c : Cmd} (hi : Inv cfg s) (hs : Step cfg s a s')
    (h : s.server = none) (ha : ∀ c, a ≠ .cmd c) (ht : Told s p c) : Told s' p c := by
  have recv : ∀ (q : P) (x : Cmd) (cs : List Cmd) (r : Bool), s.inbox q = x :: cs → (x = c → r = decide (c = .resume)) →
      ∀ t : St P, t.inbox = upd s.inbox q cs → t.running = upd s.running q r → Told t p c := by
    intro q x cs r hq hx t h1 h2
    unfold Told
    rw [h1, h2]
    by_cases he : p = q
    · subst he
      rw [upd_same, upd_same]
      have hl := ht.2 (by rw [hq]; simp)
      rw [hq] at hl
      constructor
      · intro hcs
        rw [hcs] at hl
        exact hx (by simpa using hl)
      · intro hcs
        cases cs with
        | nil => exact absurd rfl hcs
        | cons y cs => simpa [List.getLast?_cons_cons] using hl
    · rw [upd_ne _ _ he, upd_ne _ _ he]
      exact ht
  cases hs with
  | sync => exact absurd rfl (ha _)
  | tell => exact absurd rfl (ha _)
  | drained _ _ hs => rw [h] at hs; cases hs
  | recvPause hq _ => exact recv _ _ _ _ hq (by rintro rfl; rfl) _ rfl rfl
  | recvResume hq _ => exact recv _ _ _ _ hq (by rintro rfl; rfl) _ rfl rfl
  | recvSync hq _ =>
    obtain ⟨⟨rest, e⟩, -⟩ := hi.ib _ (by rw [hq]; simp)
    rw [h] at e
    cases e
  | _ => exact ht

/-- A publisher can read all its commands. -/
theorem reads_all {cfg : Cfg P} (n : Nat) (p : P) {s : St P} (hi : Inv cfg s) (h : s.server = none) (hn : (s.inbox p).length = n) :
    ∃ cs s', Steps cfg s cs s' ∧ (∀ a ∈ cs, a = .recv p) ∧ s'.inbox p = [] ∧ ∀ q, q ≠ p → s'.inbox q = s.inbox q := by
  induction n generalizing s with
  | zero => exact ⟨[], s, .nil s, by simp, List.eq_nil_of_length_eq_zero hn, fun _ _ => rfl⟩
  | succ n ih =>
    cases hq : s.inbox p with
    | nil => rw [hq] at hn; cases hn
    | cons x cs =>
      have hd : s.draining p = false := by
        cases hd : s.draining p with
        | false => rfl
        | true =>
          have := (hi.dr p hd).2.2
          rw [hq] at this
          cases this
      obtain ⟨s1, hs, h1⟩ : ∃ s1, Step cfg s (.recv p) s1 ∧ s1.inbox = upd s.inbox p cs := by
        cases x with
        | pause => exact ⟨_, .recvPause hq hd, rfl⟩
        | resume => exact ⟨_, .recvResume hq hd, rfl⟩
        | sync => exact ⟨_, .recvSync hq hd, rfl⟩
      obtain ⟨as, s', e1, e2, e3, e4⟩ := ih (inv_step hi hs) (idle_step hs h (by simp)) (by rw [h1, upd_same]; rw [hq] at hn; simpa using hn)
      refine ⟨.recv p :: as, s', .cons hs e1, by simpa using e2, e3, fun q hq' => ?_⟩
      rw [e4 q hq', h1, upd_ne _ _ hq']

/-- All publishers can. -/
theorem read_all {cfg : Cfg P} (l : List P) {s : St P} (hi : Inv cfg s) (h : s.server = none) :
    ∃ cs s', Steps cfg s cs s' ∧ (∀ a ∈ cs, ∃ p ∈ l, a = .recv p) ∧ (∀ p ∈ l, s'.inbox p = []) ∧
      ∀ q, s.inbox q = [] → s'.inbox q = [] := by
  induction l generalizing s with
  | nil => exact ⟨[], s, .nil s, by simp, by simp, fun _ h => h⟩
  | cons p l ih =>
    obtain ⟨as, s1, h1, h2, h3, h4⟩ := reads_all _ p hi h rfl
    have hidle : s1.server = none := by
      clear h3 h4
      induction h1 with
      | nil => exact h
      | cons hs _ ih' =>
        exact ih' (inv_step hi hs) (idle_step hs h (fun c e => by have := h2 _ (List.mem_cons_self ..); rw [e] at this; cases this))
          (fun a ha => h2 a (List.mem_cons_of_mem _ ha))
    obtain ⟨bs, s', e1, e2, e3, e4⟩ := ih (inv_steps hi h1) hidle
    refine ⟨as ++ bs, s', steps_append h1 e1, ?_, ?_, ?_⟩
    · intro a ha
      rcases List.mem_append.1 ha with ha | ha
      · exact ⟨p, by simp, h2 a ha⟩
      · obtain ⟨q, hq, e⟩ := e2 a ha
        exact ⟨q, by simp [hq], e⟩
    · intro q hq
      rcases List.mem_cons.1 hq with rfl | hq
      · exact e4 _ h3
      · exact e3 q hq
    · intro q hq
      by_cases he : q = p
      · subst he; exact e4 _ h3
      · exact e4 _ (by rw [h4 q he]; exact hq)

/-- **C80, the commands are carried out.** While no `sync` is under way, `pause` and `resume` are taken up at any time.  As long as no
further command follows, whatever else happens, every publisher can read what it was told, and one which has read all runs if it was
told to resume and is paused if it was told to pause; one which runs can publish. -/
theorem C80_told {cfg : Cfg P} {s : St P} {as : List (Act P)} (hn : cfg.order.Nodup) (h : Steps cfg init as s)
    (hs : s.server = none) {c : Cmd} (hc : c ≠ .sync) :
    (∃ s1, Step cfg s (.cmd c) s1) ∧
    ∀ s1 bs s2, Step cfg s (.cmd c) s1 → Steps cfg s1 bs s2 → (∀ c', .cmd c' ∉ bs) →
      (∀ p ∈ cfg.order, s2.inbox p = [] → s2.running p = decide (c = .resume)) ∧
      (∃ cs s3, Steps cfg s2 cs s3 ∧ (∀ a ∈ cs, ∃ p ∈ cfg.order, a = .recv p) ∧ ∀ p ∈ cfg.order, s3.inbox p = []) ∧
      ∀ p ∈ cfg.order, s2.running p = true → ∃ s3, Step cfg s2 (.emit p) s3 := by
  refine ⟨⟨_, .tell hc hs⟩, fun s1 bs s2 h1 h2 hb => ?_⟩
  have hi := inv_steps (inv_init hn) h
  have hi1 := inv_step hi h1
  have h1' : s1.server = none ∧ ∀ p ∈ cfg.order, Told s1 p c := by
    cases h1 with
    | sync => exact absurd rfl hc
    | tell _ hs =>
      refine ⟨hs, fun p hp => ⟨fun e => ?_, fun _ => ?_⟩⟩
      · simp [hp] at e
      · simp [hp]
  clear h1 h hi
  have hend : Inv cfg s2 ∧ s2.server = none ∧ ∀ p ∈ cfg.order, Told s2 p c := by
    induction h2 with
    | nil => exact ⟨hi1, h1'⟩
    | cons hs1 _ ih =>
      have ha : ∀ c', _ ≠ Act.cmd c' := fun c' e => hb c' (by rw [← e]; exact List.mem_cons_self ..)
      exact ih (fun c' hm => hb c' (List.mem_cons_of_mem _ hm)) (inv_step hi1 hs1)
        ⟨idle_step hs1 h1'.1 ha, fun p hp => told_step hi1 hs1 h1'.1 ha (h1'.2 p hp)⟩
  refine ⟨fun p hp => (hend.2.2 p hp).1, ?_, fun p hp hr => ⟨_, .emit hp hr⟩⟩
  obtain ⟨cs, s3, e1, e2, e3, -⟩ := read_all cfg.order hend.1 hend.2.1
  exact ⟨cs, s3, e1, e2, e3⟩

theorem server_step {cfg : Cfg P} {s s' : St P} {a : Act P} (hs : Step cfg s a s') (h : s.server ≠ none) :
    (s'.server ≠ none ∧ s'.replies = s.replies) ∨ (s'.server = none ∧ s'.replies = s.replies + 1) := by
  cases hs with
  | tell _ h0 | sync h0 => exact absurd h0 h
  | @drained p rest hd hq h0 => cases rest <;> simp [ask]
  | _ => exact .inl ⟨h, rfl⟩

/-- `sync` can be answered, `_partial`: under the same conditions, from every state before the answer the units and publishers can come to
the answer without any task publishing something new.  Whatever they do, this happens unless tasks go on publishing (`C80_finite`). -/
theorem C80_answer_partial {cfg : Cfg P} {s0 s1 s : St P} {bs as : List (Act P)} (hn : cfg.order.Nodup) (ht : UpstreamFirst cfg)
    (h0 : Steps cfg init bs s0) (hrun : ∀ p ∈ cfg.order, s0.running p = true ∧ s0.inbox p = []) (h1 : Step cfg s0 (.cmd .sync) s1)
    (h2 : Steps cfg s1 as s) (hc : ∀ c, .cmd c ∉ as) (hs : s.server ≠ none) :
    ∃ cs s', Steps cfg s cs s' ∧ (∀ a ∈ cs, a.works) ∧ s'.replies = s.replies + 1 := by
  obtain ⟨i0, j0⟩ := live_steps ht (inv_init hn) (inside_init cfg) h0
  obtain ⟨i2, j2⟩ := live_steps ht (inv_step i0 h1) (inside_step ht i0 j0 h1) h2
  have : ∀ l, ∀ (s : St P) (as : List (Act P)), Steps cfg s1 as s → (∀ c, .cmd c ∉ as) → s.server ≠ none → Inv cfg s → Inside cfg s → s.rank cfg = l →
      ∃ cs s', Steps cfg s cs s' ∧ (∀ a ∈ cs, a.works) ∧ s'.replies = s.replies + 1 := by
    intro l
    induction l using lx_wf.induction with
    | _ l ih =>
      intro s as h2 hc hs i2 j2 e
      obtain ⟨a, s', h3, hw, _⟩ := C80_progress_partial hn ht h0 hrun h1 h2 hc hs
      rcases server_step h3 hs with ⟨h4, h5⟩ | ⟨_, h5⟩
      · have h6 : ∀ c, .cmd c ∉ as ++ [a] := by
          intro c hm
          rcases List.mem_append.1 hm with hm | hm
          · exact hc c hm
          · rw [List.mem_singleton] at hm; subst hm; exact hw
        obtain ⟨cs, s2, t1, t2, t3⟩ := ih _ (e ▸ rank_step ht i2 j2 h3 hw) s' _ (steps_append h2 (.cons h3 (.nil _))) h6 h4
          (inv_step i2 h3) (inside_step ht i2 j2 h3) rfl
        refine ⟨a :: cs, s2, .cons h3 t1, ?_, by omega⟩
        intro x hx
        rcases List.mem_cons.1 hx with e | e
        · rw [e]; exact hw
        · exact t2 x e
      · exact ⟨[a], s', .cons h3 (.nil _), by simpa using hw, h5⟩
  exact this _ s as h2 hc hs i2 j2 rfl

/-! ## Violations -/

/-- A unit holds a message of the publisher which is asked, and is to publish on one which is paused. -/
structure Stuck (s : St P) (p q : P) : Prop where
  server : ∃ rest, s.server = some (p :: rest)
  held : ∃ u qs, u ∈ s.held ∧ u.src = p ∧ u.waits = false ∧ u.todo = q :: qs
  running : s.running q = false
  inbox : s.inbox q = []

theorem mem_set_of_ne {α : Type} {l : List α} {i : Nat} {u x : α} (hu : u ∈ l) (hi : l[i]? ≠ some u) : u ∈ l.set i x := by
  obtain ⟨j, hj⟩ := List.getElem?_of_mem hu
  have : i ≠ j := fun e => hi (e ▸ hj)
  exact List.mem_of_getElem? (i := j) (by rw [List.getElem?_set_ne this]; exact hj)

theorem mem_erase_of_ne {α : Type} {l : List α} {i : Nat} {u : α} (hu : u ∈ l) (hi : l[i]? ≠ some u) : u ∈ l.eraseIdx i := by
  induction l generalizing i with
  | nil => simp at hu
  | cons x l ih =>
    cases i with
    | zero =>
      simp at hi ⊢
      rcases List.mem_cons.1 hu with e | e
      · exact absurd e.symm hi
      · exact e
    | succ i =>
      simp at hi ⊢
      rcases List.mem_cons.1 hu with e | e
      · exact .inl e
      · exact .inr (ih e hi)

theorem stuck_step {cfg : Cfg P} {s s' : St P} {a : Act P} {p q : P} (h : Stuck s p q) (hs : Step cfg s a s') :
    Stuck s' p q ∧ s'.replies = s.replies := by
  obtain ⟨⟨rest, h1⟩, ⟨u, qs, hu, hsrc, hw, htodo⟩, h3, h4⟩ := h
  cases hs with
  | tell hc h0 | sync h0 => rw [h1] at h0; simp at h0
  | emit | emitWait | emitLate => exact ⟨⟨⟨rest, h1⟩, ⟨u, qs, hu, hsrc, hw, htodo⟩, h3, h4⟩, rfl⟩
  | take hf hq => exact ⟨⟨⟨rest, h1⟩, ⟨u, qs, List.mem_cons_of_mem _ hu, hsrc, hw, htodo⟩, h3, h4⟩, rfl⟩
  | @put i p' q' w qs' hi hr =>
    refine ⟨⟨⟨rest, h1⟩, ⟨u, qs, mem_set_of_ne hu ?_, hsrc, hw, htodo⟩, h3, h4⟩, rfl⟩
    intro e
    rw [hi] at e
    simp only [Option.some.injEq] at e
    subst e
    simp only [List.cons.injEq] at htodo
    simp only at hw
    rw [htodo.1, h3, hw] at hr
    simp at hr
  | @putWait i p' q' qs' hi hr hf =>
    refine ⟨⟨⟨rest, h1⟩, ⟨u, qs, mem_set_of_ne hu ?_, hsrc, hw, htodo⟩, h3, h4⟩, rfl⟩
    intro e
    rw [hi] at e
    simp only [Option.some.injEq] at e
    subst e
    simp only [List.cons.injEq] at htodo
    rw [htodo.1, h3] at hr
    simp at hr
  | done hi =>
    refine ⟨⟨⟨rest, h1⟩, ⟨u, qs, mem_erase_of_ne hu ?_, hsrc, hw, htodo⟩, h3, h4⟩, rfl⟩
    intro e
    rw [hi] at e
    simp only [Option.some.injEq] at e
    subst e
    simp at htodo
  | @recvPause r cs hi hd | @recvResume r cs hi hd | @recvSync r cs hi hd =>
    have : q ≠ r := fun e => by subst e; rw [h4] at hi; simp at hi
    exact ⟨⟨⟨rest, h1⟩, ⟨u, qs, hu, hsrc, hw, htodo⟩, by simpa [upd, this] using h3, by simpa [upd, this] using h4⟩, rfl⟩
  | @drained r rest' hd hq h0 =>
    rw [h1] at h0
    simp only [Option.some.injEq, List.cons.injEq] at h0
    obtain ⟨rfl, _⟩ := h0
    exfalso
    unfold St.inflight at hq
    have : u ∈ s.held.filter (fun h => decide (h.src = p)) := by simp [hu, hsrc]
    have := List.length_pos_of_mem this
    omega

/-- When a unit holds a message of the publisher the server waits for, and is to publish on a publisher which is paused, then whatever
happens `sync` is never answered and no command of a client is ever taken up again, `resume` included. -/
theorem C80_stuck {cfg : Cfg P} {s s' : St P} {as : List (Act P)} {p q : P} (h : Stuck s p q) (hs : Steps cfg s as s') :
    s'.server ≠ none ∧ s'.replies = s.replies ∧ ∀ c, .cmd c ∉ as := by
  induction hs with
  | nil => obtain ⟨r, hr⟩ := h.server; simp [hr]
  | @cons s s1 s' a as h1 _ ih =>
    obtain ⟨h2, h3⟩ := stuck_step h h1
    obtain ⟨h4, h5, h6⟩ := ih h2
    refine ⟨h4, h5.trans h3, ?_⟩
    intro c hc
    rcases List.mem_cons.1 hc with e | e
    · subst e
      obtain ⟨r, hr⟩ := h.server
      cases h1 with
      | tell _ h0 | sync h0 => rw [hr] at h0; simp at h0
    · exact h6 c e

/-- A source which publishes on `false`, a unit which publishes on `true`, and a sink, with the publishers in an order. -/
def chain (order : List Bool) : Cfg Bool where
  order := order
  subs := fun _ => 1
  fwd := fun p q => p = false ∧ q = true

/-- The publisher of the unit was registered before that of the source, and the source publishes one message: all publishers run, nobody
waits for a buffer, and `sync` is never answered and blocks the server for good. -/
theorem C80_deadlock : ∃ (as : List (Act Bool)) (s : St Bool), Steps (chain [true, false]) init as s ∧ (∀ a ∈ as, ¬ a.waits) ∧
    (∀ c, .cmd c ∈ as → c = .sync) ∧
    ∀ bs s', Steps (chain [true, false]) s bs s' → s'.replies = 0 ∧ ∀ c, .cmd c ∉ bs := by
  refine ⟨[.emit false, .take false [true], .cmd .sync, .recv true, .drained true, .recv false], _,
    .cons (.emit (by decide) rfl) (.cons (.take (n := 0) rfl (by simp [chain])) (.cons (.sync rfl) (.cons (.recvSync (cs := []) rfl rfl)
      (.cons (.drained (rest := [false]) rfl rfl rfl) (.cons (.recvSync (cs := []) rfl rfl) (.nil _)))))), by simp [Act.waits], by simp, ?_⟩
  intro bs s' h
  obtain ⟨_, h1, h2⟩ := C80_stuck (p := false) (q := true) ⟨⟨[], rfl⟩, ⟨⟨false, false, [true]⟩, [], by simp [ask, chain], rfl, rfl, rfl⟩, rfl, rfl⟩ h
  exact ⟨h1, h2⟩

/-- After `pause`, `sync` can be blocked for good in whichever order publishers were registered, and `resume` with it. -/
theorem C80_paused_deadlock : ∃ (as : List (Act Bool)) (s : St Bool), Steps (chain [false, true]) init as s ∧ (∀ a ∈ as, ¬ a.waits) ∧
    .cmd .sync ∈ as ∧ ∀ bs s', Steps (chain [false, true]) s bs s' → s'.replies = 0 ∧ ∀ c, .cmd c ∉ bs := by
  refine ⟨[.emit false, .take false [true], .cmd .pause, .recv false, .recv true, .cmd .sync], _,
    .cons (.emit (by decide) rfl) (.cons (.take (n := 0) rfl (by simp [chain])) (.cons (.tell (by decide) rfl) (.cons (.recvPause (cs := []) rfl rfl)
      (.cons (.recvPause (cs := []) rfl rfl) (.cons (.sync rfl) (.nil _)))))), by simp [Act.waits], by simp, ?_⟩
  intro bs s' h
  obtain ⟨_, h1, h2⟩ := C80_stuck (p := false) (q := true) ⟨⟨[true], rfl⟩, ⟨⟨false, false, [true]⟩, [], by simp [ask, chain], rfl, rfl, rfl⟩, rfl, rfl⟩ h
  exact ⟨h1, h2⟩

/-- A broadcast which waits for a buffer goes out after its publisher has answered: `sync` is answered while a message is in flight. -/
theorem C80_late : ∃ (as : List (Act Bool)) (s s' : St Bool) (a : Act Bool), Steps (chain [false, true]) init as s ∧
    Step (chain [false, true]) s a s' ∧ s'.replies = s.replies + 1 ∧ ¬ Quiet (chain [false, true]) s' := by
  refine ⟨[.emit false, .emitWait false, .cmd .sync, .recv false, .take false [], .done 0, .drained false, .emitLate false, .recv true], _, _,
    .drained true, .cons (.emit (by decide) rfl) (.cons (.emitWait (by decide) rfl (by decide)) (.cons (.sync rfl)
      (.cons (.recvSync (cs := []) rfl rfl) (.cons (.take (n := 0) rfl (by simp)) (.cons (.done (w := false) (p := false) rfl)
        (.cons (.drained (rest := [true]) rfl rfl rfl) (.cons (.emitLate (n := 0) rfl) (.cons (.recvSync (cs := []) rfl rfl) (.nil _))))))))),
    .drained (rest := []) rfl rfl rfl, rfl, ?_⟩
  intro h
  have := (h false (by decide)).2
  revert this
  decide

/-! ## Examples -/

/-- With the source registered first, the order is upstream first. -/
theorem chain_first : UpstreamFirst (chain [false, true]) := by
  intro p q h
  obtain ⟨rfl, rfl⟩ := h
  exact ⟨[], [true], rfl, by simp⟩

/-- A message is handled while the server synchronizes. -/
example : ∃ s s', Steps (chain [false, true]) init [.emit false, .take false [true], .cmd .sync, .recv false, .put 0, .done 0, .drained false,
    .recv true, .take true [], .done 0] s ∧ Step (chain [false, true]) s (.drained true) s' ∧ Quiet (chain [false, true]) s' := by
  have : ∃ s s', Steps (chain [false, true]) init [.emit false, .take false [true], .cmd .sync, .recv false, .put 0, .done 0, .drained false,
    .recv true, .take true [], .done 0] s ∧ Step (chain [false, true]) s (.drained true) s' ∧ s'.replies = s.replies + 1 :=
    ⟨_, _, .cons (.emit (by decide) rfl) (.cons (.take (n := 0) rfl (by simp [chain])) (.cons (.sync rfl) (.cons (.recvSync (cs := []) rfl rfl)
      (.cons (.put (w := false) (p := false) (q := true) (qs := []) rfl (.inl rfl)) (.cons (.done (w := false) (p := false) rfl)
        (.cons (.drained (rest := [true]) rfl rfl rfl) (.cons (.recvSync (cs := []) rfl rfl) (.cons (.take (n := 0) rfl (by simp))
          (.cons (.done (w := false) (p := true) rfl) (.nil _)))))))))), .drained (rest := []) rfl rfl rfl, rfl⟩
  obtain ⟨s, s', h1, h2, h3⟩ := this
  exact ⟨s, s', h1, h2, C80_quiet_partial (by decide) h1 (by simp [Act.waits]) h2 h3 (.nil _) (by simp) (by simp)⟩

/-- While the unit handles a message, there is a way to the answer. -/
example : ∃ s cs s', Steps (chain [false, true]) init [.emit false, .take false [true], .cmd .sync, .recv false] s ∧
    Steps (chain [false, true]) s cs s' ∧ s'.replies = 1 := by
  have : ∃ s0 s1 s, Steps (chain [false, true]) init [.emit false, .take false [true]] s0 ∧
      (∀ p ∈ (chain [false, true]).order, s0.running p = true ∧ s0.inbox p = []) ∧ Step (chain [false, true]) s0 (.cmd .sync) s1 ∧
      Steps (chain [false, true]) s1 [.recv false] s ∧ s.server ≠ none ∧ s.replies = 0 :=
    ⟨_, _, _, .cons (.emit (by decide) rfl) (.cons (.take (n := 0) rfl (by simp [chain])) (.nil _)), fun _ _ => ⟨rfl, rfl⟩, .sync rfl,
      .cons (.recvSync (cs := []) rfl rfl) (.nil _), by simp [ask, chain], rfl⟩
  obtain ⟨s0, s1, s, h0, hr, h1, h2, h3, h4⟩ := this
  obtain ⟨cs, s', t1, _, t2⟩ := C80_answer_partial (by decide) chain_first h0 hr h1 h2 (by simp) h3
  exact ⟨s, cs, s', steps_append h0 (.cons h1 h2), t1, by omega⟩

/-- After `sync` has been answered, both publishers are told to resume; the first has read it, and runs again. -/
example : ∃ as s s1 s2, Steps (chain [false, true]) init as s ∧ s.replies = 1 ∧ s.server = none ∧ s.running false = false ∧
    Step (chain [false, true]) s (.cmd .resume) s1 ∧ Steps (chain [false, true]) s1 [.recv false] s2 ∧ s2.running false = true ∧
    s2.running true = false ∧ s2.inbox true = [.resume] :=
  ⟨[.cmd .sync, .recv false, .drained false, .recv true, .drained true], _, _, _,
    .cons (.sync rfl) (.cons (.recvSync (cs := []) rfl rfl) (.cons (.drained (rest := [true]) rfl rfl rfl)
      (.cons (.recvSync (cs := []) rfl rfl) (.cons (.drained (rest := []) rfl rfl rfl) (.nil _))))),
    rfl, rfl, rfl, .tell (by simp) rfl, .cons (.recvResume (cs := []) rfl rfl) (.nil _), rfl, rfl, rfl⟩

end GraphSync
end Ez
