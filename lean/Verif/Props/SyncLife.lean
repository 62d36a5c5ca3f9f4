import Verif.Model.SyncLife

/-!
# C113: the thread of a synchronous context ends, and so does every call
-/

set_option linter.unusedSimpArgs false
set_option linter.unusedSectionVars false

namespace Ez
namespace Life

variable {K : Type} [DecidableEq K]

/-- Specification: the thread has been started and has not ended. -/
def Running (log : List (Ev K)) : Prop := Ev.threadStarted ∈ log ∧ Ev.threadEnded ∉ log

/-- Specification: how a call ended, each time it did. -/
def ends (k : K) (log : List (Ev K)) : List Bool :=
  log.filterMap (fun e => match e with | .ended k' ok => if k' = k then some ok else none | _ => none)

/-- Executions. -/
inductive Run (strict : Bool) : St K → Prop
  | init : Run strict init
  | step {st st'} (a : Act K) : Run strict st → step strict st a = some st' → Run strict st'

/-- Executions in which the context is not dropped, is shut down at most by one thread at a time, closing the graph
context does not raise, cancelled tasks end in time, and no call is made while the context is shut down. -/
inductive Calm : St K → Prop
  | init : Calm init
  | step {st st'} (a : Act K) : Calm st → step false st a = some st' →
      a ≠ .drop → a ≠ .cleaned false → a ≠ .waited true → (a = .shutdown → st.phase = .idle) →
      (∀ k, a = .call k → Ev.shutCalled ∈ st.log → Ev.shutDone true ∈ st.log) → Calm st'

theorem Calm.run {st : St K} (h : Calm st) : Run false st := by
  induction h with
  | init => exact .init
  | step a _ hs _ _ _ _ _ ih => exact .step a ih hs

/-- The calls among what was submitted. -/
def callsOf (q : List (Job K)) : List K := q.filterMap (fun j => match j with | .call k => some k | _ => none)

/-- What else was submitted. -/
def ctl (q : List (Job K)) : List (Job K) := q.filter (fun j => match j with | .call _ => false | _ => true)

/-- What else is submitted in each phase. -/
def ctlOf : Phase K → List (Job K)
  | .cancelling => [.cancel]
  | .stopping => [.stop]
  | _ => []

/-- The calls that have not ended. -/
def pend (st : St K) : List K := callsOf st.queue ++ st.tasks

/-- Does shutting down go on? -/
def Phase.closing : Phase K → Bool
  | .idle => false
  | .entering => false
  | _ => true

structure Inv (st : St K) : Prop where
  busy : st.phase ≠ .idle → st.hasLoop = true
  aliveB : st.phase ≠ .idle → st.phase ≠ .clearing → st.alive = true
  dead : st.phase = .clearing → st.alive = false
  loopA : st.hasLoop = true → st.phase ≠ .clearing → st.alive = true
  aliveL : st.alive = true → st.hasLoop = true
  ctxL : st.hasCtx = true → st.hasLoop = true
  clos : st.phase.closing = true → st.closed = true
  started : Ev.threadStarted ∈ st.log → st.hasLoop = true ∨ st.closed = true
  stopped : Ev.threadEnded ∈ st.log → st.alive = false ∧ st.closed = true
  runs : st.alive = true → Ev.threadStarted ∈ st.log
  off : st.alive = false → Ev.threadStarted ∈ st.log → Ev.threadEnded ∈ st.log
  ctl : ctl st.queue = ctlOf st.phase
  nodup : (pend st).Nodup
  pcall : ∀ k, k ∈ pend st → Ev.called k ∈ st.log
  pend : ∀ k, k ∈ pend st → ends k st.log = []
  none : ∀ k, Ev.called k ∉ st.log → ends k st.log = []
  some : ∀ k, Ev.called k ∈ st.log → k ∉ Life.pend st → ∃ ok, ends k st.log = [ok]

theorem ends_append (k : K) (l m : List (Ev K)) : ends k (l ++ m) = ends k l ++ ends k m := by simp [ends]

theorem callsOf_append (q r : List (Job K)) : callsOf (q ++ r) = callsOf q ++ callsOf r := by simp [callsOf]

theorem ctl_append (q r : List (Job K)) : ctl (q ++ r) = ctl q ++ ctl r := by simp [ctl]

theorem inv_init : Inv (init : St K) := by
  constructor <;> simp [init, ctl, ctlOf, Life.pend, callsOf, Phase.closing, ends]

theorem leaveLoop_cases (strict : Bool) (st : St K) : (leaveLoop strict st = { st with phase := .stopping, queue := st.queue ++ [.stop] }) ∨
    (leaveLoop strict st = { st with phase := .cancelling, queue := st.queue ++ [.cancel] }) := by
  unfold leaveLoop; split
  · exact .inl rfl
  · exact .inr rfl

theorem inv_leave {strict : Bool} {st : St K} (h : Inv st) (hp : ctlOf st.phase = []) (hd : st.phase ≠ .clearing) (hl : st.hasLoop = true) (hc : st.closed = true) :
    Inv (leaveLoop strict st) := by
  have hn := h.nodup; have hp1 := h.pcall; have hp2 := h.pend; have hp3 := h.some
  simp only [Life.pend] at hn hp1 hp2 hp3
  rcases leaveLoop_cases strict st with e | e <;> rw [e] <;>
  exact { busy := fun _ => hl, aliveB := fun _ _ => h.loopA hl hd, dead := by simp, loopA := fun _ _ => h.loopA hl hd, aliveL := h.aliveL, ctxL := h.ctxL,
          clos := fun _ => hc, started := h.started, stopped := h.stopped, runs := h.runs, off := h.off,
          ctl := by rw [show Life.ctl (_ ++ _) = _ from ctl_append _ _, h.ctl, hp]; simp [Life.ctl, ctlOf],
          nodup := by simpa [Life.pend, callsOf] using hn, pcall := by simpa [Life.pend, callsOf] using hp1,
          pend := by simpa [Life.pend, callsOf] using hp2, none := h.none, some := by simpa [Life.pend, callsOf] using hp3 }

/-- Only the log grows, by events that do not concern calls or the thread. -/
theorem inv_note {st : St K} (h : Inv st) {es : List (Ev K)} (he : ∀ e ∈ es, (∃ b, e = .entered b) ∨ e = .shutCalled ∨ ∃ b, e = .shutDone b) :
    Inv (note st es) := by
  have m1 : ∀ k, Ev.called k ∈ es → False := fun k hk => by rcases he _ hk with ⟨_, e⟩ | e | ⟨_, e⟩ <;> cases e
  have m2 : Ev.threadStarted ∉ es := fun hk => by rcases he _ hk with ⟨_, e⟩ | e | ⟨_, e⟩ <;> cases e
  have m3 : Ev.threadEnded ∉ es := fun hk => by rcases he _ hk with ⟨_, e⟩ | e | ⟨_, e⟩ <;> cases e
  have m4 : ∀ k, ends k es = [] := by
    intro k
    simp only [ends, List.filterMap_eq_nil_iff]
    intro e hm
    rcases he e hm with ⟨_, rfl⟩ | rfl | ⟨_, rfl⟩ <;> rfl
  have c : ∀ k, Ev.called k ∈ st.log ++ es ↔ Ev.called k ∈ st.log := by
    intro k; simp only [List.mem_append]; exact ⟨fun x => x.elim id (fun y => (m1 k y).elim), .inl⟩
  have s : Ev.threadStarted ∈ st.log ++ es ↔ Ev.threadStarted ∈ st.log := by simp [m2]
  have t : Ev.threadEnded ∈ st.log ++ es ↔ Ev.threadEnded ∈ st.log := by simp [m3]
  have d : ∀ k, ends k (st.log ++ es) = ends k st.log := by intro k; rw [ends_append, m4]; simp
  exact { busy := h.busy, aliveB := h.aliveB, dead := h.dead, loopA := h.loopA, aliveL := h.aliveL, ctxL := h.ctxL, clos := h.clos,
          started := fun x => h.started (s.1 x), stopped := fun x => h.stopped (t.1 x), runs := fun x => s.2 (h.runs x),
          off := fun x y => t.2 (h.off x (s.1 y)), ctl := h.ctl, nodup := h.nodup, pcall := fun k hk => (c k).2 (h.pcall k hk),
          pend := fun k hk => (d k).trans (h.pend k hk), none := fun k hk => (d k).trans (h.none k (fun x => hk ((c k).2 x))),
          some := fun k hk hn => by
            obtain ⟨ok, e⟩ := h.some k ((c k).1 hk) hn
            exact ⟨ok, (d k).trans e⟩ }

theorem inv_step {strict : Bool} {st st' : St K} {a : Act K} (h : Inv st) (hs : step strict st a = some st') : Inv st' := by
  cases a with
  | enter =>
    simp only [step] at hs
    split at hs
    · rename_i hp
      cases hs
      unfold enter
      split
      · exact inv_note h (by simp)
      · split
        · exact inv_note h (by simp)
        · rename_i hc hl
          have hl' : st.hasLoop = false := by simpa using hl
          have ha : st.alive = false := by cases e : st.alive with | false => rfl | true => exact absurd (h.aliveL e) hl
          have hns : Ev.threadStarted ∉ st.log := fun x => (h.started x).elim hl hc
          have hne : Ev.threadEnded ∉ st.log := fun x => hc (h.stopped x).2
          have hct := h.ctl
          rw [hp.1] at hct
          exact { busy := fun _ => rfl, aliveB := fun _ _ => rfl, dead := by simp [note], loopA := fun _ _ => rfl, aliveL := fun _ => rfl, ctxL := fun _ => rfl,
                  clos := by simp [note, Phase.closing], started := fun _ => .inl rfl, stopped := fun x => by simp [note, hne] at x,
                  runs := fun _ => by simp [note], off := by simp [note], ctl := hct, nodup := h.nodup,
                  pcall := fun k hk => by simpa [note] using h.pcall k hk,
                  pend := fun k hk => by simpa [note, ends_append] using And.intro (h.pend k hk) (by simp [ends] : ends k [Ev.threadStarted] = []),
                  none := fun k hk => by
                    have := h.none k (by simpa [note] using hk)
                    simpa [note, ends_append] using And.intro this (by simp [ends] : ends k [Ev.threadStarted] = []),
                  some := fun k hk hn => by
                    obtain ⟨ok, e⟩ := h.some k (by simpa [note] using hk) hn
                    exact ⟨ok, by simp [note, ends_append, e]; simp [ends]⟩ }
    · cases hs
  | enterDone ok =>
    simp only [step] at hs
    split at hs
    · rename_i hp
      cases hs
      have hl := h.busy (by simp [hp])
      have ha := h.aliveB (by simp [hp]) (by simp [hp])
      have hct := h.ctl
      rw [hp] at hct
      have h0 : ∀ b, Inv ({ st with hasCtx := b, phase := .idle } : St K) := fun b =>
        { busy := by simp, aliveB := by simp, dead := by simp, loopA := fun _ _ => ha, aliveL := h.aliveL, ctxL := fun _ => hl,
          clos := by simp [Phase.closing], started := h.started, stopped := h.stopped, runs := h.runs, off := h.off, ctl := hct, nodup := h.nodup,
          pcall := h.pcall, pend := h.pend, none := h.none, some := h.some }
      unfold enterDone
      split
      · exact inv_note (h0 true) (by simp)
      · exact inv_note (h0 st.hasCtx) (by simp)
    · cases hs
  | call k =>
    simp only [step] at hs
    split at hs
    · cases hs
    · rename_i hk
      cases hs
      have hkp : k ∉ Life.pend st := fun x => hk (h.pcall k x)
      unfold call
      split
      · exact { busy := h.busy, aliveB := h.aliveB, dead := h.dead, loopA := h.loopA, aliveL := h.aliveL, ctxL := h.ctxL, clos := h.clos,
                started := fun x => h.started (by simpa [note] using x), stopped := fun x => h.stopped (by simpa [note] using x),
                runs := fun x => by simpa [note] using h.runs x, off := fun x y => by simpa [note] using h.off x (by simpa [note] using y),
                ctl := by have := h.ctl; simp [note, ctl_append]; simpa [Life.ctl] using this,
                nodup := by
                  have := h.nodup
                  simp only [Life.pend, note, callsOf_append] at this hkp ⊢
                  simp only [callsOf, List.filterMap_cons, List.filterMap_nil, List.mem_append, not_or] at hkp
                  refine List.Perm.nodup (l := k :: (callsOf st.queue ++ st.tasks)) ?_ (List.nodup_cons.2 ⟨by simpa [callsOf] using hkp, this⟩)
                  rw [List.append_assoc]
                  exact (List.perm_middle (l₁ := callsOf st.queue) (a := k) (l₂ := st.tasks)).symm
                pcall := fun j hj => by
                  by_cases e : j = k
                  · subst e; simp [note]
                  · have : j ∈ Life.pend st := by simpa [Life.pend, note, callsOf_append, callsOf, e] using hj
                    simpa [note, e] using h.pcall j this
                pend := fun j hj => by
                  have : ends j st.log = [] := by
                    by_cases e : j = k
                    · subst e; exact h.none j hk
                    · exact h.pend j (by simpa [Life.pend, note, callsOf_append, callsOf, e] using hj)
                  simp [note, ends_append, this]; simp [ends]
                none := fun j hj => by
                  have := h.none j (fun x => hj (by simp [note, x]))
                  simp [note, ends_append, this]; simp [ends]
                some := fun j hj hn => by
                  by_cases e : j = k
                  · subst e; exact absurd (by simp [Life.pend, note, callsOf_append, callsOf]) hn
                  · obtain ⟨ok, x⟩ := h.some j (by simpa [note, e] using hj) (fun x => hn (by simpa [Life.pend, note, callsOf_append, callsOf, e] using x))
                    exact ⟨ok, by simp [note, ends_append, x]; simp [ends]⟩ }
      · exact { busy := h.busy, aliveB := h.aliveB, dead := h.dead, loopA := h.loopA, aliveL := h.aliveL, ctxL := h.ctxL, clos := h.clos,
                started := fun x => h.started (by simpa [note] using x), stopped := fun x => h.stopped (by simpa [note] using x),
                runs := fun x => by simpa [note] using h.runs x, off := fun x y => by simpa [note] using h.off x (by simpa [note] using y),
                ctl := h.ctl, nodup := h.nodup,
                pcall := fun j hj => by simp [note, h.pcall j hj]
                pend := fun j hj => by
                  have e : j ≠ k := fun e => hkp (e ▸ hj)
                  simp [note, ends_append, h.pend j hj]; simp [ends, Ne.symm e]
                none := fun j hj => by
                  have e : j ≠ k := fun e => hj (by simp [note, e])
                  have := h.none j (fun x => hj (by simp [note, x]))
                  simp [note, ends_append, this]; simp [ends, Ne.symm e]
                some := fun j hj hn => by
                  by_cases e : j = k
                  · subst e; exact ⟨false, by simp [note, ends_append, h.none j hk]; simp [ends]⟩
                  · obtain ⟨ok, x⟩ := h.some j (by simpa [note, e] using hj) hn
                    exact ⟨ok, by simp [note, ends_append, x]; simp [ends, Ne.symm e]⟩ }
  | shutdown =>
    simp only [step] at hs
    split at hs
    · rename_i hp
      cases hs
      unfold shutdown
      split
      · exact inv_note h (by simp)
      · rename_i hc
        have hi : st.phase = .idle := hp.2.resolve_right hc
        have hct := h.ctl
        rw [hi] at hct
        split
        · rename_i hl
          have ha := h.loopA hl (by simp [hi])
          refine inv_note (st := { st with closed := true, phase := .cleaning }) ?_ (by simp)
          exact { busy := fun _ => hl, aliveB := fun _ _ => ha, dead := by simp, loopA := fun _ _ => ha, aliveL := h.aliveL, ctxL := h.ctxL,
                  clos := fun _ => rfl, started := fun _ => .inr rfl, stopped := fun x => ⟨(h.stopped x).1, rfl⟩, runs := h.runs, off := h.off, ctl := hct, nodup := h.nodup,
                  pcall := h.pcall, pend := h.pend, none := h.none, some := h.some }
        · refine inv_note (st := { st with closed := true }) ?_ (by simp)
          exact { busy := h.busy, aliveB := h.aliveB, dead := h.dead, loopA := h.loopA, aliveL := h.aliveL, ctxL := h.ctxL,
                  clos := fun _ => rfl, started := fun _ => .inr rfl, stopped := fun x => ⟨(h.stopped x).1, rfl⟩, runs := h.runs, off := h.off, ctl := h.ctl, nodup := h.nodup,
                  pcall := h.pcall, pend := h.pend, none := h.none, some := h.some }
    · cases hs
  | cleaned ok =>
    simp only [step] at hs
    split at hs
    · rename_i hp
      cases hs
      have hl := h.busy (by simp [hp.1])
      have ha := h.aliveB (by simp [hp.1]) (by simp [hp.1])
      have hcl := h.clos (by simp [hp.1, Phase.closing])
      unfold cleaned
      split
      · exact inv_leave h (by simp [hp.1, ctlOf]) (by simp [hp.1]) hl hcl
      · have hct := h.ctl
        rw [hp.1] at hct
        refine inv_note (st := { st with phase := .idle }) ?_ (by simp)
        exact { busy := by simp, aliveB := by simp, dead := by simp, loopA := fun _ _ => ha, aliveL := h.aliveL, ctxL := h.ctxL,
                clos := by simp [Phase.closing], started := h.started, stopped := h.stopped, runs := h.runs, off := h.off, ctl := hct, nodup := h.nodup,
                pcall := h.pcall, pend := h.pend, none := h.none, some := h.some }
    · cases hs
  | runJob =>
    simp only [step] at hs
    split at hs
    · rename_i ha
      unfold runJob at hs
      have hct := h.ctl
      split at hs
      · cases hs
      · rename_i k q hq
        cases hs
        have hpm : ∀ j, j ∈ Life.pend { st with queue := q, tasks := st.tasks ++ [k] } ↔ j ∈ Life.pend st := by
          intro j; simp only [Life.pend, hq, callsOf, List.filterMap_cons, List.mem_append, List.mem_cons, List.mem_nil_iff, or_false]
          constructor
          · rintro (x | x | x)
            · exact .inl (.inr x)
            · exact .inr x
            · exact .inl (.inl x)
          · rintro ((x | x) | x)
            · exact .inr (.inr x)
            · exact .inl x
            · exact .inr (.inl x)
        exact { busy := h.busy, aliveB := h.aliveB, dead := h.dead, loopA := h.loopA, aliveL := h.aliveL, ctxL := h.ctxL, clos := h.clos,
                started := h.started, stopped := h.stopped, runs := h.runs, off := h.off,
                ctl := by rw [hq] at hct; simpa [Life.ctl] using hct,
                nodup := by
                  have := h.nodup
                  simp only [Life.pend, hq] at this ⊢
                  refine List.Perm.nodup (l := k :: (callsOf q ++ st.tasks)) ?_ (by simpa only [callsOf, List.filterMap_cons, List.cons_append] using this)
                  rw [← List.append_assoc]
                  exact (List.perm_append_singleton k (callsOf q ++ st.tasks)).symm
                pcall := fun j hj => h.pcall j ((hpm j).1 hj), pend := fun j hj => h.pend j ((hpm j).1 hj), none := h.none,
                some := fun j hj hn => h.some j hj (fun x => hn ((hpm j).2 x)) }
      · rename_i q hq
        cases hs
        have hn := h.nodup; have hp1 := h.pcall; have hp2 := h.pend; have hp3 := h.some
        simp only [Life.pend, hq] at hn hp1 hp2 hp3
        have hph : st.phase = .cancelling := by
          rw [hq] at hct
          cases e : st.phase <;> rw [e] at hct <;> simp [Life.ctl, ctlOf] at hct
        have hl := h.busy (by simp [hph])
        rw [hq, hph] at hct
        exact { busy := fun _ => hl, aliveB := fun _ _ => ha, dead := by simp, loopA := fun _ _ => ha, aliveL := h.aliveL, ctxL := h.ctxL,
                clos := fun _ => h.clos (by simp [hph, Phase.closing]), started := h.started, stopped := h.stopped, runs := h.runs, off := h.off,
                ctl := by simpa [Life.ctl, ctlOf] using hct,
                nodup := by simpa [Life.pend, callsOf] using hn, pcall := by simpa [Life.pend, callsOf] using hp1,
                pend := by simpa [Life.pend, callsOf] using hp2, none := h.none, some := by simpa [Life.pend, callsOf] using hp3 }
      · rename_i q hq
        cases hs
        have hn := h.nodup; have hp1 := h.pcall; have hp2 := h.pend; have hp3 := h.some
        simp only [Life.pend, hq] at hn hp1 hp2 hp3
        have hph : st.phase = .stopping := by
          rw [hq] at hct
          cases e : st.phase <;> rw [e] at hct <;> simp [Life.ctl, ctlOf] at hct
        have hl := h.busy (by simp [hph])
        have hcl := h.clos (by simp [hph, Phase.closing])
        rw [hq, hph] at hct
        have he : ∀ j, ends j (st.log ++ [Ev.threadEnded]) = ends j st.log := by intro j; rw [ends_append]; simp [ends]
        have hc : ∀ j, Ev.called j ∈ st.log ++ [Ev.threadEnded] ↔ Ev.called j ∈ st.log := by intro j; simp
        exact { busy := fun _ => hl, aliveB := by simp [note], dead := fun _ => rfl, loopA := by simp [note], aliveL := by simp [note], ctxL := h.ctxL,
                clos := fun _ => hcl, started := fun _ => .inl hl, stopped := fun _ => ⟨rfl, hcl⟩, runs := by simp [note],
                off := fun _ _ => by simp [note],
                ctl := by simpa [Life.ctl, ctlOf, note] using hct,
                nodup := by simpa [Life.pend, callsOf, note] using hn,
                pcall := fun j hj => (hc j).2 (hp1 j (by simpa [Life.pend, callsOf, note] using hj)),
                pend := fun j hj => (he j).trans (hp2 j (by simpa [Life.pend, callsOf, note] using hj)),
                none := fun j hj => (he j).trans (h.none j (fun x => hj ((hc j).2 x))),
                some := fun j hj hn => by
                  obtain ⟨ok, e⟩ := hp3 j ((hc j).1 hj) (fun x => hn (by simpa [Life.pend, callsOf, note] using x))
                  exact ⟨ok, (he j).trans e⟩ }
    · cases hs
  | done k ok =>
    simp only [step] at hs
    split at hs
    · rename_i hk
      cases hs
      have hnd := h.nodup
      have hkq : k ∉ callsOf st.queue := fun x => by
        simp only [Life.pend, List.nodup_append] at hnd
        exact hnd.2.2 k x k hk.2 rfl
      have hkp : k ∈ Life.pend st := by simp [Life.pend, hk.2]
      have hsub : ∀ j, j ∈ callsOf st.queue ++ st.tasks.filter (fun x => decide (x ≠ k)) ↔ j ∈ Life.pend st ∧ j ≠ k := by
        intro j
        simp only [Life.pend, List.mem_append, List.mem_filter, decide_eq_true_eq]
        constructor
        · rintro (x | x)
          · exact ⟨.inl x, fun e => hkq (e ▸ x)⟩
          · exact ⟨.inr x.1, x.2⟩
        · rintro ⟨x | x, e⟩
          · exact .inl x
          · exact .inr ⟨x, e⟩
      have he : ∀ j, j ≠ k → ends j (st.log ++ [Ev.ended k ok]) = ends j st.log := by
        intro j e; rw [ends_append]; simp [ends, Ne.symm e]
      have hc : ∀ j, Ev.called j ∈ st.log ++ [Ev.ended k ok] ↔ Ev.called j ∈ st.log := by intro j; simp
      exact { busy := h.busy, aliveB := h.aliveB, dead := h.dead, loopA := h.loopA, aliveL := h.aliveL, ctxL := h.ctxL, clos := h.clos,
              started := fun x => h.started (by simpa [note] using x), stopped := fun x => h.stopped (by simpa [note] using x),
              runs := fun x => by simpa [note] using h.runs x, off := fun x y => by simpa [note] using h.off x (by simpa [note] using y),
              ctl := h.ctl,
              nodup := by
                simp only [Life.pend, note, List.nodup_append] at hnd ⊢
                exact ⟨hnd.1, hnd.2.1.filter _, fun a ha b hb => hnd.2.2 a ha b (List.mem_filter.1 hb).1⟩
              pcall := fun j hj => (hc j).2 (h.pcall j ((hsub j).1 hj).1),
              pend := fun j hj => (he j ((hsub j).1 hj).2).trans (h.pend j ((hsub j).1 hj).1),
              none := fun j hj => (he j (fun e => hj ((hc j).2 (e ▸ h.pcall k hkp)))).trans (h.none j (fun x => hj ((hc j).2 x))),
              some := fun j hj hn => by
                by_cases e : j = k
                · subst e
                  refine ⟨ok, ?_⟩
                  show ends j (st.log ++ _) = _
                  rw [ends_append, h.pend j hkp]; simp [ends]
                · obtain ⟨b, x⟩ := h.some j ((hc j).1 hj) (fun x => hn ((hsub j).2 ⟨x, e⟩))
                  exact ⟨b, (he j e).trans x⟩ }
    · cases hs
  | waited expired =>
    simp only [step] at hs
    split at hs
    · rename_i ks hph
      split at hs
      · cases hs
        have := inv_leave (strict := true) h (by simp [hph, ctlOf]) (by simp [hph]) (h.busy (by simp [hph])) (h.clos (by simp [hph, Phase.closing]))
        simpa [leaveLoop] using this
      · cases hs
    · cases hs
  | clear =>
    simp only [step] at hs
    split at hs
    · rename_i hp
      cases hs
      have ha := h.dead hp
      have hcl := h.clos (by simp [hp, Phase.closing])
      have hct := h.ctl
      rw [hp] at hct
      refine inv_note (st := { st with hasLoop := false, hasCtx := false, phase := .idle }) ?_ (by cases st.dropped <;> simp)
      exact { busy := by simp, aliveB := by simp, dead := by simp, loopA := by simp, aliveL := by simp [ha], ctxL := by simp,
              clos := by simp [Phase.closing], started := fun _ => .inr hcl, stopped := h.stopped, runs := h.runs, off := h.off, ctl := hct, nodup := h.nodup,
              pcall := h.pcall, pend := h.pend, none := h.none, some := h.some }
    · cases hs
  | drop =>
    simp only [step] at hs
    split at hs
    · rename_i hp
      cases hs
      refine inv_leave (st := { st with dropped := true, closed := true }) ?_ (by simp [hp.1, ctlOf]) (by simp [hp.1]) hp.2.2 rfl
      exact { busy := h.busy, aliveB := h.aliveB, dead := h.dead, loopA := h.loopA, aliveL := h.aliveL, ctxL := h.ctxL,
              clos := fun _ => rfl, started := fun _ => .inr rfl, stopped := fun x => ⟨(h.stopped x).1, rfl⟩, runs := h.runs, off := h.off, ctl := h.ctl, nodup := h.nodup,
              pcall := h.pcall, pend := h.pend, none := h.none, some := h.some }
    · cases hs

theorem Run.inv {strict : Bool} {st : St K} (h : Run strict st) : Inv st := by
  induction h with
  | init => exact inv_init
  | step a _ hs ih => exact inv_step ih hs

/-! ## Calls -/

/-- Every call ends at most once, and only a call that was made does. -/
theorem C113_once {strict : Bool} {st : St K} (h : Run strict st) (k : K) :
    (ends k st.log).length ≤ 1 ∧ (ends k st.log ≠ [] → Ev.called k ∈ st.log) := by
  have i := h.inv
  by_cases hc : Ev.called k ∈ st.log
  · refine ⟨?_, fun _ => hc⟩
    by_cases hp : k ∈ pend st
    · simp [i.pend k hp]
    · obtain ⟨ok, e⟩ := i.some k hc hp
      simp [e]
  · simp [i.none k hc]

theorem entered_ctx {strict : Bool} {st : St K} (h : Run strict st) : st.hasCtx = true → Ev.entered true ∈ st.log := by
  induction h with
  | init => simp [init]
  | @step st st' a _ hs ih =>
    cases a <;> simp only [step] at hs <;> split at hs <;> try cases hs
    · unfold enter; split
      · intro x; simp [note, ih x]
      · split
        · intro x; simp [note]
        · intro x; simp [note, ih x]
    · unfold enterDone; split
      · intro _; simp [note]
      · intro x; simp [note, ih x]
    · unfold call; split <;> (intro x; simp [note, ih x])
    · unfold shutdown; split
      · intro x; simp [note, ih x]
      · split <;> (intro x; simp [note, ih x])
    · unfold cleaned; split
      · unfold leaveLoop; split <;> exact ih
      · intro x; simp [note, ih x]
    · unfold runJob at hs
      split at hs <;> cases hs
      · exact ih
      · exact ih
      · intro x; simp [note, ih x]
    · intro x; simp [note, ih x]
    · split at hs <;> cases hs
      exact ih
    · simp [note]
    · unfold leaveLoop; split <;> exact ih

/-- A call through a context that was not entered, or whose thread has ended, raises at once and has no effect. -/
theorem C113_refused {strict : Bool} {st st' : St K} (h : Run strict st) {k : K}
    (hn : Ev.entered true ∉ st.log ∨ ¬ Running st.log) (hs : step strict st (.call k) = some st') :
    st' = { st with log := st.log ++ [.called k, .ended k false] } := by
  simp only [step] at hs
  split at hs
  · cases hs
  · cases hs
    unfold call
    rw [if_neg ?_]
    · rfl
    · simp only [Bool.and_eq_true]
      rintro ⟨⟨_, hc⟩, ha⟩
      rcases hn with hn | hn
      · exact hn (entered_ctx h hc)
      · exact hn ⟨h.inv.runs ha, fun x => by have := (h.inv.stopped x).1; rw [ha] at this; cases this⟩

/-! ## Shutting down ends -/

/-- The steps by which entering and shutting down go on. -/
def Act.own : Act K → Bool
  | .enterDone _ => true
  | .cleaned _ => true
  | .runJob => true
  | .done _ _ => true
  | .waited _ => true
  | .clear => true
  | _ => false

/-- How much is left to do in a phase. -/
def rank : Phase K → Nat
  | .idle => 0
  | .entering => 1
  | .cleaning => 12
  | .cancelling => 9
  | .waiting _ => 6
  | .stopping => 3
  | .clearing => 1

/-- How much is left to do. -/
def work (st : St K) : Nat := 2 * st.queue.length + st.tasks.length + rank st.phase

theorem work_step {strict : Bool} {st st' : St K} {a : Act K} (h : Run strict st) (ho : a.own = true) (hs : step strict st a = some st') : work st' < work st := by
  have hct := h.inv.ctl
  cases a <;> simp only [Act.own] at ho <;> try cases ho
  all_goals simp only [step] at hs
  · split at hs
    · rename_i hp; cases hs
      unfold enterDone; split <;> simp [work, note, rank, hp]
    · cases hs
  · split at hs
    · rename_i hp; cases hs
      unfold cleaned; split
      · rcases leaveLoop_cases strict st with e | e <;> rw [e] <;> simp [work, rank, hp.1] <;> omega
      · simp [work, note, rank, hp.1]
    · cases hs
  · split at hs
    · unfold runJob at hs
      split at hs
      · cases hs
      · rename_i hq; cases hs
        simp [work, hq]; omega
      · rename_i hq; cases hs
        rw [hq] at hct
        have hph : st.phase = .cancelling := by
          cases e : st.phase <;> rw [e] at hct <;> simp [Life.ctl, ctlOf] at hct
        simp [work, hq, hph, rank]; omega
      · rename_i hq; cases hs
        rw [hq] at hct
        have hph : st.phase = .stopping := by
          cases e : st.phase <;> rw [e] at hct <;> simp [Life.ctl, ctlOf] at hct
        simp [work, note, hq, hph, rank]; omega
    · cases hs
  · split at hs
    · rename_i k ok hk; cases hs
      have : (st.tasks.filter (fun x => decide (x ≠ k))).length < st.tasks.length := by
        have := List.length_filter_lt_length_iff_exists (p := fun x => decide (x ≠ k)) (l := st.tasks)
        exact this.2 ⟨k, hk.2, by simp⟩
      simp only [work, note]; omega
    · cases hs
  · split at hs
    · rename_i ks hph
      split at hs <;> cases hs
      simp [work, rank, hph]; omega
    · cases hs
  · split at hs
    · rename_i hp; cases hs
      simp [work, note, rank, hp]
    · cases hs

/-- Entering and shutting down come to their end: the loop and the callers do only finitely many steps, and as long as
`__enter__` or `shutdown` has not ended, there is a step that it waits for. -/
theorem C113_ends {strict : Bool} {st : St K} (h : Run strict st) :
    (∀ as st', (∀ a ∈ as, a.own = true) → run strict as st = some st' → as.length ≤ work st) ∧
    (st.phase ≠ .idle → ∃ a, a.own = true ∧ (step strict st a).isSome = true) := by
  refine ⟨?_, ?_⟩
  · intro as
    induction as generalizing st with
    | nil => intro _ _ _; exact Nat.zero_le _
    | cons a as ih =>
      intro st' ho hr
      simp only [run] at hr
      split at hr
      · rename_i st1 hs
        have h1 := work_step h (ho a (List.mem_cons_self ..)) hs
        have h2 := ih (.step a h hs) st' (fun b hb => ho b (List.mem_cons_of_mem _ hb)) hr
        simp only [List.length_cons]; omega
      · cases hr
  · intro hp
    have i := h.inv
    have hj : ctlOf st.phase ≠ [] → ∃ a : Act K, a.own = true ∧ (step strict st a).isSome = true := by
      intro hc
      refine ⟨.runJob, rfl, ?_⟩
      have ha : st.alive = true := i.aliveB hp (fun e => by simp [e, ctlOf] at hc)
      have hct := i.ctl
      simp only [step, ha, if_pos, runJob]
      cases hq : st.queue with
      | nil => rw [hq] at hct; exact absurd hct.symm hc
      | cons j q => cases j <;> rfl
    cases e : st.phase with
    | idle => exact absurd e hp
    | entering => exact ⟨.enterDone true, rfl, by simp [step, e]⟩
    | cleaning => exact ⟨.cleaned true, rfl, by simp [step, e]⟩
    | cancelling => exact hj (by simp [e, ctlOf])
    | waiting ks => exact ⟨.waited true, rfl, by simp [step, e]⟩
    | stopping => exact hj (by simp [e, ctlOf])
    | clearing => exact ⟨.clear, rfl, by simp [step, e]⟩

/-! ## What is left after a shutdown -/

structure CInv (st : St K) : Prop where
  nodrop : st.dropped = false
  called : Ev.shutCalled ∈ st.log ↔ st.closed = true
  done : Ev.shutDone true ∈ st.log → st.closed = true ∧ st.phase = .idle
  idle : st.phase = .idle → st.closed = true → st.alive = false ∧ st.hasLoop = false ∧ pend st = []
  ent : st.phase = .entering → st.closed = false
  noloop : st.hasLoop = false → pend st = []
  canc : st.phase = .cancelling → ∃ q, st.queue = q ++ [.cancel]
  wait : ∀ ks, st.phase = .waiting ks → st.queue = [] ∧ ∀ k ∈ st.tasks, k ∈ ks
  stop : st.phase = .stopping → st.queue = [.stop] ∧ st.tasks = []
  clear : st.phase = .clearing → st.queue = [] ∧ st.tasks = []

theorem cinv_run {st : St K} (h : Calm st) : CInv st := by
  induction h with
  | init => constructor <;> simp [init, Life.pend, callsOf]
  | @step st st' a hc hs hd hcl hw hsd hk ih =>
    have i := hc.run.inv
    have hct := i.ctl
    cases a with
    | drop => exact absurd rfl hd
    | enter =>
      simp only [step] at hs
      split at hs
      · rename_i hp
        cases hs
        unfold enter
        split
        · exact { nodrop := ih.nodrop, called := by simpa [note] using ih.called, done := fun x => ih.done (by simpa [note] using x), idle := ih.idle, ent := ih.ent, noloop := ih.noloop, canc := ih.canc, wait := ih.wait, stop := ih.stop, clear := ih.clear }
        · rename_i hncl
          split
          · exact { nodrop := ih.nodrop, called := by simpa [note] using ih.called, done := fun x => ih.done (by simpa [note] using x), idle := ih.idle, ent := ih.ent, noloop := ih.noloop, canc := ih.canc, wait := ih.wait, stop := ih.stop, clear := ih.clear }
          · exact { nodrop := ih.nodrop, called := by simpa [note] using ih.called, done := fun x => absurd (ih.done (by simpa [note] using x)).1 hncl,
                    idle := by simp [note], ent := fun _ => by simpa [note] using hncl, noloop := by simp [note], canc := by simp [note], wait := by simp [note], stop := by simp [note], clear := by simp [note] }
      · cases hs
    | enterDone ok =>
      simp only [step] at hs
      split at hs
      · rename_i hp
        cases hs
        have hncl : st.closed = true → False := fun e => by rw [ih.ent hp] at e; cases e
        unfold enterDone
        split <;>
        exact { nodrop := ih.nodrop, called := by simpa [note] using ih.called, done := fun x => ⟨(ih.done (by simpa [note] using x)).1, rfl⟩,
                idle := fun _ e => (hncl e).elim, ent := by simp [note], noloop := ih.noloop, canc := by simp [note], wait := by simp [note], stop := by simp [note], clear := by simp [note] }
      · cases hs
    | call k =>
      simp only [step] at hs
      split at hs
      · cases hs
      · cases hs
        unfold call
        split
        · rename_i hb
          simp only [Bool.and_eq_true] at hb
          have hno : Ev.shutCalled ∉ st.log := fun x => by
            have := ih.done (hk k rfl x)
            have := (ih.idle this.2 this.1).1
            rw [hb.2] at this; cases this
          have hncl : st.closed = true → False := fun e => hno (ih.called.2 e)
          have hph : st.phase.closing = true → False := fun e => hncl (i.clos e)
          exact { nodrop := ih.nodrop, called := by simpa [note] using ih.called, done := fun x => ih.done (by simpa [note] using x),
                  idle := fun _ e => (hncl e).elim, ent := ih.ent, noloop := fun e => by rw [show st.hasLoop = false from e] at hb; simp at hb,
                  canc := fun e => (hph (by rw [show st.phase = _ from e]; rfl)).elim,
                  wait := fun ks e => (hph (by rw [show st.phase = _ from e]; rfl)).elim,
                  stop := fun e => (hph (by rw [show st.phase = _ from e]; rfl)).elim,
                  clear := fun e => (hph (by rw [show st.phase = _ from e]; rfl)).elim }
        · exact { nodrop := ih.nodrop, called := by simpa [note] using ih.called, done := fun x => ih.done (by simpa [note] using x), idle := ih.idle, ent := ih.ent, noloop := ih.noloop, canc := ih.canc, wait := ih.wait, stop := ih.stop, clear := ih.clear }
    | shutdown =>
      simp only [step] at hs
      split at hs
      · cases hs
        have hi := hsd rfl
        unfold shutdown
        split
        · rename_i hcd
          exact { nodrop := ih.nodrop, called := by simp [note, hcd], done := fun _ => ⟨hcd, hi⟩, idle := ih.idle, ent := ih.ent, noloop := ih.noloop, canc := ih.canc, wait := ih.wait, stop := ih.stop, clear := ih.clear }
        · rename_i hncl
          split
          · exact { nodrop := ih.nodrop, called := by simp [note], done := fun x => absurd (ih.done (by simpa [note] using x)).1 hncl,
                    idle := by simp [note], ent := by simp [note], noloop := ih.noloop, canc := by simp [note], wait := by simp [note], stop := by simp [note], clear := by simp [note] }
          · rename_i hl
            have ha : st.alive = false := by cases e : st.alive with | false => rfl | true => exact absurd (i.aliveL e) hl
            have hl' : st.hasLoop = false := by simpa using hl
            exact { nodrop := ih.nodrop, called := by simp [note], done := fun _ => ⟨rfl, hi⟩, idle := fun _ _ => ⟨ha, hl', ih.noloop hl'⟩,
                    ent := fun e => absurd (hi.symm.trans e) (by simp), noloop := ih.noloop, canc := ih.canc, wait := ih.wait, stop := ih.stop, clear := ih.clear }
      · cases hs
    | cleaned ok =>
      simp only [step] at hs
      split at hs
      · rename_i hp
        cases hs
        cases ok with
        | false => exact absurd rfl hcl
        | true =>
          simp only [cleaned, leaveLoop, if_pos]
          exact { nodrop := ih.nodrop, called := ih.called, done := fun x => absurd (ih.done x).2 (by simp [hp.1]), idle := by simp, ent := by simp,
                  noloop := fun x => absurd x (by simp [i.busy (by simp [hp.1])]), canc := fun _ => ⟨_, rfl⟩, wait := by simp, stop := by simp, clear := by simp }
      · cases hs
    | runJob =>
      simp only [step] at hs
      split at hs
      · rename_i ha
        have hna : ¬ (st.phase = .idle ∧ st.closed = true) := fun e => by
          have := (ih.idle e.1 e.2).1
          rw [ha] at this; cases this
        unfold runJob at hs
        split at hs
        · cases hs
        · rename_i k q hq
          cases hs
          exact { nodrop := ih.nodrop, called := ih.called, done := ih.done, idle := fun e x => (hna ⟨e, x⟩).elim, ent := ih.ent,
                  noloop := fun x => absurd x (by simp [i.aliveL ha]),
                  canc := fun e => by
                    obtain ⟨r, hr⟩ := ih.canc e
                    rw [hq] at hr
                    cases r with
                    | nil => simp at hr
                    | cons j r => simp at hr; exact ⟨r, hr.2⟩
                  wait := fun ks e => by have := (ih.wait ks e).1; rw [hq] at this; cases this
                  stop := fun e => by have := (ih.stop e).1; rw [hq] at this; cases this
                  clear := fun e => by have := (ih.clear e).1; rw [hq] at this; cases this }
        · rename_i q hq
          cases hs
          rw [hq] at hct
          have hph : st.phase = .cancelling := by
            cases e : st.phase <;> rw [e] at hct <;> simp [Life.ctl, ctlOf] at hct
          obtain ⟨r, hr⟩ := ih.canc hph
          rw [hq] at hr
          have hq0 : q = [] := by
            cases r with
            | nil => simpa using hr
            | cons j r =>
              simp only [List.cons_append, List.cons.injEq] at hr
              rw [hr.2, hph] at hct
              simp [Life.ctl, ctlOf] at hct
          exact { nodrop := ih.nodrop, called := ih.called, done := fun x => absurd (ih.done x).2 (by simp [hph]), idle := by simp, ent := by simp,
                  noloop := fun x => absurd x (by simp [i.aliveL ha]), canc := by simp,
                  wait := fun ks e => by cases e; exact ⟨hq0, fun k hk => hk⟩
                  stop := by simp, clear := by simp }
        · rename_i q hq
          cases hs
          rw [hq] at hct
          have hph : st.phase = .stopping := by
            cases e : st.phase <;> rw [e] at hct <;> simp [Life.ctl, ctlOf] at hct
          obtain ⟨hq1, ht⟩ := ih.stop hph
          rw [hq] at hq1
          simp at hq1
          exact { nodrop := ih.nodrop, called := by simpa [note] using ih.called, done := fun x => absurd (ih.done (by simpa [note] using x)).2 (by simp [hph]),
                  idle := by simp [note], ent := by simp [note], noloop := fun x => absurd x (by simp [note, i.aliveL ha]), canc := by simp [note],
                  wait := by simp [note], stop := by simp [note], clear := fun _ => ⟨hq1, ht⟩ }
      · cases hs
    | done k ok =>
      simp only [step] at hs
      split at hs
      · rename_i hk2
        cases hs
        exact { nodrop := ih.nodrop, called := by simpa [note] using ih.called, done := fun x => ih.done (by simpa [note] using x),
                idle := fun e x => by
                  have := (ih.idle e x).1
                  rw [hk2.1] at this; cases this
                ent := ih.ent, noloop := fun x => absurd x (by simp [note, i.aliveL hk2.1]), canc := ih.canc,
                wait := fun ks e => ⟨(ih.wait ks e).1, fun j hj => (ih.wait ks e).2 j (List.mem_filter.1 hj).1⟩,
                stop := fun e => ⟨(ih.stop e).1, by have := (ih.stop e).2; simp [note, this]⟩,
                clear := fun e => ⟨(ih.clear e).1, by have := (ih.clear e).2; simp [note, this]⟩ }
      · cases hs
    | waited expired =>
      cases expired with
      | true => exact absurd rfl hw
      | false =>
        simp only [step] at hs
        split at hs
        · rename_i ks hph
          split at hs
          · rename_i hall
            cases hs
            obtain ⟨hq, ht⟩ := ih.wait ks hph
            have h0 : st.tasks = [] := by
              rw [List.eq_nil_iff_forall_not_mem]
              intro k hk
              have := hall.resolve_left (by simp)
              rw [List.all_eq_true] at this
              simpa [hk] using this k (ht k hk)
            exact { nodrop := ih.nodrop, called := ih.called, done := fun x => absurd (ih.done x).2 (by simp [hph]), idle := by simp, ent := by simp,
                    noloop := fun x => absurd x (by simp [i.busy (by simp [hph])]), canc := by simp, wait := by simp,
                    stop := fun _ => ⟨by simp [hq], h0⟩, clear := by simp }
          · cases hs
        · cases hs
    | clear =>
      simp only [step] at hs
      split at hs
      · rename_i hp
        cases hs
        obtain ⟨hq, ht⟩ := ih.clear hp
        have hcd := i.clos (by simp [hp, Phase.closing])
        exact { nodrop := ih.nodrop, called := by have := ih.called; simp [note, ih.nodrop]; simpa using this, done := fun _ => ⟨hcd, rfl⟩,
                idle := fun _ _ => ⟨i.dead hp, rfl, by simp [Life.pend, note, hq, ht, callsOf]⟩, ent := by simp [note],
                noloop := fun _ => by simp [Life.pend, note, hq, ht, callsOf], canc := by simp [note], wait := by simp [note], stop := by simp [note], clear := by simp [note] }
      · cases hs

/-- When `shutdown` has returned, the thread has ended and every call has ended, those that waited included.  Proved for
runs in which closing the graph context does not raise, cancelled tasks end within their second, and no call is made
while `shutdown` is under way; the default, non-strict shutdown. -/
theorem C113_shut_down_partial {st : St K} (h : Calm st) (hd : Ev.shutDone true ∈ st.log) :
    ¬ Running st.log ∧ ∀ k, Ev.called k ∈ st.log → ∃ ok, ends k st.log = [ok] := by
  have c := cinv_run h
  have i := h.run.inv
  obtain ⟨h1, h2⟩ := c.done hd
  obtain ⟨ha, _, hp⟩ := c.idle h2 h1
  refine ⟨fun hr => hr.2 (i.off ha hr.1), fun k hk => i.some k hk (by simp [hp])⟩

/-! ## A context that is in use -/

structure Up (st : St K) : Prop where
  opn : Ev.shutCalled ∉ st.log → st.dropped = false → st.closed = false
  ctx : st.closed = false → st.hasLoop = true → st.phase ≠ .entering → Ev.entered false ∉ st.log → st.hasCtx = true
  idl : st.closed = false → Ev.entered true ∈ st.log → st.hasLoop = true ∧ (Ev.entered false ∉ st.log → st.hasCtx = true)
  new : st.closed = false → st.hasLoop = false → pend st = []

theorem up_step {strict : Bool} {st st' : St K} {a : Act K} (h : Run strict st) (u : Up st) (hs : step strict st a = some st') : Up st' := by
  obtain ⟨u1, u2, u3, u4⟩ := u
  have hi := h.inv
  cases a with
  | enter =>
    simp only [step] at hs
    split at hs
    · rename_i hp
      cases hs
      unfold enter
      split
      · rename_i hc
        exact ⟨fun a b => u1 (by simpa [note] using a) b, fun a => by simp [note, hc] at a, fun a => by simp [note, hc] at a, fun a => by simp [note, hc] at a⟩
      · rename_i hc
        simp only [Bool.not_eq_true] at hc
        split
        · rename_i hl
          refine ⟨fun a b => hc, fun a b c d => u2 hc hl (by simp [hp.1]) (by simpa [note] using d), fun a b => ⟨hl, fun d => u2 hc hl (by simp [hp.1]) (by simpa [note] using d)⟩, fun a b => ?_⟩
          simp [note, hl] at b
        · rename_i hl
          simp only [Bool.not_eq_true] at hl
          refine ⟨fun a b => hc, fun a b c d => by simp [note] at c, fun a b => ?_, fun a b => by simp [note] at b⟩
          have b' : Ev.entered true ∈ st.log := by simpa [note] using b
          have := (u3 hc b').1
          rw [hl] at this; cases this
    · cases hs
  | enterDone ok =>
    simp only [step] at hs
    split at hs
    · rename_i hp
      cases hs
      have hl := hi.busy (by simp [hp])
      cases ok
      · refine ⟨fun a b => u1 (by simpa [enterDone, note] using a) b, fun a b c d => by simp [enterDone, note] at d, fun a b => ⟨hl, fun d => by simp [enterDone, note] at d⟩, fun a b => ?_⟩
        have b' : st.hasLoop = false := b
        rw [hl] at b'; cases b'
      · refine ⟨fun a b => u1 (by simpa [enterDone, note] using a) b, fun a b c d => rfl, fun a b => ⟨hl, fun d => rfl⟩, fun a b => ?_⟩
        have b' : st.hasLoop = false := b
        rw [hl] at b'; cases b'
    · cases hs
  | call k =>
    simp only [step] at hs
    split at hs
    · cases hs
    · cases hs
      unfold call
      split
      · rename_i hc
        simp only [Bool.and_eq_true] at hc
        refine ⟨fun a b => u1 (by simpa [note] using a) b, fun a b c d => hc.1.2, fun a b => ⟨hc.1.1, fun _ => hc.1.2⟩, fun a b => ?_⟩
        have b' : st.hasLoop = false := b
        rw [hc.1.1] at b'; cases b'
      · refine ⟨fun a b => u1 (by simpa [note] using a) b, fun a b c d => u2 a b c (by simpa [note] using d), fun a b => ?_, u4⟩
        obtain ⟨x, y⟩ := u3 a (by simpa [note] using b)
        exact ⟨x, fun d => y (by simpa [note] using d)⟩
  | shutdown =>
    simp only [step] at hs
    split at hs
    · cases hs
      unfold shutdown
      split
      · rename_i hc
        exact ⟨fun a b => by simp [note] at a, fun a => by simp [note, hc] at a, fun a => by simp [note, hc] at a, fun a => by simp [note, hc] at a⟩
      · split
        · exact ⟨fun a b => by simp [note] at a, fun a => by simp [note] at a, fun a => by simp [note] at a, fun a => by simp [note] at a⟩
        · exact ⟨fun a b => by simp [note] at a, fun a => by simp [note] at a, fun a => by simp [note] at a, fun a => by simp [note] at a⟩
    · cases hs
  | cleaned ok =>
    simp only [step] at hs
    split at hs
    · rename_i hp
      have hc := hi.clos (by simp [hp.1, Phase.closing])
      have key : st'.closed = true ∧ st'.dropped = st.dropped ∧ (Ev.shutCalled ∉ st'.log → Ev.shutCalled ∉ st.log) := by
        cases hs
        unfold cleaned
        split
        · rcases leaveLoop_cases strict st with e | e <;> rw [e] <;> exact ⟨hc, rfl, id⟩
        · exact ⟨hc, rfl, fun a => by simpa [note] using a⟩
      exact ⟨fun a b => absurd (u1 (key.2.2 a) (key.2.1 ▸ b)) (by simp [hc]), fun a => by simp [key.1] at a, fun a => by simp [key.1] at a, fun a => by simp [key.1] at a⟩
    · cases hs
  | runJob =>
    simp only [step] at hs
    split at hs
    · rename_i ha
      have hl := hi.aliveL ha
      unfold runJob at hs
      split at hs
      · cases hs
      · cases hs
        exact ⟨u1, u2, u3, fun a b => by simp [hl] at b⟩
      · rename_i q e
        cases hs
        have hph : st.phase = .cancelling := by
          have h1 := hi.ctl
          rw [e] at h1
          cases hp : st.phase <;> simp [hp, ctl, ctlOf] at h1 ⊢
        have hc := hi.clos (by simp [hph, Phase.closing])
        exact ⟨u1, fun a => by simp [hc] at a, u3, fun a b => by simp [hl] at b⟩
      · rename_i q e
        cases hs
        have hph : st.phase = .stopping := by
          have h1 := hi.ctl
          rw [e] at h1
          cases hp : st.phase <;> simp [hp, ctl, ctlOf] at h1 ⊢
        have hc := hi.clos (by simp [hph, Phase.closing])
        exact ⟨fun a b => u1 (by simpa [note] using a) b, fun a => by simp [note, hc] at a, fun a => by simp [note, hc] at a, fun a b => by simp [note, hl] at b⟩
    · cases hs
  | done k ok =>
    simp only [step] at hs
    split at hs
    · rename_i ha
      have hl := hi.aliveL ha.1
      cases hs
      refine ⟨fun a b => u1 (by simpa [note] using a) b, fun a b c d => u2 a b c (by simpa [note] using d), fun a b => ?_, fun a b => by simp [note, hl] at b⟩
      obtain ⟨x, y⟩ := u3 a (by simpa [note] using b)
      exact ⟨x, fun d => y (by simpa [note] using d)⟩
    · cases hs
  | waited e =>
    simp only [step] at hs
    split at hs
    · rename_i ks hph
      have hc := hi.clos (by simp [hph, Phase.closing])
      split at hs
      · cases hs
        exact ⟨u1, fun a => by simp [hc] at a, u3, fun a b => by simp [hc] at a⟩
      · cases hs
    · cases hs
  | clear =>
    simp only [step] at hs
    split at hs
    · rename_i hph
      have hc := hi.clos (by simp [hph, Phase.closing])
      cases hs
      refine ⟨fun a b => u1 (fun x => a (by simp [note, x])) b, fun a => by simp [note, hc] at a, fun a => by simp [note, hc] at a, fun a b => by simp [note, hc] at a⟩
    · cases hs
  | drop =>
    simp only [step] at hs
    split at hs
    · cases hs
      rcases leaveLoop_cases strict { st with dropped := true, closed := true } with e | e <;> rw [e] <;>
        exact ⟨fun a b => by simp at b, fun a => by simp at a, fun a => by simp at a, fun a => by simp at a⟩
    · cases hs

theorem Run.up {strict : Bool} {st : St K} (h : Run strict st) : Up st := by
  induction h with
  | init => exact ⟨fun _ _ => rfl, fun _ a => (by cases a), fun _ a => (by cases a), fun _ _ => rfl⟩
  | step a h hs ih => exact up_step h ih hs

/-- The loop comes to every call that was submitted. -/
theorem reaches {strict : Bool} (k : K) (ok : Bool) : ∀ (q : List (Job K)) {st : St K}, st.queue = q → st.alive = true → ctl q = [] → k ∈ pend st →
    ∃ n st', run strict (List.replicate n .runJob ++ [.done k ok]) st = some st' ∧ st'.log = st.log ++ [.ended k ok] ∧ st'.phase = st.phase := by
  intro q
  induction q with
  | nil =>
    intro st hq ha _ hk
    simp only [pend, hq, callsOf, List.filterMap_nil, List.nil_append] at hk
    exact ⟨0, note { st with tasks := st.tasks.filter (fun x => decide (x ≠ k)) } [.ended k ok], by simp [run, step, ha, hk], rfl, rfl⟩
  | cons j q ih =>
    intro st hq ha hc hk
    cases j with
    | call i =>
      obtain ⟨n, st', h1, h2, h3⟩ := ih (st := { st with queue := q, tasks := st.tasks ++ [i] }) rfl ha (by simpa [ctl] using hc) (by
        simp only [pend, hq, callsOf, List.filterMap_cons, List.cons_append, List.mem_cons, List.mem_append] at hk ⊢
        rcases hk with e | e | e
        · exact .inr (.inr (.inl e))
        · exact .inl e
        · exact .inr (.inl e))
      refine ⟨n + 1, st', ?_, h2, h3⟩
      rw [List.replicate_succ, List.cons_append]
      have hs : step strict st .runJob = some { st with queue := q, tasks := st.tasks ++ [i] } := by simp [step, ha, runJob, hq]
      rw [run, hs]
      exact h1
    | cancel => simp [ctl] at hc
    | stop => simp [ctl] at hc

/-- A context that has been neither shut down nor dropped can be used.  It can be entered; once it has been, and entering has
never raised, a call does not raise at once; each call that has not ended is run, and can end with a result and with an
exception; and the context can be shut down whenever it is not being entered. -/
theorem C113_works {strict : Bool} {st : St K} (h : Run strict st) (hs : Ev.shutCalled ∉ st.log) (hd : st.dropped = false) :
    (Ev.threadStarted ∉ st.log → ∃ st1 st2, step strict st .enter = some st1 ∧ step strict st1 (.enterDone true) = some st2 ∧
      st2.log = st.log ++ [.threadStarted, .entered true]) ∧
    (Ev.entered true ∈ st.log → Ev.entered false ∉ st.log → ∀ k, Ev.called k ∉ st.log → ∃ st', step strict st (.call k) = some st' ∧
      st'.log = st.log ++ [.called k]) ∧
    (∀ k ok, Ev.called k ∈ st.log → ends k st.log = [] → ∃ n st', run strict (List.replicate n .runJob ++ [.done k ok]) st = some st' ∧
      st'.log = st.log ++ [.ended k ok] ∧ st'.phase = st.phase) ∧
    (st.phase = .entering ∨ ∃ st', step strict st .shutdown = some st' ∧ Ev.shutCalled ∈ st'.log) := by
  have u := h.up
  have hi := h.inv
  have hc := u.opn hs hd
  have hph : st.phase = .idle ∨ st.phase = .entering := by
    cases hp : st.phase with
    | idle => exact .inl rfl
    | entering => exact .inr rfl
    | _ => have := hi.clos (by simp [hp, Phase.closing]); rw [hc] at this; cases this
  have hnc : st.phase ≠ .clearing := by rcases hph with e | e <;> simp [e]
  refine ⟨fun ht => ?_, fun he hf k hk => ?_, fun k ok hk hn => ?_, ?_⟩
  · have hl : st.hasLoop = false := by
      cases hl : st.hasLoop with
      | false => rfl
      | true => exact absurd (hi.runs (hi.loopA hl hnc)) ht
    have hp : st.phase = .idle := by
      rcases hph with e | e
      · exact e
      · have := hi.busy (by simp [e]); rw [hl] at this; cases this
    refine ⟨note { st with hasLoop := true, alive := true, phase := .entering } [.threadStarted], _, by simp [step, hp, hd, enter, hc, hl], rfl, ?_⟩
    simp [enterDone, note]
  · obtain ⟨x, y⟩ := u.idl hc he
    refine ⟨note { st with queue := st.queue ++ [.call k] } [.called k], ?_, rfl⟩
    simp [step, hk, call, x, y hf, hi.loopA x hnc]
  · have hp : k ∈ pend st := by
      refine Classical.byContradiction (fun hx => ?_)
      obtain ⟨b, e⟩ := hi.some k hk hx
      rw [e] at hn; cases hn
    have hl : st.hasLoop = true := by
      cases hl : st.hasLoop with
      | true => rfl
      | false => rw [u.new hc hl] at hp; cases hp
    refine reaches k ok _ rfl (hi.loopA hl hnc) ?_ hp
    rw [hi.ctl]
    rcases hph with e | e <;> simp [e, ctlOf]
  · rcases hph with e | e
    · right
      refine ⟨shutdown st, by simp [step, hd, e], ?_⟩
      unfold shutdown
      rw [if_neg (by simp [hc])]
      split <;> simp [note]
    · exact .inl e

/-! ## Violations -/

theorem run_append {strict : Bool} {P : St K → Prop} (hP : ∀ st a st', P st → step strict st a = some st' → P st') :
    ∀ (as : List (Act K)) {st st' : St K}, P st → run strict as st = some st' → P st' := by
  intro as
  induction as with
  | nil => intro st st' h hr; cases hr; exact h
  | cons a as ih =>
    intro st st' h hr
    simp only [run] at hr
    split at hr
    · rename_i st1 hs; exact ih (hP _ _ _ h hs) hr
    · cases hr

theorem run_of_run {strict : Bool} : ∀ (as : List (Act K)) {st st' : St K}, Run strict st → run strict as st = some st' → Run strict st' :=
  fun as _ _ h hr => run_append (P := Run strict) (fun _ a _ h hs => .step a h hs) as h hr

theorem run_where {strict : Bool} {P : St K → Prop} {Q : Act K → Prop} (hP : ∀ st a st', P st → Q a → step strict st a = some st' → P st') :
    ∀ (as : List (Act K)) {st st' : St K}, (∀ a ∈ as, Q a) → P st → run strict as st = some st' → P st' := by
  intro as
  induction as with
  | nil => intro st st' _ h hr; cases hr; exact h
  | cons a as ih =>
    intro st st' hq h hr
    simp only [run] at hr
    split at hr
    · rename_i st1 hs; exact ih (fun b hb => hq b (List.mem_cons_of_mem _ hb)) (hP _ _ _ h (hq a (List.mem_cons_self ..)) hs) hr
    · cases hr

/-- Violation: a call that has not ended when the thread ends never ends; its caller waits for ever. -/
theorem C113_negation_stuck {strict : Bool} {st st' : St K} (h : Run strict st) {k : K} (hk : Ev.called k ∈ st.log) (he : ends k st.log = [])
    (hs : Ev.threadEnded ∈ st.log) {as : List (Act K)} (hr : run strict as st = some st') : ends k st'.log = [] := by
  have i := h.inv
  have hp : k ∈ pend st := by
    refine Classical.byContradiction (fun hn => ?_)
    obtain ⟨ok, e⟩ := i.some k hk hn
    rw [e] at he; cases he
  have key := run_append (strict := strict) (P := fun s => Run strict s ∧ Ev.threadEnded ∈ s.log ∧ k ∈ pend s) ?_ as ⟨h, hs, hp⟩ hr
  · exact key.1.inv.pend k key.2.2
  · rintro s a s' ⟨hr1, ht, hk1⟩ hstep
    have ha : s.alive = false := (hr1.inv.stopped ht).1
    have hcl := (hr1.inv.stopped ht).2
    refine ⟨.step a hr1 hstep, ?_⟩
    cases a <;> simp only [step] at hstep <;> split at hstep <;> try cases hstep
    · simp [enter, hcl, note, ht]; exact hk1
    · unfold enterDone; split <;> exact ⟨by simp [note, ht], hk1⟩
    · unfold call; rw [if_neg (by simp [ha])]; exact ⟨by simp [note, ht], hk1⟩
    · simp [shutdown, hcl, note, ht]; exact hk1
    · rename_i hp; have := hr1.inv.aliveB (by simp [hp.1]) (by simp [hp.1]); rw [ha] at this; cases this
    · rename_i hal; rw [ha] at hal; cases hal
    · rename_i hal; rw [ha] at hal; cases hal.1
    · rename_i ks hph
      have := hr1.inv.aliveB (by simp [hph]) (by simp [hph]); rw [ha] at this; cases this
    · exact ⟨by simp [note, ht], hk1⟩
    · rename_i hp
      have := hr1.inv.loopA hp.2.2 (by simp [hp.1]); rw [ha] at this; cases this

theorem entering_new {strict : Bool} {st : St K} (h : Run strict st) :
    (st.phase = .entering → st.hasCtx = false ∧ st.closed = false ∧ st.dropped = false) ∧ (st.dropped = true → st.closed = true) := by
  induction h with
  | init => simp [init]
  | @step st st' a h hs ih =>
    have i := h.inv
    cases a <;> simp only [step] at hs <;> split at hs <;> try cases hs
    · rename_i hp
      unfold enter; split
      · exact ih
      · rename_i hc
        split
        · exact ih
        · rename_i hl
          have hx : st.hasCtx = false := by
            cases e : st.hasCtx with
            | false => rfl
            | true => exact absurd (i.ctxL e) hl
          have hc' : st.closed = false := by simpa using hc
          exact ⟨fun _ => ⟨hx, hc', hp.2⟩, ih.2⟩
    · unfold enterDone; split <;> exact ⟨by simp [note], ih.2⟩
    · unfold call; split <;> exact ih
    · rename_i hp
      unfold shutdown; split
      · exact ih
      · rename_i hc
        have hi := hp.2.resolve_right hc
        split
        · exact ⟨by simp [note], fun _ => rfl⟩
        · exact ⟨by simp [note, hi], fun _ => rfl⟩
    · unfold cleaned; split
      · rcases leaveLoop_cases strict st with e | e <;> rw [e] <;> exact ⟨by simp, ih.2⟩
      · exact ⟨by simp [note], ih.2⟩
    · unfold runJob at hs
      split at hs <;> cases hs
      · exact ih
      · exact ⟨by simp, ih.2⟩
      · exact ⟨by simp [note], ih.2⟩
    · exact ih
    · split at hs <;> cases hs
      exact ⟨by simp, ih.2⟩
    · exact ⟨by simp [note], ih.2⟩
    · rcases leaveLoop_cases strict { st with dropped := true, closed := true } with e | e <;> rw [e] <;> exact ⟨by simp, fun _ => rfl⟩

/-- Violation: if entering fails, the thread goes on until the context is shut down by hand or dropped — the `with`
statement does not call `__exit__` — and although entering again "succeeds", every call through the context raises. -/
theorem C113_negation_enter_fails {strict : Bool} {st st1 st2 : St K} (h : Run strict st) (hs : step strict st (.enterDone false) = some st1)
    {as : List (Act K)} (hn : ∀ a ∈ as, a ≠ .shutdown ∧ a ≠ .drop) (hr : run strict as st1 = some st2) :
    Running st2.log ∧ (∃ st3, step strict st2 .enter = some st3 ∧ st3.log = st2.log ++ [.entered true]) ∧
    ∀ k st3, step strict st2 (.call k) = some st3 → st3.log = st2.log ++ [.called k, .ended k false] := by
  have h1 : Run strict st1 := .step _ h hs
  have hP : st1.phase = .idle ∧ st1.hasLoop = true ∧ st1.alive = true ∧ st1.hasCtx = false ∧ st1.closed = false ∧ st1.dropped = false := by
    simp only [step] at hs
    split at hs
    · rename_i hp
      cases hs
      obtain ⟨a, b, c⟩ := (entering_new h).1 hp
      exact ⟨rfl, h.inv.busy (by simp [hp]), h.inv.aliveB (by simp [hp]) (by simp [hp]), a, b, c⟩
    · cases hs
  obtain ⟨h2, p1, p2, p3, p4, p5, p6⟩ := run_where (strict := strict) (Q := fun a => a ≠ .shutdown ∧ a ≠ .drop)
    (P := fun s => Run strict s ∧ s.phase = .idle ∧ s.hasLoop = true ∧ s.alive = true ∧ s.hasCtx = false ∧ s.closed = false ∧ s.dropped = false)
    (by
      rintro s a s' ⟨hr1, q1, q2, q3, q4, q5, q6⟩ ⟨n1, n2⟩ hstep
      refine ⟨.step a hr1 hstep, ?_⟩
      have hct := hr1.inv.ctl
      cases a
      case runJob =>
        simp only [step, if_pos q3, runJob] at hstep
        split at hstep
        · cases hstep
        · cases hstep; exact ⟨q1, q2, q3, q4, q5, q6⟩
        · rename_i hq; rw [hq, q1] at hct; simp [Life.ctl, ctlOf] at hct
        · rename_i hq; rw [hq, q1] at hct; simp [Life.ctl, ctlOf] at hct
      all_goals simp only [step] at hstep
      all_goals split at hstep
      all_goals try cases hstep
      · simp [enter, q5, q2, note, q1, q3, q4, q6]
      · rename_i hp; rw [q1] at hp; cases hp
      · simp [call, q4, note, q1, q2, q3, q5, q6]
      · exact absurd rfl n1
      · rename_i hp; rw [q1] at hp; cases hp.1
      · exact ⟨q1, q2, q3, q4, q5, q6⟩
      · rename_i hp; rw [q1] at hp; cases hp
      · rename_i hp; rw [q1] at hp; cases hp
      · exact absurd rfl n2) as hn ⟨h1, hP⟩ hr
  refine ⟨⟨h2.inv.runs p3, fun x => by have := (h2.inv.stopped x).1; rw [p3] at this; cases this⟩, ⟨_, if_pos ⟨p1, p6⟩, by simp [enter, p5, p2, note]⟩, ?_⟩
  intro k st3 hk
  simp only [step] at hk
  split at hk
  · cases hk
  · cases hk; simp [call, p4, note]

/-- Violation: if closing the graph context raises, the thread goes on until the context is dropped, and `shutdown` cannot
be repeated: further calls of it return at once and do nothing. -/
theorem C113_negation_cleanup_fails {strict : Bool} {st st1 st2 : St K} (h : Run strict st) (hs : step strict st (.cleaned false) = some st1)
    {as : List (Act K)} (hn : ∀ a ∈ as, a ≠ .drop) (hd : st.dropped = false) (hr : run strict as st1 = some st2) :
    Running st2.log ∧ ∃ st3, step strict st2 .shutdown = some st3 ∧ st3.log = st2.log ++ [.shutCalled, .shutDone true] := by
  have h1 : Run strict st1 := .step _ h hs
  have hP : st1.phase = .idle ∧ st1.hasLoop = true ∧ st1.alive = true ∧ st1.closed = true ∧ st1.dropped = false := by
    simp only [step] at hs
    split at hs
    · rename_i hp
      cases hs
      exact ⟨rfl, h.inv.busy (by simp [hp.1]), h.inv.aliveB (by simp [hp.1]) (by simp [hp.1]), h.inv.clos (by simp [hp.1, Phase.closing]), hd⟩
    · cases hs
  obtain ⟨h2, p1, p2, p3, p5, p6⟩ := run_where (strict := strict) (Q := fun a => a ≠ .drop)
    (P := fun s => Run strict s ∧ s.phase = .idle ∧ s.hasLoop = true ∧ s.alive = true ∧ s.closed = true ∧ s.dropped = false)
    (by
      rintro s a s' ⟨hr1, q1, q2, q3, q5, q6⟩ n2 hstep
      refine ⟨.step a hr1 hstep, ?_⟩
      have hct := hr1.inv.ctl
      cases a
      case runJob =>
        simp only [step, if_pos q3, runJob] at hstep
        split at hstep
        · cases hstep
        · cases hstep; exact ⟨q1, q2, q3, q5, q6⟩
        · rename_i hq; rw [hq, q1] at hct; simp [Life.ctl, ctlOf] at hct
        · rename_i hq; rw [hq, q1] at hct; simp [Life.ctl, ctlOf] at hct
      all_goals simp only [step] at hstep
      all_goals split at hstep
      all_goals try cases hstep
      · simp [enter, q5, q2, note, q1, q3, q6]
      · rename_i hp; rw [q1] at hp; cases hp
      · unfold call; split <;> exact ⟨q1, q2, q3, q5, q6⟩
      · simp [shutdown, q5, q2, note, q1, q3, q6]
      · rename_i hp; rw [q1] at hp; cases hp.1
      · exact ⟨q1, q2, q3, q5, q6⟩
      · rename_i hp; rw [q1] at hp; cases hp
      · rename_i hp; rw [q1] at hp; cases hp
      · exact absurd rfl n2) as hn ⟨h1, hP⟩ hr
  exact ⟨⟨h2.inv.runs p3, fun x => by have := (h2.inv.stopped x).1; rw [p3] at this; cases this⟩, ⟨_, if_pos ⟨p6, .inr p5⟩, by simp [shutdown, p5, note]⟩⟩

/-- Violation, a witness: a call made while `shutdown` waits for the cancelled tasks never returns, and with strict
shutdown no call that waits ever returns. -/
theorem C113_negation : (∃ st : St Char, Run false st ∧ Ev.shutDone true ∈ st.log ∧ Ev.called 'b' ∈ st.log ∧
      ∀ as st', run false as st = some st' → ends 'b' st'.log = []) ∧
    (∃ st : St Char, Run true st ∧ Ev.shutDone true ∈ st.log ∧ Ev.called 'a' ∈ st.log ∧
      ∀ as st', run true as st = some st' → ends 'a' st'.log = []) := by
  refine ⟨?_, ?_⟩
  · have i := run_of_run (strict := false) [.enter, .enterDone true, .call 'a', .runJob, .shutdown, .cleaned true, .runJob, .call 'b', .runJob, .done 'a' false,
      .waited false, .runJob, .clear] (.init : Run _ (init : St Char)) rfl
    exact ⟨_, i, by decide, by decide, fun as st' hr => C113_negation_stuck i (by decide) (by decide) (by decide) hr⟩
  · have i := run_of_run (strict := true) [.enter, .enterDone true, .call 'a', .runJob, .shutdown, .cleaned true, .runJob, .clear]
      (.init : Run _ (init : St Char)) rfl
    exact ⟨_, i, by decide, by decide, fun as st' hr => C113_negation_stuck i (by decide) (by decide) (by decide) hr⟩

/-! ## Examples -/

/-- A context that was entered, with two calls of which one has been begun. -/
example : ∃ st : St Char, Run false st ∧ Ev.shutCalled ∉ st.log ∧ st.dropped = false ∧ Ev.entered true ∈ st.log ∧ Ev.entered false ∉ st.log ∧
    Ev.called 'b' ∈ st.log ∧ ends 'b' st.log = [] := by
  have i := run_of_run (strict := false) [.enter, .enterDone true, .call 'a', .call 'b', .runJob] (.init : Run _ (init : St Char)) rfl
  exact ⟨_, i, by decide, rfl, by decide, by decide, by decide, by decide⟩

/-- A call that waits is cancelled by the shutdown and raises; one that ended before has its result. -/
example : (run false [.enter, .enterDone true, .call 'a', .call 'b', .runJob, .runJob, .done 'b' true, .shutdown, .cleaned true, .runJob, .done 'a' false,
    .waited false, .runJob, .clear, .call 'c'] (init : St Char)).map (fun st => st.log) =
  some [.threadStarted, .entered true, .called 'a', .called 'b', .ended 'b' true, .shutCalled, .ended 'a' false, .threadEnded, .shutDone true, .called 'c', .ended 'c' false] := by rfl

/-- That run is calm, so `C113_shut_down_partial` applies to it. -/
example : ∃ st : St Char, Calm st ∧ Ev.shutDone true ∈ st.log ∧ Ev.called 'a' ∈ st.log := by
  have i := (((((((((((Calm.init (K := Char)).step .enter rfl (by simp) (by simp) (by simp) (by simp) (by simp)).step (.enterDone true) rfl (by simp) (by simp) (by simp) (by simp) (by simp)).step
    (.call 'a') rfl (by simp) (by simp) (by simp) (by simp) (fun _ _ h => absurd h (by decide))).step .runJob rfl (by simp) (by simp) (by simp) (by simp) (by simp)).step .shutdown rfl (by simp) (by simp) (by simp) (fun _ => rfl) (by simp)).step
    (.cleaned true) rfl (by simp) (by simp) (by simp) (by simp) (by simp)).step .runJob rfl (by simp) (by simp) (by simp) (by simp) (by simp)).step (.done 'a' false) rfl (by simp) (by simp) (by simp) (by simp) (by simp)).step
    (.waited false) rfl (by simp) (by simp) (by simp) (by simp) (by simp)).step .runJob rfl (by simp) (by simp) (by simp) (by simp) (by simp)).step .clear rfl (by simp) (by simp) (by simp) (by simp) (by simp)
  exact ⟨_, i, by decide, by decide⟩

/-- Entering that fails; the thread runs, entering again returns, and a call raises. -/
example : (run false [.enter, .enterDone false, .enter, .call 'a'] (init : St Char)).map (fun st => (st.log, st.alive)) =
  some ([.threadStarted, .entered false, .entered true, .called 'a', .ended 'a' false], true) := by rfl

/-- Closing that fails, and a second `shutdown`. -/
example : (run false [.enter, .enterDone true, .shutdown, .cleaned false, .shutdown] (init : St Char)).map (fun st => (st.log, st.alive)) =
  some ([.threadStarted, .entered true, .shutCalled, .shutDone false, .shutCalled, .shutDone true], true) := by rfl

end Life
end Ez
