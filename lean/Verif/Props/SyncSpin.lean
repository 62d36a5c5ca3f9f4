import Verif.Model.SyncSpin
import Verif.Lemmas.Py

/-!
# C69: callbacks of the synchronous interface

Code which is not asynchronous subscribes with a callback and drives a `SyncContext` with `spin` or
`spin_once`.  Messages reach the callback of their subscription once and in order, each is handed back
right after its callback, and nothing taken off a queue is lost when the context is shut down from a
callback or another thread while `spin` runs.  Shutting down from a callback which was called by
`spin_once` directly does lose messages: `C69_shutdown_in_callback_fails`.
-/

set_option linter.unusedSectionVars false
set_option linter.unusedSimpArgs false

namespace Ez
namespace Spin

variable {S V : Type} [DecidableEq S]

/-! ## What the log says -/

/-- The messages which reached the queue of `s`. -/
def arrivals (s : S) (l : List (Ev S V)) : List V :=
  l.filterMap (fun e => match e with
    | .arrived r (.msg v) => if r = s then some v else none
    | _ => none)

/-- The messages the callback of `s` was called with. -/
def calls (s : S) (l : List (Ev S V)) : List V :=
  l.filterMap (fun e => match e with
    | .called r v => if r = s then some v else none
    | _ => none)

/-- The messages the callback of `s` was called with or which were dropped without a call. -/
def handled (s : S) (l : List (Ev S V)) : List V :=
  l.filterMap (fun e => match e with
    | .called r v => if r = s then some v else none
    | .lost r v => if r = s then some v else none
    | _ => none)

/-- The messages of `s` in a list of messages. -/
def valsOf (s : S) (ms : List (S × V)) : List V :=
  ms.filterMap (fun p => if p.1 = s then some p.2 else none)

/-- The messages of `s` which `spin_once` has taken and not yet handed to the callback. -/
def heldOf (s : S) : Phase S V → List V
  | .idle => []
  | .recv ts => valsOf s (holding ts)
  | .disp rest _ => valsOf s rest
  | .calling _ _ rest _ => valsOf s rest

/-- The messages in a queue. -/
def goods (q : List (Item V)) : List V :=
  q.filterMap (fun i => match i with | .msg v => some v | _ => none)

/-- Is the driving thread outside `spin_once`? -/
def IsIdle : Phase S V → Prop
  | .idle => True
  | _ => False

/-- The way the context is meant to be used: nobody interrupts it, and it is shut down while `spin`
runs (from a callback or from another thread) or between two calls. -/
def Orderly (st : St S V) : Act S V → Prop
  | .interrupt => False
  | .callback o => o ≠ .interrupted ∧ (o = .stops → st.spinning = true)
  | .shutdown => st.spinning = true ∨ IsIdle st.phase
  | _ => True

/-- Every step of a run is of that kind. -/
def OrderlyRun (st : St S V) : List (Act S V) → Prop
  | [] => True
  | a :: as => Orderly st a ∧ OrderlyRun (step st a) as

/-! ## Lemmas about lists -/

theorem run_append (st : St S V) (as bs : List (Act S V)) : run st (as ++ bs) = run (run st as) bs := by
  induction as generalizing st with
  | nil => rfl
  | cons a as ih => simp only [List.cons_append, run, ih]

theorem OrderlyRun.append {st : St S V} {as bs : List (Act S V)} :
    OrderlyRun st (as ++ bs) ↔ OrderlyRun st as ∧ OrderlyRun (run st as) bs := by
  induction as generalizing st with
  | nil => simp [OrderlyRun, run]
  | cons a as ih => simp only [List.cons_append, OrderlyRun, run, ih, and_assoc]

@[simp] theorem arrivals_append (s : S) (l m : List (Ev S V)) :
    arrivals s (l ++ m) = arrivals s l ++ arrivals s m := List.filterMap_append ..

@[simp] theorem handled_append (s : S) (l m : List (Ev S V)) :
    handled s (l ++ m) = handled s l ++ handled s m := List.filterMap_append ..

@[simp] theorem calls_append (s : S) (l m : List (Ev S V)) :
    calls s (l ++ m) = calls s l ++ calls s m := List.filterMap_append ..

@[simp] theorem handled_lost (s : S) (ms : List (S × V)) :
    handled s (ms.map (fun p => .lost p.1 p.2)) = valsOf s ms := by
  induction ms with
  | nil => rfl
  | cons p ms ih =>
    rw [List.map_cons, handled, List.filterMap_cons, valsOf, List.filterMap_cons]
    rw [handled, valsOf] at ih
    rw [ih]

@[simp] theorem arrivals_lost (s : S) (ms : List (S × V)) :
    arrivals s (ms.map (fun p => .lost p.1 p.2)) = [] := by
  induction ms with
  | nil => rfl
  | cons p ms ih =>
    rw [List.map_cons, arrivals, List.filterMap_cons]
    exact ih

theorem valsOf_cons (s : S) (p : S × V) (ms : List (S × V)) :
    valsOf s (p :: ms) = (if p.1 = s then [p.2] else []) ++ valsOf s ms := by
  rw [valsOf, List.filterMap_cons]
  split
  · rename_i h
    split at h
    · simp at h
    · rename_i hn; simp [hn, valsOf]
  · rename_i h
    split at h
    · rename_i hn; simp only [Option.some.injEq] at h; simp [hn, h, valsOf]
    · simp at h

theorem valsOf_eq_nil {s : S} {ms : List (S × V)} (h : s ∉ ms.map Prod.fst) : valsOf s ms = [] := by
  induction ms with
  | nil => rfl
  | cons p ms ih =>
    simp only [List.map_cons, List.mem_cons, not_or] at h
    rw [valsOf_cons, if_neg (fun e => h.1 e.symm), ih h.2]
    rfl

theorem holding_sublist (ts : List (S × Task V)) :
    ((holding ts).map Prod.fst).Sublist (ts.map Prod.fst) := by
  induction ts with
  | nil => exact List.Sublist.slnil
  | cons p ts ih =>
    obtain ⟨s, t⟩ := p
    cases t with
    | got v => exact ih.cons_cons s
    | fresh => exact ih.cons s
    | waiting => exact ih.cons s
    | failed => exact ih.cons s

theorem holding_fresh (l : List S) : holding (l.map (fun s => (s, (Task.fresh : Task V)))) = [] := by
  induction l with
  | nil => rfl
  | cons s l ih => exact ih

theorem runTask_keys (s : S) (q : List (Item V)) (ts : List (S × Task V)) :
    (runTask s q ts).1.map Prod.fst = ts.map Prod.fst := by
  induction ts with
  | nil => rfl
  | cons p ts ih =>
    obtain ⟨r, t⟩ := p
    rw [runTask]
    split
    · rfl
    · rw [List.map_cons, ih]; rfl

/-- What a task takes is the first message of the queue. -/
theorem fetch_spec (q : List (Item V)) :
    (match (fetch q).1 with | .got v => [v] | _ => []) ++ goods (fetch q).2 = goods q := by
  induction q with
  | nil => rfl
  | cons i q ih => cases i <;> first | rfl | exact ih

theorem holding_cons (r : S) (t : Task V) (ts : List (S × Task V)) :
    holding ((r, t) :: ts) = (match t with | .got v => [(r, v)] | _ => []) ++ holding ts := by
  cases t <;> rfl

theorem valsOf_append (s : S) (l m : List (S × V)) : valsOf s (l ++ m) = valsOf s l ++ valsOf s m :=
  List.filterMap_append ..

theorem runTask_same (s : S) (q : List (Item V)) {ts : List (S × Task V)} (hn : (ts.map Prod.fst).Nodup) :
    valsOf s (holding (runTask s q ts).1) ++ goods (runTask s q ts).2 = valsOf s (holding ts) ++ goods q := by
  induction ts with
  | nil => rfl
  | cons p ts ih =>
    obtain ⟨r, t⟩ := p
    rw [List.map_cons, List.nodup_cons] at hn
    rw [runTask]
    split
    · rename_i e
      subst e
      have h0 : valsOf r (holding ts) = [] :=
        valsOf_eq_nil (fun hm => hn.1 ((holding_sublist ts).subset hm))
      have hf := fetch_spec q
      rw [holding_cons, holding_cons, valsOf_append, valsOf_append, h0, List.append_nil, List.append_nil]
      cases t with
      | got v => rfl
      | failed => rfl
      | fresh =>
        rw [← hf, runOne]
        cases (fetch q).1 <;> simp [valsOf]
      | waiting =>
        rw [← hf, runOne]
        cases (fetch q).1 <;> simp [valsOf]
    · rename_i e
      rw [holding_cons, holding_cons, valsOf_append, valsOf_append, List.append_assoc, ih hn.2,
        List.append_assoc]

theorem runTask_other {s r : S} (hr : r ≠ s) (q : List (Item V)) (ts : List (S × Task V)) :
    valsOf r (holding (runTask s q ts).1) = valsOf r (holding ts) := by
  induction ts with
  | nil => rfl
  | cons p ts ih =>
    obtain ⟨x, t⟩ := p
    rw [runTask]
    split
    · rename_i e
      subst e
      have key : ∀ t' : Task V, valsOf r (holding ((x, t') :: ts)) = valsOf r (holding ts) := by
        intro t'
        rw [holding_cons, valsOf_append]
        cases t' <;> simp [valsOf, Ne.symm hr]
      rw [key, key]
    · rw [holding_cons, holding_cons, valsOf_append, valsOf_append, ih]

theorem pick_fst {ms : List (S × V)} {s : S} {p : S × V} (h : pick ms s = some p) : p.1 = s := by
  have := List.find?_some h
  simpa using this

theorem pick_cons (ms : List (S × V)) (p : S × V) (s : S) :
    pick (p :: ms) s = if p.1 = s then some p else pick ms s := by
  rw [pick, List.find?_cons]
  by_cases h : p.1 = s
  · simp [h]
  · simp [h, pick]

theorem valsOf_pick {ms : List (S × V)} (hn : (ms.map Prod.fst).Nodup) (s : S) :
    valsOf s ms = ((pick ms s).map Prod.snd).toList := by
  induction ms with
  | nil => rfl
  | cons p ms ih =>
    rw [List.map_cons, List.nodup_cons] at hn
    rw [valsOf_cons, pick_cons]
    by_cases h : p.1 = s
    · rw [if_pos h, if_pos h, valsOf_eq_nil (h ▸ hn.1)]
      rfl
    · rw [if_neg h, if_neg h, ih hn.2]
      rfl

theorem order_keys_sublist (ms : List (S × V)) (order : List S) :
    ((order.filterMap (pick ms)).map Prod.fst).Sublist order := by
  induction order with
  | nil => exact List.Sublist.slnil
  | cons s l ih =>
    rw [List.filterMap_cons]
    cases h : pick ms s with
    | none => exact ih.cons s
    | some p =>
      simp only [List.map_cons]
      rw [pick_fst h]
      exact ih.cons_cons s

theorem valsOf_order {ms : List (S × V)} (hn : (ms.map Prod.fst).Nodup) {order : List S}
    (ho : order.Nodup) (hs : ∀ p ∈ ms, p.1 ∈ order) (s : S) :
    valsOf s (order.filterMap (pick ms)) = valsOf s ms := by
  have key : ∀ l : List S, l.Nodup → valsOf s (l.filterMap (pick ms))
      = if s ∈ l then ((pick ms s).map Prod.snd).toList else [] := by
    intro l hl
    induction l with
    | nil => rfl
    | cons x l ih =>
      rw [List.nodup_cons] at hl
      rw [List.filterMap_cons]
      by_cases hx : x = s
      · subst hx
        have h0 := ih hl.2
        rw [if_neg hl.1] at h0
        cases hp : pick ms x with
        | none => simp [h0]
        | some p =>
          simp only [valsOf_cons, pick_fst hp, h0]
          simp
      · have h0 := ih hl.2
        cases hp : pick ms x with
        | none =>
          simp only [h0, List.mem_cons, Ne.symm hx, false_or]
        | some p =>
          simp only [valsOf_cons, pick_fst hp, h0, if_neg hx, List.mem_cons, Ne.symm hx, false_or,
            List.nil_append]
  rw [key order ho, valsOf_pick hn]
  split
  · rfl
  · rename_i h
    cases hp : pick ms s with
    | none => rfl
    | some p => exact absurd (pick_fst hp ▸ hs p (List.mem_of_find?_eq_some hp)) h

/-! ## The accounts -/

/-- The subscriptions `spin_once` works on. -/
def keysOf : Phase S V → List S
  | .idle => []
  | .recv ts => ts.map Prod.fst
  | .disp rest _ => rest.map Prod.fst
  | .calling s _ rest _ => s :: rest.map Prod.fst

/-- Everything that reached a queue is accounted for. -/
structure Inv (st : St S V) : Prop where
  subs : st.subs.Nodup
  keys : (keysOf st.phase).Nodup
  acct : ∀ s, arrivals s st.log = handled s st.log ++ (heldOf s st.phase ++ goods (st.queue s))

theorem Inv.same {st st' : St S V} (h : Inv st) (e1 : st'.subs = st.subs) (e2 : st'.phase = st.phase)
    (e3 : st'.queue = st.queue) (e4 : st'.log = st.log) : Inv st' :=
  ⟨e1 ▸ h.subs, e2 ▸ h.keys, by rw [e2, e3, e4]; exact h.acct⟩

theorem Inv.note {st : St S V} (h : Inv st) {es : List (Ev S V)}
    (ha : ∀ s, arrivals s es = []) (hh : ∀ s, handled s es = []) : Inv (note st es) :=
  ⟨h.subs, h.keys, by intro s; simp [Spin.note, ha, hh, h.acct s]⟩

theorem Inv.cancelRecv {st : St S V} (h : Inv st) : Inv (cancelRecv st) := by
  rw [Spin.cancelRecv]
  split
  · rename_i ts hp
    refine ⟨h.subs, by simp [Spin.note, keysOf], fun s => ?_⟩
    have := h.acct s
    rw [hp] at this
    simp [Spin.note, this, heldOf]
    simp [arrivals, handled]
  · exact h

theorem Inv.finalize {st : St S V} (h : Inv st) : Inv (finalize st) := by
  rw [Spin.finalize]
  split
  · exact h
  · exact (Inv.cancelRecv (st := { st with closed := true }) (h.same rfl rfl rfl rfl)).note
      (fun _ => rfl) (fun _ => rfl)

theorem Inv.shutdown {st : St S V} (h : Inv st) : Inv (shutdown st) := by
  rw [Spin.shutdown]
  split
  · exact h.same rfl rfl rfl rfl
  · exact Inv.finalize (h.same rfl rfl rfl rfl)

theorem Inv.leave {st : St S V} (h : Inv st) : Inv (leave st) := by
  rw [Spin.leave]
  split
  · exact (Inv.finalize (st := { st with requested := true, spinning := false })
      (h.same rfl rfl rfl rfl)).note (fun _ => rfl) (fun _ => rfl)
  · exact h

theorem keys_fresh (l : List S) : (l.map (fun s => (s, (Task.fresh : Task V)))).map Prod.fst = l := by
  rw [List.map_map]
  exact List.map_id l

theorem Inv.fresh {st : St S V} (h : Inv st) (hp : ∀ s, heldOf s st.phase = []) :
    Inv { st with phase := .recv (st.subs.map (fun s => (s, .fresh))) } := by
  refine ⟨h.subs, ?_, fun s => ?_⟩
  · show ((st.subs.map (fun s => (s, Task.fresh))).map Prod.fst).Nodup
    rw [keys_fresh]
    exact h.subs
  · have := h.acct s
    rw [hp s] at this
    show arrivals s st.log = handled s st.log ++ (valsOf s (holding _) ++ _)
    rw [this, holding_fresh]
    rfl

theorem Inv.begin {st : St S V} (h : Inv st) (hp : st.phase = .idle) : Inv (begin st) := by
  rw [Spin.begin]
  split
  · exact h.note (fun _ => rfl) (fun _ => rfl)
  · split
    · exact h.note (fun _ => rfl) (fun _ => rfl)
    · exact (h.fresh (by intro s; rw [hp]; rfl)).note (fun _ => rfl) (fun _ => rfl)

theorem Inv.idle {st : St S V} (h : Inv st) (hp : ∀ s, heldOf s st.phase = []) :
    Inv { st with phase := .idle } := by
  refine ⟨h.subs, by simp [keysOf], fun s => ?_⟩
  have := h.acct s
  rw [hp s] at this
  simpa [heldOf] using this

theorem Inv.step {st : St S V} (h : Inv st) (a : Act S V) : Inv (step st a) := by
  cases a with
  | subscribe s =>
    simp only [Spin.step]
    split
    · exact h.note (fun _ => rfl) (fun _ => rfl)
    · split
      · exact h
      · rename_i hs
        refine ⟨?_, h.keys, h.acct⟩
        rw [List.nodup_append]
        refine ⟨h.subs, by simp, ?_⟩
        intro a ha b hb
        rw [List.mem_singleton] at hb
        rintro rfl
        exact hs (hb ▸ ha)
  | arrive s i =>
    refine ⟨h.subs, h.keys, fun r => ?_⟩
    have hr := h.acct r
    simp only [Spin.step, Spin.note, arrivals_append, handled_append]
    rw [hr]
    have e0 : handled r [(Ev.arrived s i : Ev S V)] = [] := rfl
    rw [e0, List.append_nil]
    by_cases e : r = s
    · subst e
      rw [if_pos rfl]
      cases i <;> simp [arrivals, goods]
    · rw [if_neg e]
      cases i <;> simp [arrivals, Ne.symm e]
  | enter =>
    simp only [Spin.step]
    split
    · exact h.note (fun _ => rfl) (fun _ => rfl)
    · exact h
  | spin =>
    simp only [Spin.step]
    split
    · split
      · exact h
      · split
        · exact h.note (fun _ => rfl) (fun _ => rfl)
        · split
          · exact h.note (fun _ => rfl) (fun _ => rfl)
          · exact h.same rfl rfl rfl rfl
    · exact h
  | iter =>
    simp only [Spin.step]
    split
    · rename_i hp
      split
      · exact h
      · split
        · exact (Inv.finalize (st := { st with spinning := false }) (h.same rfl rfl rfl rfl)).note
            (fun _ => rfl) (fun _ => rfl)
        · exact h.begin hp
    · exact h
  | spinOnce =>
    simp only [Spin.step]
    split
    · rename_i hp
      split
      · exact h
      · split
        · exact h.note (fun _ => rfl) (fun _ => rfl)
        · exact h.begin hp
    · exact h
  | run s =>
    simp only [Spin.step]
    split
    · rename_i ts hp
      have hk := h.keys
      rw [hp] at hk
      refine ⟨h.subs, ?_, fun r => ?_⟩
      · show ((runTask s (st.queue s) ts).1.map Prod.fst).Nodup
        rw [runTask_keys]
        exact hk
      · have := h.acct r
        rw [hp] at this
        rw [this]
        show _ = _ ++ (valsOf r (holding (runTask s (st.queue s) ts).1) ++ goods (if r = s then _ else _))
        congr 1
        by_cases e : r = s
        · subst e
          rw [if_pos rfl, runTask_same r (st.queue r) hk]
          rfl
        · rw [if_neg e, runTask_other e]
          rfl
    · exact h
  | wake order expired =>
    simp only [Spin.step]
    split
    · rename_i ts hp
      have hk := h.keys
      rw [hp] at hk
      rw [Spin.wake]
      split
      · exact h
      · split
        · exact h
        · split
          · rename_i hz
            have h0 : ∀ s, heldOf s st.phase = [] := by
              intro s
              rw [hp]
              show valsOf s (holding ts) = []
              rw [hz]
              rfl
            split
            · exact (h.idle h0).note (fun _ => rfl) (fun _ => rfl)
            · exact h.fresh h0
          · split
            · rename_i ho
              have hn : ((holding ts).map Prod.fst).Nodup := (holding_sublist ts).nodup hk
              refine ⟨h.subs, ?_, fun s => ?_⟩
              · exact (order_keys_sublist _ _).nodup ho.2
              · have := h.acct s
                rw [hp] at this
                rw [this]
                show _ = _ ++ (valsOf s _ ++ _)
                rw [valsOf_order hn ho.2 ho.1]
                rfl
            · exact h
    · exact h
  | interrupt =>
    simp only [Spin.step]
    split
    · exact h.cancelRecv.leave
    · exact h
  | callback o =>
    simp only [Spin.step]
    split
    · rename_i s v rest b hp
      have key : Inv (Spin.note { st with phase := .calling s v rest (decide (o = .interrupted)) }
          [.called s v]) := by
        have hk := h.keys
        rw [hp] at hk
        refine ⟨h.subs, hk, fun r => ?_⟩
        have := h.acct r
        rw [hp] at this
        simp only [Spin.note, arrivals_append, handled_append]
        rw [this]
        show _ = _ ++ (valsOf r rest ++ _)
        show _ ++ (valsOf r ((s, v) :: rest) ++ _) ++ _ = _
        rw [valsOf_cons]
        by_cases e : s = r
        · subst e; simp [handled, arrivals]
        · simp [handled, arrivals, e]
      split
      · exact key.shutdown
      · exact key
    · exact h
  | release =>
    simp only [Spin.step]
    split
    · rename_i s v rest intr hp
      have hk := h.keys
      rw [hp] at hk
      have drop : ∀ pre : List (Ev S V), (∀ r, arrivals r pre = []) → (∀ r, handled r pre = []) →
          Inv (Spin.note { st with phase := .idle }
            (pre ++ rest.map (fun p => .lost p.1 p.2) ++ [.raised])) := by
        intro pre h1 h2
        refine ⟨h.subs, by simp [Spin.note, keysOf], fun r => ?_⟩
        have := h.acct r
        rw [hp] at this
        simp only [Spin.note, arrivals_append, handled_append, arrivals_lost, handled_lost, h1, h2]
        rw [this]
        simp [heldOf, arrivals, handled]
      split
      · exact drop [] (fun _ => rfl) (fun _ => rfl)
      · split
        · exact Inv.leave (drop [.released s v] (fun _ => rfl) (fun _ => rfl))
        · refine ⟨h.subs, (List.nodup_cons.1 hk).2, fun r => ?_⟩
          have := h.acct r
          rw [hp] at this
          simp only [Spin.note, arrivals_append, handled_append]
          rw [this]
          simp [heldOf, arrivals, handled]
    · exact h
  | finish =>
    simp only [Spin.step]
    split
    · rename_i b hp
      exact (h.idle (by intro s; rw [hp]; rfl)).note (fun _ => rfl) (fun _ => rfl)
    · exact h
  | shutdown => exact h.shutdown

theorem Inv.run {st : St S V} (h : Inv st) (as : List (Act S V)) : Inv (run st as) := by
  induction as generalizing st with
  | nil => exact h
  | cons a as ih => exact ih (h.step a)

theorem Inv.init : Inv ({} : St S V) := ⟨List.nodup_nil, List.nodup_nil, fun _ => rfl⟩

/-! ## Opening and closing -/

/-- Events which say nothing about the beginning and the end of calls. -/
def Quiet : Ev S V → Prop
  | .cleaned => False
  | .began => False
  | .spinEnded => False
  | _ => True

/-- The context is closed once; then nothing starts any more; `spin` ends only when it is closed. -/
structure Life (st : St S V) : Prop where
  off : st.closed = true → st.spinning = false ∧ st.requested = true
  asked : st.requested = true → st.closed = true ∨ st.spinning = true
  seen : st.closed = true ↔ .cleaned ∈ st.log
  last : ∀ pre post, st.log = pre ++ .cleaned :: post → .began ∉ post ∧ .cleaned ∉ post
  ends : ∀ pre post, st.log = pre ++ .spinEnded :: post → .cleaned ∈ pre

theorem split_snoc {α : Type} {l es pre post : List α} {x : α} (h : l ++ es = pre ++ x :: post) :
    (∃ m, l = pre ++ x :: m ∧ post = m ++ es) ∨ (∃ m, es = m ++ x :: post ∧ pre = l ++ m) := by
  rcases List.append_eq_append_iff.1 h with ⟨m, h1, h2⟩ | ⟨m, h1, h2⟩
  · exact .inr ⟨m, h2, h1⟩
  · cases m with
    | nil => exact .inr ⟨[], by simpa using h2.symm, by simpa using h1.symm⟩
    | cons y m =>
      simp only [List.cons_append, List.cons.injEq] at h2
      exact .inl ⟨m, by rw [h2.1]; exact h1, h2.2⟩

theorem Quiet.not_cleaned {es : List (Ev S V)} (h : ∀ e ∈ es, Quiet e) : .cleaned ∉ es :=
  fun hm => h _ hm

theorem Quiet.not_began {es : List (Ev S V)} (h : ∀ e ∈ es, Quiet e) : .began ∉ es :=
  fun hm => h _ hm

theorem Quiet.not_ended {es : List (Ev S V)} (h : ∀ e ∈ es, Quiet e) : .spinEnded ∉ es :=
  fun hm => h _ hm

theorem Life.quiet {st st' : St S V} (h : Life st) {es : List (Ev S V)} (hq : ∀ e ∈ es, Quiet e)
    (hl : st'.log = st.log ++ es) (h1 : st'.closed = st.closed) (h2 : st'.spinning = st.spinning)
    (h3 : st'.requested = st.requested) : Life st' := by
  refine ⟨by rw [h1, h2, h3]; exact h.off, by rw [h1, h2, h3]; exact h.asked, ?_, ?_, ?_⟩
  · rw [h1, hl, List.mem_append, h.seen]
    exact ⟨.inl, fun h => h.elim id (fun h => absurd h (Quiet.not_cleaned hq))⟩
  · intro pre post e
    rw [hl] at e
    rcases split_snoc e with ⟨m, e1, e2⟩ | ⟨m, e1, e2⟩
    · subst e2
      have := h.last _ _ e1
      simp only [List.mem_append, not_or]
      exact ⟨⟨this.1, Quiet.not_began hq⟩, this.2, Quiet.not_cleaned hq⟩
    · exact absurd (e1 ▸ (by simp : Ev.cleaned ∈ m ++ Ev.cleaned :: post)) (Quiet.not_cleaned hq)
  · intro pre post e
    rw [hl] at e
    rcases split_snoc e with ⟨m, e1, e2⟩ | ⟨m, e1, e2⟩
    · exact h.ends _ _ e1
    · exact absurd (e1 ▸ (by simp : Ev.spinEnded ∈ m ++ Ev.spinEnded :: post)) (Quiet.not_ended hq)

theorem Life.began {st st' : St S V} (h : Life st) {es : List (Ev S V)} (hq : ∀ e ∈ es, Quiet e)
    (hc : st.closed = false) (hl : st'.log = st.log ++ .began :: es)
    (h1 : st'.closed = st.closed) (h2 : st'.spinning = st.spinning)
    (h3 : st'.requested = st.requested) : Life st' := by
  have hn : .cleaned ∉ st.log := fun hm => by rw [h.seen.2 hm] at hc; cases hc
  have hne : .cleaned ∉ st.log ++ .began :: es := by
    simp only [List.mem_append, List.mem_cons, not_or]
    exact ⟨hn, by simp, Quiet.not_cleaned hq⟩
  refine ⟨by rw [h1, h2, h3]; exact h.off, by rw [h1, h2, h3]; exact h.asked, ?_, ?_, ?_⟩
  · rw [h1, hl, hc]
    exact Iff.intro (fun e => Bool.noConfusion e) (fun hm => absurd hm hne)
  · intro pre post e
    rw [hl] at e
    exact absurd (e ▸ (by simp : Ev.cleaned ∈ pre ++ Ev.cleaned :: post)) hne
  · intro pre post e
    rw [hl] at e
    rcases split_snoc e with ⟨m, e1, e2⟩ | ⟨m, e1, e2⟩
    · exact h.ends _ _ e1
    · cases m with
      | nil => simp at e1
      | cons y m =>
        simp only [List.cons_append, List.cons.injEq] at e1
        exact absurd (e1.2 ▸ (by simp : Ev.spinEnded ∈ m ++ Ev.spinEnded :: post)) (Quiet.not_ended hq)

theorem Life.ended {st : St S V} (h : Life st) (hc : st.closed = true) : Life (note st [.spinEnded]) := by
  refine ⟨h.off, h.asked, ?_, ?_, ?_⟩
  · simp only [Spin.note, List.mem_append]
    rw [← h.seen]
    simp [hc]
  · intro pre post e
    rcases split_snoc e with ⟨m, e1, e2⟩ | ⟨m, e1, e2⟩
    · subst e2
      have := h.last _ _ e1
      simp [this]
    · cases m with
      | nil => simp at e1
      | cons y m => simp at e1
  · intro pre post e
    rcases split_snoc e with ⟨m, e1, e2⟩ | ⟨m, e1, e2⟩
    · exact h.ends _ _ e1
    · rw [e2]
      exact List.mem_append_left _ (h.seen.1 hc)

theorem cancelRecv_fields (st : St S V) : (cancelRecv st).closed = st.closed
    ∧ (cancelRecv st).spinning = st.spinning ∧ (cancelRecv st).requested = st.requested
    ∧ ∃ es, (cancelRecv st).log = st.log ++ es ∧ ∀ e ∈ es, Quiet e := by
  rw [cancelRecv]
  split
  · refine ⟨rfl, rfl, rfl, _, rfl, ?_⟩
    intro e he
    simp only [List.mem_append, List.mem_map, List.mem_singleton] at he
    rcases he with ⟨p, _, rfl⟩ | rfl <;> trivial
  · exact ⟨rfl, rfl, rfl, [], by simp, by simp⟩

/-- Closing: allowed when the flags are set and `spin` does not run. -/
theorem Life.finalize {st st0 : St S V} (h : Life st0) (hl : st.log = st0.log) (h1 : st.closed = st0.closed)
    (h2 : st.spinning = false) (h3 : st.requested = true) :
    Life (finalize st) ∧ (finalize st).closed = true := by
  rw [Spin.finalize]
  split
  · rename_i hc
    exact ⟨⟨fun _ => ⟨h2, h3⟩, fun _ => .inl hc, by rw [h1, hl]; exact h.seen, by rw [hl]; exact h.last,
      by rw [hl]; exact h.ends⟩, hc⟩
  · rename_i hc
    obtain ⟨f1, f2, f3, es, f4, hq⟩ := cancelRecv_fields { st with closed := true }
    have hn : .cleaned ∉ st0.log := fun hm => hc (by rw [h1]; exact h.seen.2 hm)
    have hl' : (Spin.note (Spin.cancelRecv { st with closed := true }) [.cleaned]).log
        = (st0.log ++ es) ++ [.cleaned] := by
      show (Spin.cancelRecv _).log ++ _ = _
      rw [f4]
      show (st.log ++ es) ++ _ = _
      rw [hl]
    refine ⟨⟨fun _ => ⟨f2.trans h2, f3.trans h3⟩, fun _ => .inl f1, ?_, ?_, ?_⟩, f1⟩
    · rw [hl']
      exact ⟨fun _ => by simp, fun _ => f1⟩
    · intro pre post e
      rw [hl'] at e
      rcases split_snoc e with ⟨m, e1, e2⟩ | ⟨m, e1, e2⟩
      · refine absurd (e1 ▸ (by simp : Ev.cleaned ∈ pre ++ Ev.cleaned :: m) : Ev.cleaned ∈ st0.log ++ es) ?_
        simp only [List.mem_append, not_or]
        exact ⟨hn, Quiet.not_cleaned hq⟩
      · cases m with
        | nil =>
          simp only [List.nil_append, List.cons.injEq, true_and] at e1
          subst e1
          simp
        | cons y m => simp at e1
    · intro pre post e
      rw [hl'] at e
      rcases split_snoc e with ⟨m, e1, e2⟩ | ⟨m, e1, e2⟩
      · rcases split_snoc e1 with ⟨n, g1, g2⟩ | ⟨n, g1, g2⟩
        · exact h.ends _ _ g1
        · exact absurd (g1 ▸ (by simp : Ev.spinEnded ∈ n ++ Ev.spinEnded :: m)) (Quiet.not_ended hq)
      · cases m with
        | nil => simp at e1
        | cons y m => simp at e1

theorem Life.shutdown {st : St S V} (h : Life st) : Life (shutdown st) := by
  rw [Spin.shutdown]
  split
  · rename_i hs
    refine ⟨fun hc => ?_, fun _ => .inr hs, h.seen, h.last, h.ends⟩
    exact ⟨(h.off hc).1, rfl⟩
  · rename_i hs
    exact (Life.finalize (st := { st with requested := true }) h rfl rfl (by simpa using hs) rfl).1

theorem Life.leave {st : St S V} (h : Life st) : Life (leave st) := by
  rw [Spin.leave]
  split
  · have := Life.finalize (st := { st with requested := true, spinning := false }) h rfl rfl rfl rfl
    exact this.1.ended this.2
  · exact h

theorem Life.begin {st : St S V} (h : Life st) (hc : st.closed = false) : Life (begin st) := by
  rw [Spin.begin]
  split
  · exact h.began (es := [.returned false]) (by simp [Quiet]) hc rfl rfl rfl rfl
  · split
    · exact h.began (es := [.returned false]) (by simp [Quiet]) hc rfl rfl rfl rfl
    · exact h.began (es := []) (by simp) hc rfl rfl rfl rfl

theorem quiet_lost (ms : List (S × V)) : ∀ e ∈ ms.map (fun p => (Ev.lost p.1 p.2)), Quiet e := by
  intro e he
  simp only [List.mem_map] at he
  obtain ⟨p, _, rfl⟩ := he
  trivial

theorem Life.step {st : St S V} (h : Life st) (a : Act S V) : Life (step st a) := by
  cases a with
  | subscribe s =>
    simp only [Spin.step]
    split
    · exact h.quiet (es := [.refused]) (by simp [Quiet]) rfl rfl rfl rfl
    · split
      · exact h
      · exact h.quiet (es := []) (by simp) (by simp) rfl rfl rfl
  | arrive s i => exact h.quiet (es := [.arrived s i]) (by simp [Quiet]) rfl rfl rfl rfl
  | enter =>
    simp only [Spin.step]
    split
    · exact h.quiet (es := [.refused]) (by simp [Quiet]) rfl rfl rfl rfl
    · exact h
  | spin =>
    simp only [Spin.step]
    split
    · split
      · exact h
      · rename_i hs
        split
        · exact h.quiet (es := [.refused]) (by simp [Quiet]) rfl rfl rfl rfl
        · rename_i hc
          split
          · rename_i hr
            rcases h.asked hr with h1 | h1
            · exact absurd h1 hc
            · exact absurd h1 hs
          · rename_i hr
            exact ⟨fun h1 => absurd h1 hc, fun h1 => absurd h1 hr, h.seen, h.last, h.ends⟩
    · exact h
  | iter =>
    simp only [Spin.step]
    split
    · split
      · exact h
      · rename_i hs
        split
        · rename_i hr
          have := Life.finalize (st := { st with spinning := false }) h rfl rfl rfl hr
          exact this.1.ended this.2
        · refine h.begin ?_
          cases hc : st.closed with
          | false => rfl
          | true => rw [(h.off hc).1] at hs; simp at hs
    · exact h
  | spinOnce =>
    simp only [Spin.step]
    split
    · split
      · exact h
      · split
        · exact h.quiet (es := [.refused]) (by simp [Quiet]) rfl rfl rfl rfl
        · rename_i hc
          exact h.begin (by simpa using hc)
    · exact h
  | run s =>
    simp only [Spin.step]
    split
    · exact h.quiet (es := []) (by simp) (by simp) rfl rfl rfl
    · exact h
  | wake order expired =>
    simp only [Spin.step]
    split
    · rw [Spin.wake]
      split
      · exact h
      · split
        · exact h
        · split
          · split
            · exact h.quiet (es := [.returned false]) (by simp [Quiet]) rfl rfl rfl rfl
            · exact h.quiet (es := []) (by simp) (by simp) rfl rfl rfl
          · split
            · exact h.quiet (es := []) (by simp) (by simp) rfl rfl rfl
            · exact h
    · exact h
  | interrupt =>
    simp only [Spin.step]
    split
    · obtain ⟨f1, f2, f3, es, f4, hq⟩ := cancelRecv_fields st
      exact (h.quiet hq f4 f1 f2 f3).leave
    · exact h
  | callback o =>
    simp only [Spin.step]
    split
    · rename_i s v rest b hp
      have key : Life (Spin.note { st with phase := .calling s v rest (decide (o = .interrupted)) }
          [.called s v]) := h.quiet (es := [.called s v]) (by simp [Quiet]) rfl rfl rfl rfl
      split
      · exact key.shutdown
      · exact key
    · exact h
  | release =>
    simp only [Spin.step]
    split
    · rename_i s v rest intr hp
      split
      · refine h.quiet (es := rest.map (fun p => .lost p.1 p.2) ++ [.raised]) ?_ rfl rfl rfl rfl
        intro e he
        rcases List.mem_append.1 he with he | he
        · exact quiet_lost rest e he
        · rw [List.mem_singleton] at he; subst he; trivial
      · split
        · refine Life.leave (h.quiet (es := .released s v :: rest.map (fun p => .lost p.1 p.2) ++ [.raised])
            ?_ rfl rfl rfl rfl)
          intro e he
          rcases List.mem_append.1 he with he | he
          · rcases List.mem_cons.1 he with rfl | he
            · trivial
            · exact quiet_lost rest e he
          · rw [List.mem_singleton] at he; subst he; trivial
        · exact h.quiet (es := [.released s v]) (by simp [Quiet]) rfl rfl rfl rfl
    · exact h
  | finish =>
    simp only [Spin.step]
    split
    · rename_i b hp
      exact h.quiet (es := [.returned b]) (by simp [Quiet]) rfl rfl rfl rfl
    · exact h
  | shutdown => exact h.shutdown

theorem Life.run {st : St S V} (h : Life st) (as : List (Act S V)) : Life (run st as) := by
  induction as generalizing st with
  | nil => exact h
  | cons a as ih => exact ih (h.step a)

theorem Life.init : Life ({} : St S V) :=
  ⟨by simp, by simp, by simp, by simp, by simp⟩

/-! ## Orderly runs lose nothing -/

/-- While the context is used as it is meant to be. -/
structure Tidy (st : St S V) : Prop where
  none : ∀ s v, .lost s v ∉ st.log
  idle : st.closed = true → st.phase = .idle
  calm : ∀ s v rest b, st.phase = .calling s v rest b → b = false

theorem Tidy.keep {st st' : St S V} (h : Tidy st) {es : List (Ev S V)} (hl : st'.log = st.log ++ es)
    (hn : ∀ s v, .lost s v ∉ es) (hi : st'.closed = true → st'.phase = .idle)
    (hc : ∀ s v rest b, st'.phase = .calling s v rest b → b = false) : Tidy st' :=
  ⟨fun s v hm => by
    rw [hl, List.mem_append] at hm
    exact hm.elim (h.none s v) (hn s v), hi, hc⟩

theorem Tidy.same {st st' : St S V} (h : Tidy st) {es : List (Ev S V)} (hl : st'.log = st.log ++ es)
    (hn : ∀ s v, .lost s v ∉ es) (hc : st'.closed = st.closed) (hp : st'.phase = st.phase) : Tidy st' :=
  h.keep hl hn (by rw [hc, hp]; exact h.idle) (by rw [hp]; exact h.calm)

theorem Tidy.finalize {st : St S V} (h : Tidy st) (hp : st.phase = .idle) : Tidy (finalize st) := by
  rw [Spin.finalize]
  split
  · exact h
  · have e : Spin.cancelRecv { st with closed := true } = { st with closed := true } := by
      rw [Spin.cancelRecv]
      split
      · rename_i ts hts
        rw [show ({ st with closed := true } : St S V).phase = st.phase from rfl, hp] at hts
        cases hts
      · rfl
    rw [e]
    exact h.keep (es := [.cleaned]) rfl (by simp) (fun _ => hp) h.calm

theorem Tidy.begin {st : St S V} (h : Tidy st) (hc : st.closed = false) :
    Tidy (begin st) := by
  rw [Spin.begin]
  split
  · exact h.same (es := [.began, .returned false]) rfl (by simp) rfl rfl
  · split
    · exact h.same (es := [.began, .returned false]) rfl (by simp) rfl rfl
    · refine h.keep (es := [.began]) rfl (by simp) (fun h1 => ?_) (fun s v rest b h1 => ?_)
      · rw [show (Spin.note { st with phase := _ } _ : St S V).closed = st.closed from rfl, hc] at h1
        cases h1
      · cases h1

theorem Tidy.step {st : St S V} (h : Tidy st) (hl : Life st) (a : Act S V) (ho : Orderly st a) :
    Tidy (step st a) := by
  have open_ : st.phase ≠ .idle → st.closed = false := fun hne => by
    cases hc : st.closed with
    | false => rfl
    | true => exact absurd (h.idle hc) hne
  cases a with
  | subscribe s =>
    simp only [Spin.step]
    split
    · exact h.same (es := [.refused]) rfl (by simp) rfl rfl
    · split
      · exact h
      · exact h.same (es := []) (by simp) (by simp) rfl rfl
  | arrive s i => exact h.same (es := [.arrived s i]) rfl (by simp) rfl rfl
  | enter =>
    simp only [Spin.step]
    split
    · exact h.same (es := [.refused]) rfl (by simp) rfl rfl
    · exact h
  | spin =>
    simp only [Spin.step]
    split
    · split
      · exact h
      · split
        · exact h.same (es := [.refused]) rfl (by simp) rfl rfl
        · split
          · exact h.same (es := [.spinEnded]) rfl (by simp) rfl rfl
          · exact h.same (es := []) (by simp) (by simp) rfl rfl
    · exact h
  | iter =>
    simp only [Spin.step]
    split
    · rename_i hp
      split
      · exact h
      · rename_i hs
        split
        · have h1 : Tidy ({ st with spinning := false } : St S V) :=
            h.same (es := []) (by simp) (by simp) rfl rfl
          exact (h1.finalize hp).same (es := [.spinEnded]) rfl (by simp) rfl rfl
        · refine h.begin ?_
          cases hc : st.closed with
          | false => rfl
          | true => rw [(hl.off hc).1] at hs; simp at hs
    · exact h
  | spinOnce =>
    simp only [Spin.step]
    split
    · rename_i hp
      split
      · exact h
      · split
        · exact h.same (es := [.refused]) rfl (by simp) rfl rfl
        · rename_i hc
          exact h.begin (by simpa using hc)
    · exact h
  | run s =>
    simp only [Spin.step]
    split
    · rename_i ts hp
      have hc := open_ (by rw [hp]; simp)
      refine h.keep (es := []) (by simp) (by simp) (fun h1 => ?_) (fun s v rest b h1 => ?_)
      · exact absurd (hc ▸ h1 : false = true) (by simp)
      · cases h1
    · exact h
  | wake order expired =>
    simp only [Spin.step]
    split
    · rename_i ts hp
      have hc := open_ (by rw [hp]; simp)
      rw [Spin.wake]
      split
      · exact h
      · split
        · exact h
        · split
          · split
            · exact h.keep (es := [.returned false]) rfl (by simp) (fun _ => rfl) (fun s v rest b h1 => by cases h1)
            · exact h.keep (es := []) (by simp) (by simp)
                (fun h1 => absurd (hc ▸ h1 : false = true) (by simp)) (fun s v rest b h1 => by cases h1)
          · split
            · exact h.keep (es := []) (by simp) (by simp)
                (fun h1 => absurd (hc ▸ h1 : false = true) (by simp)) (fun s v rest b h1 => by cases h1)
            · exact h
    · exact h
  | interrupt => exact ho.elim
  | callback o =>
    simp only [Spin.step]
    split
    · rename_i s v rest b hp
      have hc := open_ (by rw [hp]; simp)
      have key : Tidy (Spin.note { st with phase := .calling s v rest (decide (o = .interrupted)) }
          [.called s v]) := by
        refine h.keep (es := [.called s v]) rfl (by simp)
          (fun h1 => absurd (hc ▸ h1 : false = true) (by simp)) (fun s' v' rest' b' h1 => ?_)
        simp only [Spin.note, Phase.calling.injEq] at h1
        rw [← h1.2.2.2]
        exact decide_eq_false ho.1
      split
      · rename_i e
        rw [Spin.shutdown]
        rw [if_pos (show (Spin.note { st with phase := _ } _ : St S V).spinning = true from ho.2 e)]
        exact key.same (es := []) (by simp) (by simp) rfl rfl
      · exact key
    · exact h
  | release =>
    simp only [Spin.step]
    split
    · rename_i s v rest intr hp
      have hc := open_ (by rw [hp]; simp)
      rw [if_neg (by simp [hc]), h.calm _ _ _ _ hp, if_neg (by simp)]
      exact h.keep (es := [.released s v]) rfl (by simp)
        (fun h1 => absurd (hc ▸ h1 : false = true) (by simp)) (fun s v rest b h1 => by cases h1)
    · exact h
  | finish =>
    simp only [Spin.step]
    split
    · rename_i b hp
      exact h.keep (es := [.returned b]) rfl (by simp) (fun _ => rfl) (fun s v rest b h1 => by cases h1)
    · exact h
  | shutdown =>
    simp only [Spin.step, Spin.shutdown]
    split
    · exact h.same (es := []) (by simp) (by simp) rfl rfl
    · rename_i hs
      rcases ho with ho | ho
      · exact absurd ho hs
      · refine Tidy.finalize (h.same (es := []) (by simp) (by simp) rfl rfl) ?_
        show st.phase = .idle
        cases hp : st.phase with
        | idle => rfl
        | recv _ => rw [hp] at ho; exact ho.elim
        | disp _ _ => rw [hp] at ho; exact ho.elim
        | calling _ _ _ _ => rw [hp] at ho; exact ho.elim

theorem Tidy.run {st : St S V} (h : Tidy st) (hl : Life st) (as : List (Act S V)) (ho : OrderlyRun st as) :
    Tidy (run st as) := by
  induction as generalizing st with
  | nil => exact h
  | cons a as ih => exact ih (h.step hl a ho.1) (hl.step a) ho.2

theorem Tidy.init : Tidy ({} : St S V) := ⟨by simp, by simp, by simp⟩

theorem handled_calls {s : S} {l : List (Ev S V)} (h : ∀ s v, .lost s v ∉ l) : handled s l = calls s l := by
  induction l with
  | nil => rfl
  | cons e l ih =>
    have := ih (fun s v hm => h s v (List.mem_cons_of_mem _ hm))
    rw [handled, calls, List.filterMap_cons, List.filterMap_cons]
    rw [handled, calls] at this
    rw [this]
    cases e with
    | lost r v => exact absurd List.mem_cons_self (h r v)
    | _ => rfl

/-! ## What a call of `spin_once` does -/

/-- The number of callbacks called since `spin_once` was last called. -/
def callsSince (l : List (Ev S V)) : Nat :=
  l.foldl (fun n e => match e with
    | .began => 0
    | .called _ _ => n + 1
    | _ => n) 0

/-- The number of times the callback of `s` was called since `spin_once` was last called. -/
def callsSinceOf (s : S) (l : List (Ev S V)) : Nat :=
  l.foldl (fun n e => match e with
    | .began => 0
    | .called r _ => if r = s then n + 1 else n
    | _ => n) 0

/-- The calls of callbacks and the releases. -/
def beats (l : List (Ev S V)) : List (Ev S V) :=
  l.filter (fun e => match e with
    | .called _ _ => true
    | .released _ _ => true
    | _ => false)

/-- A call of a callback followed by the release of its message. -/
def beat (p : S × V) : List (Ev S V) := [.called p.1 p.2, .released p.1 p.2]

/-- Events which are neither calls, releases, nor the beginning or end of `spin_once`. -/
def Aside : Ev S V → Prop
  | .called _ _ => False
  | .released _ _ => False
  | .began => False
  | .returned _ => False
  | _ => True

theorem aside_folds {es : List (Ev S V)} (h : ∀ e ∈ es, Aside e) (l : List (Ev S V)) :
    callsSince (l ++ es) = callsSince l ∧ (∀ s, callsSinceOf s (l ++ es) = callsSinceOf s l)
      ∧ beats (l ++ es) = beats l := by
  induction es generalizing l with
  | nil => simp
  | cons e es ih =>
    have h1 := ih (fun x hx => h x (List.mem_cons_of_mem _ hx)) (l ++ [e])
    have h2 := h e List.mem_cons_self
    rw [List.append_assoc, List.singleton_append] at h1
    refine ⟨h1.1.trans ?_, fun s => (h1.2.1 s).trans ?_, h1.2.2.trans ?_⟩
    · cases e <;> first | exact h2.elim | simp [callsSince]
    · cases e <;> first | exact h2.elim | simp [callsSinceOf]
    · cases e <;> first | exact h2.elim | simp [beats]

/-- What the log says while `spin_once` is in a phase. -/
def PhaseOk (closed : Bool) (log : List (Ev S V)) : Phase S V → Prop
  | .idle => ∃ (l : List (S × V)) (t : List (Ev S V)), beats log = l.flatMap beat ++ t ∧
      (t = [] ∨ closed = true ∧ ∃ s v, t = [.called s v])
  | .recv _ => callsSince log = 0 ∧ (∀ s, callsSinceOf s log = 0)
      ∧ ∃ l : List (S × V), beats log = l.flatMap beat
  | .disp rest b => (b = true ↔ 0 < callsSince log)
      ∧ (∀ s ∈ rest.map Prod.fst, callsSinceOf s log = 0)
      ∧ ∃ l : List (S × V), beats log = l.flatMap beat
  | .calling s v rest _ => 0 < callsSince log
      ∧ (∀ s ∈ rest.map Prod.fst, callsSinceOf s log = 0)
      ∧ ∃ l : List (S × V), beats log = l.flatMap beat ++ [.called s v]

/-- What the log says about the calls of `spin_once`. -/
structure Flow (st : St S V) : Prop where
  rets : ∀ pre b post, st.log = pre ++ .returned b :: post → (b = true ↔ 0 < callsSince pre)
  once : ∀ s, callsSinceOf s st.log ≤ 1
  phase : PhaseOk st.closed st.log st.phase

theorem PhaseOk.closing {c c' : Bool} {l : List (Ev S V)} {p : Phase S V} (h : PhaseOk c l p)
    (hc : c = true → c' = true) : PhaseOk c' l p := by
  cases p with
  | idle =>
    obtain ⟨m, t, h1, h2⟩ := h
    exact ⟨m, t, h1, h2.imp id (fun h => ⟨hc h.1, h.2⟩)⟩
  | recv ts => exact h
  | disp r b => exact h
  | calling s v r b => exact h

theorem PhaseOk.aside {c : Bool} {l es : List (Ev S V)} {p : Phase S V} (h : PhaseOk c l p)
    (ha : ∀ e ∈ es, Aside e) : PhaseOk c (l ++ es) p := by
  obtain ⟨h1, h2, h3⟩ := aside_folds ha l
  cases p <;> simp only [PhaseOk, h1, h2, h3] <;> exact h

theorem rets_append {l es : List (Ev S V)}
    (h : ∀ pre b post, l = pre ++ .returned b :: post → (b = true ↔ 0 < callsSince pre))
    (hes : ∀ m b post, es = m ++ .returned b :: post → (b = true ↔ 0 < callsSince (l ++ m))) :
    ∀ pre b post, l ++ es = pre ++ .returned b :: post → (b = true ↔ 0 < callsSince pre) := by
  intro pre b post e
  rcases split_snoc e with ⟨m, e1, _⟩ | ⟨m, e1, e2⟩
  · exact h _ _ _ e1
  · rw [e2]
    exact hes _ _ _ e1

theorem aside_no_ret {es m post : List (Ev S V)} {b : Bool} (ha : ∀ e ∈ es, Aside e)
    (e : es = m ++ .returned b :: post) : False :=
  ha (.returned b) (e ▸ (by simp : Ev.returned b ∈ m ++ Ev.returned b :: post))

/-- Steps which only add asides. -/
theorem Flow.aside {st st' : St S V} (h : Flow st) {es : List (Ev S V)} (ha : ∀ e ∈ es, Aside e)
    (hl : st'.log = st.log ++ es) (hp : PhaseOk st'.closed st.log st'.phase) : Flow st' := by
  obtain ⟨h1, h2, h3⟩ := aside_folds ha st.log
  refine ⟨?_, ?_, ?_⟩
  · rw [hl]
    exact rets_append h.rets (fun m b post e => (aside_no_ret ha e).elim)
  · intro s
    rw [hl, h2]
    exact h.once s
  · rw [hl]
    exact hp.aside ha

theorem aside_lost (ms : List (S × V)) : ∀ e ∈ ms.map (fun p => (Ev.lost p.1 p.2)) ++ [.raised], Aside e := by
  intro e he
  simp only [List.mem_append, List.mem_map, List.mem_singleton] at he
  rcases he with ⟨p, _, rfl⟩ | rfl <;> trivial

theorem Flow.cancelRecv {st : St S V} (h : Flow st) : Flow (cancelRecv st) := by
  rw [Spin.cancelRecv]
  split
  · rename_i ts hp
    refine h.aside (aside_lost (holding ts)) rfl ?_
    have := h.phase
    rw [hp] at this
    obtain ⟨_, _, l, hb⟩ := this
    exact ⟨l, [], by rw [hb, List.append_nil], .inl rfl⟩
  · exact h

theorem Flow.finalize {st : St S V} (h : Flow st) : Flow (finalize st) := by
  rw [Spin.finalize]
  split
  · exact h
  · have h1 : Flow ({ st with closed := true } : St S V) :=
      h.aside (es := []) (by simp) (by simp) (h.phase.closing (fun _ => rfl))
    exact h1.cancelRecv.aside (es := [.cleaned]) (by simp [Aside]) rfl h1.cancelRecv.phase

theorem Flow.shutdown {st : St S V} (h : Flow st) : Flow (shutdown st) := by
  rw [Spin.shutdown]
  have h1 : Flow ({ st with requested := true } : St S V) :=
    h.aside (es := []) (by simp) (by simp) h.phase
  split
  · exact h1
  · exact h1.finalize

theorem Flow.leave {st : St S V} (h : Flow st) : Flow (leave st) := by
  rw [Spin.leave]
  split
  · have h1 : Flow ({ st with requested := true, spinning := false } : St S V) :=
      h.aside (es := []) (by simp) (by simp) h.phase
    exact h1.finalize.aside (es := [.spinEnded]) (by simp [Aside]) rfl h1.finalize.phase
  · exact h

theorem callsSince_began (l : List (Ev S V)) : callsSince (l ++ [.began]) = 0 := by simp [callsSince]

theorem callsSinceOf_began (s : S) (l : List (Ev S V)) : callsSinceOf s (l ++ [.began]) = 0 := by
  simp [callsSinceOf]

theorem beats_began (l : List (Ev S V)) : beats (l ++ [.began]) = beats l := by simp [beats]

theorem cons_eq_snoc {α : Type} {x y : α} {m post : List α} (h : [x] = m ++ y :: post) : m = [] ∧ x = y := by
  cases m with
  | nil => simp only [List.nil_append, List.cons.injEq] at h; exact ⟨rfl, h.1⟩
  | cons z m => simp at h

theorem Flow.begin {st : St S V} (h : Flow st) (hp : st.phase = .idle) (hc : st.closed = false) :
    Flow (begin st) := by
  have hb := h.phase
  rw [hp] at hb
  obtain ⟨l, t, hb, ht⟩ := hb
  have ht : t = [] := ht.elim id (fun h => by rw [hc] at h; cases h.1)
  rw [ht, List.append_nil] at hb
  have hr0 : ∀ m b post, ([.began] : List (Ev S V)) = m ++ .returned b :: post →
      (b = true ↔ 0 < callsSince (st.log ++ m)) := fun m b post e => by cases (cons_eq_snoc e).2
  have quick : Flow (Spin.note st [.began, .returned false]) := by
    refine ⟨rets_append h.rets ?_, ?_, ?_⟩
    · intro m b post e
      cases m with
      | nil => simp at e
      | cons y m =>
        simp only [List.cons_append, List.cons.injEq] at e
        obtain ⟨rfl, e⟩ := e
        obtain ⟨rfl, e'⟩ := cons_eq_snoc e
        simp only [Ev.returned.injEq] at e'
        rw [← e', callsSince_began]
        simp
    · intro s
      show callsSinceOf s (st.log ++ _) ≤ 1
      simp [callsSinceOf]
    · show PhaseOk st.closed (st.log ++ _) st.phase
      rw [hp]
      exact ⟨l, [], by rw [List.append_nil, ← hb]; simp [beats], .inl rfl⟩
  rw [Spin.begin]
  split
  · exact quick
  · split
    · exact quick
    · refine ⟨rets_append h.rets hr0, ?_, ?_⟩
      · intro s
        show callsSinceOf s (st.log ++ [.began]) ≤ 1
        rw [callsSinceOf_began]
        exact Nat.zero_le 1
      · exact ⟨callsSince_began _, fun s => callsSinceOf_began s _, l, by
          show beats (st.log ++ [.began]) = _
          rw [beats_began, hb]⟩

theorem Flow.step {st : St S V} (h : Flow st) (hi : Inv st) (hl : Life st) (a : Act S V) : Flow (step st a) := by
  cases a with
  | subscribe s =>
    simp only [Spin.step]
    split
    · exact h.aside (es := [.refused]) (by simp [Aside]) rfl h.phase
    · split
      · exact h
      · exact h.aside (es := []) (by simp) (by simp) h.phase
  | arrive s i => exact h.aside (es := [.arrived s i]) (by simp [Aside]) rfl h.phase
  | enter =>
    simp only [Spin.step]
    split
    · exact h.aside (es := [.refused]) (by simp [Aside]) rfl h.phase
    · exact h
  | spin =>
    simp only [Spin.step]
    split
    · split
      · exact h
      · split
        · exact h.aside (es := [.refused]) (by simp [Aside]) rfl h.phase
        · split
          · exact h.aside (es := [.spinEnded]) (by simp [Aside]) rfl h.phase
          · exact h.aside (es := []) (by simp) (by simp) h.phase
    · exact h
  | iter =>
    simp only [Spin.step]
    split
    · rename_i hp
      split
      · exact h
      · rename_i hs
        split
        · have h1 : Flow ({ st with spinning := false } : St S V) :=
            h.aside (es := []) (by simp) (by simp) h.phase
          exact h1.finalize.aside (es := [.spinEnded]) (by simp [Aside]) rfl h1.finalize.phase
        · refine h.begin hp ?_
          cases hc : st.closed with
          | false => rfl
          | true => rw [(hl.off hc).1] at hs; simp at hs
    · exact h
  | spinOnce =>
    simp only [Spin.step]
    split
    · rename_i hp
      split
      · exact h
      · split
        · exact h.aside (es := [.refused]) (by simp [Aside]) rfl h.phase
        · rename_i hc
          exact h.begin hp (by simpa using hc)
    · exact h
  | run s =>
    simp only [Spin.step]
    split
    · rename_i ts hp
      refine h.aside (es := []) (by simp) (by simp) ?_
      have := h.phase
      rw [hp] at this
      exact this
    · exact h
  | wake order expired =>
    simp only [Spin.step]
    split
    · rename_i ts hp
      have hph := h.phase
      rw [hp] at hph
      obtain ⟨h1, h2, l, h3⟩ := hph
      rw [Spin.wake]
      split
      · exact h
      · split
        · exact h
        · split
          · split
            · refine ⟨rets_append h.rets ?_, ?_, ?_⟩
              · intro m b post e
                obtain ⟨rfl, e'⟩ := cons_eq_snoc e
                simp only [Ev.returned.injEq] at e'
                rw [← e', List.append_nil]
                show false = true ↔ 0 < callsSince st.log
                rw [h1]
                simp
              · intro s
                show callsSinceOf s (st.log ++ _) ≤ 1
                have := h.once s
                simpa [callsSinceOf] using this
              · refine ⟨l, [], ?_, .inl rfl⟩
                rw [List.append_nil, ← h3]
                show beats (st.log ++ _) = _
                simp [beats]
            · exact h.aside (es := []) (by simp) (by simp) ⟨h1, h2, l, h3⟩
          · split
            · refine h.aside (es := []) (by simp) (by simp) ⟨?_, fun s _ => h2 s, l, h3⟩
              rw [h1]
              simp
            · exact h
    · exact h
  | interrupt =>
    simp only [Spin.step]
    split
    · exact h.cancelRecv.leave
    · exact h
  | callback o =>
    simp only [Spin.step]
    split
    · rename_i s v rest b hp
      have hph := h.phase
      rw [hp] at hph
      obtain ⟨h1, h2, l, h3⟩ := hph
      have hk := hi.keys
      rw [hp] at hk
      have hk := (List.nodup_cons.1 hk).1
      have key : Flow (Spin.note { st with phase := .calling s v rest (decide (o = .interrupted)) }
          [.called s v]) := by
        refine ⟨rets_append h.rets ?_, ?_, ?_, ?_, l, ?_⟩
        · intro m b post e
          cases (cons_eq_snoc e).2
        · intro r
          show callsSinceOf r (st.log ++ [.called s v]) ≤ 1
          have e : callsSinceOf r (st.log ++ [.called s v])
              = if s = r then callsSinceOf r st.log + 1 else callsSinceOf r st.log := by
            simp [callsSinceOf]
          rw [e]
          split
          · rename_i hr
            rw [h2 r (by simp [hr])]
            exact Nat.le_refl 1
          · exact h.once r
        · show 0 < callsSince (st.log ++ [.called s v])
          simp [callsSince]
        · intro r hr
          show callsSinceOf r (st.log ++ [.called s v]) = 0
          have e : callsSinceOf r (st.log ++ [.called s v])
              = if s = r then callsSinceOf r st.log + 1 else callsSinceOf r st.log := by
            simp [callsSinceOf]
          rw [e, if_neg (fun e' : s = r => hk (e' ▸ hr))]
          exact h2 r (by simpa using .inr (by simpa using hr))
        · show beats (st.log ++ [.called s v]) = _
          rw [← h3]
          simp [beats]
      split
      · exact key.shutdown
      · exact key
    · exact h
  | release =>
    simp only [Spin.step]
    split
    · rename_i s v rest intr hp
      have hph := h.phase
      rw [hp] at hph
      obtain ⟨h1, h2, l, h3⟩ := hph
      have rel : ∀ p, PhaseOk st.closed (st.log ++ [.released s v]) p →
          Flow (Spin.note { st with phase := p } [.released s v]) := by
        intro p hph
        refine ⟨rets_append h.rets ?_, ?_, hph⟩
        · intro m b post e
          cases (cons_eq_snoc e).2
        · intro r
          show callsSinceOf r (st.log ++ _) ≤ 1
          have := h.once r
          simpa [callsSinceOf] using this
      have hb : beats (st.log ++ [.released s v]) = (l ++ [(s, v)]).flatMap beat := by
        have : beats (st.log ++ [.released s v]) = beats st.log ++ [.released s v] := by simp [beats]
        rw [this, h3]
        simp [beat]
      split
      · rename_i hc
        exact h.aside (aside_lost rest) rfl ⟨l, _, h3, .inr ⟨hc, s, v, rfl⟩⟩
      · split
        · have h4 := rel .idle ⟨l ++ [(s, v)], [], by rw [hb, List.append_nil], .inl rfl⟩
          refine Flow.leave (h4.aside (aside_lost rest) ?_ h4.phase)
          simp [Spin.note]
        · refine rel (.disp rest true) ⟨?_, ?_, _, hb⟩
          · have : callsSince (st.log ++ [.released s v]) = callsSince st.log := by simp [callsSince]
            rw [this]
            simp [h1]
          · intro r hr
            have : callsSinceOf r (st.log ++ [.released s v]) = callsSinceOf r st.log := by simp [callsSinceOf]
            rw [this]
            exact h2 r hr
    · exact h
  | finish =>
    simp only [Spin.step]
    split
    · rename_i b hp
      have hph := h.phase
      rw [hp] at hph
      obtain ⟨h1, h2, l, h3⟩ := hph
      refine ⟨rets_append h.rets ?_, ?_, ?_⟩
      · intro m b' post e
        obtain ⟨rfl, e'⟩ := cons_eq_snoc e
        simp only [Ev.returned.injEq] at e'
        rw [← e', List.append_nil]
        exact h1
      · intro s
        show callsSinceOf s (st.log ++ _) ≤ 1
        have := h.once s
        simpa [callsSinceOf] using this
      · refine ⟨l, [], ?_, .inl rfl⟩
        rw [List.append_nil, ← h3]
        show beats (st.log ++ _) = _
        simp [beats]
    · exact h
  | shutdown => exact h.shutdown

theorem Flow.run {st : St S V} (h : Flow st) (hi : Inv st) (hl : Life st) (as : List (Act S V)) :
    Flow (run st as) := by
  induction as generalizing st with
  | nil => exact h
  | cons a as ih => exact ih (h.step hi hl a) (hi.step a) (hl.step a)

theorem Flow.init : Flow ({} : St S V) :=
  ⟨by simp, by intro s; exact Nat.zero_le 1, [], [], rfl, .inl rfl⟩

/-! ## What is ready is handed over -/

/-- The first message of a queue, unless a notification before it fails. -/
def first : List (Item V) → Option V
  | [] => none
  | .stale :: q => first q
  | .miss :: _ => none
  | .msg v :: _ => some v

theorem fetch_first {q : List (Item V)} {v : V} (h : first q = some v) : (fetch q).1 = .got v := by
  induction q with
  | nil => cases h
  | cons i q ih =>
    cases i with
    | stale => exact ih h
    | miss => cases h
    | msg w => simp only [first, Option.some.injEq] at h; rw [← h]; rfl

theorem first_append {q : List (Item V)} {v : V} (h : first q = some v) (r : List (Item V)) :
    first (q ++ r) = some v := by
  induction q with
  | nil => cases h
  | cons i q ih =>
    cases i with
    | stale => exact ih h
    | miss => cases h
    | msg w => exact h

theorem mem_runTask {s : S} (q : List (Item V)) {ts : List (S × Task V)} (hn : (ts.map Prod.fst).Nodup)
    {t : Task V} (h : (s, t) ∈ ts) : (s, (runOne q t).1) ∈ (runTask s q ts).1 := by
  induction ts with
  | nil => cases h
  | cons p ts ih =>
    obtain ⟨r, t'⟩ := p
    rw [List.map_cons, List.nodup_cons] at hn
    rw [runTask]
    rcases List.mem_cons.1 h with e | h
    · simp only [Prod.mk.injEq] at e
      rw [if_pos e.1.symm, e.1, e.2]
      exact List.mem_cons_self
    · have hr : r ≠ s := fun e => hn.1 (List.mem_map.2 ⟨_, h, e.symm⟩)
      rw [if_neg hr]
      exact List.mem_cons_of_mem _ (ih hn.2 h)

theorem mem_runTask_other {s r : S} (hr : s ≠ r) (q : List (Item V)) {ts : List (S × Task V)}
    {t : Task V} (h : (s, t) ∈ ts) : (s, t) ∈ (runTask r q ts).1 := by
  induction ts with
  | nil => cases h
  | cons p ts ih =>
    obtain ⟨x, t'⟩ := p
    rw [runTask]
    rcases List.mem_cons.1 h with e | h
    · simp only [Prod.mk.injEq] at e
      rw [if_neg (fun h => hr (e.1.trans h)), e.1, e.2]
      exact List.mem_cons_self
    · split
      · exact List.mem_cons_of_mem _ h
      · exact List.mem_cons_of_mem _ (ih h)

theorem mem_holding {s : S} {v : V} {ts : List (S × Task V)} (h : (s, .got v) ∈ ts) : (s, v) ∈ holding ts := by
  induction ts with
  | nil => cases h
  | cons p ts ih =>
    obtain ⟨x, t'⟩ := p
    rw [holding_cons]
    rcases List.mem_cons.1 h with e | h
    · simp only [Prod.mk.injEq] at e
      rw [← e.1, ← e.2]
      exact List.mem_append_left _ (by simp)
    · exact List.mem_append_right _ (ih h)

theorem pick_of_mem {ms : List (S × V)} (hn : (ms.map Prod.fst).Nodup) {s : S} {v : V} (h : (s, v) ∈ ms) :
    pick ms s = some (s, v) := by
  induction ms with
  | nil => cases h
  | cons p ms ih =>
    rw [List.map_cons, List.nodup_cons] at hn
    rw [pick_cons]
    rcases List.mem_cons.1 h with e | h
    · rw [← e, if_pos rfl]
    · rw [if_neg (fun e => hn.1 (List.mem_map.2 ⟨_, h, e.symm⟩))]
      exact ih hn.2 h

/-- The message is on its way to the callback. -/
def OnWay (s : S) (v : V) (q : List (Item V)) : Phase S V → Prop
  | .idle => False
  | .recv ts => ((s, .fresh) ∈ ts ∧ first q = some v) ∨ (s, .got v) ∈ ts
  | .disp rest _ => (s, v) ∈ rest
  | .calling _ _ rest _ => (s, v) ∈ rest

/-- Since `log` the message has been handed over, or it is on its way and nothing was returned. -/
structure Serving (s : S) (v : V) (log : List (Ev S V)) (st : St S V) : Prop where
  seg : ∃ seg, st.log = log ++ seg ∧ (∀ pre b post, seg = pre ++ .returned b :: post → .called s v ∈ pre)
    ∧ (.called s v ∈ seg ∨ OnWay s v (st.queue s) st.phase)

theorem Serving.quiet {s : S} {v : V} {log : List (Ev S V)} {st st' : St S V} (h : Serving s v log st)
    {es : List (Ev S V)} (hl : st'.log = st.log ++ es) (hr : ∀ b, .returned b ∉ es)
    (hw : OnWay s v (st.queue s) st.phase → OnWay s v (st'.queue s) st'.phase ∨ .called s v ∈ es) :
    Serving s v log st' := by
  obtain ⟨seg, h1, h2, h3⟩ := h.seg
  refine ⟨seg ++ es, by rw [hl, h1, List.append_assoc], ?_, ?_⟩
  · intro pre b post e
    rcases split_snoc e with ⟨m, e1, _⟩ | ⟨m, e1, e2⟩
    · exact h2 _ _ _ e1
    · exact absurd (e1 ▸ (by simp : Ev.returned b ∈ m ++ Ev.returned b :: post)) (hr b)
  · rcases h3 with h3 | h3
    · exact .inl (List.mem_append_left _ h3)
    · rcases hw h3 with h4 | h4
      · exact .inr h4
      · exact .inl (List.mem_append_right _ h4)

theorem Serving.past {s : S} {v : V} {log : List (Ev S V)} {st st' : St S V} (h : Serving s v log st)
    {es : List (Ev S V)} (hl : st'.log = st.log ++ es)
    (hw : OnWay s v (st.queue s) st.phase → False) : Serving s v log st' := by
  obtain ⟨seg, h1, h2, h3⟩ := h.seg
  have h3 : .called s v ∈ seg := h3.elim id (fun h => (hw h).elim)
  refine ⟨seg ++ es, by rw [hl, h1, List.append_assoc], ?_, .inl (List.mem_append_left _ h3)⟩
  intro pre b post e
  rcases split_snoc e with ⟨m, e1, _⟩ | ⟨m, e1, e2⟩
  · exact h2 _ _ _ e1
  · rw [e2]
    exact List.mem_append_left _ h3

theorem finalize_log (st : St S V) : ∃ es, (finalize st).log = st.log ++ es := by
  rw [finalize]
  split
  · exact ⟨[], by simp⟩
  · obtain ⟨_, _, _, es, h, _⟩ := cancelRecv_fields { st with closed := true }
    exact ⟨es ++ [.cleaned], by
      show (cancelRecv _).log ++ _ = _
      rw [h, List.append_assoc]⟩

theorem begin_log (st : St S V) : ∃ es, (begin st).log = st.log ++ es := by
  rw [begin]
  split
  · exact ⟨_, rfl⟩
  · split
    · exact ⟨_, rfl⟩
    · exact ⟨_, rfl⟩

theorem Serving.step {s : S} {v : V} {log : List (Ev S V)} {st : St S V} (h : Serving s v log st)
    (hi : Inv st) (ht : Tidy st) (a : Act S V) (ho : Orderly st a) : Serving s v log (step st a) := by
  have open_ : st.phase ≠ .idle → st.closed = false := fun hne => by
    cases hc : st.closed with
    | false => rfl
    | true => exact absurd (ht.idle hc) hne
  cases a with
  | subscribe r =>
    simp only [Spin.step]
    split
    · exact h.quiet (es := [.refused]) rfl (by simp) .inl
    · split
      · exact h
      · exact h.quiet (es := []) (by simp) (by simp) .inl
  | arrive r i =>
    refine h.quiet (es := [.arrived r i]) rfl (by simp) (fun hw => .inl ?_)
    show OnWay s v (if s = r then st.queue r ++ [i] else st.queue s) st.phase
    split
    · rename_i e
      subst e
      cases hp : st.phase with
      | recv ts =>
        rw [hp] at hw
        rcases hw with hw | hw
        · exact .inl ⟨hw.1, first_append hw.2 _⟩
        · exact .inr hw
      | _ => rw [hp] at hw; exact hw
    · exact hw
  | enter =>
    simp only [Spin.step]
    split
    · exact h.quiet (es := [.refused]) rfl (by simp) .inl
    · exact h
  | spin =>
    simp only [Spin.step]
    split
    · split
      · exact h
      · split
        · exact h.quiet (es := [.refused]) rfl (by simp) .inl
        · split
          · exact h.quiet (es := [.spinEnded]) rfl (by simp) .inl
          · exact h.quiet (es := []) (by simp) (by simp) .inl
    · exact h
  | iter =>
    simp only [Spin.step]
    split
    · rename_i hp
      have hno : OnWay s v (st.queue s) st.phase → False := by rw [hp]; exact id
      split
      · exact h
      · split
        · obtain ⟨es, he⟩ := finalize_log ({ st with spinning := false } : St S V)
          exact h.past (es := es ++ [.spinEnded]) (by
            show (finalize _).log ++ _ = _
            rw [he, List.append_assoc]) hno
        · obtain ⟨es, he⟩ := begin_log st
          exact h.past he hno
    · exact h
  | spinOnce =>
    simp only [Spin.step]
    split
    · rename_i hp
      have hno : OnWay s v (st.queue s) st.phase → False := by rw [hp]; exact id
      split
      · exact h
      · split
        · exact h.quiet (es := [.refused]) rfl (by simp) .inl
        · obtain ⟨es, he⟩ := begin_log st
          exact h.past he hno
    · exact h
  | run r =>
    simp only [Spin.step]
    split
    · rename_i ts hp
      have hk := hi.keys
      rw [hp] at hk
      refine h.quiet (es := []) (by simp) (by simp) (fun hw => .inl ?_)
      rw [hp] at hw
      show OnWay s v (if s = r then _ else _) (.recv (runTask r (st.queue r) ts).1)
      by_cases e : s = r
      · subst e
        rcases hw with hw | hw
        · right
          have := mem_runTask (st.queue s) hk hw.1
          rw [runOne, fetch_first hw.2] at this
          exact this
        · right
          exact mem_runTask (st.queue s) hk hw
      · rw [if_neg e]
        rcases hw with hw | hw
        · exact .inl ⟨mem_runTask_other e _ hw.1, hw.2⟩
        · exact .inr (mem_runTask_other e _ hw)
    · exact h
  | wake order expired =>
    simp only [Spin.step]
    split
    · rename_i ts hp
      have hk := hi.keys
      rw [hp] at hk
      rw [Spin.wake]
      split
      · exact h
      · rename_i hf
        have hway : OnWay s v (st.queue s) st.phase → (s, v) ∈ holding ts := by
          rw [hp]
          rintro (hw | hw)
          · refine absurd ?_ hf
            rw [List.any_eq_true]
            exact ⟨_, hw.1, rfl⟩
          · exact mem_holding hw
        split
        · exact h
        · split
          · rename_i hz
            have hno : OnWay s v (st.queue s) st.phase → False := fun hw => by
              have := hway hw
              rw [hz] at this
              cases this
            split
            · exact h.past (es := [.returned false]) rfl hno
            · exact h.past (es := []) (by simp) hno
          · split
            · rename_i hord
              refine h.quiet (es := []) (by simp) (by simp) (fun hw => .inl ?_)
              have hm := hway hw
              have hn : ((holding ts).map Prod.fst).Nodup := (holding_sublist ts).nodup hk
              exact List.mem_filterMap.2 ⟨s, hord.1 _ hm, pick_of_mem hn hm⟩
            · exact h
    · exact h
  | interrupt => exact ho.elim
  | callback o =>
    simp only [Spin.step]
    split
    · rename_i r w rest b hp
      have key : Serving s v log (Spin.note { st with phase := .calling r w rest (decide (o = .interrupted)) }
          [.called r w]) := by
        refine h.quiet (es := [.called r w]) rfl (by simp) (fun hw => ?_)
        rw [hp] at hw
        rcases List.mem_cons.1 hw with e | hw
        · simp only [Prod.mk.injEq] at e
          right
          rw [e.1, e.2]
          exact List.mem_cons_self
        · exact .inl hw
      split
      · rename_i e
        rw [Spin.shutdown]
        rw [if_pos (show (Spin.note { st with phase := _ } _ : St S V).spinning = true from ho.2 e)]
        exact key.quiet (es := []) (by simp) (by simp) .inl
      · exact key
    · exact h
  | release =>
    simp only [Spin.step]
    split
    · rename_i r w rest intr hp
      have hc := open_ (by rw [hp]; simp)
      rw [if_neg (by simp [hc]), ht.calm _ _ _ _ hp, if_neg (by simp)]
      refine h.quiet (es := [.released r w]) rfl (by simp) (fun hw => .inl ?_)
      rw [hp] at hw
      exact hw
    · exact h
  | finish =>
    simp only [Spin.step]
    split
    · rename_i b hp
      refine h.past (es := [.returned b]) rfl ?_
      rw [hp]
      intro hw
      cases hw
    · exact h
  | shutdown =>
    simp only [Spin.step, Spin.shutdown]
    split
    · exact h.quiet (es := []) (by simp) (by simp) .inl
    · rename_i hs
      obtain ⟨es, he⟩ := finalize_log ({ st with requested := true } : St S V)
      refine h.past he ?_
      rcases ho with ho | ho
      · exact absurd ho hs
      · intro hw
        cases hp : st.phase with
        | idle => rw [hp] at hw; exact hw
        | recv _ => rw [hp] at ho; exact ho.elim
        | disp _ _ => rw [hp] at ho; exact ho.elim
        | calling _ _ _ _ => rw [hp] at ho; exact ho.elim

theorem Serving.run {s : S} {v : V} {log : List (Ev S V)} {st : St S V} (h : Serving s v log st)
    (hi : Inv st) (hl : Life st) (ht : Tidy st) (as : List (Act S V)) (ho : OrderlyRun st as) :
    Serving s v log (run st as) := by
  induction as generalizing st with
  | nil => exact h
  | cons a as ih => exact ih (h.step hi ht a ho.1) (hi.step a) (hl.step a) (ht.step hl a ho.1) ho.2

/-! ## A call of `spin_once` can always come to its end -/

/-- The steps of `spin_once` itself. -/
def Own : Act S V → Prop
  | .run _ => True
  | .wake _ _ => True
  | .callback o => o = .ok
  | .release => True
  | .finish => True
  | _ => False

theorem disp_returns (rest : List (S × V)) : ∀ (st : St S V) (b : Bool), st.phase = .disp rest b →
    ∃ as, (∀ a ∈ as, Own a) ∧ (run st as).phase = .idle := by
  induction rest with
  | nil =>
    intro st b hp
    refine ⟨[.finish], by simp [Own], ?_⟩
    simp only [run, step, hp, note]
  | cons p rest ih =>
    intro st b hp
    obtain ⟨s, v⟩ := p
    have e1 : (step st (.callback .ok)).phase = .calling s v rest false := by
      simp only [step, hp, note]
      simp
    have e2 : (step (step st (.callback .ok)) .release).phase = .idle
        ∨ (step (step st (.callback .ok)) .release).phase = .disp rest true := by
      generalize step st (.callback .ok) = st1 at e1
      simp only [step, e1]
      split
      · exact .inl rfl
      · exact .inr rfl
    rcases e2 with e2 | e2
    · exact ⟨[.callback .ok, .release], by simp [Own], e2⟩
    · obtain ⟨as, h1, h2⟩ := ih _ _ e2
      refine ⟨.callback .ok :: .release :: as, ?_, h2⟩
      intro a ha
      simp only [List.mem_cons] at ha
      rcases ha with rfl | rfl | ha
      · rfl
      · trivial
      · exact h1 a ha

theorem finalize_idle {st : St S V} (h : st.phase = .idle) : (finalize st).phase = .idle := by
  rw [finalize]
  split
  · exact h
  · rw [cancelRecv]
    split
    · rename_i ts hts
      rw [show ({ st with closed := true } : St S V).phase = st.phase from rfl, h] at hts
      cases hts
    · exact h

theorem leave_idle {st : St S V} (h : st.phase = .idle) : (leave st).phase = .idle := by
  rw [leave]
  split
  · exact finalize_idle (st := { st with requested := true, spinning := false }) h
  · exact h

theorem fetch_not_fresh (q : List (Item V)) : (fetch q).1.isFresh = false := by
  induction q with
  | nil => rfl
  | cons i q ih => cases i <;> first | rfl | exact ih

theorem runTask_fresh (s : S) (q : List (Item V)) (ts : List (S × Task V)) (hn : (ts.map Prod.fst).Nodup) :
    ∀ p ∈ (runTask s q ts).1, p.2.isFresh = true → p.1 ≠ s ∧ p ∈ ts := by
  induction ts with
  | nil => intro p hp; cases hp
  | cons x ts ih =>
    obtain ⟨r, t⟩ := x
    rw [List.map_cons, List.nodup_cons] at hn
    intro p hp hf
    rw [runTask] at hp
    split at hp
    · rename_i e
      rcases List.mem_cons.1 hp with rfl | hp
      · exfalso
        cases t with
        | fresh => rw [show (runOne q (.fresh : Task V)) = fetch q from rfl, fetch_not_fresh] at hf; cases hf
        | waiting => rw [show (runOne q (.waiting : Task V)) = fetch q from rfl, fetch_not_fresh] at hf; cases hf
        | got v => cases hf
        | failed => cases hf
      · exact ⟨fun h => hn.1 (List.mem_map.2 ⟨p, hp, h.trans e.symm⟩), List.mem_cons_of_mem _ hp⟩
    · rename_i e
      rcases List.mem_cons.1 hp with rfl | hp
      · exact ⟨e, List.mem_cons_self⟩
      · have := ih hn.2 p hp hf
        exact ⟨this.1, List.mem_cons_of_mem _ this.2⟩

theorem run_all (l : List S) : ∀ (st : St S V) (ts : List (S × Task V)), st.phase = .recv ts →
    (ts.map Prod.fst).Nodup → ∃ ts', (run st (l.map .run)).phase = .recv ts'
      ∧ ts'.map Prod.fst = ts.map Prod.fst
      ∧ ∀ p ∈ ts', p.2.isFresh = true → p.1 ∉ l ∧ p ∈ ts := by
  induction l with
  | nil =>
    intro st ts hp _
    exact ⟨ts, hp, rfl, fun p hp _ => ⟨by simp, hp⟩⟩
  | cons s l ih =>
    intro st ts hp hn
    have e1 : (step st (.run s)).phase = .recv (runTask s (st.queue s) ts).1 := by
      simp only [step, hp]
    have hk := runTask_keys s (st.queue s) ts
    obtain ⟨ts', h1, h2, h3⟩ := ih _ _ e1 (by rw [hk]; exact hn)
    refine ⟨ts', h1, h2.trans hk, fun p hm hf => ?_⟩
    have h4 := h3 p hm hf
    have h5 := runTask_fresh s (st.queue s) ts hn p h4.2 hf
    simp only [List.mem_cons, not_or]
    exact ⟨⟨h5.1, h4.1⟩, h5.2⟩

theorem recv_returns {st : St S V} {ts : List (S × Task V)} (hp : st.phase = .recv ts)
    (hn : (ts.map Prod.fst).Nodup) : ∃ as, (∀ a ∈ as, Own a) ∧ (run st as).phase = .idle := by
  obtain ⟨ts', h1, h2, h3⟩ := run_all (ts.map Prod.fst) st ts hp hn
  have hf : ts'.any (fun p => p.2.isFresh) = false := by
    rw [List.any_eq_false]
    intro p hm hf
    have := h3 p hm hf
    exact this.1 (List.mem_map.2 ⟨p, this.2, rfl⟩)
  have hown : ∀ a ∈ (ts.map Prod.fst).map Act.run, Own (a : Act S V) := by
    intro a ha
    obtain ⟨s, _, rfl⟩ := List.mem_map.1 ha
    trivial
  have e1 : (step (run st ((ts.map Prod.fst).map .run)) (.wake (ts.map Prod.fst) true)).phase = .idle
      ∨ ∃ rest, (step (run st ((ts.map Prod.fst).map .run)) (.wake (ts.map Prod.fst) true)).phase
        = .disp rest false := by
    generalize run st ((ts.map Prod.fst).map .run) = st1 at h1
    simp only [step, h1]
    rw [wake, if_neg (by rw [hf]; simp), if_neg (by simp)]
    split
    · exact .inl rfl
    · rw [if_pos]
      · exact .inr ⟨_, rfl⟩
      · refine ⟨fun p hm => ?_, hn⟩
        rw [← h2]
        exact (holding_sublist ts').subset (List.mem_map.2 ⟨p, hm, rfl⟩)
  have join : ∀ as : List (Act S V), run st ((ts.map Prod.fst).map .run ++ .wake (ts.map Prod.fst) true :: as)
      = run (step (run st ((ts.map Prod.fst).map .run)) (.wake (ts.map Prod.fst) true)) as := by
    intro as
    rw [run_append]
    rfl
  rcases e1 with e1 | ⟨rest, e1⟩
  · refine ⟨_ ++ .wake (ts.map Prod.fst) true :: [], ?_, by rw [join]; exact e1⟩
    intro a ha
    simp only [List.mem_append, List.mem_singleton] at ha
    rcases ha with ha | rfl
    · exact hown a ha
    · trivial
  · obtain ⟨as, h4, h5⟩ := disp_returns rest _ _ e1
    refine ⟨_ ++ .wake (ts.map Prod.fst) true :: as, ?_, by rw [join]; exact h5⟩
    intro a ha
    simp only [List.mem_append, List.mem_cons] at ha
    rcases ha with ha | rfl | ha
    · exact hown a ha
    · trivial
    · exact h4 a ha

/-! ## The theorems -/

/-- **C69 (accounts).**  In every run: the messages which reached the queue of a subscription are, in
order, the ones its callback was called with or which were dropped, then the ones `spin_once` has just
taken, then the ones in the queue.  So no callback gets a message twice, out of order, or of another
subscription. -/
theorem C69_exact (as : List (Act S V)) (s : S) :
    arrivals s (run {} as).log
      = handled s (run {} as).log ++ (heldOf s (run {} as).phase ++ goods ((run {} as).queue s)) :=
  (Inv.init.run as).acct s

/-- **C69 (once and in order).**  In every run in which nobody interrupts the context and it is shut
down only while `spin` runs or between two calls: the callback of a subscription is called with exactly
the messages which reached its queue, in order, up to the ones still waiting; whenever `spin_once` is
not running, those are all in the queue.  Exceptions in callbacks do not change this.

Missing: see `C69_shutdown_in_callback_fails`. -/
theorem C69_once_in_order_partial (as : List (Act S V)) (ho : OrderlyRun {} as) (s : S) :
    arrivals s (run {} as).log
        = calls s (run {} as).log ++ (heldOf s (run {} as).phase ++ goods ((run {} as).queue s))
      ∧ ((run {} as).phase = .idle →
        arrivals s (run {} as).log = calls s (run {} as).log ++ goods ((run {} as).queue s)) := by
  have h1 := C69_exact as s
  rw [handled_calls (Tidy.init.run Life.init as ho).none] at h1
  refine ⟨h1, fun hp => ?_⟩
  rw [h1, hp]
  rfl

/-- **C69 (released).**  In every run calls of callbacks and releases alternate: each message is handed
back right after its callback, before the next callback, also if the callback raised.  Only the last
call can lack its release: while the callback runs, or if the context was closed meanwhile. -/
theorem C69_released (as : List (Act S V)) :
    ∃ (l : List (S × V)) (t : List (Ev S V)), beats (run {} as).log = l.flatMap beat ++ t ∧
      (t = [] ∨ ∃ s v, t = [.called s v] ∧
        ((run {} as).closed = true ∨ ∃ rest b, (run {} as).phase = .calling s v rest b)) := by
  have h := (Flow.init.run Inv.init Life.init as).phase
  generalize run ({} : St S V) as = st at h
  cases hp : st.phase with
  | idle =>
    rw [hp] at h
    obtain ⟨l, t, h1, h2⟩ := h
    refine ⟨l, t, h1, h2.imp id ?_⟩
    rintro ⟨hc, s, v, ht⟩
    exact ⟨s, v, ht, .inl hc⟩
  | recv ts =>
    rw [hp] at h
    obtain ⟨_, _, l, h1⟩ := h
    exact ⟨l, [], by rw [h1, List.append_nil], .inl rfl⟩
  | disp rest b =>
    rw [hp] at h
    obtain ⟨_, _, l, h1⟩ := h
    exact ⟨l, [], by rw [h1, List.append_nil], .inl rfl⟩
  | calling s v rest b =>
    rw [hp] at h
    obtain ⟨_, _, l, h1⟩ := h
    exact ⟨l, _, h1, .inr ⟨s, v, rfl, .inr ⟨rest, b, rfl⟩⟩⟩

/-- **C69 (return value).**  In every run `spin_once` returns `True` exactly if it called a callback. -/
theorem C69_return_value (as : List (Act S V)) (pre : List (Ev S V)) (b : Bool) (post : List (Ev S V))
    (h : (run {} as).log = pre ++ .returned b :: post) : b = true ↔ 0 < callsSince pre :=
  (Flow.init.run Inv.init Life.init as).rets pre b post h

/-- **C69 (fair).**  In every run, one call of `spin_once` calls the callback of a subscription at most
once. -/
theorem C69_one_each (as : List (Act S V)) (s : S) : callsSinceOf s (run {} as).log ≤ 1 :=
  (Flow.init.run Inv.init Life.init as).once s

/-- **C69 (served).**  If a message is at the head of the queue of a subscription when `spin_once` is
called, by other code or by `spin`, then its callback is called with it before that call returns,
whatever the timeout and whatever the other subscriptions receive. -/
theorem C69_ready_served_partial (before after : List (Act S V)) (a : Act S V) (s : S) (v : V)
    (ha : (a = .spinOnce ∧ (run ({} : St S V) before).spinning = false)
      ∨ (a = .iter ∧ (run ({} : St S V) before).spinning = true))
    (ho : OrderlyRun {} (before ++ a :: after)) (hp : (run ({} : St S V) before).phase = .idle)
    (hr : (run ({} : St S V) before).requested = false) (hs : s ∈ (run ({} : St S V) before).subs)
    (hq : first ((run ({} : St S V) before).queue s) = some v) :
    ∃ seg, (run {} (before ++ a :: after)).log = (run {} before).log ++ seg ∧
      ∀ pre b post, seg = pre ++ .returned b :: post → .called s v ∈ pre := by
  have ho2 := OrderlyRun.append.1 ho
  have hi := Inv.init.run before
  have hl := Life.init.run before
  have ht := Tidy.init.run Life.init before ho2.1
  have ho3 := ho2.2
  rw [run_append]
  generalize run ({} : St S V) before = st at *
  have hc : st.closed = false := by
    cases hc : st.closed with
    | false => rfl
    | true => rw [(hl.off hc).2] at hr; cases hr
  have hne : st.subs.isEmpty = false := by
    cases he : st.subs with
    | nil => rw [he] at hs; cases hs
    | cons x l => rfl
  have hb : begin st = note { st with phase := .recv (st.subs.map (fun s => (s, .fresh))) } [.began] := by
    rw [begin, if_neg (by simp [hr]), if_neg (by simp [hne])]
  have e1 : step st a = note { st with phase := .recv (st.subs.map (fun s => (s, .fresh))) } [.began] := by
    rcases ha with ⟨rfl, hsp⟩ | ⟨rfl, hsp⟩
    · simp only [step, hp]
      rw [if_neg (by simp [hsp]), if_neg (by simp [hc]), hb]
    · simp only [step, hp]
      rw [if_neg (by simp [hsp]), if_neg (by simp [hr]), hb]
  have hserv : Serving s v st.log (step st a) := by
    rw [e1]
    refine ⟨[.began], rfl, ?_, .inr (.inl ⟨List.mem_map.2 ⟨s, hs, rfl⟩, hq⟩)⟩
    intro pre b post e
    cases (cons_eq_snoc e).2
  obtain ⟨seg, h1, h2, _⟩ := (hserv.run (hi.step a) (hl.step a) (ht.step hl a ho3.1) after ho3.2).seg
  exact ⟨seg, h1, h2⟩

/-- **C69 (can return).**  From every reachable state `spin_once` can come to its end by its own steps
alone: no message, no other thread and no shutdown is needed. -/
theorem C69_can_return (before : List (Act S V)) :
    ∃ as : List (Act S V), (∀ a ∈ as, Own a) ∧ (run {} (before ++ as)).phase = .idle := by
  have hk := (Inv.init.run before).keys
  suffices h : ∃ as : List (Act S V), (∀ a ∈ as, Own a) ∧ (run (run {} before) as).phase = .idle by
    obtain ⟨as, h1, h2⟩ := h
    exact ⟨as, h1, by rw [run_append]; exact h2⟩
  generalize run ({} : St S V) before = st at hk
  cases hp : st.phase with
  | idle => exact ⟨[], by simp, hp⟩
  | recv ts =>
    rw [hp] at hk
    exact recv_returns hp hk
  | disp rest b => exact disp_returns rest st b hp
  | calling s v rest b =>
    have e2 : (step st .release).phase = .idle ∨ (step st .release).phase = .disp rest true := by
      simp only [step, hp]
      split
      · exact .inl rfl
      · split
        · exact .inl (leave_idle rfl)
        · exact .inr rfl
    rcases e2 with e2 | e2
    · exact ⟨[.release], by simp [Own], e2⟩
    · obtain ⟨as, h1, h2⟩ := disp_returns rest _ _ e2
      refine ⟨.release :: as, ?_, h2⟩
      intro a ha
      rcases List.mem_cons.1 ha with rfl | ha
      · trivial
      · exact h1 a ha

/-- **C69 (closing).**  In every run the context is closed at most once; afterwards no call of
`spin_once` begins; `spin` returns only after the context was closed. -/
theorem C69_closing (as : List (Act S V)) :
    (∀ pre post, (run {} as).log = pre ++ .cleaned :: post → .began ∉ post ∧ .cleaned ∉ post)
      ∧ (∀ pre post, (run {} as).log = pre ++ .spinEnded :: post → .cleaned ∈ pre) :=
  ⟨(Life.init.run as).last, (Life.init.run as).ends⟩

theorem step_requested {st : St S V} (hl : Life st) (hr : st.requested = true) (a : Act S V) :
    (step st a).requested = true ∧ ∃ es, (step st a).log = st.log ++ es ∧ .began ∉ es := by
  have fin : ∀ st : St S V, (finalize st).requested = st.requested
      ∧ ∃ es, (finalize st).log = st.log ++ es ∧ .began ∉ es := by
    intro st
    rw [finalize]
    split
    · exact ⟨rfl, [], by simp, by simp⟩
    · obtain ⟨_, _, h3, es, h4, h5⟩ := cancelRecv_fields { st with closed := true }
      refine ⟨h3, es ++ [.cleaned], ?_, ?_⟩
      · show (cancelRecv _).log ++ _ = _
        rw [h4, List.append_assoc]
      · simp only [List.mem_append, List.mem_singleton, not_or]
        exact ⟨Quiet.not_began h5, by simp⟩
  have shut : ∀ st : St S V, (shutdown st).requested = true
      ∧ ∃ es, (shutdown st).log = st.log ++ es ∧ .began ∉ es := by
    intro st
    rw [shutdown]
    split
    · exact ⟨rfl, [], by simp, by simp⟩
    · exact fin { st with requested := true }
  have lv : ∀ st : St S V, st.requested = true → (leave st).requested = true
      ∧ ∃ es, (leave st).log = st.log ++ es ∧ .began ∉ es := by
    intro st hr
    rw [leave]
    split
    · obtain ⟨h1, es, h2, h3⟩ := fin { st with requested := true, spinning := false }
      refine ⟨h1, es ++ [.spinEnded], ?_, ?_⟩
      · show (finalize _).log ++ _ = _
        rw [h2, List.append_assoc]
      · simp only [List.mem_append, List.mem_singleton, not_or]
        exact ⟨h3, by simp⟩
    · exact ⟨hr, [], by simp, by simp⟩
  have stay : ∃ es, st.log = st.log ++ es ∧ Ev.began ∉ es := ⟨[], by simp, by simp⟩
  cases a with
  | subscribe s =>
    simp only [step]
    split
    · exact ⟨hr, [.refused], rfl, by simp⟩
    · split
      · exact ⟨hr, stay⟩
      · exact ⟨hr, stay⟩
  | arrive s i => exact ⟨hr, [.arrived s i], rfl, by simp⟩
  | enter =>
    simp only [step]
    split
    · exact ⟨hr, [.refused], rfl, by simp⟩
    · exact ⟨hr, stay⟩
  | spin =>
    simp only [step]
    split
    · split
      · exact ⟨hr, stay⟩
      · split
        · exact ⟨hr, [.refused], rfl, by simp⟩
        · exact ⟨hr, [.spinEnded], rfl, by simp⟩
    · exact ⟨hr, stay⟩
  | iter =>
    simp only [step]
    split
    · split
      · exact ⟨hr, stay⟩
      · obtain ⟨h1, es, h2, h3⟩ := fin { st with spinning := false }
        refine ⟨h1.trans hr, es ++ [.spinEnded], ?_, ?_⟩
        · show (finalize _).log ++ _ = _
          rw [h2, List.append_assoc]
        · simp only [List.mem_append, List.mem_singleton, not_or]
          exact ⟨h3, by simp⟩
    · exact ⟨hr, stay⟩
  | spinOnce =>
    simp only [step]
    split
    · split
      · exact ⟨hr, stay⟩
      · rename_i hs
        rw [if_pos ((hl.asked hr).resolve_right hs)]
        exact ⟨hr, [.refused], rfl, by simp⟩
    · exact ⟨hr, stay⟩
  | run s =>
    simp only [step]
    split
    · exact ⟨hr, stay⟩
    · exact ⟨hr, stay⟩
  | wake order expired =>
    simp only [step]
    split
    · rw [wake]
      split
      · exact ⟨hr, stay⟩
      · split
        · exact ⟨hr, stay⟩
        · split
          · split
            · exact ⟨hr, [.returned false], rfl, by simp⟩
            · exact ⟨hr, stay⟩
          · split
            · exact ⟨hr, stay⟩
            · exact ⟨hr, stay⟩
    · exact ⟨hr, stay⟩
  | interrupt =>
    simp only [step]
    split
    · obtain ⟨_, _, h3, es, h4, h5⟩ := cancelRecv_fields st
      obtain ⟨g1, es', g2, g3⟩ := lv (cancelRecv st) (h3.trans hr)
      refine ⟨g1, es ++ es', by rw [g2, h4, List.append_assoc], ?_⟩
      simp only [List.mem_append, not_or]
      exact ⟨Quiet.not_began h5, g3⟩
    · exact ⟨hr, stay⟩
  | callback o =>
    simp only [step]
    split
    · rename_i s v rest b hp
      split
      · obtain ⟨h1, es, h2, h3⟩ := shut (note { st with phase := .calling s v rest (decide (o = .interrupted)) }
          [.called s v])
        refine ⟨h1, .called s v :: es, by rw [h2]; simp [note], ?_⟩
        simp only [List.mem_cons, not_or]
        exact ⟨by simp, h3⟩
      · exact ⟨hr, [.called s v], rfl, by simp⟩
    · exact ⟨hr, stay⟩
  | release =>
    simp only [step]
    split
    · rename_i s v rest intr hp
      split
      · exact ⟨hr, rest.map (fun p => .lost p.1 p.2) ++ [.raised], rfl, by simp⟩
      · split
        · obtain ⟨g1, es', g2, g3⟩ := lv (note { st with phase := .idle }
            (.released s v :: rest.map (fun p => .lost p.1 p.2) ++ [.raised])) hr
          refine ⟨g1, (.released s v :: rest.map (fun p => .lost p.1 p.2) ++ [.raised]) ++ es', ?_, ?_⟩
          · rw [g2, note, List.append_assoc]
          · rw [List.mem_append, not_or]
            exact ⟨by simp, g3⟩
        · exact ⟨hr, [.released s v], rfl, by simp⟩
    · exact ⟨hr, stay⟩
  | finish =>
    simp only [step]
    split
    · exact ⟨hr, [.returned _], rfl, by simp⟩
    · exact ⟨hr, stay⟩
  | shutdown => exact shut st

theorem run_requested {st : St S V} (hl : Life st) (hr : st.requested = true) (as : List (Act S V)) :
    ∃ es, (run st as).log = st.log ++ es ∧ .began ∉ es := by
  induction as generalizing st with
  | nil => exact ⟨[], by simp [run], by simp⟩
  | cons a as ih =>
    obtain ⟨h1, es, h2, h3⟩ := step_requested hl hr a
    obtain ⟨es', g1, g2⟩ := ih (hl.step a) h1
    refine ⟨es ++ es', ?_, ?_⟩
    · show (run (step st a) as).log = _
      rw [g1, h2, List.append_assoc]
    · simp only [List.mem_append, not_or]
      exact ⟨h3, g2⟩

/-- **C69 (shutdown).**  In every run: after `shutdown` was called, no further call of `spin_once` begins;
if `spin` is running, the head of its loop, which it reaches when the call in progress ends, closes the
context and leaves; otherwise the context is closed at once. -/
theorem C69_stops (before after : List (Act S V)) :
    (∃ es, (run {} (before ++ .shutdown :: after)).log = (run {} before).log ++ es ∧ .began ∉ es)
      ∧ ((run ({} : St S V) before).spinning = false →
          (run {} (before ++ [.shutdown]) : St S V).closed = true)
      ∧ ((run ({} : St S V) before).spinning = true → (run ({} : St S V) before).phase = .idle →
          (run {} (before ++ [.shutdown, .iter]) : St S V).closed = true
            ∧ (run {} (before ++ [.shutdown, .iter]) : St S V).spinning = false
            ∧ .spinEnded ∈ (run {} (before ++ [.shutdown, .iter]) : St S V).log) := by
  have hl := Life.init.run before
  simp only [run_append, run]
  generalize run ({} : St S V) before = st at hl
  refine ⟨?_, ?_, ?_⟩
  · have h1 : ∃ es, (step st .shutdown).log = st.log ++ es ∧ .began ∉ es := by
      simp only [step, shutdown]
      split
      · exact ⟨[], by simp, by simp⟩
      · rw [finalize]
        split
        · exact ⟨[], by simp, by simp⟩
        · obtain ⟨_, _, h3, es, h4, h5⟩ := cancelRecv_fields { st with requested := true, closed := true }
          refine ⟨es ++ [.cleaned], ?_, ?_⟩
          · show (cancelRecv _).log ++ _ = _
            rw [h4, List.append_assoc]
          · simp only [List.mem_append, List.mem_singleton, not_or]
            exact ⟨Quiet.not_began h5, by simp⟩
    have h2 : (step st .shutdown).requested = true := by
      simp only [step, shutdown]
      split
      · rfl
      · rw [finalize]
        split
        · rfl
        · exact (cancelRecv_fields { st with requested := true, closed := true }).2.2.1
    obtain ⟨es, h3, h4⟩ := h1
    obtain ⟨es', h5, h6⟩ := run_requested (hl.step .shutdown) h2 after
    refine ⟨es ++ es', by rw [h5, h3, List.append_assoc], ?_⟩
    simp only [List.mem_append, not_or]
    exact ⟨h4, h6⟩
  · intro hs
    have e1 : step st .shutdown = finalize { st with requested := true } := by
      simp only [step, shutdown]
      rw [if_neg (by simp [hs])]
    rw [e1]
    exact (Life.finalize (st := { st with requested := true }) hl rfl rfl hs rfl).2
  · intro hs hp
    have e1 : step st .shutdown = { st with requested := true } := by
      simp only [step, shutdown, hs]
      rfl
    have e2 : step { st with requested := true } .iter
        = note (finalize { st with requested := true, spinning := false }) [.spinEnded] := by
      simp only [step, hp]
      rw [if_neg (by simp [hs])]
      rfl
    rw [e1, e2]
    have := Life.finalize (st := { st with requested := true, spinning := false }) hl rfl rfl rfl rfl
    exact ⟨this.2, (this.1.off this.2).1, List.mem_append_right _ List.mem_cons_self⟩

/-! ## Examples, and what goes wrong -/

namespace Example

/-- Two subscriptions with a message each, and one call of `spin_once` up to the callbacks. -/
def both : List (Act Nat Char) :=
  [.subscribe 0, .subscribe 1, .arrive 0 .stale, .arrive 0 (.msg 'a'), .arrive 1 (.msg 'b'), .arrive 1 (.msg 'c')]

/-- `spin_once` takes the messages. -/
def take : List (Act Nat Char) := [.run 0, .run 1, .wake [1, 0] false]

/-- The callback of subscription 1 fails; both messages are handed over and handed back. -/
def whole : List (Act Nat Char) :=
  both ++ .spinOnce :: (take ++ [.callback .fails, .release, .callback .ok, .release, .finish])

theorem whole_orderly : OrderlyRun {} whole := by
  simp [whole, both, take, OrderlyRun, Orderly]

example : calls 0 (run {} whole).log = ['a'] ∧ calls 1 (run {} whole).log = ['b']
    ∧ goods ((run {} whole).queue 1) = ['c'] := by decide +kernel

example : arrivals 1 (run {} whole).log = calls 1 (run {} whole).log ++ goods ((run {} whole).queue 1) :=
  (C69_once_in_order_partial whole whole_orderly 1).2 (by rfl)

example : ∃ seg, (run {} whole).log = (run {} both).log ++ seg ∧
    ∀ pre b post, seg = pre ++ .returned b :: post → .called 1 'b' ∈ pre := by
  have h := whole_orderly
  rw [whole] at h ⊢
  exact C69_ready_served_partial both _ .spinOnce 1 'b' (.inl ⟨rfl, by decide +kernel⟩) h (by rfl)
    (by decide +kernel) (by decide +kernel) (by decide +kernel)

/-- `spin`, shut down from a callback: the other message is still handed over, then `spin` ends. -/
def stopped : List (Act Nat Char) :=
  both ++ .spin :: .iter :: (take ++ [.callback .stops, .release, .callback .ok, .release, .finish, .iter])

theorem stopped_orderly : OrderlyRun {} stopped := by
  simp only [stopped, both, take, List.cons_append, List.nil_append, OrderlyRun, Orderly, true_and, and_true]
  exact ⟨⟨by decide, fun _ => by decide +kernel⟩, by decide, fun h => by cases h⟩

example : calls 0 (run {} stopped).log = ['a'] ∧ calls 1 (run {} stopped).log = ['b']
    ∧ (run {} stopped).closed = true := by decide +kernel

/-- `spin_once` called by other code, shut down from the callback of subscription 1. -/
def broken : List (Act Nat Char) :=
  both ++ .spinOnce :: (take ++ [.callback .stops, .release])

/-- **C69 (negation).**  If a callback called by `spin_once` (not by `spin`) calls `shutdown()`, then
`spin_once` raises when it tries to hand the message back: the context's loop is already gone.  The
message of the other subscription, which `spin_once` had taken, reaches no callback, and neither message
is handed back. -/
theorem C69_shutdown_in_callback_fails :
    (∀ a ∈ broken, a ≠ .interrupt ∧ a ≠ .shutdown ∧ a ≠ .callback .interrupted)
      ∧ calls 0 (run {} broken).log = [] ∧ goods ((run {} broken).queue 0) = []
      ∧ arrivals 0 (run {} broken).log = ['a'] ∧ handled 0 (run {} broken).log = ['a']
      ∧ (beats (run {} broken).log).length = 1
      ∧ (run {} broken).log.getLast? = some .raised ∧ (run {} broken).phase = .idle := by
  refine ⟨?_, by decide +kernel, by decide +kernel, by decide +kernel, by decide +kernel,
    by decide +kernel, by rfl, by rfl⟩
  simp [broken, both, take]

end Example

end Spin
end Ez
