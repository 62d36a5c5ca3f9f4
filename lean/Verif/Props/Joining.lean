import Verif.Model.Joining
import Verif.Lemmas.Backpressure

/-!
# C64: channels that come and go during a broadcast

The specification looks only at the log of what happened: which channels joined and were removed, which calls
started, returned or raised, and what was written to whom.
-/

set_option linter.unusedSectionVars false
set_option linter.unusedSimpArgs false

namespace Ez
namespace Joining
variable {K V : Type} [DecidableEq K]

/-! ## Specification -/

/-- The channels connected after the given events, in the order they joined. -/
def conn (l : List (Ev K V)) : List K :=
  l.foldl (fun ks e => match e with
    | .joined k => ks ++ [k]
    | .removed k => ks.erase k
    | _ => ks) []

/-- A call starts or ends with this event. -/
def Ev.bound : Ev K V → Bool
  | .start _ _ => true
  | .finished _ _ => true
  | .raised _ _ => true
  | _ => false

/-- No call starts or ends in these events. -/
def Open (l : List (Ev K V)) : Prop := ∀ e ∈ l, e.bound = false

/-- A channel joins or is removed with this event. -/
def Ev.change : Ev K V → Bool
  | .joined _ => true
  | .removed _ => true
  | _ => false

def joins (l : List (Ev K V)) : Nat := l.countP (fun e => match e with | .joined _ => true | _ => false)
def removals (l : List (Ev K V)) : Nat := l.countP (fun e => match e with | .removed _ => true | _ => false)

/-- What was written, in order. -/
def sends (l : List (Ev K V)) : List (K × Nat × V) :=
  l.filterMap (fun e => match e with | .sent k m v => some (k, m, v) | _ => none)

/-- Number of calls that returned. -/
def done (l : List (Ev K V)) : Nat := l.countP (fun e => match e with | .finished _ _ => true | _ => false)

/-- No channel joins or is removed while a call is under way. -/
def Calm (l : List (Ev K V)) : Prop :=
  ∀ pre m v mid post, l = pre ++ .start m v :: mid ++ post → Open mid → ∀ e ∈ mid, e.change = false

/-! ## Lemmas about the log -/

theorem conn_snoc (l : List (Ev K V)) (e : Ev K V) :
    conn (l ++ [e]) = match e with
      | .joined k => conn l ++ [k]
      | .removed k => (conn l).erase k
      | _ => conn l := by
  simp only [conn, List.foldl_append, List.foldl_cons, List.foldl_nil]

theorem conn_calm {l : List (Ev K V)} (l' : List (Ev K V)) (h : ∀ e ∈ l', e.change = false) :
    conn (l ++ l') = conn l := by
  induction l' generalizing l with
  | nil => simp
  | cons e t ih =>
    have := ih (l := l ++ [e]) (fun e he => h e (by simp [he]))
    rw [List.append_assoc, List.singleton_append] at this
    rw [this, conn_snoc]
    have := h e (by simp)
    cases e <;> simp_all [Ev.change]

theorem Open.snoc {l : List (Ev K V)} {e : Ev K V} (h : Open l) (he : e.bound = false) : Open (l ++ [e]) := by
  intro x hx
  simp only [List.mem_append, List.mem_singleton] at hx
  rcases hx with hx | rfl
  · exact h x hx
  · exact he

/-- The events of the call under way are determined by the log. -/
theorem open_unique {pre mid pre' mid' : List (Ev K V)} {m m' : Nat} {v v' : V}
    (h : pre ++ .start m v :: mid = pre' ++ .start m' v' :: mid') (ho : Open mid) (ho' : Open mid') :
    pre = pre' ∧ m = m' ∧ v = v' ∧ mid = mid' := by
  rw [List.append_eq_append_iff] at h
  rcases h with ⟨a, rfl, h⟩ | ⟨a, rfl, h⟩
  · cases a with
    | nil => simp at h; exact ⟨by simp, h.1.1, h.1.2, h.2⟩
    | cons x t =>
      simp only [List.cons_append, List.cons.injEq] at h
      obtain ⟨rfl, rfl⟩ := h
      have := ho (.start m' v') (by simp)
      simp [Ev.bound] at this
  · cases a with
    | nil => simp at h; exact ⟨by simp, h.1.1.symm, h.1.2.symm, h.2.symm⟩
    | cons x t =>
      simp only [List.cons_append, List.cons.injEq] at h
      obtain ⟨rfl, rfl⟩ := h
      have := ho' (.start m v) (by simp)
      simp [Ev.bound] at this

/-- Splitting a log that grew by one event. -/
theorem split_snoc {l pre post : List (Ev K V)} {e x : Ev K V} (h : l ++ [e] = pre ++ x :: post) :
    (pre = l ∧ x = e ∧ post = []) ∨ ∃ post', post = post' ++ [e] ∧ l = pre ++ x :: post' := by
  rcases List.eq_nil_or_concat post with rfl | ⟨p, z, rfl⟩
  · have := List.append_inj' h rfl
    simp at this
    exact Or.inl ⟨this.1.symm, this.2.symm, rfl⟩
  · rw [List.concat_eq_append, ← List.cons_append, ← List.append_assoc] at h
    have := List.append_inj' h rfl
    simp at this
    exact Or.inr ⟨p, by simp [this.2], this.1⟩

/-! ## The invariant -/

/-- The call under way. -/
def CallOk (st : St K V) (c : Call K V) : Prop :=
  ∃ pre mid, st.log = pre ++ .start st.msgId c.v :: mid ∧ Open mid ∧
    sends mid = c.it.seen.map (fun k => (k, st.msgId, c.v)) ∧
    c.it.seen.Nodup ∧ (∀ k ∈ c.it.seen, k ∈ st.used) ∧
    c.it.size = (conn pre).length ∧ c.it.left + c.it.seen.length = c.it.size ∧
    (conn st.log).length + removals mid = c.it.size + joins mid ∧
    c.cur ∈ c.it.seen ∧
    ((∀ e ∈ mid, e.change = false) → c.it.seen <+: conn pre)

/-- A call that returned. -/
def FinOk (l : List (Ev K V)) : Prop :=
  ∀ pre post m v, l = pre ++ .finished m v :: post →
    m = done pre ∧ ∃ pre0 mid, pre = pre0 ++ .start m v :: mid ∧ Open mid ∧
      ((sends mid).map (·.1)).Nodup ∧ (∀ x ∈ sends mid, x.2 = (m, v)) ∧
      (∀ k ∈ conn pre, (k, m, v) ∈ sends mid) ∧
      ((∀ e ∈ mid, e.change = false) → sends mid = (conn pre0).map (fun k => (k, m, v)))

/-- A call that raised. -/
def RaiseOk (l : List (Ev K V)) : Prop :=
  ∀ pre post m v, l = pre ++ .raised m v :: post →
    m = done pre ∧ ∃ pre0 mid, pre = pre0 ++ .start m v :: mid ∧ Open mid ∧ ∃ e ∈ mid, e.change = true

def StartOk (l : List (Ev K V)) : Prop := ∀ pre post m v, l = pre ++ .start m v :: post → m = done pre

structure Inv (n : Nat) (st : St K V) : Prop where
  bp : st.bp.Inv
  len : st.bp.buffers.length = n
  chans : st.chans = conn st.log
  nodup : st.chans.Nodup
  used : ∀ k ∈ st.chans, k ∈ st.used
  dead : ∀ k ∈ st.dead, k ∈ st.used
  id : st.msgId = done st.log
  call : ∀ c, st.call = some c → CallOk st c
  fin : FinOk st.log
  rai : RaiseOk st.log
  sta : StartOk st.log

theorem FinOk.snoc {l : List (Ev K V)} {e : Ev K V} (h : FinOk l)
    (he : ∀ m v, e = .finished m v → m = done l ∧ ∃ pre0 mid, l = pre0 ++ .start m v :: mid ∧ Open mid ∧
      ((sends mid).map (·.1)).Nodup ∧ (∀ x ∈ sends mid, x.2 = (m, v)) ∧
      (∀ k ∈ conn l, (k, m, v) ∈ sends mid) ∧
      ((∀ e ∈ mid, e.change = false) → sends mid = (conn pre0).map (fun k => (k, m, v)))) : FinOk (l ++ [e]) := by
  intro pre post m v hs
  rcases split_snoc hs with ⟨rfl, rfl, _⟩ | ⟨p, _, hl⟩
  · exact he m v rfl
  · exact h pre p m v hl

theorem RaiseOk.snoc {l : List (Ev K V)} {e : Ev K V} (h : RaiseOk l)
    (he : ∀ m v, e = .raised m v →
      m = done l ∧ ∃ pre0 mid, l = pre0 ++ .start m v :: mid ∧ Open mid ∧ ∃ e ∈ mid, e.change = true) :
    RaiseOk (l ++ [e]) := by
  intro pre post m v hs
  rcases split_snoc hs with ⟨rfl, rfl, _⟩ | ⟨p, _, hl⟩
  · exact he m v rfl
  · exact h pre p m v hl

theorem StartOk.snoc {l : List (Ev K V)} {e : Ev K V} (h : StartOk l)
    (he : ∀ m v, e = .start m v → m = done l) : StartOk (l ++ [e]) := by
  intro pre post m v hs
  rcases split_snoc hs with ⟨rfl, rfl, _⟩ | ⟨p, _, hl⟩
  · exact he m v rfl
  · exact h pre p m v hl

theorem done_snoc (l : List (Ev K V)) (e : Ev K V) :
    done (l ++ [e]) = done l + (match e with | .finished _ _ => 1 | _ => 0) := by
  simp only [done, List.countP_append, List.countP_cons, List.countP_nil, Nat.zero_add]
  cases e <;> simp

theorem sends_snoc (l : List (Ev K V)) (e : Ev K V) :
    sends (l ++ [e]) = sends l ++ (match e with | .sent k m v => [(k, m, v)] | _ => []) := by
  simp only [sends, List.filterMap_append]
  cases e <;> simp

theorem joins_snoc (l : List (Ev K V)) (e : Ev K V) :
    joins (l ++ [e]) = joins l + (match e with | .joined _ => 1 | _ => 0) := by
  simp only [joins, List.countP_append, List.countP_cons, List.countP_nil, Nat.zero_add]
  cases e <;> simp

theorem removals_snoc (l : List (Ev K V)) (e : Ev K V) :
    removals (l ++ [e]) = removals l + (match e with | .removed _ => 1 | _ => 0) := by
  simp only [removals, List.countP_append, List.countP_cons, List.countP_nil, Nat.zero_add]
  cases e <;> simp

theorem no_change_counts {l : List (Ev K V)} (h : ∀ e ∈ l, e.change = false) : joins l = 0 ∧ removals l = 0 := by
  constructor
  · rw [joins, List.countP_eq_zero]
    intro e he
    have := h e he
    cases e <;> simp_all [Ev.change]
  · rw [removals, List.countP_eq_zero]
    intro e he
    have := h e he
    cases e <;> simp_all [Ev.change]

/-- The state of a call about to look at the head of its loop. -/
def Ready (st : St K V) (v : V) (it : Iter K) : Prop :=
  ∃ pre mid, st.log = pre ++ .start st.msgId v :: mid ∧ Open mid ∧
    sends mid = it.seen.map (fun k => (k, st.msgId, v)) ∧
    it.seen.Nodup ∧ (∀ k ∈ it.seen, k ∈ st.used) ∧
    it.size = (conn pre).length ∧ it.left + it.seen.length = it.size ∧
    (conn st.log).length + removals mid = it.size + joins mid ∧
    ((∀ e ∈ mid, e.change = false) → it.seen <+: conn pre)

theorem filter_prefix {l s : List K} (hn : l.Nodup) (h : s <+: l) :
    l.filter (fun k => decide (k ∉ s)) = l.drop s.length := by
  obtain ⟨t, rfl⟩ := h
  rw [List.filter_append, List.drop_left]
  rw [List.nodup_append] at hn
  have h1 : s.filter (fun k => decide (k ∉ s)) = [] := by
    rw [List.filter_eq_nil_iff]; simp
  have h2 : t.filter (fun k => decide (k ∉ s)) = t := by
    rw [List.filter_eq_self]
    intro a ha
    simp
    intro has
    exact hn.2.2 a has a ha rfl
  rw [h1, h2]; rfl

theorem inv_advance {n : Nat} {st : St K V} {v : V} {it : Iter K} (h : Inv n { st with call := none })
    (hr : Ready st v it) : Inv n (advance st v it) := by
  obtain ⟨pre, mid, hlog, ho, hs, hnd, hu, hsz, hleft, hlen, hpre⟩ := hr
  have hch : st.chans = conn st.log := h.chans
  have hid : st.msgId = done st.log := h.id
  have hfilter : (∀ e ∈ mid, e.change = false) → st.chans = conn pre ∧
      st.chans.filter (fun k => decide (k ∉ it.seen)) = (conn pre).drop it.seen.length := by
    intro hc
    have e : st.chans = conn pre := by
      rw [hch, hlog]
      rw [show (Ev.start st.msgId v :: mid) = [Ev.start st.msgId v] ++ mid from rfl, ← List.append_assoc,
        conn_calm mid hc, conn_snoc]
    refine ⟨e, ?_⟩
    rw [e]
    exact filter_prefix (by rw [← e]; exact h.nodup) (hpre hc)
  unfold advance
  split
  · -- visit
    rename_i k it' hn
    have hv : st.chans.length = it.size ∧ ∃ t, st.chans.filter (fun k => decide (k ∉ it.seen)) = k :: t ∧
        it.left ≠ 0 ∧ it' = { it with left := it.left - 1, seen := it.seen ++ [k] } := by
      unfold Iter.next at hn
      split at hn
      · cases hn
      · rename_i h1
        split at hn
        · cases hn
        · rename_i k' t h2
          split at hn
          · cases hn
          · cases hn
            exact ⟨Classical.byContradiction h1, t, h2, by assumption, rfl⟩
    obtain ⟨_, t, hf, hl0, rfl⟩ := hv
    have hk : k ∈ st.chans ∧ k ∉ it.seen := by
      have : k ∈ st.chans.filter (fun k => decide (k ∉ it.seen)) := by rw [hf]; simp
      simpa using this
    refine { bp := h.bp, len := h.len, chans := ?_, nodup := h.nodup, used := h.used, dead := h.dead, id := ?_,
             call := ?_, fin := ?_, rai := ?_, sta := ?_ }
    · show st.chans = _
      rw [conn_snoc]; exact hch
    · show st.msgId = _
      rw [done_snoc]; simpa using hid
    · intro c hc
      simp only [Option.some.injEq] at hc
      subst hc
      refine ⟨pre, mid ++ [.sent k st.msgId v], ?_, ho.snoc rfl, ?_, ?_, ?_, hsz, ?_, ?_, ?_, ?_⟩
      · show st.log ++ _ = _
        rw [hlog]; simp
      · rw [sends_snoc, hs]; simp
      · rw [List.nodup_append]
        refine ⟨hnd, by simp, ?_⟩
        intro a ha b hb hab
        simp at hb
        subst hb; subst hab
        exact hk.2 ha
      · intro x hx
        simp only [List.mem_append, List.mem_singleton] at hx
        rcases hx with hx | rfl
        · exact hu x hx
        · exact h.used _ hk.1
      · simp only [List.length_append, List.length_singleton]; omega
      · rw [joins_snoc, removals_snoc]
        show (conn (st.log ++ _)).length + _ = _
        rw [conn_snoc]
        simpa using hlen
      · simp
      · intro hc
        have hc' : ∀ e ∈ mid, e.change = false := fun e he => hc e (by simp [he])
        obtain ⟨e1, e2⟩ := hfilter hc'
        obtain ⟨t', ht'⟩ := hpre hc'
        rw [hf] at e2
        rw [← ht', List.drop_left] at e2
        exact ⟨t, by rw [← ht', ← e2]; simp⟩
    · exact FinOk.snoc h.fin (fun m v' e => by cases e)
    · exact RaiseOk.snoc h.rai (fun m v' e => by cases e)
    · exact StartOk.snoc h.sta (fun m v' e => by cases e)
  · -- stop
    rename_i hn
    have hv : st.chans.filter (fun k => decide (k ∉ it.seen)) = [] := by
      unfold Iter.next at hn
      split at hn
      · cases hn
      · split at hn
        · assumption
        · split at hn <;> cases hn
    refine { bp := h.bp, len := h.len, chans := ?_, nodup := h.nodup, used := h.used, dead := h.dead, id := ?_,
             call := ?_, fin := ?_, rai := ?_, sta := ?_ }
    · show st.chans = _
      rw [conn_snoc]; exact hch
    · show st.msgId + 1 = _
      rw [done_snoc]; simpa using hid
    · intro c hc; cases hc
    · refine FinOk.snoc h.fin ?_
      rintro m v' ⟨⟩
      refine ⟨hid, pre, mid, hlog, ho, ?_, ?_, ?_, ?_⟩
      · rw [hs]
        simpa [List.map_map, Function.comp_def] using hnd
      · intro x hx
        rw [hs] at hx
        simp only [List.mem_map] at hx
        obtain ⟨k, _, rfl⟩ := hx
        rfl
      · intro k hk
        rw [hs, List.mem_map]
        refine ⟨k, ?_, rfl⟩
        rw [← hch] at hk
        rw [List.filter_eq_nil_iff] at hv
        have := hv k hk
        simpa using this
      · intro hc
        obtain ⟨e1, e2⟩ := hfilter hc
        rw [hv] at e2
        obtain ⟨t, ht⟩ := hpre hc
        rw [← ht, List.drop_left] at e2
        rw [hs, ← ht, ← e2]
        simp
    · exact RaiseOk.snoc h.rai (fun m v' e => by cases e)
    · exact StartOk.snoc h.sta (fun m v' e => by cases e)
  · -- raise
    rename_i hn
    refine { bp := h.bp, len := h.len, chans := ?_, nodup := h.nodup, used := h.used, dead := h.dead, id := ?_,
             call := ?_, fin := ?_, rai := ?_, sta := ?_ }
    · show st.chans = _
      rw [conn_snoc]; exact hch
    · show st.msgId = _
      rw [done_snoc]; simpa using hid
    · intro c hc; cases hc
    · exact FinOk.snoc h.fin (fun m v' e => by cases e)
    · refine RaiseOk.snoc h.rai ?_
      rintro m v' ⟨⟩
      refine ⟨hid, pre, mid, hlog, ho, ?_⟩
      apply Classical.byContradiction
      intro hno
      have hc : ∀ e ∈ mid, e.change = false := by
        intro e he
        cases hec : e.change with
        | false => rfl
        | true => exact absurd ⟨e, he, hec⟩ hno
      obtain ⟨e1, e2⟩ := hfilter hc
      unfold Iter.next at hn
      rw [if_neg (by rw [e1, hsz]; simp)] at hn
      split at hn
      · cases hn
      · rename_i k t hf
        split at hn
        · rename_i h0
          rw [e2] at hf
          have : ((conn pre).drop it.seen.length).length = (k :: t).length := by rw [hf]
          simp only [List.length_drop, List.length_cons] at this
          omega
        · cases hn
    · exact StartOk.snoc h.sta (fun m v' e => by cases e)

theorem inv_init {n : Nat} : Inv n (init n : St K V) where
  bp := Backpressure.inv_init n
  len := by simp [init, Backpressure.init]
  chans := rfl
  nodup := List.nodup_nil
  used := by simp [init]
  dead := by simp [init]
  id := rfl
  call := by simp [init]
  fin := by intro pre post m v h; simp [init] at h
  rai := by intro pre post m v h; simp [init] at h
  sta := by intro pre post m v h; simp [init] at h

theorem CallOk.ready {st : St K V} {c : Call K V} (h : CallOk st c) : Ready st c.v c.it := by
  obtain ⟨pre, mid, h1, h2, h3, h4, h5, h6, h7, h8, _, h9⟩ := h
  exact ⟨pre, mid, h1, h2, h3, h4, h5, h6, h7, h8, h9⟩

theorem Inv.noCall {n : Nat} {st : St K V} (h : Inv n st) : Inv n { st with call := none } :=
  { h with call := by simp }

theorem inv_step {n : Nat} {st st' : St K V} {a : Act K V} (h : Inv n st) (hs : step n st a = some st') :
    Inv n st' := by
  cases a with
  | broadcast v =>
    simp only [step] at hs
    split at hs
    · rename_i hc _
      cases hs
      refine inv_advance (st := { st with log := st.log ++ [.start st.msgId v] }) ?_ ?_
      · exact { bp := h.bp, len := h.len, nodup := h.nodup, used := h.used, dead := h.dead
                chans := by show st.chans = _; rw [conn_snoc]; exact h.chans
                id := by show st.msgId = _; rw [done_snoc]; simpa using h.id
                call := by simp
                fin := h.fin.snoc (fun m v' e => by cases e)
                rai := h.rai.snoc (fun m v' e => by cases e)
                sta := h.sta.snoc (fun m v' e => by cases e; exact h.id) }
      · refine ⟨st.log, [], rfl, by intro e he; simp at he, rfl, List.nodup_nil, by simp, ?_, by simp, ?_, ?_⟩
        · show st.chans.length = _; rw [h.chans]
        · show (conn (st.log ++ _)).length + _ = st.chans.length + _
          rw [conn_snoc, h.chans]
          rfl
        · intro _; exact List.nil_prefix
    · cases hs
  | drained ok =>
    simp only [step] at hs
    split at hs
    · cases hs
    · rename_i c hc
      have hco := h.call c hc
      split at hs
      · split at hs
        · cases hs
        · rename_i bp hbp
          cases hs
          obtain ⟨b1, b2, _, _⟩ := Backpressure.lease_spec h.bp hbp
          refine inv_advance (st := { st with bp := bp }) ?_ hco.ready
          exact { h.noCall with bp := b1, len := by show bp.buffers.length = n; rw [b2, h.len] }
      · split at hs
        · cases hs
          exact inv_advance h.noCall hco.ready
        · cases hs
  | ack k m =>
    simp only [step] at hs
    split at hs
    · simp only [Option.map_eq_some_iff] at hs
      obtain ⟨bp, hbp, rfl⟩ := hs
      obtain ⟨b1, b2, _⟩ := Backpressure.free_spec h.bp hbp
      exact { h with bp := b1, len := by show bp.buffers.length = n; rw [b2, h.len]
                     call := fun c hc => h.call c hc }
    · cases hs
  | join k =>
    simp only [step] at hs
    split at hs
    · cases hs
    · rename_i hk
      cases hs
      refine { bp := h.bp, len := h.len, chans := ?_, nodup := ?_, used := ?_, dead := ?_, id := ?_,
               call := ?_, fin := ?_, rai := ?_, sta := ?_ }
      · show st.chans ++ [k] = _
        rw [conn_snoc, h.chans]
      · show (st.chans ++ [k]).Nodup
        rw [List.nodup_append]
        refine ⟨h.nodup, by simp, ?_⟩
        intro a ha b hb hab
        simp at hb
        subst hb; subst hab
        exact hk (h.used _ ha)
      · intro x hx
        simp only [List.mem_append, List.mem_singleton] at hx ⊢
        rcases hx with hx | rfl
        · exact Or.inl (h.used x hx)
        · exact Or.inr rfl
      · intro x hx
        simp only [List.mem_append]
        exact Or.inl (h.dead x hx)
      · show st.msgId = _
        rw [done_snoc]; simpa using h.id
      · intro c hc
        obtain ⟨pre, mid, h1, h2, h3, h4, h5, h6, h7, h8, h9, h10⟩ := h.call c hc
        refine ⟨pre, mid ++ [.joined k], ?_, h2.snoc rfl, ?_, h4, ?_, h6, h7, ?_, h9, ?_⟩
        · show st.log ++ _ = _
          rw [h1]; simp
        · rw [sends_snoc]; simpa using h3
        · intro x hx; simp only [List.mem_append]; exact Or.inl (h5 x hx)
        · show (conn (st.log ++ _)).length + _ = _
          rw [conn_snoc, joins_snoc, removals_snoc]
          simp only [List.length_append, List.length_singleton]
          omega
        · intro hc
          have := hc (.joined k) (by simp)
          simp [Ev.change] at this
      · exact h.fin.snoc (fun m v' e => by cases e)
      · exact h.rai.snoc (fun m v' e => by cases e)
      · exact h.sta.snoc (fun m v' e => by cases e)
  | hangup k =>
    simp only [step] at hs
    split at hs
    · cases hs
      exact { h with call := fun c hc => h.call c hc }
    · cases hs
  | eof k =>
    simp only [step] at hs
    split at hs
    · rename_i hk
      simp only [Option.map_eq_some_iff] at hs
      obtain ⟨bp, hbp, rfl⟩ := hs
      obtain ⟨b1, b2, _⟩ := Backpressure.free_spec h.bp hbp
      refine { h with bp := b1, len := by show bp.buffers.length = n; rw [b2, h.len]
                      dead := ?_, call := fun c hc => h.call c hc }
      intro x hx
      simp only [List.mem_append, List.mem_singleton] at hx
      rcases hx with hx | rfl
      · exact h.dead x hx
      · exact h.used _ hk.1
    · cases hs
  | remove k =>
    simp only [step] at hs
    split at hs
    · rename_i hk
      cases hs
      refine { bp := h.bp, len := h.len, chans := ?_, nodup := h.nodup.erase _, used := ?_, dead := h.dead, id := ?_,
               call := ?_, fin := ?_, rai := ?_, sta := ?_ }
      · show st.chans.erase k = _
        rw [conn_snoc, h.chans]
      · intro x hx
        exact h.used x (List.mem_of_mem_erase hx)
      · show st.msgId = _
        rw [done_snoc]; simpa using h.id
      · intro c hc
        obtain ⟨pre, mid, h1, h2, h3, h4, h5, h6, h7, h8, h9, h10⟩ := h.call c hc
        refine ⟨pre, mid ++ [.removed k], ?_, h2.snoc rfl, ?_, h4, h5, h6, h7, ?_, h9, ?_⟩
        · show st.log ++ _ = _
          rw [h1]; simp
        · rw [sends_snoc]; simpa using h3
        · show (conn (st.log ++ _)).length + _ = _
          rw [conn_snoc, joins_snoc, removals_snoc]
          have hk' : k ∈ conn st.log := by rw [← h.chans]; exact hk.1
          have : 0 < (conn st.log).length := List.length_pos_of_mem hk'
          simp only [List.length_erase_of_mem hk']
          omega
        · intro hc
          have := hc (.removed k) (by simp)
          simp [Ev.change] at this
      · exact h.fin.snoc (fun m v' e => by cases e)
      · exact h.rai.snoc (fun m v' e => by cases e)
      · exact h.sta.snoc (fun m v' e => by cases e)
    · cases hs

theorem Run.inv {n : Nat} {st : St K V} (h : Run n st) : Inv n st := by
  induction h with
  | init => exact inv_init
  | step _ hs ih => exact inv_step ih hs

/-! ## What holds of every run -/

/-- **C64.** A `broadcast` that returns has written its message, once, to every channel connected at that time, and
nothing else; its message id is the number of calls that returned before. -/
theorem C64_returned_is_complete {n : Nat} {st : St K V} (hr : Run n st) {pre post : List (Ev K V)} {m : Nat} {v : V}
    (h : st.log = pre ++ .finished m v :: post) :
    m = done pre ∧ ∃ pre0 mid, pre = pre0 ++ .start m v :: mid ∧ Open mid ∧
      ((sends mid).map (·.1)).Nodup ∧ (∀ x ∈ sends mid, x.2 = (m, v)) ∧ ∀ k ∈ conn pre, (k, m, v) ∈ sends mid := by
  obtain ⟨h1, pre0, mid, h2, h3, h4, h5, h6, _⟩ := hr.inv.fin pre post m v h
  exact ⟨h1, pre0, mid, h2, h3, h4, h5, h6⟩

/-- **C64.** A `broadcast` raises only if a channel joined or was removed since it started. -/
theorem C64_raises_only_if_changed {n : Nat} {st : St K V} (hr : Run n st) {pre post : List (Ev K V)} {m : Nat} {v : V}
    (h : st.log = pre ++ .raised m v :: post) :
    ∃ pre0 mid, pre = pre0 ++ .start m v :: mid ∧ Open mid ∧ ∃ e ∈ mid, e.change = true :=
  (hr.inv.rai pre post m v h).2

/-- **C64, what holds.** If no channel joins or is removed while a call is under way, no `broadcast` raises, and each
writes its message to exactly the channels connected when it started, once each. -/
theorem C64_undisturbed_partial {n : Nat} {st : St K V} (hr : Run n st) (hc : Calm st.log) :
    (∀ m v, .raised m v ∉ st.log) ∧
    ∀ pre post m v, st.log = pre ++ .finished m v :: post →
      m = done pre ∧ ∃ pre0 mid, pre = pre0 ++ .start m v :: mid ∧ Open mid ∧
        sends mid = (conn pre0).map (fun k => (k, m, v)) := by
  constructor
  · intro m v hm
    obtain ⟨pre, post, h⟩ := List.append_of_mem hm
    obtain ⟨pre0, mid, h1, h2, e, he, hch⟩ := C64_raises_only_if_changed hr h
    have := hc pre0 m v mid (.raised m v :: post) (by rw [h, h1]) h2 e he
    rw [hch] at this; cases this
  · intro pre post m v h
    obtain ⟨h1, pre0, mid, h2, h3, _, _, _, h4⟩ := hr.inv.fin pre post m v h
    exact ⟨h1, pre0, mid, h2, h3, h4 (hc pre0 m v mid (.finished m v :: post) (by rw [h, h2]) h3)⟩

/-! ## What goes wrong -/

theorem advance_raise (st : St K V) (v : V) (it : Iter K) (h : st.chans.length ≠ it.size) :
    advance st v it = { st with call := none, log := st.log ++ [.raised st.msgId v] } := by
  have : it.next st.chans = .raise := by unfold Iter.next; rw [if_pos h]
  unfold advance
  simp only [this]

/-- **C64 fails.** In every state in which the number of channels is not what it was when the `broadcast` under way
started, the call raises as soon as it resumes, and its message id will be used again. -/
theorem C64_raises_if_changed {n : Nat} {st st' : St K V} (hr : Run n st) {pre mid : List (Ev K V)} {m : Nat} {v : V}
    (hl : st.log = pre ++ .start m v :: mid) (ho : Open mid) (hcall : st.call.isSome)
    (hne : joins mid ≠ removals mid) {ok : Bool} (hs : step n st (.drained ok) = some st') :
    st'.log = st.log ++ [.raised m v] ∧ st'.call = none ∧ st'.msgId = m := by
  obtain ⟨c, hc⟩ := Option.isSome_iff_exists.1 hcall
  obtain ⟨pre1, mid1, h1, h2, h3, h4, h5, h6, h7, h8, h9, h10⟩ := hr.inv.call c hc
  rw [hl] at h1
  obtain ⟨rfl, rfl, rfl, rfl⟩ := open_unique h1 ho h2
  have hlen : st.chans.length ≠ c.it.size := by
    rw [hr.inv.chans]; omega
  simp only [step, hc] at hs
  split at hs
  · split at hs
    · cases hs
    · cases hs
      rw [advance_raise]
      · exact ⟨rfl, rfl, rfl⟩
      · exact hlen
  · split at hs
    · cases hs
      rw [advance_raise]
      · exact ⟨rfl, rfl, rfl⟩
      · exact hlen
    · cases hs

/-- **C64.** Message ids: a call that starts gets the number of calls that returned before, whatever calls raised. -/
theorem C64_ids {n : Nat} {st : St K V} (hr : Run n st) {pre post : List (Ev K V)} {m : Nat} {v : V}
    (h : st.log = pre ++ .start m v :: post) : m = done pre := hr.inv.sta pre post m v h

/-! ## Leases of channels that are gone -/

/-- Channel `k` was removed. -/
def Gone (st : St K V) (k : K) : Prop := k ∈ st.used ∧ k ∉ st.chans

/-- The steps from `st` to `st'`. -/
inductive Later (n : Nat) (st : St K V) : St K V → Prop where
  | refl : Later n st st
  | step {st' st'' : St K V} {a : Act K V} : Later n st st' → step n st' a = some st'' → Later n st st''

theorem Later.run {n : Nat} {st st' : St K V} (hr : Run n st) (h : Later n st st') : Run n st' := by
  induction h with
  | refl => exact hr
  | step _ hs ih => exact .step ih hs

/-- The log only grows. -/
theorem step_log {n : Nat} {st st' : St K V} {a : Act K V} (hs : step n st a = some st') : ∃ es, st'.log = st.log ++ es := by
  have hadv : ∀ (s : St K V) v it, (∃ es, s.log = st.log ++ es) → ∃ es, (advance s v it).log = st.log ++ es := by
    rintro s v it ⟨es, he⟩
    unfold advance
    split <;> exact ⟨es ++ [_], by rw [he, List.append_assoc]⟩
  cases a with
  | broadcast v =>
    simp only [step] at hs
    split at hs
    · cases hs; exact hadv _ _ _ ⟨_, rfl⟩
    · cases hs
  | drained ok =>
    simp only [step] at hs
    split at hs
    · cases hs
    · split at hs
      · split at hs
        · cases hs
        · cases hs; exact hadv _ _ _ ⟨[], by simp⟩
      · split at hs
        · cases hs; exact hadv _ _ _ ⟨[], by simp⟩
        · cases hs
  | ack k m =>
    simp only [step] at hs
    split at hs
    · simp only [Option.map_eq_some_iff] at hs
      obtain ⟨bp, _, rfl⟩ := hs
      exact ⟨[], by simp⟩
    · cases hs
  | join k =>
    simp only [step] at hs
    split at hs
    · cases hs
    · cases hs; exact ⟨_, rfl⟩
  | hangup k =>
    simp only [step] at hs
    split at hs
    · cases hs; exact ⟨[], by simp⟩
    · cases hs
  | eof k =>
    simp only [step] at hs
    split at hs
    · simp only [Option.map_eq_some_iff] at hs
      obtain ⟨bp, _, rfl⟩ := hs
      exact ⟨[], by simp⟩
    · cases hs
  | remove k =>
    simp only [step] at hs
    split at hs
    · cases hs; exact ⟨_, rfl⟩
    · cases hs

theorem advance_frame (st : St K V) (v : V) (it : Iter K) :
    (advance st v it).bp = st.bp ∧ (advance st v it).used = st.used ∧ (advance st v it).chans = st.chans ∧
      (advance st v it).dead = st.dead := by
  unfold advance
  split <;> exact ⟨rfl, rfl, rfl, rfl⟩

/-- A step keeps the leases of a channel that is gone. -/
theorem gone_step {n : Nat} {st st' : St K V} {a : Act K V} (hi : Inv n st) (hs : step n st a = some st') {k : K} {i : Nat}
    (hg : Gone st k) (hh : st.bp.Holds k i) : Gone st' k ∧ st'.bp.Holds k i := by
  cases a with
  | broadcast v =>
    simp only [step] at hs
    split at hs
    · cases hs
      obtain ⟨e1, e2, e3, _⟩ := advance_frame { st with log := st.log ++ [.start st.msgId v] } v
        { size := st.chans.length, left := st.chans.length, seen := [] }
      rw [Gone, e1, e2, e3]
      exact ⟨hg, hh⟩
    · cases hs
  | drained ok =>
    simp only [step] at hs
    split at hs
    · cases hs
    · rename_i c hc
      split at hs
      · split at hs
        · cases hs
        · rename_i bp hbp
          cases hs
          obtain ⟨_, _, _, b4⟩ := Backpressure.lease_spec hi.bp hbp
          obtain ⟨e1, e2, e3, _⟩ := advance_frame { st with bp := bp } c.v c.it
          rw [Gone, e1, e2, e3]
          exact ⟨hg, (b4 k i).2 (Or.inl hh)⟩
      · split at hs
        · cases hs
          obtain ⟨e1, e2, e3, _⟩ := advance_frame st c.v c.it
          rw [Gone, e1, e2, e3]
          exact ⟨hg, hh⟩
        · cases hs
  | ack k' m =>
    simp only [step] at hs
    split at hs
    · rename_i hk
      simp only [Option.map_eq_some_iff] at hs
      obtain ⟨bp, hbp, rfl⟩ := hs
      obtain ⟨_, _, b3⟩ := Backpressure.free_spec hi.bp hbp
      refine ⟨hg, (b3 k i).2 ⟨hh, ?_⟩⟩
      rintro ⟨rfl, _⟩
      exact hg.2 hk.1
    · cases hs
  | join k' =>
    simp only [step] at hs
    split at hs
    · cases hs
    · rename_i hk
      cases hs
      refine ⟨⟨?_, ?_⟩, hh⟩
      · simp only [List.mem_append]; exact Or.inl hg.1
      · simp only [List.mem_append, List.mem_singleton, not_or]
        refine ⟨hg.2, ?_⟩
        rintro rfl
        exact hk hg.1
  | hangup k' =>
    simp only [step] at hs
    split at hs
    · cases hs; exact ⟨hg, hh⟩
    · cases hs
  | eof k' =>
    simp only [step] at hs
    split at hs
    · rename_i hk
      simp only [Option.map_eq_some_iff] at hs
      obtain ⟨bp, hbp, rfl⟩ := hs
      obtain ⟨_, _, b3⟩ := Backpressure.free_spec hi.bp hbp
      refine ⟨hg, (b3 k i).2 ⟨hh, ?_⟩⟩
      rintro ⟨rfl, _⟩
      exact hg.2 hk.1
    · cases hs
  | remove k' =>
    simp only [step] at hs
    split at hs
    · cases hs
      exact ⟨⟨hg.1, fun hm => hg.2 (List.mem_of_mem_erase hm)⟩, hh⟩
    · cases hs

theorem exists_next_id {n i : Nat} (hi : i < n) (x : Nat) : ∃ y, x ≤ y ∧ y < x + n ∧ y % n = i := by
  have hn : 0 < n := by omega
  have hlt := Nat.mod_lt x hn
  have hd := Nat.div_add_mod x n
  rcases Nat.lt_or_ge i (x % n) with h | h
  rotate_left
  · refine ⟨n * (x / n) + i, by omega, by omega, ?_⟩
    rw [Nat.mul_add_mod, Nat.mod_eq_of_lt hi]
  · refine ⟨n * (x / n) + n + i, by omega, by omega, ?_⟩
    rw [Nat.add_assoc, Nat.mul_add_mod, Nat.add_mod_left, Nat.mod_eq_of_lt hi]

theorem leak_bound {n : Nat} {st st' : St K V} (hr : Run n st) {k : K} {i : Nat} (hg : Gone st k)
    (hh : st.bp.Holds k i) (hl : Later n st st') {y : Nat} (y1 : st.msgId ≤ y) (y2 : st.msgId = y → st.call = none)
    (y3 : y % n = i) : Gone st' k ∧ st'.bp.Holds k i ∧ st'.msgId ≤ y ∧ (st'.msgId = y → st'.call = none) := by
  have hin : i < n := by
    have := Backpressure.holds_lt hh
    rwa [hr.inv.len] at this
  induction hl with
  | refl => exact ⟨hg, hh, y1, y2⟩
  | @step s1 s2 a hl hs ih =>
    obtain ⟨g1, g2, g3, g4⟩ := ih
    have hr1 := hl.run hr
    obtain ⟨f1, f2⟩ := gone_step hr1.inv hs g1 g2
    refine ⟨f1, f2, ?_⟩
    have hnot : s1.bp.available i ≠ some true := by
      intro hav
      exact (Backpressure.available_iff hr1.inv.bp (by rw [hr1.inv.len]; exact hin)).1 hav k g2
    have hadv : ∀ (s : St K V) v it, s.msgId = s1.msgId → s1.msgId < y →
        (advance s v it).msgId ≤ y ∧ ((advance s v it).msgId = y → (advance s v it).call = none) := by
      intro s v it e hlt
      unfold advance
      split
      · simp only; exact ⟨by omega, by omega⟩
      · simp only; exact ⟨by omega, fun _ => trivial⟩
      · simp only; exact ⟨by omega, by omega⟩
    have hlt : s1.call ≠ none → s1.msgId < y := by
      intro hc
      rcases Nat.lt_or_ge s1.msgId y with h | h
      · exact h
      · exact absurd (g4 (by omega)) hc
    cases a with
    | broadcast v =>
      simp only [step] at hs
      split at hs
      · rename_i h1 h2
        cases hs
        refine hadv _ _ _ rfl ?_
        rcases Nat.lt_or_ge s1.msgId y with h | h
        · exact h
        · have : s1.msgId = y := by omega
          rw [this, y3] at h2
          exact absurd h2 hnot
      · cases hs
    | drained ok =>
      simp only [step] at hs
      split at hs
      · cases hs
      · rename_i c hc
        have := hlt (by rw [hc]; simp)
        split at hs
        · split at hs
          · cases hs
          · cases hs; exact hadv _ _ _ rfl this
        · split at hs
          · cases hs; exact hadv _ _ _ rfl this
          · cases hs
    | ack k' m =>
      simp only [step] at hs
      split at hs
      · simp only [Option.map_eq_some_iff] at hs
        obtain ⟨bp, _, rfl⟩ := hs
        exact ⟨g3, g4⟩
      · cases hs
    | join k' =>
      simp only [step] at hs
      split at hs
      · cases hs
      · cases hs; exact ⟨g3, g4⟩
    | hangup k' =>
      simp only [step] at hs
      split at hs
      · cases hs; exact ⟨g3, g4⟩
      · cases hs
    | eof k' =>
      simp only [step] at hs
      split at hs
      · simp only [Option.map_eq_some_iff] at hs
        obtain ⟨bp, _, rfl⟩ := hs
        exact ⟨g3, g4⟩
      · cases hs
    | remove k' =>
      simp only [step] at hs
      split at hs
      · cases hs; exact ⟨g3, g4⟩
      · cases hs
/-- **C64 fails.** If a channel that is gone holds a lease, the publisher is stuck for good: whatever happens from
then on, the lease stays, and at most `num_buffers` further calls return, fewer if none is under way. -/
theorem C64_leak_blocks {n : Nat} {st st' : St K V} (hr : Run n st) {k : K} {i : Nat} (hg : Gone st k)
    (hh : st.bp.Holds k i) (hl : Later n st st') :
    st'.bp.Holds k i ∧ done st'.log ≤ done st.log + n ∧ (st.call = none → done st'.log < done st.log + n) := by
  have hin : i < n := by
    have := Backpressure.holds_lt hh
    rwa [hr.inv.len] at this
  rw [← (hl.run hr).inv.id, ← hr.inv.id]
  obtain ⟨y, y1, y2, y3⟩ := exists_next_id hin (st.msgId + 1)
  obtain ⟨_, a1, a2, _⟩ := leak_bound hr hg hh hl (y := y) (by omega) (by omega) y3
  refine ⟨a1, by omega, fun hc => ?_⟩
  obtain ⟨z, z1, z2, z3⟩ := exists_next_id hin st.msgId
  obtain ⟨_, _, a3, _⟩ := leak_bound hr hg hh hl (y := z) z1 (fun _ => hc) z3
  omega

/-- Runs in which no lease is taken for a channel whose loss was already noticed. -/
inductive Orderly (n : Nat) : St K V → Prop where
  | init : Orderly n (init n)
  | step {st st' : St K V} {a : Act K V} : Orderly n st →
      (a = .drained true → ∀ c, st.call = some c → c.cur ∉ st.dead) → step n st a = some st' → Orderly n st'

theorem Orderly.run {n : Nat} {st : St K V} (h : Orderly n st) : Run n st := by
  induction h with
  | init => exact .init
  | step _ _ hs ih => exact .step ih hs

/-- Leases belong to connected channels that are being listened to; only those not listened to are removed. -/
structure Tidy (st : St K V) : Prop where
  held : ∀ k i, st.bp.Holds k i → k ∈ st.chans ∧ k ∉ st.dead
  gone : ∀ k ∈ st.used, k ∉ st.dead → k ∈ st.chans

theorem tidy_advance {st : St K V} (h : Tidy st) (v : V) (it : Iter K) : Tidy (advance st v it) := by
  obtain ⟨e1, e2, e3, e4⟩ := advance_frame st v it
  constructor
  · rw [e1, e3, e4]; exact h.held
  · rw [e2, e3, e4]; exact h.gone

theorem tidy_of_orderly {n : Nat} {st : St K V} (h : Orderly n st) : Tidy st := by
  induction h with
  | init =>
    constructor
    · rintro k i ⟨b, hb, hk⟩
      have hm := List.mem_of_getElem? hb
      simp only [init, Backpressure.init, List.mem_replicate] at hm
      rw [hm.2] at hk
      simp [BufferLease.init] at hk
    · simp [init]
  | @step st st' a ho hord hs ih =>
    have hi := ho.run.inv
    cases a with
    | broadcast v =>
      simp only [step] at hs
      split at hs
      · cases hs
        exact tidy_advance (st := { st with log := st.log ++ [.start st.msgId v] }) ⟨ih.held, ih.gone⟩ _ _
      · cases hs
    | drained ok =>
      simp only [step] at hs
      split at hs
      · cases hs
      · rename_i c hc
        split at hs
        · rename_i hok
          split at hs
          · cases hs
          · rename_i bp hbp
            cases hs
            obtain ⟨_, _, _, b4⟩ := Backpressure.lease_spec hi.bp hbp
            have hcd := hord (by rw [hok]) c hc
            obtain ⟨_, _, _, _, _, _, hu, _, _, _, hcur, _⟩ := hi.call c hc
            refine tidy_advance (st := { st with bp := bp }) ⟨?_, ih.gone⟩ _ _
            intro k i hh
            rcases (b4 k i).1 hh with hh | ⟨rfl, _⟩
            · exact ih.held k i hh
            · exact ⟨ih.gone _ (hu _ hcur) hcd, hcd⟩
        · split at hs
          · cases hs
            exact tidy_advance ih _ _
          · cases hs
    | ack k' m =>
      simp only [step] at hs
      split at hs
      · simp only [Option.map_eq_some_iff] at hs
        obtain ⟨bp, hbp, rfl⟩ := hs
        obtain ⟨_, _, b3⟩ := Backpressure.free_spec hi.bp hbp
        exact ⟨fun k i hh => ih.held k i ((b3 k i).1 hh).1, ih.gone⟩
      · cases hs
    | join k' =>
      simp only [step] at hs
      split at hs
      · cases hs
      · rename_i hk
        cases hs
        constructor
        · intro k i hh
          obtain ⟨a1, a2⟩ := ih.held k i hh
          exact ⟨by simp [a1], a2⟩
        · intro k hk' hd
          simp only [List.mem_append, List.mem_singleton] at hk' ⊢
          rcases hk' with hk' | rfl
          · exact Or.inl (ih.gone k hk' hd)
          · exact Or.inr rfl
    | hangup k' =>
      simp only [step] at hs
      split at hs
      · cases hs; exact ⟨ih.held, ih.gone⟩
      · cases hs
    | eof k' =>
      simp only [step] at hs
      split at hs
      · simp only [Option.map_eq_some_iff] at hs
        obtain ⟨bp, hbp, rfl⟩ := hs
        obtain ⟨_, _, b3⟩ := Backpressure.free_spec hi.bp hbp
        constructor
        · intro k i hh
          obtain ⟨c1, c2⟩ := (b3 k i).1 hh
          obtain ⟨a1, a2⟩ := ih.held k i c1
          refine ⟨a1, ?_⟩
          simp only [List.mem_append, List.mem_singleton, not_or]
          refine ⟨a2, ?_⟩
          rintro rfl
          exact c2 ⟨rfl, Or.inl rfl⟩
        · intro k hk hd
          simp only [List.mem_append, List.mem_singleton, not_or] at hd
          exact ih.gone k hk hd.1
      · cases hs
    | remove k' =>
      simp only [step] at hs
      split at hs
      · rename_i hk
        cases hs
        constructor
        · intro k i hh
          obtain ⟨a1, a2⟩ := ih.held k i hh
          refine ⟨?_, a2⟩
          rw [List.mem_erase_of_ne]
          · exact a1
          · rintro rfl; exact a2 hk.2
        · intro k hk' hd
          show k ∈ st.chans.erase k'
          rw [List.mem_erase_of_ne]
          · exact ih.gone k hk' hd
          · rintro rfl; exact hd hk.2
      · cases hs

/-- **C64, what holds.** As long as no lease is taken for a channel whose loss was already noticed, every buffer in use
is in use by a connected channel that is being listened to; in particular removed channels hold nothing. -/
theorem C64_no_leak_partial {n : Nat} {st : St K V} (h : Orderly n st) {k : K} {i : Nat} (hh : st.bp.Holds k i) :
    k ∈ conn st.log ∧ k ∉ st.dead := by
  rw [← h.run.inv.chans]
  exact (tidy_of_orderly h).held k i hh

/-! ## Examples -/

theorem exec_run {n : Nat} (as : List (Act K V)) {st st' : St K V} (hr : Run n st) (h : exec n as st = some st') :
    Run n st' := by
  induction as generalizing st with
  | nil => cases h; exact hr
  | cons a t ih =>
    simp only [exec, Option.bind_eq_some_iff] at h
    obtain ⟨s1, h1, h2⟩ := h
    exact ih (hr.step h1) h2

theorem exec_snoc {n : Nat} (as : List (Act K V)) (a : Act K V) (st : St K V) :
    exec n (as ++ [a]) st = (exec n as st).bind (fun s => step n s a) := by
  induction as generalizing st with
  | nil => simp [exec]
  | cons b t ih =>
    simp only [List.cons_append, exec]
    cases step n st b with
    | none => rfl
    | some s => simp [ih]

/-- Each channel visited is one fewer left. -/
theorem next_visit_left {it it' : Iter K} {keys : List K} {k : K} (h : it.next keys = .visit k it') :
    it'.left + 1 = it.left := by
  unfold Iter.next at h
  split at h
  · cases h
  · split at h
    · cases h
    · split at h
      · cases h
      · cases h
        simp only
        omega

/-- A call under way that nobody disturbs comes to its end: each time `drain` returns it goes on to the next channel. -/
theorem call_ends {n : Nat} (hn : 0 < n) (left : Nat) {st : St K V} (hr : Run n st) {c : Call K V} (hc : st.call = some c)
    (hleft : c.it.left = left) {pre mid : List (Ev K V)} {m : Nat} {v : V} (hl : st.log = pre ++ .start m v :: mid)
    (ho : Open mid) (hq : ∀ e ∈ mid, e.change = false) :
    ∃ j st', exec n (List.replicate j (.drained true)) st = some st' ∧ Run n st' ∧ st'.call = none ∧
      ∃ mid', st'.log = pre ++ .start m v :: mid' ++ [.finished m v] ∧ Open mid' ∧ ∀ e ∈ mid', e.change = false := by
  induction left generalizing st c mid with
  | zero | succ left _ =>
    obtain ⟨bp, hbp⟩ : ∃ bp, st.bp.lease c.cur (st.msgId % n) = some bp := by
      cases hb : st.bp.lease c.cur (st.msgId % n) with
      | some bp => exact ⟨bp, rfl⟩
      | none =>
        have h := Backpressure.lease_eq_none.1 hb
        rw [hr.inv.len] at h
        exact absurd (Nat.mod_lt st.msgId hn) (by omega)
    obtain ⟨pre1, mid1, h1, h2, -⟩ := hr.inv.call c hc
    rw [hl] at h1
    obtain ⟨rfl, hm, hv, rfl⟩ := open_unique h1 ho h2
    have hs : step n st (.drained true) = some (advance { st with bp := bp } c.v c.it) := by
      simp only [step, hc, hbp, if_true]
    have hr' := hr.step hs
    rw [hm, hv] at hl ⊢
    cases hnx : c.it.next st.chans with
    | raise =>
      have e : (advance { st with bp := bp } c.v c.it).log = st.log ++ [.raised st.msgId c.v] := by
        unfold advance; simp only [hnx]
      obtain ⟨pre0, mid0, h3, h4, x, hx, hch⟩ := C64_raises_only_if_changed hr' e
      rw [hl] at h3
      obtain ⟨rfl, -, -, rfl⟩ := open_unique h3 ho h4
      rw [hq x hx] at hch
      cases hch
    | stop =>
      refine ⟨1, advance { st with bp := bp } c.v c.it, by simp [exec, hs], hr', ?_⟩
      unfold advance
      simp only [hnx]
      exact ⟨trivial, mid, by rw [hl], ho, hq⟩
    | visit k it' =>
      have hit := next_visit_left hnx
      first
      | omega
      | rename_i ih
        obtain ⟨j, st', e1, e2, e3, e4⟩ := ih (st := advance { st with bp := bp } c.v c.it)
          (c := { v := c.v, cur := k, it := it' }) (mid := mid ++ [.sent k st.msgId c.v]) hr'
          (by unfold advance; simp only [hnx]) (by simp only; omega)
          (by unfold advance; simp only [hnx]; rw [hl]; simp [hm, hv])
          (ho.snoc rfl)
          (by
            intro e he
            rcases List.mem_append.1 he with he | he
            · exact hq e he
            · rw [List.mem_singleton.1 he]; rfl)
        rw [hm, hv] at e4
        exact ⟨j + 1, st', by simpa [List.replicate_succ, exec, hs] using e1, e2, e3, e4⟩

/-- **C64, what goes on.** In every state: a call starts exactly if none is under way and no channel holds its buffer.
A call under way goes on when `drain` returns, and if nobody joins or is removed it returns, after as many steps as there
are channels left, having written its message to all channels that were connected when it started. A new channel can
join; the acknowledgements of one that is listened to are taken, which gives back the buffer; one whose other side has
closed is given up, with all its buffers, and then removed. -/
theorem C64_goes_on {n : Nat} (hn : 0 < n) {st : St K V} (hr : Run n st) :
    (∀ v, (∃ st', step n st (.broadcast v) = some st') ↔ st.call = none ∧ ∀ k, ¬ st.bp.Holds k (st.msgId % n)) ∧
    (st.call.isSome → ∃ st', step n st (.drained true) = some st') ∧
    (∀ pre mid m v, st.log = pre ++ .start m v :: mid → Open mid → st.call.isSome → (∀ e ∈ mid, e.change = false) →
      ∃ j st' mid', exec n (List.replicate j (.drained true)) st = some st' ∧ st'.call = none ∧
        st'.log = pre ++ .start m v :: mid' ++ [.finished m v] ∧
        sends mid' = (conn pre).map (fun k => (k, m, v))) ∧
    (∀ k, k ∉ st.used → ∃ st', step n st (.join k) = some st' ∧ conn st'.log = conn st.log ++ [k]) ∧
    (∀ k ∈ conn st.log, k ∉ st.dead → ∀ m, ∃ st', step n st (.ack k m) = some st' ∧ ¬ st'.bp.Holds k (m % n)) ∧
    (∀ k ∈ conn st.log, ∃ st', step n st (.hangup k) = some st' ∧ k ∈ st'.hung) ∧
    (∀ k ∈ conn st.log, k ∈ st.hung → k ∉ st.dead → ∃ st1 st2, step n st (.eof k) = some st1 ∧ (∀ i, ¬ st1.bp.Holds k i) ∧
      step n st1 (.remove k) = some st2 ∧ k ∉ conn st2.log) := by
  have hi := hr.inv
  have hlt : st.msgId % n < st.bp.buffers.length := by rw [hi.len]; exact Nat.mod_lt _ hn
  refine ⟨fun v => ?_, fun hc => ?_, ?_, fun k hk => ?_, fun k hk hd m => ?_, fun k hk => ?_, fun k hk hh hd => ?_⟩
  · rw [← Backpressure.available_iff hi.bp hlt]
    simp only [step]
    constructor
    · rintro ⟨st', h⟩
      split at h
      · rename_i h1 h2; exact ⟨h1, h2⟩
      · cases h
    · rintro ⟨h1, h2⟩
      rw [h1, h2]
      exact ⟨_, rfl⟩
  · obtain ⟨c, hc⟩ := Option.isSome_iff_exists.1 hc
    cases hb : st.bp.lease c.cur (st.msgId % n) with
    | some bp => exact ⟨_, by simp only [step, hc, hb, if_true]; rfl⟩
    | none => exact absurd (Backpressure.lease_eq_none.1 hb) (by omega)
  · intro pre mid m v hl ho hcs hq
    obtain ⟨c, hc⟩ := Option.isSome_iff_exists.1 hcs
    obtain ⟨j, st', h1, h2, h3, mid', h4, h5, h6⟩ := call_ends hn _ hr hc rfl hl ho hq
    refine ⟨j, st', mid', h1, h3, h4, ?_⟩
    obtain ⟨-, pre0, mid0, e1, e2, -, -, -, e3⟩ := h2.inv.fin (pre ++ .start m v :: mid') [] m v (by rw [h4])
    obtain ⟨rfl, -, -, rfl⟩ := open_unique e1 h5 e2
    exact e3 h6
  · refine ⟨_, by simp only [step, if_neg hk]; rfl, ?_⟩
    rw [conn_snoc]
  · rw [← hi.chans] at hk
    obtain ⟨bp, hb⟩ : ∃ bp, st.bp.free k (some (m % n)) = some bp := by
      cases hb : st.bp.free k (some (m % n)) with
      | some bp => exact ⟨bp, rfl⟩
      | none =>
        have h := Backpressure.free_some_eq_none.1 hb
        rw [hi.len] at h
        exact absurd (Nat.mod_lt m hn) (by omega)
    refine ⟨{ st with bp := bp }, by simp [step, hk, hd, hb], ?_⟩
    rw [(Backpressure.free_spec hi.bp hb).2.2]
    simp
  · rw [← hi.chans] at hk
    exact ⟨_, by simp only [step, if_pos hk]; rfl, by simp⟩
  · rw [← hi.chans] at hk
    obtain ⟨bp, hb⟩ := Backpressure.free_none_isSome hi.bp k
    have h1 : step n st (.eof k) = some { st with bp := bp, dead := st.dead ++ [k] } := by simp [step, hk, hh, hd, hb]
    have h2 : step n { st with bp := bp, dead := st.dead ++ [k] } (.remove k) =
        some { st with bp := bp, dead := st.dead ++ [k], chans := st.chans.erase k, log := st.log ++ [.removed k] } := by
      simp [step, hk]
    refine ⟨_, _, h1, fun i => ?_, h2, ?_⟩
    · simp only
      rw [(Backpressure.free_spec hi.bp hb).2.2]
      simp
    · have := ((hr.step h1).step h2).inv.chans
      rw [← this]
      exact fun h => (hi.nodup.mem_erase_iff.1 h).1 rfl

/-- Two channels, a message on its way to the first: two steps later it was written to both. -/
example : ∃ st : St Nat Char, exec 2 [.join 1, .join 2, .broadcast 'a'] (init 2) = some st ∧ st.call.isSome ∧
    st.log = [.joined 1, .joined 2] ++ .start 0 'a' :: [.sent 1 0 'a'] ∧
    ∃ st', exec 2 (List.replicate 2 (.drained true)) st = some st' ∧
      st'.log = [.joined 1, .joined 2, .start 0 'a', .sent 1 0 'a', .sent 2 0 'a', .finished 0 'a'] :=
  ⟨_, rfl, rfl, rfl, _, rfl, rfl⟩

namespace Example

/-- Channels 1 and 2 are connected; channel 3 joins while `'a'` is being written to channel 1; then `'b'` is sent. -/
def late : List (Act Nat Char) :=
  [.join 1, .join 2, .broadcast 'a', .join 3, .drained true, .ack 1 0, .broadcast 'b', .drained true, .drained true,
    .drained true]

/-- **C64 fails.** The call with `'a'` raises; channel 2, connected all the time, never gets `'a'`; and channel 1 gets
two different messages with the id 0. -/
theorem C64_negation_join : ∃ st : St Nat Char, Run 2 st ∧ exec 2 late (init 2) = some st ∧
    st.log = [.joined 1, .joined 2, .start 0 'a', .sent 1 0 'a', .joined 3, .raised 0 'a', .start 0 'b', .sent 1 0 'b',
      .sent 2 0 'b', .sent 3 0 'b', .finished 0 'b'] := by
  have h : (exec 2 late (init 2)).map (·.log) = some [.joined 1, .joined 2, .start 0 'a', .sent 1 0 'a', .joined 3,
      .raised 0 'a', .start 0 'b', .sent 1 0 'b', .sent 2 0 'b', .sent 3 0 'b', .finished 0 'b'] := by decide +kernel
  rw [Option.map_eq_some_iff] at h
  obtain ⟨st, h1, h2⟩ := h
  exact ⟨st, exec_run _ .init h1, h1, h2⟩

/-- Channel 1 goes away while `'a'` is being written to it; the socket takes the rest of the message all the same. -/
def lost : List (Act Nat Char) :=
  [.join 1, .broadcast 'a', .hangup 1, .eof 1, .drained true, .remove 1]

/-- **C64 fails.** The channel is gone but holds the only buffer; no call will ever return again. -/
theorem C64_negation_leak : ∃ st : St Nat Char, Run 1 st ∧ exec 1 lost (init 1) = some st ∧ conn st.log = [] ∧
    ∀ st', Later 1 st st' → done st'.log = 1 ∧ st'.bp.available 0 = some false := by
  have h : (exec 1 lost (init 1)).map (fun st => (st.log, st.used, st.chans, st.bp.buffers.map (fun b => (b.leases : List Nat)), st.call.isNone)) =
      some ([.joined 1, .start 0 'a', .sent 1 0 'a', .finished 0 'a', .removed 1], [1], [], [[1]], true) := by
    decide +kernel
  rw [Option.map_eq_some_iff] at h
  obtain ⟨st, h1, h2⟩ := h
  simp only [Prod.mk.injEq] at h2
  obtain ⟨e1, e2, e3, e4, e5⟩ := h2
  have hr : Run 1 st := exec_run _ .init h1
  have hh : st.bp.Holds 1 0 := by
    rw [List.map_eq_cons_iff] at e4
    obtain ⟨b, t, hb, hl, _⟩ := e4
    exact ⟨b, by rw [hb]; rfl, by rw [hl]; simp⟩
  have hc : st.call = none := by simpa using e5
  refine ⟨st, hr, h1, by rw [e1]; rfl, ?_⟩
  intro st' hl
  obtain ⟨a1, a0, a2⟩ := C64_leak_blocks hr ⟨by rw [e2]; simp, by rw [e3]; simp⟩ hh hl
  have a3 := a2 hc
  have hd : done st.log = 1 := by rw [e1]; rfl
  have hmono : done st.log ≤ done st'.log := by
    clear a0 a1 a2 a3
    induction hl with
    | refl => exact Nat.le_refl _
    | @step s1 s2 a hl hs ih =>
      refine Nat.le_trans ih ?_
      obtain ⟨es, hes⟩ := step_log hs
      rw [hes, done, done, List.countP_append]
      omega
  refine ⟨by omega, ?_⟩
  have hr' := hl.run hr
  rcases Backpressure.available_dichotomy (bp := st'.bp) (i := 0) (by rw [hr'.inv.len]; omega) with h | h
  · exact absurd a1 ((Backpressure.available_iff hr'.inv.bp (by rw [hr'.inv.len]; omega)).1 h 1)
  · exact h

/-- A calm and orderly run with two channels, two messages and a channel that leaves between them. -/
def calm : List (Act Nat Char) :=
  [.join 1, .join 2, .broadcast 'a', .drained true, .drained true, .ack 1 0, .hangup 2, .eof 2, .remove 2,
    .broadcast 'b', .drained true]

theorem calm_log : (exec 2 calm (init 2)).map (·.log) = some [.joined 1, .joined 2, .start 0 'a', .sent 1 0 'a',
    .sent 2 0 'a', .finished 0 'a', .removed 2, .start 1 'b', .sent 1 1 'b', .finished 1 'b'] := by decide +kernel

/-- Checks `Calm`; the flag tells whether a call is under way. -/
def calmFrom : Bool → List (Ev Nat Char) → Bool
  | _, [] => true
  | _, .start _ _ :: t => calmFrom true t
  | _, .finished _ _ :: t => calmFrom false t
  | _, .raised _ _ :: t => calmFrom false t
  | b, .sent _ _ _ :: t => calmFrom b t
  | b, _ :: t => !b && calmFrom b t

theorem calmFrom_mid (mid post : List (Ev Nat Char)) (h : calmFrom true (mid ++ post) = true) (ho : Open mid) :
    ∀ e ∈ mid, e.change = false := by
  induction mid with
  | nil => simp
  | cons e t ih =>
    have h1 := ho e (by simp)
    have h2 : Open t := fun x hx => ho x (by simp [hx])
    cases e <;> simp_all [Ev.bound, calmFrom, Ev.change]

theorem calmFrom_spec (l : List (Ev Nat Char)) (b : Bool) (h : calmFrom b l = true) : Calm l := by
  intro pre m v mid post hl ho
  induction pre generalizing l b with
  | nil =>
    subst hl
    exact calmFrom_mid mid post (by simpa [calmFrom] using h) ho
  | cons e t ih =>
    subst hl
    cases e with
    | joined k => simp [calmFrom] at h; exact ih _ b (by simpa using h.2) rfl
    | removed k => simp [calmFrom] at h; exact ih _ b (by simpa using h.2) rfl
    | sent k m v => exact ih _ b (by simpa [calmFrom] using h) rfl
    | start m v => exact ih _ true (by simpa [calmFrom] using h) rfl
    | finished m v => exact ih _ false (by simpa [calmFrom] using h) rfl
    | raised m v => exact ih _ false (by simpa [calmFrom] using h) rfl

/-- Checks `Orderly`. -/
def orderlyB (n : Nat) : List (Act Nat Char) → St Nat Char → Bool
  | [], _ => true
  | a :: as, st =>
    (match a, st.call with | .drained true, some c => decide (c.cur ∉ st.dead) | _, _ => true) &&
      (match step n st a with | some st' => orderlyB n as st' | none => true)

theorem orderlyB_spec {n : Nat} (as : List (Act Nat Char)) {st st' : St Nat Char} (ho : Orderly n st)
    (h : exec n as st = some st') (hb : orderlyB n as st = true) : Orderly n st' := by
  induction as generalizing st with
  | nil => cases h; exact ho
  | cons a t ih =>
    simp only [exec, Option.bind_eq_some_iff] at h
    obtain ⟨s1, h1, h2⟩ := h
    simp only [orderlyB, h1, Bool.and_eq_true] at hb
    refine ih (ho.step ?_ h1) h2 hb.2
    rintro rfl c hc
    have := hb.1
    rw [hc] at this
    simpa using this

/-- The hypotheses of the partial theorems hold of this run. -/
example : ∃ st : St Nat Char, Orderly 2 st ∧ Calm st.log ∧ done st.log = 2 ∧ st.bp.Holds 1 1 := by
  have h : (exec 2 calm (init 2)).isSome = true := by decide +kernel
  obtain ⟨st, h1⟩ := Option.isSome_iff_exists.1 h
  have h2 := calm_log
  rw [h1, Option.map_some, Option.some.injEq] at h2
  have h3 : (exec 2 calm (init 2)).map (fun st => st.bp.buffers.map (fun b => (b.leases : List Nat))) =
      some [[], [1]] := by decide +kernel
  rw [h1, Option.map_some, Option.some.injEq] at h3
  refine ⟨st, orderlyB_spec calm .init h1 (by decide +kernel), ?_, by rw [h2]; rfl, ?_⟩
  · rw [h2]; exact calmFrom_spec _ false (by decide)
  · rw [List.map_eq_cons_iff] at h3
    obtain ⟨b0, t, hb, _, h4⟩ := h3
    rw [List.map_eq_cons_iff] at h4
    obtain ⟨b, t', rfl, hl, _⟩ := h4
    exact ⟨b, by rw [hb]; rfl, by rw [hl]; simp⟩

end Example
end Joining
end Ez
