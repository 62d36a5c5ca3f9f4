import Verif.Model.Growth

/-!
# C48: growing shared memory while a reader lags
-/

set_option linter.unusedSectionVars false
set_option linter.unusedSimpArgs false

namespace Ez
namespace Growth
variable {R V : Type} [DecidableEq R]

/-- Specification: the broadcast contents, message `m` at position `m`. -/
def bcasts (log : List (Ev R V)) : List V := log.filterMap (fun e => match e with | .bcast v => some v | _ => none)

def owedStep (r : R) (a : Nat × List Nat) : Ev R V → Nat × List Nat
  | .bcast _ => (a.1 + 1, a.2 ++ [a.1])
  | .join r' => if r' = r then (a.1, []) else a
  | _ => a

/-- Specification: the ids of the messages broadcast since `r` joined last. -/
def owed (r : R) (log : List (Ev R V)) : List Nat := (log.foldl (owedStep r) (0, [])).2

def gotStep (r : R) (a : List Nat) : Ev R V → List Nat
  | .deliver r' m => if r' = r then a ++ [m] else a
  | .join r' => if r' = r then [] else a
  | _ => a

/-- Specification: the ids handed to the clients of `r` since it joined last. -/
def got (r : R) (log : List (Ev R V)) : List Nat := log.foldl (gotStep r) []

/-- Executions in which the publisher grows only when no channel has a notification waiting that names a segment it is
not attached to: every channel has processed the notification of the previous growth. -/
inductive InStep (n : Nat) : St R V → Prop
  | init : InStep n init
  | step {st st'} (a : Act R V) : InStep n st → step n st a = some st' →
      (a = .grow → ∀ r ∈ st.chans, ∀ x ∈ (st.readers r).wire, x.2 = (st.readers r).seg) → InStep n st'

/-- All executions. -/
inductive Run (n : Nat) : St R V → Prop
  | init : Run n init
  | step {st st'} (a : Act R V) : Run n st → step n st a = some st' → Run n st'

/-! ## The invariant -/

/-- ids that `r` has not acknowledged -/
def out (x : Reader) : List Nat := x.wire.map (·.1) ++ (x.cache ++ x.acks)

/-- Slot contents are the broadcast ones. -/
def Holds (n : Nat) (st : St R V) (s m : Nat) : Prop := ∃ v, st.slots s (m % n) = some (m, v) ∧ (bcasts st.log)[m]? = some v

structure RInv (n : Nat) (st : St R V) (r : R) : Prop where
  live : (st.readers r).live = true
  nodup : ((out (st.readers r)).map (· % n)).Nodup
  leased : ∀ m ∈ out (st.readers r), (r, m % n) ∈ st.leases
  inPub : ∀ m ∈ (st.readers r).wire.map (·.1) ++ (st.readers r).cache, Holds n st st.pubSeg m
  inSeg : ∀ m ∈ (st.readers r).cache, Holds n st (st.readers r).seg m
  inSegW : ∀ x ∈ (st.readers r).wire, x.2 = (st.readers r).seg → Holds n st (st.readers r).seg x.1
  names : ∀ x ∈ (st.readers r).wire, x.2 = (st.readers r).seg ∨ x.2 = st.pubSeg
  order : (st.readers r).wire.Pairwise (fun a b => a.2 = st.pubSeg → b.2 = st.pubSeg)
  segFresh : (st.readers r).seg < st.fresh
  owed : got r st.log ++ (st.readers r).wire.map (·.1) = owed r st.log

structure Inv (n : Nat) (st : St R V) : Prop where
  readers : ∀ r ∈ st.chans, RInv n st r
  offline : ∀ r, r ∉ st.chans → (st.readers r).live = false ∧ (st.readers r).acks = []
  pubAlive : st.alive st.pubSeg = true
  aliveFresh : ∀ s, st.alive s = true → s < st.fresh
  next : st.next = (bcasts st.log).length
  count : ∀ r : R, (st.log.foldl (owedStep r) (0, [])).1 = st.next
  calm : ∀ r e, Ev.died r e ∉ st.log
  reads : ∀ r m v, Ev.read r m v ∈ st.log → (bcasts st.log)[m]? = some v

theorem inv_init (n : Nat) : Inv n (init : St R V) :=
  ⟨by simp [init], by simp [init], by simp [init], by simp [init], by simp [init, bcasts], by simp [init], by simp [init],
    by simp [init]⟩

theorem available_iff {st : St R V} {i : Nat} : available st i = true ↔ ∀ r, (r, i) ∉ st.leases := by
  simp only [available, List.all_eq_true, decide_eq_true_eq]
  constructor
  · intro h r hr; exact h _ hr rfl
  · rintro h ⟨r, j⟩ hl rfl; exact h r hl

theorem cachePut_new {n : Nat} {c : List Nat} {m : Nat} (h : ((c ++ [m]).map (· % n)).Nodup) : cachePut n c m = c ++ [m] := by
  unfold cachePut
  congr 1
  rw [List.filter_eq_self]
  intro i hi
  rw [List.map_append, List.nodup_append] at h
  simp only [decide_eq_true_eq]
  exact h.2.2 _ (List.mem_map_of_mem hi) _ (by simp)

theorem reput_ok {n : Nat} {slot : Nat → Option (Nat × V)} : ∀ (c acc : List Nat),
    (∀ m ∈ c, ∃ v, slot (m % n) = some (m, v)) → ((acc ++ c).map (· % n)).Nodup → reput n slot c acc = some (acc ++ c)
  | [], acc, _, _ => by simp [reput]
  | i :: is, acc, h, hn => by
    obtain ⟨v, hv⟩ := h i (by simp)
    have e : acc ++ i :: is = (acc ++ [i]) ++ is := by simp
    rw [e] at hn ⊢
    have : ((acc ++ [i]).map (· % n)).Nodup := by
      rw [List.map_append (l₁ := acc ++ [i])] at hn
      exact (List.nodup_append.1 hn).1
    simp only [reput, hv]
    rw [cachePut_new this]
    exact reput_ok is _ (fun m hm => h m (by simp [hm])) hn

/-! ## The steps keep it -/

theorem inv_grow {n : Nat} {st : St R V} (h : Inv n st)
    (hw : ∀ r ∈ st.chans, ∀ x ∈ (st.readers r).wire, x.2 = (st.readers r).seg) : Inv n (grow st) := by
  have hb : bcasts (grow st).log = bcasts st.log := by simp [Growth.grow, logEv, bcasts]
  have hs : ∀ s m, s < st.fresh → Holds n st s m → Holds n (grow st) s m := by
    rintro s m hl ⟨v, h1, h2⟩
    exact ⟨v, by simp [Growth.grow, logEv, Nat.ne_of_lt hl, h1], by rw [hb]; exact h2⟩
  refine ⟨?_, h.offline, by simp [Growth.grow, logEv], ?_, ?_, ?_, ?_, ?_⟩
  · intro r hr
    have q := h.readers r hr
    refine ⟨q.live, q.nodup, q.leased, ?_, fun m hm => hs _ _ q.segFresh (q.inSeg m hm),
      fun x hx e => hs _ _ q.segFresh (q.inSegW x hx e), fun x hx => Or.inl (hw r hr x hx), ?_, ?_, ?_⟩
    · intro m hm
      obtain ⟨v, h1, h2⟩ := q.inPub m hm
      exact ⟨v, by simp [Growth.grow, logEv, h1], by rw [hb]; exact h2⟩
    · refine List.Pairwise.imp_of_mem (R := fun _ _ => True) ?_ (List.pairwise_of_forall (fun _ _ => trivial))
      intro a b ha _ _ e
      have := hw r hr a ha
      have := q.segFresh
      simp only [Growth.grow, logEv] at e
      omega
    · exact Nat.lt_succ_of_lt q.segFresh
    · have := q.owed
      simpa [Growth.grow, logEv, got, Growth.owed, gotStep, owedStep] using this
  · intro s hs
    simp only [Growth.grow, logEv, Bool.or_eq_true, beq_iff_eq] at hs
    rcases hs with hs | hs
    · simp [Growth.grow, logEv, hs]
    · exact Nat.lt_succ_of_lt (h.aliveFresh s hs)
  · rw [hb]; exact h.next
  · intro r; have := h.count r; simpa [Growth.grow, logEv, owedStep] using this
  · intro r e hm; have := h.calm r e; simp [Growth.grow, logEv, this] at hm
  · intro r m v hm
    rw [hb]
    exact h.reads r m v (by simpa [Growth.grow, logEv] using hm)

theorem inv_bcast {n : Nat} {st : St R V} (v : V) (h : Inv n st) (ha : available st (st.next % n) = true) :
    Inv n (bcast n st v) := by
  have ha' := available_iff.1 ha
  have hb : bcasts (bcast n st v).log = bcasts st.log ++ [v] := by simp [Growth.bcast, logEv, bcasts]
  have hs : ∀ s m, m % n ≠ st.next % n → Holds n st s m → Holds n (bcast n st v) s m := by
    rintro s m hl ⟨w, h1, h2⟩
    refine ⟨w, by simp [Growth.bcast, logEv, hl, h1], ?_⟩
    rw [hb, List.getElem?_append_left (List.getElem?_eq_some_iff.1 h2).1]
    exact h2
  have hnew : Holds n (Growth.bcast n st v) st.pubSeg st.next := by
    refine ⟨v, by simp [Growth.bcast, logEv], ?_⟩
    rw [hb, h.next]; simp
  refine ⟨?_, ?_, h.pubAlive, h.aliveFresh, ?_, ?_, ?_, ?_⟩
  · intro r hr
    have hr : r ∈ st.chans := hr
    have q := h.readers r hr
    have hx : (Growth.bcast n st v).readers r = { st.readers r with wire := (st.readers r).wire ++ [(st.next, st.pubSeg)] } := by
      simp [Growth.bcast, logEv, hr, q.live]
    have hne : ∀ m ∈ out (st.readers r), m % n ≠ st.next % n := by
      intro m hm e
      exact ha' r (e ▸ q.leased m hm)
    have hlease : (Growth.bcast n st v).leases = st.leases ++ st.chans.map (fun r => (r, st.next % n)) := rfl
    have hpub : (Growth.bcast n st v).pubSeg = st.pubSeg := rfl
    have hout : ∀ m, m ∈ out { st.readers r with wire := (st.readers r).wire ++ [(st.next, st.pubSeg)] } ↔
        m ∈ out (st.readers r) ∨ m = st.next := by
      intro m; simp only [out, List.map_append, List.mem_append, List.map_cons, List.map_nil, List.mem_singleton]
      constructor
      · rintro ((a | a) | a | a) <;> simp_all
      · rintro ((a | a | a) | a) <;> simp_all
    refine ⟨by rw [hx]; exact q.live, ?_, ?_, ?_, ?_, ?_, ?_, ?_, ?_, ?_⟩
    · rw [hx]
      have e : ((out { st.readers r with wire := (st.readers r).wire ++ [(st.next, st.pubSeg)] }).map (· % n)).Perm
          ((st.next % n) :: (out (st.readers r)).map (· % n)) := by
        simp only [out, List.map_append, List.map_cons, List.map_nil, List.append_assoc, List.cons_append, List.nil_append]
        exact List.perm_middle
      rw [e.nodup_iff, List.nodup_cons]
      refine ⟨?_, q.nodup⟩
      intro hm
      obtain ⟨m, hm, e⟩ := List.mem_map.1 hm
      exact hne m hm e
    · intro m hm
      rw [hx] at hm
      rw [hlease, List.mem_append]
      rcases (hout m).1 hm with hm | rfl
      · exact Or.inl (q.leased m hm)
      · exact Or.inr (List.mem_map.2 ⟨r, hr, rfl⟩)
    · intro m hm
      rw [hx] at hm
      rw [hpub]
      simp only [List.map_append, List.mem_append, List.map_cons, List.map_nil, List.mem_singleton] at hm
      rcases hm with (hm | rfl) | hm
      · exact hs _ _ (hne m (by simp only [out, List.mem_append]; exact Or.inl hm)) (q.inPub m (by simp only [List.mem_append]; exact Or.inl hm))
      · exact hnew
      · exact hs _ _ (hne m (by simp [out, hm])) (q.inPub m (by simp [hm]))
    · intro m hm
      rw [hx] at hm ⊢
      exact hs _ _ (hne m (by simp only [out, List.mem_append]; exact Or.inr (Or.inl hm))) (q.inSeg m hm)
    · intro x hm e
      rw [hx] at hm e ⊢
      simp only [List.mem_append, List.mem_singleton] at hm
      rcases hm with hm | rfl
      · exact hs _ _ (hne x.1 (by simp only [out, List.mem_append]; exact Or.inl (List.mem_map_of_mem hm))) (q.inSegW x hm e)
      · have e : st.pubSeg = (st.readers r).seg := e
        rw [← e]; exact hnew
    · intro x hm
      rw [hx] at hm ⊢
      simp only [List.mem_append, List.mem_singleton] at hm
      rcases hm with hm | rfl
      · exact q.names x hm
      · exact Or.inr rfl
    · rw [hx, hpub]
      simp only [List.pairwise_append, List.pairwise_singleton, true_and]
      refine ⟨q.order, ?_⟩
      intro a _ b hb _
      simp only [List.mem_singleton] at hb
      rw [hb]
    · rw [hx]; exact q.segFresh
    · rw [hx]
      have e1 : got r (Growth.bcast n st v).log = got r st.log := by simp [Growth.bcast, logEv, got, gotStep]
      have e2 : Growth.owed r (Growth.bcast n st v).log = Growth.owed r st.log ++ [st.next] := by
        have := h.count r
        simp [Growth.bcast, logEv, Growth.owed, owedStep, this]
      rw [e1, e2, ← q.owed]
      simp
  · intro r hr
    have hr : r ∉ st.chans := hr
    simp [Growth.bcast, logEv, hr, h.offline r hr]
  · rw [hb, List.length_append, ← h.next]; rfl
  · intro r; have := h.count r; simp [Growth.bcast, logEv, owedStep, this]
  · intro r e hm; have := h.calm r e; simp [Growth.bcast, logEv, this] at hm
  · intro r m w hm
    have := h.reads r m w (by simpa [Growth.bcast, logEv] using hm)
    rw [hb, List.getElem?_append_left (List.getElem?_eq_some_iff.1 this).1]
    exact this

/-- What another reader's step leaves. -/
theorem RInv.congr {n : Nat} {st st' : St R V} {r : R} (q : RInv n st r) (h1 : st'.readers r = st.readers r)
    (h2 : st'.pubSeg = st.pubSeg) (h3 : st'.slots = st.slots) (h4 : st'.fresh = st.fresh)
    (h5 : ∀ i, (r, i) ∈ st.leases → (r, i) ∈ st'.leases) (h6 : bcasts st'.log = bcasts st.log)
    (h7 : got r st'.log = got r st.log) (h8 : Growth.owed r st'.log = Growth.owed r st.log) : RInv n st' r := by
  have hh : ∀ s m, Holds n st s m → Holds n st' s m := by
    rintro s m ⟨v, a, b⟩; exact ⟨v, by rw [h3]; exact a, by rw [h6]; exact b⟩
  refine ⟨h1 ▸ q.live, h1 ▸ q.nodup, ?_, ?_, ?_, ?_, ?_, ?_, ?_, ?_⟩
  · intro m hm; rw [h1] at hm; exact h5 _ (q.leased m hm)
  · intro m hm; rw [h1] at hm; rw [h2]; exact hh _ _ (q.inPub m hm)
  · intro m hm; rw [h1] at hm ⊢; exact hh _ _ (q.inSeg m hm)
  · intro x hm; rw [h1] at hm ⊢; exact fun e => hh _ _ (q.inSegW x hm e)
  · intro x hm; rw [h1] at hm ⊢; rw [h2]; exact q.names x hm
  · rw [h1, h2]; exact q.order
  · rw [h1, h4]; exact q.segFresh
  · rw [h1, h7, h8]; exact q.owed

/-- A step of reader `r` that does not end it. -/
theorem Inv.reader {n : Nat} {st st' : St R V} {r : R} {x : Reader} (h : Inv n st) (hr : r ∈ st.chans)
    (h1 : st'.readers = fun r' => if r' = r then x else st.readers r') (h2 : st'.pubSeg = st.pubSeg)
    (h3 : st'.slots = st.slots) (h4 : st'.fresh = st.fresh)
    (h5 : ∀ r' i, r' ≠ r → (r', i) ∈ st.leases → (r', i) ∈ st'.leases)
    (h6 : st'.alive = st.alive) (h7 : st'.chans = st.chans) (h8 : st'.next = st.next)
    (hl : st'.log = st.log ∨ ∃ m, st'.log = st.log ++ [.deliver r m]) (hq : RInv n st' r) : Inv n st' := by
  have hb : bcasts st'.log = bcasts st.log := by rcases hl with e | ⟨m, e⟩ <;> simp [e, bcasts]
  have ho : ∀ r', Growth.owed r' st'.log = Growth.owed r' st.log := by
    intro r'; rcases hl with e | ⟨m, e⟩ <;> simp [e, Growth.owed, owedStep]
  refine ⟨?_, ?_, by rw [h6, h2]; exact h.pubAlive, by rw [h6, h4]; exact h.aliveFresh, by rw [h8, hb]; exact h.next, ?_, ?_, ?_⟩
  · intro r' hr'
    rw [h7] at hr'
    by_cases e : r' = r
    · rw [e]; exact hq
    · refine (h.readers r' hr').congr (by simp [h1, e]) h2 h3 h4 (fun i => h5 r' i e) hb ?_ (ho r')
      rcases hl with q | ⟨m, q⟩
      · rw [q]
      · have e' : ¬ r = r' := fun h => e h.symm
        simp [q, got, gotStep, e']
  · intro r' hr'
    rw [h7] at hr'
    have e : r' ≠ r := by rintro rfl; exact hr' hr
    simp [h1, e, h.offline r' hr']
  · intro r'
    rw [h8, ← h.count r']
    rcases hl with e | ⟨m, e⟩ <;> simp [e, owedStep]
  · intro r' e hm
    have := h.calm r' e
    rcases hl with q | ⟨m, q⟩ <;> simp_all
  · intro r' m v hm
    rw [hb]
    refine h.reads r' m v ?_
    rcases hl with q | ⟨m, q⟩ <;> simp_all

theorem Inv.chan {n : Nat} {st : St R V} (h : Inv n st) {r : R} (hr : (st.readers r).live = true) : r ∈ st.chans := by
  apply Classical.byContradiction
  intro hn
  rw [(h.offline r hn).1] at hr
  cases hr

theorem deliver_eq {n : Nat} {st : St R V} {r : R} {m s : Nat} {rest : List (Nat × Nat)} (h : Inv n st)
    (hr : r ∈ st.chans) (hw : (st.readers r).wire = (m, s) :: rest) : deliver n st r m s rest =
      logEv (setReader st r { st.readers r with seg := s, wire := rest, cache := (st.readers r).cache ++ [m] }) (.deliver r m) := by
  have q := h.readers r hr
  have hnd := q.nodup
  simp only [out, hw, List.map_cons, List.cons_append, List.map_append, List.nodup_cons] at hnd
  have hcache : ((st.readers r).cache.map (· % n)).Nodup := (List.nodup_append.1 (List.nodup_append.1 hnd.2).2.1).1
  have hslot : Holds n st s m := by
    rcases q.names (m, s) (by simp [hw]) with e | e
    · have e : s = (st.readers r).seg := e
      rw [e]; exact q.inSegW (m, s) (by simp [hw]) e
    · have e : s = st.pubSeg := e
      rw [e]; exact q.inPub m (by simp [hw])
  have hput : cachePut n (st.readers r).cache m = (st.readers r).cache ++ [m] := by
    apply cachePut_new
    rw [List.map_append, List.nodup_append]
    refine ⟨hcache, by simp, ?_⟩
    intro a ha b hb e
    simp only [List.map_cons, List.map_nil, List.mem_singleton] at hb
    subst hb
    apply hnd.1
    rw [← e]
    simp only [List.mem_append]
    exact Or.inr (Or.inl ha)
  obtain ⟨v, hv, _⟩ := hslot
  by_cases e : s = (st.readers r).seg
  · simp only [deliver, e, if_true]
    rw [e] at hv
    simp only [hv, if_true, hput]
  · have hp : s = st.pubSeg := (q.names (m, s) (by simp [hw])).resolve_left e
    have hre : reput n (st.slots s) (st.readers r).cache [] = some (st.readers r).cache := by
      refine reput_ok _ [] ?_ (by simpa using hcache)
      intro i hi
      obtain ⟨w, hw, _⟩ := q.inPub i (by simp [hi])
      exact ⟨w, by rw [hp]; exact hw⟩
    have hal : st.alive s = true := by rw [hp]; exact h.pubAlive
    simp only [deliver, e, if_false, hal, if_true, hre, hv, hput]

theorem inv_deliver {n : Nat} {st : St R V} {r : R} {m s : Nat} {rest : List (Nat × Nat)} (h : Inv n st)
    (hr : r ∈ st.chans) (hw : (st.readers r).wire = (m, s) :: rest) : Inv n (deliver n st r m s rest) := by
  have q := h.readers r hr
  have hnd := q.nodup
  simp only [out, hw, List.map_cons, List.cons_append, List.map_append, List.nodup_cons] at hnd
  have hcache : ((st.readers r).cache.map (· % n)).Nodup := (List.nodup_append.1 (List.nodup_append.1 hnd.2).2.1).1
  have hslot : Holds n st s m := by
    rcases q.names (m, s) (by simp [hw]) with e | e
    · have e : s = (st.readers r).seg := e
      rw [e]; exact q.inSegW (m, s) (by simp [hw]) e
    · have e : s = st.pubSeg := e
      rw [e]; exact q.inPub m (by simp [hw])
  have hres := deliver_eq h hr hw
  rw [hres]
  refine h.reader hr rfl rfl rfl rfl (fun _ _ _ h => h) rfl rfl rfl (Or.inr ⟨m, rfl⟩) ?_
  have hx : (logEv (setReader st r { st.readers r with seg := s, wire := rest, cache := (st.readers r).cache ++ [m] })
      (.deliver r m)).readers r = { st.readers r with seg := s, wire := rest, cache := (st.readers r).cache ++ [m] } := by
    simp [logEv, setReader]
  generalize hst : logEv (setReader st r { st.readers r with seg := s, wire := rest, cache := (st.readers r).cache ++ [m] })
      (.deliver r m) = st' at hx ⊢
  have hb : bcasts st'.log = bcasts st.log := by rw [← hst]; simp [logEv, setReader, bcasts]
  have hh : ∀ s m, Holds n st s m → Holds n st' s m := by
    rintro s m ⟨v, a, b⟩; exact ⟨v, by rw [← hst]; exact a, by rw [hb]; exact b⟩
  have hpub : st'.pubSeg = st.pubSeg := by rw [← hst]; rfl
  have hseg : ∀ x ∈ (st.readers r).wire, x.2 = s → Holds n st s x.1 := by
    intro x hm e
    rcases q.names x hm with e' | e'
    · rw [← e, e']; exact q.inSegW x hm e'
    · rw [← e, e']; exact q.inPub x.1 (by simp only [List.mem_append]; exact Or.inl (List.mem_map_of_mem hm))
  refine ⟨by rw [hx]; exact q.live, ?_, ?_, ?_, ?_, ?_, ?_, ?_, ?_, ?_⟩
  · rw [hx]
    refine (List.Perm.nodup_iff ?_).1 q.nodup
    apply List.Perm.map
    simp only [out, hw, List.map_cons, List.cons_append]
    refine List.Perm.trans ?_ (List.Perm.append_left _ (List.Perm.append_right _ (List.perm_append_comm (l₁ := [m]))))
    simp only [List.cons_append, List.nil_append]
    exact List.perm_middle.symm
  · intro i hi
    rw [hx] at hi
    rw [← hst]
    refine q.leased i ?_
    simp only [out, hw, List.map_cons, List.cons_append, List.mem_append, List.mem_cons, List.not_mem_nil, or_false] at hi ⊢
    rcases hi with a | (a | a) | a <;> simp [a]
  · intro i hi
    rw [hx] at hi
    rw [hpub]
    refine hh _ _ (q.inPub i ?_)
    simp only [hw, List.map_cons, List.cons_append, List.mem_append, List.mem_cons, List.not_mem_nil, or_false] at hi ⊢
    rcases hi with a | (a | a) <;> simp [a]
  · intro i hi
    rw [hx] at hi ⊢
    refine hh _ _ ?_
    simp only [List.mem_append, List.mem_singleton] at hi
    rcases hi with a | rfl
    · by_cases e : s = (st.readers r).seg
      · simp only [e]; exact q.inSeg i a
      · have hp : s = st.pubSeg := (q.names (m, s) (by simp [hw])).resolve_left e
        simp only [hp]; exact q.inPub i (by simp [a])
    · exact hslot
  · intro x hm e
    rw [hx] at hm e ⊢
    exact hh _ _ (hseg x (by rw [hw]; exact List.mem_cons_of_mem _ hm) e)
  · intro x hm
    rw [hx] at hm ⊢
    rw [hpub]
    by_cases e : s = (st.readers r).seg
    · simp only [e]; exact q.names x (by rw [hw]; exact List.mem_cons_of_mem _ hm)
    · have hp : s = st.pubSeg := (q.names (m, s) (by simp [hw])).resolve_left e
      have := q.order
      rw [hw, List.pairwise_cons] at this
      exact Or.inr (this.1 x hm hp)
  · rw [hx, hpub]
    have := q.order
    rw [hw, List.pairwise_cons] at this
    exact this.2
  · rw [hx, ← hst]
    rcases q.names (m, s) (by simp [hw]) with e | e
    · have e : s = (st.readers r).seg := e
      rw [e]; exact q.segFresh
    · have e : s = st.pubSeg := e
      rw [e]; exact h.aliveFresh _ h.pubAlive
  · rw [hx]
    have e1 : got r st'.log = got r st.log ++ [m] := by rw [← hst]; simp [logEv, setReader, got, gotStep]
    have e2 : Growth.owed r st'.log = Growth.owed r st.log := by rw [← hst]; simp [logEv, setReader, Growth.owed, owedStep]
    rw [e1, e2, ← q.owed, hw]
    simp

theorem inv_done {n : Nat} {st : St R V} {r : R} {m : Nat} (h : Inv n st) (hr : r ∈ st.chans) (hm : m ∈ (st.readers r).cache) :
    Inv n (setReader st r { st.readers r with
      cache := (st.readers r).cache.filter (fun i => decide (i ≠ m)), acks := (st.readers r).acks ++ [m] }) := by
  have q := h.readers r hr
  refine h.reader hr rfl rfl rfl rfl (fun _ _ _ h => h) rfl rfl rfl (Or.inl rfl) ?_
  generalize hst : setReader st r _ = st'
  have hx : st'.readers r = { st.readers r with
      cache := (st.readers r).cache.filter (fun i => decide (i ≠ m)), acks := (st.readers r).acks ++ [m] } := by
    rw [← hst]; simp [setReader]
  have hsub : ∀ i ∈ (st.readers r).cache.filter (fun i => decide (i ≠ m)), i ∈ (st.readers r).cache :=
    fun i hi => (List.mem_filter.1 hi).1
  have hn : (st.readers r).cache.Nodup := by
    have := q.nodup
    simp only [out, List.map_append] at this
    exact List.Pairwise.of_map _ (fun _ _ h e => h (congrArg (· % n) e)) (List.nodup_append.1 (List.nodup_append.1 this).2.1).1
  have hh : ∀ s m, Holds n st s m → Holds n st' s m := by
    rintro s m ⟨v, a, b⟩; exact ⟨v, by rw [← hst]; exact a, by rw [← hst]; exact b⟩
  refine ⟨by rw [hx]; exact q.live, ?_, ?_, ?_, ?_, ?_, ?_, ?_, ?_, ?_⟩
  · rw [hx]
    refine (List.Perm.nodup_iff ?_).1 q.nodup
    apply List.Perm.map
    simp only [out]
    apply List.Perm.append_left
    have e : (st.readers r).cache.Perm (m :: (st.readers r).cache.filter (fun i => decide (i ≠ m))) := by
      have := hn.erase_eq_filter m
      rw [show (fun i => decide (i ≠ m)) = (fun i => i != m) by funext i; simp [bne, BEq.beq], ← this]
      exact List.perm_cons_erase hm
    refine (List.Perm.append_right _ e).trans ?_
    simp only [List.cons_append]
    refine List.Perm.trans ?_ (List.Perm.append_left _ (List.perm_append_comm (l₁ := [m])))
    exact List.perm_middle.symm
  · intro i hi
    rw [hx] at hi
    rw [← hst]
    refine q.leased i ?_
    simp only [out, List.mem_append, List.mem_singleton] at hi ⊢
    rcases hi with a | a | a | rfl
    · exact Or.inl a
    · exact Or.inr (Or.inl (hsub i a))
    · exact Or.inr (Or.inr a)
    · exact Or.inr (Or.inl hm)
  · intro i hi
    rw [hx] at hi
    refine (by rw [← hst]; rfl : st'.pubSeg = st.pubSeg) ▸ hh _ _ (q.inPub i ?_)
    simp only [List.mem_append] at hi ⊢
    exact hi.imp id (hsub i)
  · intro i hi; rw [hx] at hi ⊢; exact hh _ _ (q.inSeg i (hsub i hi))
  · intro x hm e; rw [hx] at hm e ⊢; exact hh _ _ (q.inSegW x hm e)
  · intro x hm; rw [hx] at hm ⊢; rw [← hst]; exact q.names x hm
  · rw [hx, ← hst]; exact q.order
  · rw [hx, ← hst]; exact q.segFresh
  · rw [hx, ← hst]; exact q.owed

theorem inv_ack {n : Nat} {st : St R V} {r : R} {m : Nat} {rest : List Nat} (h : Inv n st) (hr : r ∈ st.chans)
    (ha : (st.readers r).acks = m :: rest) :
    Inv n (setReader { st with leases := st.leases.filter (fun l => decide (l ≠ (r, m % n))) } r
        { st.readers r with acks := rest }) := by
  have q := h.readers r hr
  refine h.reader hr rfl rfl rfl rfl ?_ rfl rfl rfl (Or.inl rfl) ?_
  · intro r' i hne hl
    simp only [setReader, List.mem_filter, decide_eq_true_eq]
    exact ⟨hl, fun e => hne (congrArg Prod.fst e)⟩
  generalize hst : setReader _ r _ = st'
  have hx : st'.readers r = { st.readers r with acks := rest } := by rw [← hst]; simp [setReader]
  have hh : ∀ s m, Holds n st s m → Holds n st' s m := by
    rintro s m ⟨v, a, b⟩; exact ⟨v, by rw [← hst]; exact a, by rw [← hst]; exact b⟩
  have hp : (out (st.readers r)).Perm (m :: out { st.readers r with acks := rest }) := by
    simp only [out, ha]
    rw [← List.append_assoc, ← List.append_assoc]
    exact List.perm_middle
  have hnd : (m % n) ∉ (out { st.readers r with acks := rest }).map (· % n) ∧
      ((out { st.readers r with acks := rest }).map (· % n)).Nodup := by
    have := ((hp.map (· % n)).nodup_iff).1 q.nodup
    simpa only [List.map_cons, List.nodup_cons] using this
  refine ⟨by rw [hx]; exact q.live, by rw [hx]; exact hnd.2, ?_, ?_, ?_, ?_, ?_, ?_, ?_, ?_⟩
  · intro i hi
    rw [hx] at hi
    rw [← hst]
    simp only [setReader, List.mem_filter, decide_eq_true_eq]
    refine ⟨q.leased i (hp.mem_iff.2 (List.mem_cons_of_mem _ hi)), ?_⟩
    intro e
    have e : i % n = m % n := congrArg Prod.snd e
    exact hnd.1 (List.mem_map.2 ⟨i, hi, e⟩)
  · intro i hi
    rw [hx] at hi
    exact (by rw [← hst]; rfl : st'.pubSeg = st.pubSeg) ▸ hh _ _ (q.inPub i hi)
  · intro i hi; rw [hx] at hi ⊢; exact hh _ _ (q.inSeg i hi)
  · intro x hm e; rw [hx] at hm e ⊢; exact hh _ _ (q.inSegW x hm e)
  · intro x hm; rw [hx] at hm ⊢; rw [← hst]; exact q.names x hm
  · rw [hx, ← hst]; exact q.order
  · rw [hx, ← hst]; exact q.segFresh
  · rw [hx, ← hst]; exact q.owed

theorem inv_step {n : Nat} {st st' : St R V} {a : Act R V} (h : Inv n st) (hs : step n st a = some st')
    (hg : a = .grow → ∀ r ∈ st.chans, ∀ x ∈ (st.readers r).wire, x.2 = (st.readers r).seg) : Inv n st' := by
  cases a with
  | grow =>
    simp only [step] at hs
    split at hs
    · cases hs; exact inv_grow h (hg rfl)
    · cases hs
  | bcast v =>
    simp only [step] at hs
    split at hs
    · rename_i ha; cases hs; exact inv_bcast v h ha
    · cases hs
  | unlink s =>
    simp only [step] at hs
    split at hs
    · rename_i ha
      simp only [Bool.and_eq_true, decide_eq_true_eq] at ha
      cases hs
      refine ⟨?_, h.offline, ?_, ?_, h.next, h.count, h.calm, h.reads⟩
      · intro r hr
        exact (h.readers r hr).congr rfl rfl rfl rfl (fun _ h => h) rfl rfl rfl
      · have : st.pubSeg ≠ s := fun e => ha.1.2 e.symm
        simp [h.pubAlive, this]
      · intro s' hs'
        simp only [Bool.and_eq_true] at hs'
        exact h.aliveFresh s' hs'.1
    · cases hs
  | deliver r =>
    simp only [step] at hs
    split at hs
    · rename_i m s rest hl hw
      cases hs
      exact inv_deliver h (h.chan hl) hw
    · cases hs
  | read r m =>
    simp only [step] at hs
    split at hs
    · rename_i hc
      simp only [Bool.and_eq_true, List.contains_iff_mem] at hc
      obtain ⟨v, h1, h2⟩ := (h.readers r (h.chan hc.1)).inSeg m hc.2
      simp only [h1, Option.some.injEq] at hs
      subst hs
      have hb : bcasts (logEv st (.read r m v)).log = bcasts st.log := by simp [logEv, bcasts]
      refine ⟨?_, h.offline, h.pubAlive, h.aliveFresh, by rw [hb]; exact h.next, ?_, ?_, ?_⟩
      · intro r' hr'
        refine (h.readers r' hr').congr rfl rfl rfl rfl (fun _ h => h) hb ?_ ?_
        · simp [logEv, got, gotStep]
        · simp [logEv, Growth.owed, owedStep]
      · intro r'; have := h.count r'; simpa [logEv, owedStep] using this
      · intro r' e hm; have := h.calm r' e; simp [logEv, this] at hm
      · intro r' m' v' hm
        rw [hb]
        simp only [logEv, List.mem_append, List.mem_singleton, Ev.read.injEq] at hm
        rcases hm with hm | ⟨rfl, rfl, rfl⟩
        · exact h.reads r' m' v' hm
        · exact h2
    · cases hs
  | done r m =>
    simp only [step] at hs
    split at hs
    · rename_i hc
      simp only [Bool.and_eq_true, List.contains_iff_mem] at hc
      cases hs
      exact inv_done h (h.chan hc.1) hc.2
    · cases hs
  | ack r =>
    simp only [step] at hs
    split at hs
    · rename_i m rest ha
      cases hs
      refine inv_ack h ?_ ha
      apply Classical.byContradiction
      intro hn
      rw [(h.offline r hn).2] at ha
      cases ha
    · cases hs
  | join r s =>
    simp only [step] at hs
    split at hs
    · rename_i hc
      simp only [Bool.and_eq_true, Bool.not_eq_true', List.contains_eq_mem, decide_eq_false_iff_not] at hc
      cases hs
      have e0 : ∀ x : Reader, bcasts (logEv (setReader { st with chans := st.chans ++ [r] } r x) (.join r)).log = bcasts st.log := by
        intro x; simp [logEv, setReader, bcasts]
      refine ⟨?_, ?_, h.pubAlive, h.aliveFresh, by rw [e0]; exact h.next, ?_, ?_, ?_⟩
      · intro r' hr'
        by_cases e : r' = r
        · subst e
          refine ⟨by simp [logEv, setReader], by simp [logEv, setReader, out], by simp [logEv, setReader, out], by simp [logEv, setReader],
            by simp [logEv, setReader], by simp [logEv, setReader], by simp [logEv, setReader], by simp [logEv, setReader], ?_, ?_⟩
          · simp only [logEv, setReader, if_true]; exact h.aliveFresh s hc.1
          · simp [logEv, setReader, got, gotStep, Growth.owed, owedStep]
        · have hr' : r' ∈ st.chans ++ [r] := hr'
          simp only [List.mem_append, List.mem_singleton, e, or_false] at hr'
          have e' : ¬ r = r' := fun h => e h.symm
          refine (h.readers r' hr').congr (by simp [logEv, setReader, e]) rfl rfl rfl (fun _ h => h) (e0 _) ?_ ?_
          · simp [logEv, setReader, got, gotStep, e']
          · simp [logEv, setReader, Growth.owed, owedStep, e']
      · intro r' hr'
        have hr' : r' ∉ st.chans ++ [r] := hr'
        simp only [List.mem_append, List.mem_singleton, not_or] at hr'
        simp only [logEv, setReader, hr'.2, if_false]
        exact h.offline r' hr'.1
      · intro r'
        have := h.count r'
        by_cases e : r = r' <;> simp [logEv, setReader, owedStep, e, this]
      · intro r' e hm; have := h.calm r' e; simp [logEv, setReader, this] at hm
      · intro r' m' v' hm
        rw [e0]
        exact h.reads r' m' v' (by simpa [logEv, setReader] using hm)
    · cases hs
  | drop r =>
    simp only [step] at hs
    split at hs
    · rename_i hc
      cases hs
      generalize hst : logEv (setReader _ r _) (Ev.drop r) = st'
      have e0 : bcasts st'.log = bcasts st.log := by rw [← hst]; simp [logEv, setReader, bcasts]
      have hch : st'.chans = st.chans.filter (fun r' => decide (r' ≠ r)) := by rw [← hst]; rfl
      refine ⟨?_, ?_, by rw [← hst]; exact h.pubAlive, by rw [← hst]; exact h.aliveFresh,
        by rw [e0, ← hst]; exact h.next, ?_, ?_, ?_⟩
      · intro r' hr'
        rw [hch, List.mem_filter, decide_eq_true_eq] at hr'
        refine (h.readers r' hr'.1).congr (by rw [← hst]; simp [logEv, setReader, hr'.2]) (by rw [← hst]; rfl) (by rw [← hst]; rfl)
          (by rw [← hst]; rfl) ?_ e0 (by rw [← hst]; simp [logEv, setReader, got, gotStep])
          (by rw [← hst]; simp [logEv, setReader, Growth.owed, owedStep])
        intro i hi
        rw [← hst]
        simp only [logEv, setReader, List.mem_filter, decide_eq_true_eq]
        exact ⟨hi, hr'.2⟩
      · intro r' hr'
        rw [hch, List.mem_filter, decide_eq_true_eq] at hr'
        rw [← hst]
        by_cases e : r' = r
        · simp [logEv, setReader, e]
        · simp only [logEv, setReader, e, if_false]
          exact h.offline r' (fun hm => hr' ⟨hm, e⟩)
      · intro r'; have := h.count r'; rw [← hst]; simpa [logEv, setReader, owedStep] using this
      · intro r' e hm; have := h.calm r' e; rw [← hst] at hm; simp [logEv, setReader, this] at hm
      · intro r' m' v' hm
        rw [e0]
        exact h.reads r' m' v' (by rw [← hst] at hm; simpa [logEv, setReader] using hm)
    · cases hs

theorem InStep.inv {n : Nat} {st : St R V} (r : InStep n st) : Inv n st := by
  induction r with
  | init => exact inv_init n
  | step a _ hs hg ih => exact inv_step ih hs hg

/-! ## The property -/

/-- **C48 (partial).** If the publisher grows its segment only when every channel has processed the notification of the
previous growth, then no channel ends; every message broadcast since a channel joined has been handed to its clients or
is on its way, in order and once; and whatever a client reads of a message, before and after its channel moved to a new
segment, is the broadcast content. Missing: a second growth while a channel lags, see `C48_negation`. -/
theorem C48_in_step_partial {n : Nat} {st : St R V} (h : InStep n st) :
    (∀ r e, Ev.died r e ∉ st.log) ∧
    (∀ r ∈ st.chans, got r st.log ++ (st.readers r).wire.map (·.1) = owed r st.log) ∧
    (∀ r m v, Ev.read r m v ∈ st.log → (bcasts st.log)[m]? = some v) :=
  ⟨h.inv.calm, fun r hr => (h.inv.readers r hr).owed, h.inv.reads⟩

/-! ## Nothing is stuck -/

/-- What the channels and their clients do by themselves. -/
def Own : Act R V → Prop
  | .deliver _ => True
  | .done _ _ => True
  | .ack _ => True
  | _ => False

/-- What a channel has to do. -/
def toDo (x : Reader) : Nat := 3 * x.wire.length + (2 * x.cache.length + x.acks.length)

def work (st : St R V) : Nat := (st.chans.map (fun r => toDo (st.readers r))).sum

theorem sum_lt {A : Type} {f g : A → Nat} : ∀ {l : List A}, (∀ x ∈ l, f x ≤ g x) → (∃ x ∈ l, f x < g x) → (l.map f).sum < (l.map g).sum := by
  intro l
  induction l with
  | nil => rintro _ ⟨x, hx, _⟩; cases hx
  | cons a l ih =>
    rintro hle ⟨x, hx, hlt⟩
    simp only [List.map_cons, List.sum_cons]
    have h1 := hle a (by simp)
    by_cases hl : ∃ x ∈ l, f x < g x
    · have := ih (fun y hy => hle y (by simp [hy])) hl
      omega
    · have h2 : (l.map f).sum = (l.map g).sum := by
        congr 1
        apply List.map_congr_left
        intro y hy
        have := hle y (by simp [hy])
        have : ¬ f y < g y := fun c => hl ⟨y, hy, c⟩
        omega
      rcases List.mem_cons.1 hx with rfl | hx
      · omega
      · exact absurd ⟨x, hx, hlt⟩ hl

theorem work_reader {st st' : St R V} {r : R} {x : Reader} (hr : r ∈ st.chans) (hc : st'.chans = st.chans)
    (he : ∀ r', st'.readers r' = if r' = r then x else st.readers r') (hx : toDo x < toDo (st.readers r)) : work st' < work st := by
  unfold work
  rw [hc]
  apply sum_lt
  · intro y _
    rw [he y]
    split
    · rename_i e; subst e; omega
    · exact Nat.le_refl _
  · exact ⟨r, hr, by rw [he r, if_pos rfl]; exact hx⟩

theorem work_step {n : Nat} {st st' : St R V} {a : Act R V} (h : Inv n st) (ho : Own a) (hs : step n st a = some st') : work st' < work st := by
  cases a <;> simp only [Own] at ho
  · rename_i r
    simp only [step] at hs
    split at hs
    · rename_i m s rest hl hw
      cases hs
      have hr := h.chan hl
      rw [deliver_eq h hr hw]
      refine work_reader hr rfl (fun _ => rfl) ?_
      simp only [toDo, hw, List.length_cons, List.length_append, List.length_nil]
      omega
    · cases hs
  · rename_i r m
    simp only [step] at hs
    split at hs
    · rename_i hc
      cases hs
      simp only [Bool.and_eq_true, List.contains_iff_mem] at hc
      refine work_reader (h.chan hc.1) rfl (fun _ => rfl) ?_
      have : ((st.readers r).cache.filter (fun i => decide (i ≠ m))).length < (st.readers r).cache.length :=
        List.length_filter_lt_length_iff_exists.2 ⟨m, hc.2, by simp⟩
      simp only [toDo, List.length_append, List.length_cons, List.length_nil]
      omega
    · cases hs
  · rename_i r
    simp only [step] at hs
    split at hs
    · rename_i m rest hw
      cases hs
      have hr : r ∈ st.chans := by
        apply Classical.byContradiction
        intro hn
        rw [(h.offline r hn).2] at hw
        cases hw
      refine work_reader hr rfl (fun _ => rfl) ?_
      simp only [toDo, hw, List.length_cons]
      omega
    · cases hs

/-- Buffers are leased only for messages that a channel has not given back. -/
def Lent (n : Nat) (st : St R V) : Prop := ∀ r i, (r, i) ∈ st.leases → r ∈ st.chans ∧ ∃ m ∈ out (st.readers r), m % n = i

theorem lent_step {n : Nat} {st st' : St R V} {a : Act R V} (h : Inv n st) (l : Lent n st) (hs : step n st a = some st') : Lent n st' := by
  cases a with
  | grow =>
    simp only [step] at hs
    split at hs
    · cases hs; exact l
    · cases hs
  | bcast v =>
    simp only [step] at hs
    split at hs
    · cases hs
      intro r i hi
      simp only [bcast, logEv, List.mem_append, List.mem_map] at hi
      rcases hi with hi | ⟨r', hr', e⟩
      · obtain ⟨h1, m, h2, h3⟩ := l r i hi
        refine ⟨h1, m, ?_, h3⟩
        simp only [bcast, logEv]
        split
        · simp only [out, List.map_append, List.mem_append] at h2 ⊢
          rcases h2 with h2 | h2
          · exact .inl (.inl h2)
          · exact .inr h2
        · exact h2
      · cases e
        refine ⟨hr', st.next, ?_, rfl⟩
        simp only [bcast, logEv]
        rw [if_pos ⟨hr', (h.readers r hr').live⟩]
        simp [out]
    · cases hs
  | unlink s =>
    simp only [step] at hs
    split at hs
    · cases hs; exact l
    · cases hs
  | deliver r =>
    simp only [step] at hs
    split at hs
    · rename_i m s rest hl hw
      cases hs
      rw [deliver_eq h (h.chan hl) hw]
      intro r' i hi
      obtain ⟨h1, k, h2, h3⟩ := l r' i hi
      refine ⟨h1, k, ?_, h3⟩
      simp only [logEv, setReader]
      split
      · rename_i e
        subst e
        simp only [out, hw, List.map_cons, List.cons_append, List.mem_cons, List.mem_append] at h2 ⊢
        rcases h2 with e | e | e | e
        · exact .inr (.inl (.inr (.inl e)))
        · exact .inl e
        · exact .inr (.inl (.inl e))
        · exact .inr (.inr e)
      · exact h2
    · cases hs
  | read r m =>
    simp only [step] at hs
    split at hs
    · split at hs
      · cases hs; exact l
      · cases hs
    · cases hs
  | done r m =>
    simp only [step] at hs
    split at hs
    · rename_i hc
      cases hs
      intro r' i hi
      obtain ⟨h1, k, h2, h3⟩ := l r' i hi
      refine ⟨h1, k, ?_, h3⟩
      simp only [setReader]
      split
      · rename_i e
        subst e
        simp only [out, List.mem_append, List.mem_filter, List.mem_singleton] at h2 ⊢
        by_cases e : k = m
        · exact .inr (.inr (.inr e))
        · rcases h2 with h2 | h2 | h2
          · exact .inl h2
          · exact .inr (.inl ⟨h2, by simp [e]⟩)
          · exact .inr (.inr (.inl h2))
      · exact h2
    · cases hs
  | ack r =>
    simp only [step] at hs
    split at hs
    · rename_i m rest hw
      cases hs
      intro r' i hi
      simp only [setReader, List.mem_filter, decide_eq_true_eq] at hi
      obtain ⟨h1, k, h2, h3⟩ := l r' i hi.1
      refine ⟨h1, k, ?_, h3⟩
      simp only [setReader]
      split
      · rename_i e
        subst e
        simp only [out, hw, List.mem_append, List.mem_cons] at h2 ⊢
        rcases h2 with h2 | h2 | h2 | h2
        · exact .inl h2
        · exact .inr (.inl h2)
        · subst h2
          exact absurd (by rw [h3]) hi.2
        · exact .inr (.inr h2)
      · exact h2
    · cases hs
  | join r s =>
    simp only [step] at hs
    split at hs
    · rename_i hc
      cases hs
      simp only [Bool.and_eq_true, Bool.not_eq_true', ← Bool.not_eq_true, List.contains_iff_mem] at hc
      intro r' i hi
      obtain ⟨h1, k, h2, h3⟩ := l r' i hi
      refine ⟨by simp [logEv, setReader, h1], k, ?_, h3⟩
      simp only [logEv, setReader]
      rw [if_neg (fun e : r' = r => hc.2 (e ▸ h1))]
      exact h2
    · cases hs
  | drop r =>
    simp only [step] at hs
    split at hs
    · cases hs
      intro r' i hi
      simp only [logEv, setReader, List.mem_filter, decide_eq_true_eq] at hi
      obtain ⟨h1, k, h2, h3⟩ := l r' i hi.1
      refine ⟨by simp [logEv, setReader, h1, hi.2], k, ?_, h3⟩
      simp only [logEv, setReader]
      rw [if_neg hi.2]
      exact h2
    · cases hs

theorem InStep.lent {n : Nat} {st : St R V} (h : InStep n st) : Lent n st := by
  induction h with
  | init => intro r i hi; cases hi
  | step a h hs _ ih => exact lent_step h.inv ih hs

/-- **C48, nothing is stuck (partial, as above).** The next notification of a channel can be handled and hands its message to the
clients; they can read a message that they have, and leave it; after finitely many such steps all is handled, and then the
publisher can grow its segment and send. -/
theorem C48_goes_on_partial {n : Nat} {st : St R V} (h : InStep n st) :
    (∀ r ∈ st.chans, ∀ m s rest, (st.readers r).wire = (m, s) :: rest → ∃ st', step n st (.deliver r) = some st' ∧ st'.log = st.log ++ [.deliver r m]) ∧
    (∀ r ∈ st.chans, ∀ m ∈ (st.readers r).cache, (∃ v st', step n st (.read r m) = some st' ∧ st'.log = st.log ++ [.read r m v]) ∧
      ∃ st', step n st (.done r m) = some st' ∧ m ∉ (st'.readers r).cache ∧ m ∈ (st'.readers r).acks) ∧
    (∃ N, ∀ as st', (∀ a ∈ as, Own a) → run n as st = some st' → as.length ≤ N) ∧
    ((∀ a, Own a → step n st a = none) → (step n st .grow).isSome = true ∧
      ∀ v, ∃ st', step n st (.bcast v) = some st' ∧ st'.log = st.log ++ [.bcast v]) := by
  have i := h.inv
  refine ⟨fun r hr m s rest hw => ?_, fun r hr m hm => ⟨?_, ?_⟩, ⟨work st, fun as => ?_⟩, fun hn => ?_⟩
  · refine ⟨deliver n st r m s rest, ?_, ?_⟩
    · simp only [step, (i.readers r hr).live, hw]
    · rw [deliver_eq i hr hw]; rfl
  · obtain ⟨v, hv, _⟩ := (i.readers r hr).inSeg m hm
    exact ⟨v, logEv st (.read r m v), by simp [step, (i.readers r hr).live, hm, hv], rfl⟩
  · refine ⟨setReader st r { st.readers r with
      cache := (st.readers r).cache.filter (fun i => decide (i ≠ m)), acks := (st.readers r).acks ++ [m] }, ?_, ?_, ?_⟩
    · simp only [step]
      rw [if_pos (by simp [(i.readers r hr).live, hm])]
    · simp [setReader]
    · simp [setReader]
  · induction as generalizing st with
    | nil => intro _ _ _; exact Nat.zero_le _
    | cons a as ih =>
      intro st' ho hr
      simp only [run, Option.bind_eq_some_iff] at hr
      obtain ⟨st1, h1, h2⟩ := hr
      have hoa := ho a (by simp)
      have w := work_step i hoa h1
      have := ih (.step a h h1 (by rintro rfl; exact hoa.elim)) (InStep.inv (.step a h h1 (by rintro rfl; exact hoa.elim))) st' (fun b hb => ho b (by simp [hb])) h2
      simp only [List.length_cons]
      omega
  · have hav : ∀ k, available st k = true := by
      intro k
      rw [available_iff]
      intro r hr
      obtain ⟨h1, m, h2, _⟩ := h.lent r k hr
      have hl := (i.readers r h1).live
      simp only [out, List.mem_append, List.mem_map] at h2
      rcases h2 with ⟨x, hx, _⟩ | h2 | h2
      · have := hn (.deliver r) trivial
        cases hw : (st.readers r).wire with
        | nil => rw [hw] at hx; cases hx
        | cons y ys => simp [step, hl, hw] at this
      · have := hn (.done r m) trivial
        simp [step, hl, h2] at this
      · have := hn (.ack r) trivial
        cases hw : (st.readers r).acks with
        | nil => rw [hw] at h2; cases h2
        | cons y ys => simp [step, hw] at this
    exact ⟨by simp [step, hav], fun v => ⟨bcast n st v, by simp [step, hav], rfl⟩⟩

/-- **C48 with a single buffer.** The buffer is free only when every channel has acknowledged everything, so channels never
lag behind a growth: in all executions none ends and none misses a message. -/
theorem C48_one_buffer_partial {st : St R V} (h : Run 1 st) :
    (∀ r e, Ev.died r e ∉ st.log) ∧
    (∀ r ∈ st.chans, got r st.log ++ (st.readers r).wire.map (·.1) = owed r st.log) ∧
    (∀ r m v, Ev.read r m v ∈ st.log → (bcasts st.log)[m]? = some v) := by
  apply C48_in_step_partial (n := 1)
  induction h with
  | init => exact .init
  | @step st st' a _ hs ih =>
    refine .step a ih hs ?_
    rintro rfl r hr x hx
    have q := ih.inv.readers r hr
    have hl := q.leased x.1 (by simp only [out, List.mem_append]; exact Or.inl (List.mem_map_of_mem hx))
    simp only [step] at hs
    split at hs
    · rename_i ha
      exact absurd (by simpa [Nat.mod_one] using hl) (available_iff.1 ha r)
    · cases hs

/-- **C48 fails with two buffers.** The publisher grows for message 0 and again for message 1 before the channel has
processed the notification of message 0. The segment named in it is held by nobody and removed; the channel's attach
raises `FileNotFoundError`, which nothing handles: the channel ends and neither message is received. -/
theorem C48_negation :
    (run 2 [.join () 0, .grow, .bcast 'A', .grow, .bcast 'B', .unlink 1, .deliver ()] (init : St Unit Char)).map
      (fun st => (st.log, (st.readers ()).live, got () st.log, owed () st.log)) =
    some ([.join (), .grow, .bcast 'A', .grow, .bcast 'B', .died () .fileNotFound], false, [], [0, 1]) := by decide

/-- An execution in step: a channel that holds message 0 moves to the new segment with message 1 and reads both there, after
the old segment is gone. -/
example : ∃ st : St Unit Char, InStep 2 st ∧ st.alive 0 = false ∧ Ev.read () 0 'A' ∈ st.log ∧ Ev.read () 1 'B' ∈ st.log := by
  have i1 : InStep 2 _ := .step (.join () 0) (.init : InStep 2 (init : St Unit Char)) rfl (by simp)
  have i2 := i1.step (.bcast 'A') rfl (by simp)
  have i3 := i2.step (.deliver ()) rfl (by simp)
  have i4 := i3.step .grow rfl (by intro _ r _ x hx; cases hx)
  have i5 := i4.step (.bcast 'B') rfl (by simp)
  have i6 := i5.step (.deliver ()) rfl (by simp)
  have i7 := i6.step (.unlink 0) rfl (by simp)
  have i8 := i7.step (.read () 0) rfl (by simp)
  have i9 := i8.step (.read () 1) rfl (by simp)
  exact ⟨_, i9, by decide, by decide, by decide⟩

/-- In that execution, before the messages are left, `C48_goes_on_partial` applies: message 1 is on its way, message 0 is held. -/
example : ∃ st : St Unit Char, InStep 2 st ∧ st.chans = [()] ∧ (st.readers ()).wire = [(1, 1)] ∧ (st.readers ()).cache = [0] := by
  have i1 : InStep 2 _ := .step (.join () 0) (.init : InStep 2 (init : St Unit Char)) rfl (by simp)
  have i2 := i1.step (.bcast 'A') rfl (by simp)
  have i3 := i2.step (.deliver ()) rfl (by simp)
  have i4 := i3.step .grow rfl (by intro _ r _ x hx; cases hx)
  exact ⟨_, i4.step (.bcast 'B') rfl (by simp), by decide, by decide, by decide⟩

/-- With one buffer, growing twice works because the acknowledgement comes first. -/
example : ∃ st : St Unit Char, Run 1 st ∧ got () st.log = [0, 1] ∧ st.pubSeg = 2 := by
  have i1 : Run 1 _ := .step (.join () 0) (.init : Run 1 (init : St Unit Char)) rfl
  have i2 := ((i1.step .grow rfl).step (.bcast 'A') rfl).step (.deliver ()) rfl
  have i3 := (((i2.step (.done () 0) rfl).step (.ack ()) rfl).step .grow rfl).step (.bcast 'B') rfl
  exact ⟨_, i3.step (.deliver ()) rfl, by decide, by decide⟩

end Growth
end Ez
