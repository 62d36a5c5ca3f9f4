import Verif.Model.Views

/-!
# C111: messages in use while shared memory grows
-/

set_option linter.unusedSimpArgs false
set_option linter.unusedSectionVars false

namespace Ez
namespace Views

variable {C V : Type} [DecidableEq C] [DecidableEq V]

/-- The messages a client has got. -/
def gotBy (c : C) (log : List (Ev C)) : List Nat :=
  log.filterMap (fun e => match e with | .got c' m => if c' = c then some m else none | _ => none)

/-- Executions. -/
inductive Run (n : Nat) (cs : List C) : St C V → Prop
  | init : Run n cs init
  | step {st st'} (a : Act C V) : Run n cs st → step n cs st a = some st' → Run n cs st'

/-- An object in use, in a block or kept elsewhere, has arrays in a segment. -/
def InUse (st : St C V) (s : Nat) : Prop :=
  ∃ o : Obj V, ((∃ c, (c, o) ∈ st.blocks) ∨ o ∈ st.kept) ∧ o.arrays = true ∧ o.seg = s

/-- Executions in which the segment is replaced only while no array made from it is in use. -/
inductive Calm (n : Nat) (cs : List C) : St C V → Prop
  | init : Calm n cs init
  | step {st st'} (a : Act C V) : Calm n cs st → step n cs st a = some st' →
      (∀ v x, a = .send v x true → ¬ InUse st st.pubSeg) → Calm n cs st'

theorem Calm.run {n : Nat} {cs : List C} {st : St C V} (h : Calm n cs st) : Run n cs st := by
  induction h with
  | init => exact .init
  | step a _ hs _ ih => exact .step a ih hs

/-- What holds of an object of an open block. -/
structure BInv (n : Nat) (st : St C V) (o : Obj V) : Prop where
  sent : st.sent[o.id]? = some (o.plain, o.arrays)
  mem : o.arrays = true → st.slots o.seg (o.id % n) = some (o.id, o.plain, true)
  at_ : (st.live = true ∧ o.id ∈ st.owed ∧ (o.arrays = true → o.seg = st.pubSeg)) ∨
    (st.live = false ∧ (o.arrays = true → o.seg < st.pubSeg))

structure Inv (n : Nat) (cs : List C) (st : St C V) : Prop where
  next : st.next = st.sent.length
  blocks : ∀ b ∈ st.blocks, BInv n st b.2
  dead : st.live = false → st.cache = [] ∧ st.owed = []
  seg : st.live = true → st.seg = st.pubSeg
  conns : st.live = true → st.conns = [st.pubSeg]
  slot : ∀ i ∈ st.owed, ∃ v a, st.slots st.pubSeg (i % n) = some (i, v, a) ∧ st.sent[i]? = some (v, a)
  nodup : (st.owed.map (· % n)).Nodup
  cache : ∀ o ∈ st.cache, o.id ∈ st.owed ∧ o.seg = st.seg ∧ st.sent[o.id]? = some (o.plain, o.arrays)
  cached : ∀ i ∈ st.owed, ∃ o ∈ st.cache, o.id = i
  cnodup : (st.cache.map (·.id % n)).Nodup

theorem inj_of_nodup {l : List Nat} {n : Nat} (h : (l.map (· % n)).Nodup) {i j : Nat} (hi : i ∈ l) (hj : j ∈ l)
    (e : i % n = j % n) : i = j := by
  induction l with
  | nil => cases hi
  | cons x xs ih =>
    simp only [List.map_cons, List.nodup_cons, List.mem_map] at h
    rcases List.mem_cons.1 hi with rfl | hi' <;> rcases List.mem_cons.1 hj with rfl | hj'
    · rfl
    · exact absurd ⟨j, hj', e.symm⟩ h.1
    · exact absurd ⟨i, hi', e⟩ h.1
    · exact ih h.2 hi' hj'

theorem inv_init (n : Nat) (cs : List C) : Inv n cs (init : St C V) := by
  refine ⟨rfl, ?_, ?_, fun _ => rfl, fun _ => rfl, ?_, ?_, ?_, ?_, ?_⟩ <;> simp [init]

theorem mem_cachePut {n : Nat} {c : List (Obj V)} {o x : Obj V} :
    x ∈ cachePut n c o ↔ (x ∈ c ∧ x.id % n ≠ o.id % n) ∨ x = o := by
  simp [cachePut]

/-- The cache after the messages were read again from a segment that holds them all. -/
theorem reput_eq {n : Nat} (slots : Nat → Nat → Option (Nat × V × Bool)) (s : Nat) (f : Nat → V × Bool) :
    ∀ (ids : List Nat) (acc : List (Obj V)), (∀ i ∈ ids, slots s (i % n) = some (i, (f i).1, (f i).2)) →
      (acc.map (·.id % n) ++ ids.map (· % n)).Nodup →
      ids.foldl (putFrom n slots s) acc =
        acc ++ ids.map (fun i => { id := i, seg := s, arrays := (f i).2, plain := (f i).1 }) := by
  intro ids
  induction ids with
  | nil => intro acc _ _; simp
  | cons i is ih =>
    intro acc h hn
    have hi := h i (List.mem_cons_self ..)
    simp only [List.foldl_cons]
    have e : putFrom n slots s acc i = cachePut n acc { id := i, seg := s, arrays := (f i).2, plain := (f i).1 } := by
      simp [putFrom, hi]
    have hacc : ∀ y ∈ acc, y.id % n ≠ i % n := by
      intro y hy e'
      rw [List.nodup_append] at hn
      exact hn.2.2 _ (List.mem_map.2 ⟨y, hy, rfl⟩) _ (List.mem_map.2 ⟨i, List.mem_cons_self .., rfl⟩) e'
    have e2 : cachePut n acc { id := i, seg := s, arrays := (f i).2, plain := (f i).1 } =
        acc ++ [{ id := i, seg := s, arrays := (f i).2, plain := (f i).1 }] := by
      simp only [cachePut]
      congr 1
      exact List.filter_eq_self.2 (fun y hy => by simpa using hacc y hy)
    rw [e, e2, ih _ (fun j hj => h j (List.mem_cons_of_mem _ hj))]
    · simp
    · simpa using hn

theorem getElem?_append_some {α : Type} {l : List α} {i : Nat} {x y : α} (h : l[i]? = some x) : (l ++ [y])[i]? = some x := by
  have := (List.getElem?_eq_some_iff.1 h).1
  rw [List.getElem?_append_left this, h]

/-- After `write` the owed messages are in the publisher's segment. -/
theorem slot_write {n : Nat} {cs : List C} {st : St C V} (h : Inv n cs st) (v : V) (a big : Bool)
    (hf : ∀ i ∈ st.owed, i % n ≠ st.next % n) :
    ∀ i ∈ st.owed, ∃ v' a', (write n st v a big).slots (write n st v a big).pubSeg (i % n) = some (i, v', a') ∧
      st.sent[i]? = some (v', a') := by
  intro i hi
  obtain ⟨v', a', e1, e2⟩ := h.slot i hi
  exact ⟨v', a', by simp [write, hf i hi, e1], e2⟩

/-- Objects of open blocks after `write`. -/
theorem block_write {n : Nat} {cs : List C} {st : St C V} (h : Inv n cs st) (v : V) (a big : Bool)
    (hf : ∀ i ∈ st.owed, i % n ≠ st.next % n) {b : C × Obj V} (hb : b ∈ st.blocks) :
    (st.sent ++ [(v, a)])[b.2.id]? = some (b.2.plain, b.2.arrays) ∧
    (b.2.arrays = true → (write n st v a big).slots b.2.seg (b.2.id % n) = some (b.2.id, b.2.plain, true)) := by
  have hB := h.blocks b hb
  refine ⟨getElem?_append_some hB.sent, fun ha => ?_⟩
  have hm := hB.mem ha
  rcases hB.at_ with ⟨_, ho, hs⟩ | ⟨_, hs⟩
  · have hs := hs ha
    have := hf _ ho
    cases big
    · simp [write, hs, this, ← hm]
    · have : st.pubSeg ≠ st.pubSeg + 1 := by omega
      simp [write, hs, this, ← hm]
  · have hs := hs ha
    cases big
    · have : b.2.seg ≠ st.pubSeg := by omega
      simp [write, this, hm]
    · have : b.2.seg ≠ st.pubSeg + 1 := by omega
      simp [write, this, hm]

/-- What is in the cache is what is owed. -/
theorem accept_inv {n : Nat} {cs : List C} {st : St C V} {m : Nat} {v : V} {a : Bool}
    (hnext : st.next = st.sent.length) (hlive : st.live = true)
    (hblocks : ∀ b ∈ st.blocks, BInv n st b.2) (hseg : st.seg = st.pubSeg) (hconns : st.conns = [st.pubSeg])
    (hslot : ∀ i ∈ st.owed, ∃ v a, st.slots st.pubSeg (i % n) = some (i, v, a) ∧ st.sent[i]? = some (v, a))
    (hnodup : (st.owed.map (· % n)).Nodup) (hf : ∀ i ∈ st.owed, i % n ≠ m % n)
    (hcache : ∀ o ∈ st.cache, o.id ∈ st.owed ∧ o.seg = st.seg ∧ st.sent[o.id]? = some (o.plain, o.arrays))
    (hcached : ∀ i ∈ st.owed, ∃ o ∈ st.cache, o.id = i)
    (hcn : (st.cache.map (·.id % n)).Nodup)
    (hm : st.slots st.pubSeg (m % n) = some (m, v, a)) (hs : st.sent[m]? = some (v, a)) :
    Inv n cs (accept n cs st m) := by
  have hfc : ∀ o ∈ st.cache, o.id % n ≠ m % n := fun o ho => hf _ (hcache o ho).1
  have hc : putFrom n st.slots st.seg st.cache m = st.cache ++ [{ id := m, seg := st.seg, arrays := a, plain := v }] := by
    simp only [putFrom, hseg, hm, cachePut]
    congr 1
    exact List.filter_eq_self.2 (fun y hy => by simpa using hfc y hy)
  refine ⟨hnext, ?_, ?_, fun _ => hseg, fun _ => hconns, ?_, ?_, ?_, ?_, ?_⟩
  · intro b hb
    have hB := hblocks b hb
    refine ⟨hB.sent, hB.mem, ?_⟩
    rcases hB.at_ with ⟨h1, h2, h3⟩ | ⟨h1, _⟩
    · exact Or.inl ⟨h1, List.mem_append_left _ h2, h3⟩
    · rw [hlive] at h1; cases h1
  · intro h'; rw [show (accept n cs st m).live = st.live from rfl, hlive] at h'; cases h'
  · intro i hi
    rcases List.mem_append.1 hi with hi | hi
    · exact hslot i hi
    · rw [List.mem_singleton.1 hi]; exact ⟨v, a, hm, hs⟩
  · show ((st.owed ++ [m]).map (· % n)).Nodup
    simp only [List.map_append, List.map_cons, List.map_nil]
    rw [List.nodup_append]
    refine ⟨hnodup, by simp, ?_⟩
    intro x hx y hy e
    obtain ⟨i, hi, rfl⟩ := List.mem_map.1 hx
    rw [List.mem_singleton] at hy
    exact hf i hi (e.trans hy)
  · intro o ho
    have ho : o ∈ putFrom n st.slots st.seg st.cache m := ho
    rw [hc] at ho
    rcases List.mem_append.1 ho with ho | ho
    · obtain ⟨h1, h2, h3⟩ := hcache o ho
      exact ⟨List.mem_append_left _ h1, h2, h3⟩
    · rw [List.mem_singleton.1 ho]
      exact ⟨List.mem_append_right _ (List.mem_singleton.2 rfl), rfl, hs⟩
  · intro i hi
    show ∃ o ∈ putFrom n st.slots st.seg st.cache m, o.id = i
    rw [hc]
    rcases List.mem_append.1 hi with hi | hi
    · obtain ⟨o, ho, e⟩ := hcached i hi
      exact ⟨o, List.mem_append_left _ ho, e⟩
    · exact ⟨_, List.mem_append_right _ (List.mem_singleton.2 rfl), (List.mem_singleton.1 hi).symm⟩
  · show ((putFrom n st.slots st.seg st.cache m).map (·.id % n)).Nodup
    rw [hc]
    simp only [List.map_append, List.map_cons, List.map_nil]
    rw [List.nodup_append]
    refine ⟨hcn, by simp, ?_⟩
    intro x hx y hy e
    obtain ⟨i, hi, rfl⟩ := List.mem_map.1 hx
    rw [List.mem_singleton] at hy
    exact hfc i hi (e.trans hy)

theorem exported_of_block {st : St C V} {b : C × Obj V} {s : Nat} (hb : b ∈ st.blocks) (ha : b.2.arrays = true)
    (hs : b.2.seg = s) : exported st s = true := by
  simp only [exported, Bool.or_eq_true, List.any_eq_true, Bool.and_eq_true, beq_iff_eq]
  exact Or.inl ⟨b, hb, ha, hs⟩

theorem exported_iff {st : St C V} {s : Nat} : exported st s = true ↔ InUse st s := by
  simp only [exported, InUse, Bool.or_eq_true, List.any_eq_true, Bool.and_eq_true, beq_iff_eq]
  constructor
  · rintro (⟨b, h1, h2⟩ | ⟨o, h1, h2⟩)
    · exact ⟨b.2, Or.inl ⟨b.1, h1⟩, h2⟩
    · exact ⟨o, Or.inr h1, h2⟩
  · rintro ⟨o, ⟨c, h1⟩ | h1, h2⟩
    · exact Or.inl ⟨(c, o), h1, h2⟩
    · exact Or.inr ⟨o, h1, h2⟩

theorem inv_send {n : Nat} {cs : List C} {st st' : St C V} (h : Inv n cs st) {v : V} {a big : Bool}
    (hs : send n cs st v a big = some st') : Inv n cs st' := by
  unfold send at hs
  split at hs
  case isFalse => cases hs
  case isTrue hg =>
  have hf : ∀ i ∈ st.owed, i % n ≠ st.next % n := fun i hi => by simpa using List.all_eq_true.1 hg i hi
  have hslot := slot_write h v a big hf
  have hblk : ∀ {b : C × Obj V}, b ∈ st.blocks → _ := fun hb => block_write h v a big hf hb
  have hnew : (write n st v a big).slots (write n st v a big).pubSeg (st.next % n) = some (st.next, v, a) := by
    simp [write]
  have hsent : (st.sent ++ [(v, a)])[st.next]? = some (v, a) := by rw [h.next]; simp
  have hnext : (write n st v a big).next = (write n st v a big).sent.length := by simp [write, h.next]
  dsimp only at hs
  split at hs
  case isFalse hl =>
    cases hs
    have hl : st.live = false := by simpa [write] using hl
    obtain ⟨hc, ho⟩ := h.dead hl
    refine ⟨hnext, ?_, fun _ => ⟨hc, ho⟩, ?_, ?_, ?_, ?_, ?_, ?_, ?_⟩
    · intro b hb
      refine ⟨(hblk hb).1, (hblk hb).2, Or.inr ⟨hl, fun ha => ?_⟩⟩
      rcases (h.blocks b hb).at_ with ⟨h1, _⟩ | ⟨_, h2⟩
      · rw [hl] at h1; cases h1
      · have := h2 ha
        show b.2.seg < if big then st.pubSeg + 1 else st.pubSeg
        split <;> omega
    · intro h'; rw [show (write n st v a big).live = st.live from rfl, hl] at h'; cases h'
    · intro h'; rw [show (write n st v a big).live = st.live from rfl, hl] at h'; cases h'
    · intro i hi; rw [show (write n st v a big).owed = st.owed from rfl, ho] at hi; cases hi
    · rw [show (write n st v a big).owed = st.owed from rfl, ho]; simp
    · intro o hi; rw [show (write n st v a big).cache = st.cache from rfl, hc] at hi; cases hi
    · intro i hi; rw [show (write n st v a big).owed = st.owed from rfl, ho] at hi; cases hi
    · rw [show (write n st v a big).cache = st.cache from rfl, hc]; simp
  case isTrue hl =>
  have hl : st.live = true := hl
  cases hs
  have hseg := h.seg hl
  have hown : ∀ {b : C × Obj V}, b ∈ st.blocks → b.2.id ∈ st.owed ∧ (b.2.arrays = true → b.2.seg = st.pubSeg) := by
    intro b hb
    rcases (h.blocks b hb).at_ with ⟨_, h2, h3⟩ | ⟨h1, _⟩
    · exact ⟨h2, h3⟩
    · rw [hl] at h1; cases h1
  unfold receive
  cases big with
  | false =>
    rw [if_neg (by simp [write, hseg])]
    refine accept_inv hnext hl ?_ hseg (h.conns hl) ?_ h.nodup hf ?_ h.cached h.cnodup hnew hsent
    · intro b hb
      exact ⟨(hblk hb).1, (hblk hb).2, Or.inl ⟨hl, (hown hb).1, (hown hb).2⟩⟩
    · intro i hi
      obtain ⟨v', a', e1, e2⟩ := hslot i hi
      exact ⟨v', a', e1, getElem?_append_some e2⟩
    · intro o ho
      obtain ⟨h1, h2, h3⟩ := h.cache o ho
      exact ⟨h1, h2, getElem?_append_some h3⟩
  | true =>
    rw [if_pos (by simp [write, hseg])]
    unfold reattach
    rw [show exported (write n st v a true) (write n st v a true).seg = exported st st.seg from rfl]
    by_cases hx : exported st st.seg = true
    · rw [if_pos hx]
      refine ⟨hnext, ?_, fun _ => ⟨rfl, rfl⟩, ?_, ?_, ?_, ?_, ?_, ?_, ?_⟩
      · intro b hb
        refine ⟨(hblk hb).1, (hblk hb).2, Or.inr ⟨rfl, fun ha => ?_⟩⟩
        have := (hown hb).2 ha
        show b.2.seg < st.pubSeg + 1
        omega
      · intro h'; cases h'
      · intro h'; cases h'
      · intro i hi; cases hi
      · exact List.nodup_nil
      · intro o hi; cases hi
      · intro i hi; cases hi
      · exact List.nodup_nil
    · rw [if_neg hx]
      dsimp only
      have hna : ∀ {b : C × Obj V}, b ∈ st.blocks → b.2.arrays = true → False := fun hb ha =>
        hx (exported_of_block hb ha (((hown hb).2 ha).trans hseg.symm))
      have hids : ∀ i ∈ st.cache.map (·.id), (write n st v a true).slots (write n st v a true).pubSeg (i % n) =
          some (i, ((st.sent[i]?).getD (v, a)).1, ((st.sent[i]?).getD (v, a)).2) := by
        intro i hi
        obtain ⟨o, ho, rfl⟩ := List.mem_map.1 hi
        obtain ⟨v', a', e1, e2⟩ := hslot _ (h.cache o ho).1
        rw [e1, e2]; rfl
      have hre := reput_eq (write n st v a true).slots (write n st v a true).pubSeg (fun i => (st.sent[i]?).getD (v, a))
        (st.cache.map (·.id)) [] hids (by
          have := h.cnodup
          simpa [List.map_map, Function.comp_def] using this)
      rw [List.nil_append] at hre
      refine accept_inv (v := v) (a := a) hnext hl ?_ rfl ?_ ?_ h.nodup hf ?_ ?_ ?_ hnew hsent
      · intro b hb
        exact ⟨(hblk hb).1, (hblk hb).2, Or.inl ⟨hl, (hown hb).1, fun ha => (hna hb ha).elim⟩⟩
      · show st.conns.filter _ ++ [_] = _
        rw [h.conns hl]
        simp [write, hseg]
      · intro i hi
        obtain ⟨v', a', e1, e2⟩ := hslot i hi
        exact ⟨v', a', e1, getElem?_append_some e2⟩
      · intro o ho
        have ho : o ∈ (st.cache.map (·.id)).foldl (putFrom n (write n st v a true).slots (write n st v a true).pubSeg) [] := ho
        rw [hre] at ho
        obtain ⟨i, hi, rfl⟩ := List.mem_map.1 ho
        obtain ⟨o', ho', rfl⟩ := List.mem_map.1 hi
        obtain ⟨h1, _, h3⟩ := h.cache o' ho'
        refine ⟨h1, rfl, ?_⟩
        show (st.sent ++ [(v, a)])[o'.id]? = _
        rw [getElem?_append_some h3, h3]; rfl
      · intro i hi
        show ∃ o ∈ (st.cache.map (·.id)).foldl (putFrom n (write n st v a true).slots (write n st v a true).pubSeg) [], o.id = i
        rw [hre]
        obtain ⟨o, ho, rfl⟩ := h.cached i hi
        exact ⟨_, List.mem_map.2 ⟨o.id, List.mem_map.2 ⟨o, ho, rfl⟩, rfl⟩, rfl⟩
      · show (((st.cache.map (·.id)).foldl (putFrom n (write n st v a true).slots (write n st v a true).pubSeg) []).map
          (·.id % n)).Nodup
        rw [hre]
        have := h.cnodup
        simpa [List.map_map, Function.comp_def] using this

/-- The messages a client has been notified of and has not left: in its queue or in a block. -/
def mine (st : St C V) (c : C) : List Nat := st.queue c ++ (st.blocks.filter (fun b => decide (b.1 = c))).map (fun b => b.2.id)

/-- What holds of the clients as long as the channel runs. -/
structure CInv (n : Nat) (cs : List C) (st : St C V) : Prop where
  owned : ∀ c, ∀ m ∈ mine st c, m ∈ st.owed ∧ (c, m % n) ∈ st.leases
  uniq : ∀ c, (mine st c).Nodup
  got : ∀ c ∈ cs, gotBy c st.log ++ st.queue c = List.range st.next
  calm : Ev.died ∉ st.log ∧ (∀ c m, Ev.missed c m ∉ st.log) ∧ ∀ c m, Ev.leftMissed c m ∉ st.log

theorem cinv_init (n : Nat) (cs : List C) : CInv n cs (init : St C V) := by
  constructor <;> simp [init, mine, gotBy]

theorem cinv_accept {n : Nat} {cs : List C} {st : St C V} {m : Nat}
    (owned : ∀ c, ∀ m ∈ mine st c, m ∈ st.owed ∧ (c, m % n) ∈ st.leases)
    (uniq : ∀ c, (mine st c).Nodup)
    (got : ∀ c ∈ cs, gotBy c st.log ++ st.queue c = List.range m)
    (calm : Ev.died ∉ st.log ∧ (∀ c m, Ev.missed c m ∉ st.log) ∧ ∀ c m, Ev.leftMissed c m ∉ st.log)
    (hf : m ∉ st.owed) (hn : st.next = m + 1) : CInv n cs (accept n cs st m) := by
  have hmine : ∀ c x, x ∈ mine (accept n cs st m) c ↔ x ∈ mine st c ∨ (c ∈ cs ∧ x = m) := by
    intro c x
    by_cases hc : c ∈ cs <;> simp [mine, accept, hc, or_assoc, or_comm, or_left_comm]
  refine ⟨?_, ?_, ?_, calm⟩
  · intro c x hx
    rcases (hmine c x).1 hx with hx | ⟨hc, rfl⟩
    · obtain ⟨h1, h2⟩ := owned c x hx
      exact ⟨List.mem_append_left _ h1, List.mem_append_left _ h2⟩
    · exact ⟨List.mem_append_right _ (List.mem_singleton.2 rfl),
        List.mem_append_right _ (List.mem_map.2 ⟨c, hc, rfl⟩)⟩
  · intro c
    by_cases hc : c ∈ cs
    · have e : (mine (accept n cs st m) c).Perm (m :: mine st c) := by
        simp only [mine, accept, hc, if_true]
        rw [List.append_assoc]
        exact List.perm_middle
      rw [e.nodup_iff, List.nodup_cons]
      exact ⟨fun hm => hf (owned c m hm).1, uniq c⟩
    · have e : mine (accept n cs st m) c = mine st c := by simp [mine, accept, hc]
      rw [e]; exact uniq c
  · intro c hc
    show gotBy c st.log ++ (if c ∈ cs then st.queue c ++ [m] else st.queue c) = List.range st.next
    rw [if_pos hc, ← List.append_assoc, got c hc, hn, List.range_succ]

theorem cinv_send {n : Nat} {cs : List C} {st st' : St C V} (h : CInv n cs st) {v : V} {a big : Bool}
    (hl : st.live = true) (hs : send n cs st v a big = some st') (hl' : st'.live = true) : CInv n cs st' := by
  unfold send at hs
  split at hs
  case isFalse => cases hs
  case isTrue hg =>
  have hf : st.next ∉ st.owed := fun hi => by simpa using List.all_eq_true.1 hg _ hi
  dsimp only at hs
  rw [if_pos (show (write n st v a big).live = true from hl)] at hs
  cases hs
  unfold receive at hl' ⊢
  split at hl'
  case isTrue hne =>
    rw [if_pos hne]
    unfold reattach at hl' ⊢
    split at hl'
    case h_1 st1 e =>
      split at e
      · cases e
      · cases e
        exact cinv_accept h.owned h.uniq h.got h.calm hf rfl
    case h_2 => cases hl'
  case isFalse hne =>
    rw [if_neg hne]
    exact cinv_accept h.owned h.uniq h.got h.calm hf rfl

theorem inv_take {n : Nat} {cs : List C} {st st' : St C V} (h : Inv n cs st) (hc : st.live = true → CInv n cs st) {c : C}
    (hs : take n st c = some st') : Inv n cs st' ∧ (st'.live = true → CInv n cs st') := by
  unfold take at hs
  split at hs
  · cases hs
  case h_2 m rest hq =>
  dsimp only at hs
  split at hs
  case h_1 o ho =>
    cases hs
    have hmem := List.mem_of_find?_eq_some ho
    have hid : o.id = m := by simpa using List.find?_some ho
    have hl : st.live = true := by
      cases e : st.live
      · rw [(h.dead e).1] at hmem; cases hmem
      · rfl
    have H := hc hl
    obtain ⟨h1, h2, h3⟩ := h.cache o hmem
    constructor
    · refine ⟨h.next, ?_, h.dead, h.seg, h.conns, h.slot, h.nodup, h.cache, h.cached, h.cnodup⟩
      intro b hb
      rcases List.mem_append.1 hb with hb | hb
      · exact ⟨(h.blocks b hb).sent, (h.blocks b hb).mem, (h.blocks b hb).at_⟩
      · rw [List.mem_singleton.1 hb]
        refine ⟨h3, fun ha => ?_, Or.inl ⟨hl, h1, fun _ => h2.trans (h.seg hl)⟩⟩
        obtain ⟨v, a, e1, e2⟩ := h.slot _ h1
        rw [h3] at e2
        cases e2
        show st.slots o.seg (o.id % n) = _
        rw [h2, h.seg hl, e1, ha]
    · intro _
      have hmine : ∀ c', (mine { st with
          queue := fun c' => if c' = c then rest else st.queue c'
          blocks := st.blocks ++ [(c, o)], log := st.log ++ [.got c m] } c').Perm (mine st c') := by
        intro c'
        by_cases e : c' = c
        · subst e
          simp only [mine, hq, if_true, List.filter_append, List.map_append]
          simp only [List.filter_cons, List.filter_nil, decide_true, if_true, List.map_cons, List.map_nil, hid]
          rw [← List.append_assoc]
          exact (List.perm_append_singleton _ _)
        · have e' : ¬ c = c' := fun x => e x.symm
          simp [mine, e, e']
      refine ⟨?_, ?_, ?_, ?_⟩
      · intro c' x hx
        exact H.owned c' x ((hmine c').mem_iff.1 hx)
      · intro c'
        exact (hmine c').nodup_iff.2 (H.uniq c')
      · intro c' hc'
        show gotBy c' (st.log ++ [.got c m]) ++ (if c' = c then rest else st.queue c') = _
        have := H.got c' hc'
        by_cases e : c' = c
        · subst e
          rw [hq] at this
          rw [if_pos rfl, ← this]
          simp [gotBy]
        · have e' : ¬ c = c' := fun x => e x.symm
          rw [if_neg e]
          simpa [gotBy, e'] using this
      · simpa using H.calm
  case h_2 ho =>
    cases hs
    have hl : st.live = false := by
      cases e : st.live
      · rfl
      · have H := hc e
        obtain ⟨o, ho1, ho2⟩ := h.cached m (H.owned c m (by simp [mine, hq])).1
        have := List.find?_eq_none.1 ho o ho1
        simp [ho2] at this
    refine ⟨⟨h.next, fun b hb => ⟨(h.blocks b hb).sent, (h.blocks b hb).mem, (h.blocks b hb).at_⟩, h.dead, h.seg, h.conns, h.slot, h.nodup, h.cache, h.cached, h.cnodup⟩, ?_⟩
    intro h'
    rw [show ({ st with
      queue := fun c' => if c' = c then rest else st.queue c'
      leases := st.leases.filter (fun l => decide (l ≠ (c, m % n)))
      log := st.log ++ [.missed c m] } : St C V).live = st.live from rfl, hl] at h'
    cases h'

theorem inv_leave {n : Nat} {cs : List C} {st st' : St C V} (h : Inv n cs st) (hc : st.live = true → CInv n cs st) {c : C}
    {o : Obj V} (hs : leave n st c o = some st') : Inv n cs st' ∧ (st'.live = true → CInv n cs st') := by
  unfold leave at hs
  split at hs
  case isFalse => cases hs
  case isTrue hb =>
  dsimp only at hs
  have hp : st.blocks.Perm ((c, o) :: st.blocks.erase (c, o)) := List.perm_cons_erase hb
  have hsub : ∀ b ∈ st.blocks.erase (c, o), b ∈ st.blocks := fun b hb' => List.mem_of_mem_erase hb'
  -- facts for a running channel
  have hmine : ∀ c' x, x ∈ st.queue c' ++ ((st.blocks.erase (c, o)).filter (fun b => decide (b.1 = c'))).map (fun b => b.2.id) →
      x ∈ mine st c' := by
    intro c' x hx
    simp only [mine, List.mem_append, List.mem_map, List.mem_filter] at hx ⊢
    rcases hx with hx | ⟨b, ⟨hb1, hb2⟩, hb3⟩
    · exact Or.inl hx
    · exact Or.inr ⟨b, ⟨hsub b hb1, hb2⟩, hb3⟩
  have hperm : (mine st c).Perm (o.id :: (st.queue c ++
      ((st.blocks.erase (c, o)).filter (fun b => decide (b.1 = c))).map (fun b => b.2.id))) := by
    have e := ((hp.filter (fun b => decide (b.1 = c))).map (fun b => b.2.id)).append_left (st.queue c)
    refine e.trans ?_
    simp only [List.filter_cons, decide_true, if_true, List.map_cons]
    exact List.perm_middle
  have key : st.live = true → ∀ c' x,
      x ∈ st.queue c' ++ ((st.blocks.erase (c, o)).filter (fun b => decide (b.1 = c'))).map (fun b => b.2.id) →
      x ∈ st.owed ∧ (c', x % n) ∈ st.leases.filter (fun l => decide (l ≠ (c, o.id % n))) := by
    intro hl c' x hx
    have H := hc hl
    obtain ⟨h1, h2⟩ := H.owned c' x (hmine c' x hx)
    refine ⟨h1, List.mem_filter.2 ⟨h2, ?_⟩⟩
    simp only [ne_eq, Prod.mk.injEq, not_and, decide_eq_true_eq]
    intro ec ex
    subst ec
    have hu := (hperm.nodup_iff).1 (H.uniq c')
    have ho : o.id ∈ st.owed := (H.owned c' o.id (hperm.mem_iff.2 (List.mem_cons_self ..))).1
    have := inj_of_nodup h.nodup h1 ho ex
    rw [this] at hx
    exact (List.nodup_cons.1 hu).1 hx
  have uniq' : st.live = true → ∀ c',
      (st.queue c' ++ ((st.blocks.erase (c, o)).filter (fun b => decide (b.1 = c'))).map (fun b => b.2.id)).Nodup := by
    intro hl c'
    refine ((((List.erase_sublist).filter _).map _).append_left _).nodup ((hc hl).uniq c')
  have ho : st.live = true → o.id ∈ st.owed := fun hl =>
    ((hc hl).owned c o.id (hperm.mem_iff.2 (List.mem_cons_self ..))).1
  have got' : ∀ c' (e : Ev C), (∀ m, e ≠ .got c' m) → gotBy c' (st.log ++ [e]) = gotBy c' st.log := by
    intro c' e he
    cases e <;> simp [gotBy]
    rename_i c'' m
    intro e'
    exact he m (by rw [e'])
  split at hs
  case isTrue hall =>
    split at hs
    case isTrue hany =>
      cases hs
      have hl : st.live = true := by
        cases e : st.live
        · rw [(h.dead e).1] at hany; cases hany
        · rfl
      have H := hc hl
      have hne : ∀ c' x,
          x ∈ st.queue c' ++ ((st.blocks.erase (c, o)).filter (fun b => decide (b.1 = c'))).map (fun b => b.2.id) →
          x ∈ st.owed.filter (fun i => decide (i ≠ o.id)) := by
        intro c' x hx
        obtain ⟨h1, h2⟩ := key hl c' x hx
        refine List.mem_filter.2 ⟨h1, ?_⟩
        simp only [ne_eq, decide_eq_true_eq]
        intro ex
        have := List.all_eq_true.1 hall _ h2
        simp [ex] at this
      constructor
      · refine ⟨h.next, ?_, ?_, h.seg, h.conns, ?_, ?_, ?_, ?_, ?_⟩
        · intro b hb'
          have hB := h.blocks b (hsub b hb')
          refine ⟨hB.sent, hB.mem, ?_⟩
          rcases hB.at_ with ⟨h1, h2, h3⟩ | ⟨h1, _⟩
          · refine Or.inl ⟨h1, ?_, h3⟩
            refine hne b.1 b.2.id (List.mem_append_right _ (List.mem_map.2 ⟨b, List.mem_filter.2 ⟨hb', by simp⟩, rfl⟩))
          · rw [hl] at h1; cases h1
        · intro h'
          rw [show ({ st with
            blocks := st.blocks.erase (c, o)
            leases := st.leases.filter (fun l => decide (l ≠ (c, o.id % n)))
            cache := st.cache.filter (fun x => decide (x.id ≠ o.id))
            owed := st.owed.filter (fun i => decide (i ≠ o.id))
            log := st.log ++ [.left c o.id] } : St C V).live = st.live from rfl, hl] at h'
          cases h'
        · intro i hi
          exact h.slot i (List.mem_filter.1 hi).1
        · exact ((List.filter_sublist).map _).nodup h.nodup
        · intro x hx
          obtain ⟨hx1, hx2⟩ := List.mem_filter.1 hx
          obtain ⟨h1, h2, h3⟩ := h.cache x hx1
          exact ⟨List.mem_filter.2 ⟨h1, hx2⟩, h2, h3⟩
        · intro i hi
          obtain ⟨hi1, hi2⟩ := List.mem_filter.1 hi
          obtain ⟨x, hx, rfl⟩ := h.cached i hi1
          exact ⟨x, List.mem_filter.2 ⟨hx, hi2⟩, rfl⟩
        · exact ((List.filter_sublist).map _).nodup h.cnodup
      · intro _
        refine ⟨fun c' x hx => ⟨hne c' x hx, (key hl c' x hx).2⟩, uniq' hl, ?_, ?_⟩
        · intro c' hc'
          show gotBy c' (st.log ++ [.left c o.id]) ++ st.queue c' = _
          rw [got' _ _ (by intro m; simp)]
          exact H.got c' hc'
        · simpa using H.calm
    case isFalse hany =>
      cases hs
      have hl : st.live = false := by
        cases e : st.live
        · rfl
        · obtain ⟨x, hx, hx'⟩ := h.cached _ (ho e)
          exact absurd (List.any_eq_true.2 ⟨x, hx, by simp [hx']⟩) hany
      refine ⟨⟨h.next, fun b hb' => ?_, h.dead, h.seg, h.conns, h.slot, h.nodup, h.cache, h.cached, h.cnodup⟩, ?_⟩
      · exact ⟨(h.blocks b (hsub b hb')).sent, (h.blocks b (hsub b hb')).mem, (h.blocks b (hsub b hb')).at_⟩
      · intro h'
        have h' : st.live = true := h'
        rw [hl] at h'; cases h'
  case isFalse hall =>
    cases hs
    refine ⟨⟨h.next, fun b hb' => ?_, h.dead, h.seg, h.conns, h.slot, h.nodup, h.cache, h.cached, h.cnodup⟩, ?_⟩
    · exact ⟨(h.blocks b (hsub b hb')).sent, (h.blocks b (hsub b hb')).mem, (h.blocks b (hsub b hb')).at_⟩
    · intro hl
      have hl : st.live = true := hl
      have H := hc hl
      refine ⟨fun c' x hx => key hl c' x hx, uniq' hl, ?_, ?_⟩
      · intro c' hc'
        show gotBy c' (st.log ++ [.left c o.id]) ++ st.queue c' = _
        rw [got' _ _ (by intro m; simp)]
        exact H.got c' hc'
      · simpa using H.calm

theorem inv_step {n : Nat} {cs : List C} {st st' : St C V} (h : Inv n cs st) (hc : st.live = true → CInv n cs st)
    {a : Act C V} (hs : step n cs st a = some st') : Inv n cs st' ∧ (st'.live = true → CInv n cs st') := by
  cases a with
  | send v a big =>
    refine ⟨inv_send h hs, fun hl' => ?_⟩
    cases hl : st.live
    · simp only [step, send] at hs
      split at hs
      · cases hs
        simp [write, hl] at hl'
      · cases hs
    · exact cinv_send (hc hl) hl hs hl'
  | take c => exact inv_take h hc hs
  | leave c o => exact inv_leave h hc hs
  | keep c o =>
    simp only [step] at hs
    split at hs
    · cases hs
      exact ⟨⟨h.next, fun b hb => ⟨(h.blocks b hb).sent, (h.blocks b hb).mem, (h.blocks b hb).at_⟩, h.dead, h.seg, h.conns,
        h.slot, h.nodup, h.cache, h.cached, h.cnodup⟩, fun hl => ⟨(hc hl).owned, (hc hl).uniq, (hc hl).got, (hc hl).calm⟩⟩
    · cases hs
  | drop o =>
    simp only [step] at hs
    split at hs
    · cases hs
      exact ⟨⟨h.next, fun b hb => ⟨(h.blocks b hb).sent, (h.blocks b hb).mem, (h.blocks b hb).at_⟩, h.dead, h.seg, h.conns,
        h.slot, h.nodup, h.cache, h.cached, h.cnodup⟩, fun hl => ⟨(hc hl).owned, (hc hl).uniq, (hc hl).got, (hc hl).calm⟩⟩
    · cases hs

theorem inv_run {n : Nat} {cs : List C} {st : St C V} (h : Run n cs st) : Inv n cs st ∧ (st.live = true → CInv n cs st) := by
  induction h with
  | init => exact ⟨inv_init n cs, fun _ => cinv_init n cs⟩
  | step a _ hs ih => exact inv_step ih.1 ih.2 hs

/-- A channel that runs goes on after a step that does not replace a segment in use. -/
theorem live_step {n : Nat} {cs : List C} {st st' : St C V} (hl : st.live = true) {a : Act C V}
    (hs : step n cs st a = some st') (hx : ∀ v x, a = .send v x true → exported st st.seg = false)
    (hseg : st.seg = st.pubSeg) : st'.live = true := by
  cases a with
  | send v a big =>
    simp only [step, send] at hs
    split at hs
    · cases hs
      rw [if_pos (show (write n st v a big).live = true from hl)]
      unfold receive
      split
      case isTrue hne =>
        cases big with
        | false => exact absurd hseg hne
        | true =>
          have hx := hx v a rfl
          unfold reattach
          rw [show exported (write n st v a true) (write n st v a true).seg = exported st st.seg from rfl, hx]
          exact hl
      case isFalse => exact hl
    · cases hs
  | take c =>
    simp only [step, take] at hs
    split at hs
    · cases hs
    · split at hs <;> · cases hs; exact hl
  | leave c o =>
    simp only [step, leave] at hs
    split at hs
    · split at hs
      · split at hs <;> · cases hs; exact hl
      · cases hs; exact hl
    · cases hs
  | keep c o =>
    simp only [step] at hs
    split at hs
    · cases hs; exact hl
    · cases hs
  | drop o =>
    simp only [step] at hs
    split at hs
    · cases hs; exact hl
    · cases hs

/-- Nothing reaches the clients of a channel that has ended. -/
theorem dead_step {n : Nat} {cs : List C} {st st' : St C V} (hl : st.live = false) (hc : st.cache = []) {a : Act C V}
    (hs : step n cs st a = some st') :
    st'.live = false ∧ st'.cache = [] ∧ st'.conns = st.conns ∧ st.pubSeg ≤ st'.pubSeg ∧ ∀ c, gotBy c st'.log = gotBy c st.log := by
  cases a with
  | send v a big =>
    simp only [step, send] at hs
    split at hs
    · cases hs
      rw [if_neg (show ¬ (write n st v a big).live = true from by simp [write, hl])]
      refine ⟨hl, hc, rfl, ?_, fun _ => rfl⟩
      show st.pubSeg ≤ if big then st.pubSeg + 1 else st.pubSeg
      split <;> omega
    · cases hs
  | take c =>
    simp only [step, take, hc, List.find?_nil] at hs
    split at hs
    · cases hs
    · cases hs
      exact ⟨hl, rfl, rfl, Nat.le_refl _, fun c' => by simp [gotBy]⟩
  | leave c o =>
    simp only [step, leave, hc, List.any_nil] at hs
    split at hs
    · split at hs
      · cases hs
        exact ⟨hl, rfl, rfl, Nat.le_refl _, fun c' => by simp [gotBy]⟩
      · cases hs
        exact ⟨hl, rfl, rfl, Nat.le_refl _, fun c' => by simp [gotBy]⟩
    · cases hs
  | keep c o =>
    simp only [step] at hs
    split at hs
    · cases hs; exact ⟨hl, hc, rfl, Nat.le_refl _, fun _ => rfl⟩
    · cases hs
  | drop o =>
    simp only [step] at hs
    split at hs
    · cases hs; exact ⟨hl, hc, rfl, Nat.le_refl _, fun _ => rfl⟩
    · cases hs

theorem dead_run {n : Nat} {cs : List C} : ∀ (as : List (Act C V)) {st st' : St C V}, st.live = false → st.cache = [] →
    run n cs as st = some st' →
    st'.live = false ∧ st'.cache = [] ∧ st'.conns = st.conns ∧ st.pubSeg ≤ st'.pubSeg ∧ ∀ c, gotBy c st'.log = gotBy c st.log := by
  intro as
  induction as with
  | nil => intro st st' hl hc hr; cases hr; exact ⟨hl, hc, rfl, Nat.le_refl _, fun _ => rfl⟩
  | cons a as ih =>
    intro st st' hl hc hr
    simp only [run] at hr
    split at hr
    · rename_i st1 hs
      obtain ⟨h1, h2, h3, h4, h5⟩ := dead_step hl hc hs
      obtain ⟨k1, k2, k3, k4, k5⟩ := ih h1 h2 hr
      exact ⟨k1, k2, k3.trans h3, Nat.le_trans h4 k4, fun c => (k5 c).trans (h5 c)⟩
    · cases hr

/-- **C111.** An open block shows the message that was published, whatever the publisher does: also while its memory
is replaced, and also if that ends the channel. -/
theorem C111_content {n : Nat} {cs : List C} {st : St C V} (h : Run n cs st) {c : C} {o : Obj V} (hb : (c, o) ∈ st.blocks) :
    ∃ v a, st.sent[o.id]? = some (v, a) ∧ read n st o = some v := by
  have hB := (inv_run h).1.blocks _ hb
  refine ⟨o.plain, o.arrays, hB.sent, ?_⟩
  unfold read
  split
  · rename_i ha
    rw [hB.mem ha]; rfl
  · rfl

/-- **C111**, as far as it holds: if the segment is replaced only while no array made from a message of the old one is in
use, every client gets every message in order, no call raises, and the process holds the publisher's segment and no
other. -/
theorem C111_growth_partial {n : Nat} {cs : List C} {st : St C V} (h : Calm n cs st) :
    (∀ c ∈ cs, gotBy c st.log ++ st.queue c = List.range st.sent.length) ∧
    Ev.died ∉ st.log ∧ (∀ c m, Ev.missed c m ∉ st.log) ∧ (∀ c m, Ev.leftMissed c m ∉ st.log) ∧ st.conns = [st.pubSeg] := by
  have hl : st.live = true := by
    induction h with
    | init => rfl
    | @step st st' a h' hs hx ih =>
      have hseg := (inv_run h'.run).1.seg ih
      refine live_step ih hs (fun v x e => ?_) hseg
      rw [hseg]
      exact Bool.eq_false_iff.2 (fun h => hx v x e (exported_iff.1 h))
  obtain ⟨h1, h2⟩ := inv_run h.run
  exact ⟨h1.next ▸ (h2 hl).got, (h2 hl).calm.1, (h2 hl).calm.2.1, (h2 hl).calm.2.2, h1.conns hl⟩

/-- **C111**, why it fails: if the publisher replaces its segment while an array made from a message of the old one is in
use (in the block of one of the clients, or kept elsewhere), no client of the process ever gets a message again, and the
process holds the old segment from then on. -/
theorem C111_negation_cut_off {n : Nat} {cs : List C} {st st' st'' : St C V} (h : Run n cs st) (hl : st.live = true)
    (hx : InUse st st.pubSeg) {v : V} {a : Bool} (hs : step n cs st (.send v a true) = some st')
    {as : List (Act C V)} (hr : run n cs as st' = some st'') :
    (∀ c, gotBy c st''.log = gotBy c st.log) ∧ st''.conns = [st.pubSeg] ∧ st.pubSeg < st''.pubSeg := by
  have hi := (inv_run h).1
  have hseg := hi.seg hl
  simp only [step, send] at hs
  split at hs
  · cases hs
    rw [if_pos (show (write n st v a true).live = true from hl)] at hr
    unfold receive at hr
    rw [if_pos (by simp [write, hseg])] at hr
    unfold reattach at hr
    rw [show exported (write n st v a true) (write n st v a true).seg = exported st st.seg from rfl, hseg,
      exported_iff.2 hx] at hr
    obtain ⟨_, _, h3, h4, h5⟩ := dead_run as rfl rfl hr
    refine ⟨fun c => (h5 c).trans ?_, h3.trans (hi.conns hl), ?_⟩
    · simp [die, gotBy, write]
    · have : st.pubSeg + 1 ≤ st''.pubSeg := h4
      omega
  · cases hs

/-- **C111** fails: clients `a` and `b` of one process get an array. While `a` is in its block and `b` is done, a larger
message is published. `b` gets neither it nor any later one, and `a`'s block is left with `CacheMiss`. -/
theorem C111_negation :
    (run 4 ['a', 'b'] [.send 10 true false, .take 'a', .take 'b', .leave 'b' ⟨0, 0, true, 10⟩, .send 20 true true,
        .leave 'a' ⟨0, 0, true, 10⟩, .send 30 true false] (init : St Char Nat)).map
      (fun st => (st.log, gotBy 'b' st.log, st.queue 'b', st.sent.length, st.conns, st.pubSeg)) =
    some ([.got 'a' 0, .got 'b' 0, .left 'b' 0, .died, .leftMissed 'a' 0], [0], [], 3, [0], 1) := by rfl

theorem run_of_run {n : Nat} {cs : List C} : ∀ (as : List (Act C V)) {st st' : St C V}, Run n cs st →
    run n cs as st = some st' → Run n cs st' := by
  intro as
  induction as with
  | nil => intro st st' h hr; cases hr; exact h
  | cons a as ih =>
    intro st st' h hr
    simp only [run] at hr
    split at hr
    · rename_i st1 hs
      exact ih (h.step a hs) hr
    · cases hr

/-- An open block with an array while the segment is replaced (and the channel ends). -/
example : ∃ st : St Char Nat, Run 4 ['a'] st ∧ ('a', ⟨0, 0, true, 10⟩) ∈ st.blocks ∧ st.pubSeg = 1 ∧ st.live = false := by
  refine ⟨_, run_of_run [.send 10 true false, .take 'a', .send 20 true true] .init rfl, ?_, rfl, rfl⟩
  decide

/-- Growth with an array received before and no longer in use, and with a message without arrays in use. -/
example : ∃ st : St Char Nat, Calm 4 ['a'] st ∧ st.pubSeg = 1 ∧ gotBy 'a' st.log = [0, 1] ∧ st.queue 'a' = [2] ∧
    ('a', ⟨1, 0, false, 20⟩) ∈ st.blocks := by
  have i1 : Calm 4 ['a'] _ := .step (.send 10 true false) (.init : Calm 4 ['a'] (init : St Char Nat)) rfl (by simp)
  have i2 := i1.step (.take 'a') rfl (by simp)
  have i3 := i2.step (.leave 'a' ⟨0, 0, true, 10⟩) rfl (by simp)
  have i4 := i3.step (.send 20 false false) rfl (by simp)
  have i5 := i4.step (.take 'a') rfl (by simp)
  have i6 := i5.step (.send 30 true true) rfl (by intro _ _ _ h; exact absurd (exported_iff.2 h) (by decide))
  exact ⟨_, i6, rfl, rfl, rfl, by decide⟩

/-- The hypotheses of `C111_negation_cut_off` with an array that is only kept, after its block was left. -/
example : ∃ st st' : St Char Nat, Run 4 ['a'] st ∧ st.live = true ∧ st.blocks = [] ∧ InUse st st.pubSeg ∧
    step 4 ['a'] st (.send 20 true true) = some st' := by
  refine ⟨_, _, run_of_run [.send 10 true false, .take 'a', .keep 'a' ⟨0, 0, true, 10⟩, .leave 'a' ⟨0, 0, true, 10⟩] .init rfl,
    rfl, rfl, exported_iff.1 rfl, rfl⟩

/-- The publisher waits only for messages that a client has in its queue or in a block. -/
structure DInv (n : Nat) (cs : List C) (st : St C V) : Prop where
  wait : ∀ i ∈ st.owed, ∃ c, i ∈ mine st c
  lease : ∀ l ∈ st.leases, ∃ i ∈ mine st l.1, i % n = l.2
  others : ∀ c, c ∉ cs → st.queue c = []

/-- What clients do with messages: they enter blocks and leave them. -/
def Act.client : Act C V → Bool
  | .take _ => true
  | .leave _ _ => true
  | _ => false

/-- How much the clients have left to do. -/
def work (cs : List C) (st : St C V) : Nat := 2 * (cs.map (fun c => (st.queue c).length)).sum + st.blocks.length

theorem dinv_accept {n : Nat} {cs : List C} {st : St C V} {m : Nat} (h : DInv n cs st) (hcs : cs ≠ []) :
    DInv n cs (accept n cs st m) := by
  have hmine : ∀ c x, x ∈ mine (accept n cs st m) c ↔ x ∈ mine st c ∨ (c ∈ cs ∧ x = m) := by
    intro c x
    by_cases hc : c ∈ cs <;> simp [mine, accept, hc, or_assoc, or_comm, or_left_comm]
  refine ⟨fun i hi => ?_, fun l hl => ?_, fun c hc => ?_⟩
  · rcases List.mem_append.1 hi with hi | hi
    · obtain ⟨c, hc⟩ := h.wait i hi
      exact ⟨c, (hmine c i).2 (.inl hc)⟩
    · obtain ⟨c, cs', e⟩ := List.exists_cons_of_ne_nil hcs
      exact ⟨c, (hmine c i).2 (.inr ⟨by rw [e]; simp, List.mem_singleton.1 hi⟩)⟩
  · rcases List.mem_append.1 hl with hl | hl
    · obtain ⟨i, h1, h2⟩ := h.lease l hl
      exact ⟨i, (hmine _ _).2 (.inl h1), h2⟩
    · obtain ⟨c, hc, rfl⟩ := List.mem_map.1 hl
      exact ⟨m, (hmine _ _).2 (.inr ⟨hc, rfl⟩), rfl⟩
  · show (if c ∈ cs then _ else st.queue c) = []
    rw [if_neg hc]; exact h.others c hc

theorem sum_lt {cs : List C} {f g : C → Nat} {c : C} (hc : c ∈ cs) (h : ∀ x, g x = if x = c then f x - 1 else f x) (hp : 0 < f c) :
    (cs.map g).sum < (cs.map f).sum := by
  have hle : ∀ l : List C, (l.map g).sum ≤ (l.map f).sum := by
    intro l
    induction l with
    | nil => simp
    | cons x l ih => simp only [List.map_cons, List.sum_cons]; have := h x; split at this <;> omega
  induction cs with
  | nil => cases hc
  | cons x l ih =>
    simp only [List.map_cons, List.sum_cons]
    have h1 := h x
    have h2 := hle l
    rcases List.mem_cons.1 hc with rfl | hc
    · rw [if_pos rfl] at h1; omega
    · have := ih hc
      split at h1 <;> omega

theorem dinv_step {n : Nat} {cs : List C} (hcs : cs ≠ []) {st st' : St C V} (hi : Inv n cs st) (hc : CInv n cs st) (h : DInv n cs st)
    (hl : st.live = true) {a : Act C V} (hs : step n cs st a = some st') (hl' : st'.live = true) :
    DInv n cs st' ∧ (a.client = true → work cs st' < work cs st) := by
  cases a with
  | send v a big =>
    refine ⟨?_, by simp [Act.client]⟩
    simp only [step, send] at hs
    split at hs
    case isFalse => cases hs
    rw [if_pos (show (write n st v a big).live = true from hl)] at hs
    cases hs
    unfold receive at hl' ⊢
    split at hl'
    case isTrue hne =>
      rw [if_pos hne]
      unfold reattach at hl' ⊢
      split at hl'
      case h_1 st1 e =>
        split at e
        · cases e
        · cases e
          exact dinv_accept ⟨h.wait, h.lease, h.others⟩ hcs
      case h_2 => cases hl'
    case isFalse hne =>
      rw [if_neg hne]
      exact dinv_accept ⟨h.wait, h.lease, h.others⟩ hcs
  | take c =>
    simp only [step, take] at hs
    split at hs
    · cases hs
    case h_2 m rest hq =>
    have hm : m ∈ mine st c := by simp [mine, hq]
    have hcc : c ∈ cs := Classical.byContradiction fun hx => by rw [h.others c hx] at hq; cases hq
    split at hs
    case h_1 o ho =>
      cases hs
      have hid : o.id = m := by simpa using List.find?_some ho
      have hmine : ∀ c' x, x ∈ mine st c' → x ∈ mine ({ st with
          queue := fun c' => if c' = c then rest else st.queue c'
          blocks := st.blocks ++ [(c, o)]
          log := st.log ++ [.got c m] } : St C V) c' := by
        intro c' x hx
        simp only [mine, List.mem_append, List.mem_map, List.filter_append] at hx ⊢
        rcases hx with hx | ⟨b, hb1, hb2⟩
        · by_cases e : c' = c
          · subst e
            rw [hq] at hx
            rcases List.mem_cons.1 hx with rfl | hx
            · exact .inr ⟨(c', o), .inr (by simp), hid⟩
            · exact .inl (by simpa using hx)
          · exact .inl (by simpa [e] using hx)
        · exact .inr ⟨b, .inl hb1, hb2⟩
      refine ⟨⟨fun i hi => ?_, fun l hl => ?_, fun c' hc' => ?_⟩, fun _ => ?_⟩
      · obtain ⟨c', hc'⟩ := h.wait i hi
        exact ⟨c', hmine c' i hc'⟩
      · obtain ⟨i, h1, h2⟩ := h.lease l hl
        exact ⟨i, hmine _ _ h1, h2⟩
      · show (if c' = c then rest else st.queue c') = []
        rw [if_neg (fun e : c' = c => hc' (e ▸ hcc))]; exact h.others c' hc'
      · have := sum_lt (cs := cs) (f := fun c => (st.queue c).length)
          (g := fun x => (if x = c then rest else st.queue x).length) hcc
          (fun x => by by_cases e : x = c <;> simp [e, hq]) (by simp [hq])
        simp only [work, List.length_append, List.length_singleton]
        omega
    case h_2 ho =>
      exfalso
      obtain ⟨o, h1, h2⟩ := hi.cached m (hc.owned c m hm).1
      have := List.find?_eq_none.1 ho o h1
      simp [h2] at this
  | leave c o =>
    simp only [step, leave] at hs
    split at hs
    case isFalse => cases hs
    case isTrue hb =>
    have ho : o.id ∈ mine st c := by
      simp only [mine, List.mem_append, List.mem_map, List.mem_filter]
      exact .inr ⟨(c, o), ⟨hb, by simp⟩, rfl⟩
    have hmine : ∀ c' x, x ∈ mine st c' → ¬ (c' = c ∧ x = o.id) →
        x ∈ st.queue c' ++ ((st.blocks.erase (c, o)).filter (fun b => decide (b.1 = c'))).map (fun b => b.2.id) := by
      intro c' x hx hne
      simp only [mine, List.mem_append, List.mem_map, List.mem_filter] at hx ⊢
      rcases hx with hx | ⟨b, ⟨hb1, hb2⟩, hb3⟩
      · exact .inl hx
      · refine .inr ⟨b, ⟨?_, hb2⟩, hb3⟩
        refine (List.mem_erase_of_ne ?_).2 hb1
        rintro rfl
        exact hne ⟨by simpa [eq_comm] using hb2, hb3.symm⟩
    have hlease : ∀ l ∈ st.leases.filter (fun l => decide (l ≠ (c, o.id % n))), ∃ i ∈ st.queue l.1 ++
        ((st.blocks.erase (c, o)).filter (fun b => decide (b.1 = l.1))).map (fun b => b.2.id), i % n = l.2 := by
      intro l hl
      obtain ⟨hl1, hl2⟩ := List.mem_filter.1 hl
      obtain ⟨i, h1, h2⟩ := h.lease l hl1
      refine ⟨i, hmine _ _ h1 ?_, h2⟩
      rintro ⟨e1, rfl⟩
      simp only [ne_eq, decide_eq_true_eq] at hl2
      exact hl2 (by rw [← e1, h2])
    have hlen : (st.blocks.erase (c, o)).length + 1 = st.blocks.length := by
      have := List.length_erase_of_mem hb
      have := List.length_pos_of_mem hb
      omega
    have hwait : (¬ ∀ l ∈ st.leases.filter (fun l => decide (l ≠ (c, o.id % n))), l.2 ≠ o.id % n) → ∀ i ∈ st.owed, ∃ c', i ∈ st.queue c' ++
        ((st.blocks.erase (c, o)).filter (fun b => decide (b.1 = c'))).map (fun b => b.2.id) := by
      intro hx i hi'
      by_cases e : i = o.id
      · subst e
        have ⟨l, hl, hl2⟩ : ∃ l ∈ st.leases.filter (fun l => decide (l ≠ (c, o.id % n))), l.2 = o.id % n := by
          apply Classical.byContradiction
          intro hy
          exact hx fun l hl e => hy ⟨l, hl, e⟩
        obtain ⟨j, h1, h2⟩ := hlease l hl
        have hj : j ∈ mine st l.1 := by
          simp only [mine, List.mem_append, List.mem_map, List.mem_filter] at h1 ⊢
          rcases h1 with h1 | ⟨b, ⟨hb1, hb2⟩, hb3⟩
          · exact .inl h1
          · exact .inr ⟨b, ⟨List.mem_of_mem_erase hb1, hb2⟩, hb3⟩
        have := inj_of_nodup hi.nodup (hc.owned _ _ hj).1 hi' (h2.trans hl2)
        exact ⟨l.1, this ▸ h1⟩
      · obtain ⟨c', hc'⟩ := h.wait i hi'
        exact ⟨c', hmine c' i hc' (fun x => e x.2)⟩
    have hwork : ∀ s : St C V, s.queue = st.queue → s.blocks = st.blocks.erase (c, o) → work cs s < work cs st := by
      intro s e1 e2
      simp only [work, e1, e2]
      omega
    split at hs
    case isTrue hall =>
      split at hs
      case isTrue =>
        cases hs
        refine ⟨⟨fun i hi' => ?_, hlease, h.others⟩, fun _ => hwork _ rfl rfl⟩
        simp only [List.mem_filter, decide_eq_true_eq, ne_eq] at hi'
        obtain ⟨c', hc'⟩ := h.wait i hi'.1
        exact ⟨c', hmine c' i hc' (fun x => hi'.2 x.2)⟩
      case isFalse hany =>
        exfalso
        obtain ⟨x, h1, h2⟩ := hi.cached _ (hc.owned c _ ho).1
        exact hany (List.any_eq_true.2 ⟨x, h1, by simp [h2]⟩)
    case isFalse hall =>
      cases hs
      refine ⟨⟨hwait ?_, hlease, h.others⟩, fun _ => hwork _ rfl rfl⟩
      intro hx
      exact hall (List.all_eq_true.2 fun l hl => by simpa using hx l hl)
  | keep c o =>
    refine ⟨?_, by simp [Act.client]⟩
    simp only [step] at hs
    split at hs
    · cases hs; exact ⟨h.wait, h.lease, h.others⟩
    · cases hs
  | drop o =>
    refine ⟨?_, by simp [Act.client]⟩
    simp only [step] at hs
    split at hs
    · cases hs; exact ⟨h.wait, h.lease, h.others⟩
    · cases hs

theorem calm_live {n : Nat} {cs : List C} {st : St C V} (h : Calm n cs st) : st.live = true := by
  induction h with
  | init => rfl
  | @step st st' a h' hs hx ih =>
    have hseg := (inv_run h'.run).1.seg ih
    refine live_step ih hs (fun v x e => ?_) hseg
    have := hx v x e
    rw [← exported_iff, ← hseg] at this
    simpa using this

theorem dinv_calm {n : Nat} {cs : List C} (hcs : cs ≠ []) {st : St C V} (h : Calm n cs st) : DInv n cs st := by
  induction h with
  | init => exact ⟨fun i hi => (by cases hi), fun l hl => (by cases hl), fun _ _ => rfl⟩
  | @step st st' a h' hs hx ih =>
    have hl := calm_live h'
    exact (dinv_step hcs (inv_run h'.run).1 ((inv_run h'.run).2 hl) ih hl hs (calm_live (.step a h' hs hx))).1

theorem calm_run {n : Nat} {cs : List C} (hcs : cs ≠ []) : ∀ (as : List (Act C V)) {st st' : St C V}, Calm n cs st →
    (∀ a ∈ as, a.client = true) → run n cs as st = some st' →
    Calm n cs st' ∧ as.length + work cs st' ≤ work cs st ∧ st'.next = st.next := by
  intro as
  induction as with
  | nil => intro st st' h _ hr; cases hr; exact ⟨h, by simp, rfl⟩
  | cons a as ih =>
    intro st st' h ha hr
    simp only [run] at hr
    split at hr
    case h_2 => cases hr
    case h_1 st1 hs =>
    have hca := ha a (List.mem_cons_self ..)
    have h1 : Calm n cs st1 := .step a h hs (fun v x e => by rw [e] at hca; cases hca)
    obtain ⟨k1, k2, k3⟩ := ih h1 (fun b hb => ha b (List.mem_cons_of_mem _ hb)) hr
    have hl := calm_live h
    have := (dinv_step hcs (inv_run h.run).1 ((inv_run h.run).2 hl) (dinv_calm hcs h) hl hs (calm_live h1)).2 hca
    refine ⟨k1, by simp only [List.length_cons]; omega, k3.trans ?_⟩
    cases a with
    | take c =>
      simp only [step, take] at hs
      split at hs
      · cases hs
      · split at hs <;> · cases hs; rfl
    | leave c o =>
      simp only [step, leave] at hs
      split at hs
      · split at hs
        · split at hs <;> · cases hs; rfl
        · cases hs; rfl
      · cases hs
    | _ => cases hca

/-- **C111**, as far as it holds: while no segment in use is replaced, the clients take and leave what is there in finitely many steps;
when they have nothing left to do, each has got every message published so far, and the publisher waits for none of them and can publish the next. -/
theorem C111_goes_on_partial {n : Nat} {cs : List C} (hcs : cs ≠ []) {st : St C V} (h : Calm n cs st) {as : List (Act C V)} {st' : St C V}
    (ha : ∀ a ∈ as, a.client = true) (hr : run n cs as st = some st') :
    as.length ≤ work cs st ∧
    ((∀ a, a.client = true → step n cs st' a = none) →
      (∀ c ∈ cs, gotBy c st'.log = List.range st.next) ∧ st'.owed = [] ∧ ∀ v a big, (step n cs st' (.send v a big)).isSome = true) := by
  obtain ⟨h1, h2, h3⟩ := calm_run hcs as h ha hr
  refine ⟨by omega, fun hq => ?_⟩
  have hl := calm_live h1
  have hC := (inv_run h1.run).2 hl
  have hD := dinv_calm hcs h1
  have q0 : ∀ c, st'.queue c = [] := by
    intro c
    cases e : st'.queue c with
    | nil => rfl
    | cons m l =>
      have := hq (.take c) rfl
      simp only [step, take, e] at this
      split at this <;> cases this
  have b0 : st'.blocks = [] := by
    cases e : st'.blocks with
    | nil => rfl
    | cons b l =>
      obtain ⟨c, o⟩ := b
      have := hq (.leave c o) rfl
      simp only [step, leave] at this
      rw [if_pos (by rw [e]; simp)] at this
      split at this
      · split at this <;> cases this
      · cases this
  have o0 : st'.owed = [] := by
    cases e : st'.owed with
    | nil => rfl
    | cons i l =>
      obtain ⟨c, hc⟩ := hD.wait i (by rw [e]; simp)
      simp [mine, q0, b0] at hc
  refine ⟨fun c hc => ?_, o0, fun v a big => ?_⟩
  · have := hC.got c hc
    rw [q0 c, List.append_nil, h3] at this
    exact this
  · simp [step, send, o0]

/-- Two clients, one buffer, a message with arrays; the second client has a block open, the first has taken nothing. -/
example : ∃ st st' : St Bool Nat, Calm 1 [false, true] st ∧ step 1 [false, true] st (.send 6 false false) = none ∧
    run 1 [false, true] [.take false, .leave true ⟨0, 0, true, 5⟩, .leave false ⟨0, 0, true, 5⟩] st = some st' ∧
    gotBy false st'.log = [0] ∧ st'.owed = [] ∧ st'.leases = [] :=
  ⟨_, _, (Calm.init.step (.send 5 true false) rfl (by intro v x e; cases e)).step (.take true) rfl (by intro v x e; cases e), rfl, rfl, rfl, rfl, rfl⟩

end Views
end Ez
