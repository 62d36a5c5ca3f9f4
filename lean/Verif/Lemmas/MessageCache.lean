import Verif.Model.MessageCache

/-! # Lemmas about `MessageCache` -/

set_option linter.unusedSectionVars false
set_option linter.unusedSimpArgs false

namespace Ez.MessageCache
variable {V M : Type}

theorem releaseSlot_length (c : MessageCache V M) (i : Nat) :
    (c.releaseSlot i).slots.length = c.slots.length := by
  unfold releaseSlot
  split
  · simp
  · rfl

theorem releaseSlot_get (c : MessageCache V M) (i j : Nat) :
    (c.releaseSlot i).slots[j]? =
      if j = i ∧ i < c.slots.length then some none else c.slots[j]? := by
  unfold releaseSlot
  split
  · rename_i e h
    have hi : i < c.slots.length := by
      rcases Nat.lt_or_ge i c.slots.length with h' | h'
      · exact h'
      · simp [List.getElem?_eq_none h'] at h
    by_cases hj : j = i
    · subst hj
      simp [hi]
    · have : i ≠ j := fun e => hj e.symm
      simp [List.getElem?_set_ne this, hj]
  · rename_i h
    by_cases hj : j = i ∧ i < c.slots.length
    · obtain ⟨rfl, hi⟩ := hj
      simp only [hi, and_self, if_true]
      rw [List.getElem?_eq_getElem hi] at h ⊢
      cases hc : c.slots[j] with
      | none => rfl
      | some e => exact absurd (by rw [hc]) (h e)
    · simp [hj]

theorem clear_length (c : MessageCache V M) : c.clear.slots.length = c.slots.length := by
  have : ∀ (l : List Nat) (c : MessageCache V M),
      (l.foldl releaseSlot c).slots.length = c.slots.length := by
    intro l
    induction l with
    | nil => intro c; rfl
    | cons a l ih => intro c; simp [ih, releaseSlot_length]
  exact this _ c

theorem foldl_releaseSlot_get (l : List Nat) (c : MessageCache V M) (j : Nat) :
    (l.foldl releaseSlot c).slots[j]? =
      if j ∈ l ∧ j < c.slots.length then some none else c.slots[j]? := by
  induction l generalizing c with
  | nil => simp
  | cons a l ih =>
    simp only [List.foldl_cons, ih, releaseSlot_length, releaseSlot_get, List.mem_cons]
    grind

theorem clear_get (c : MessageCache V M) (j : Nat) :
    c.clear.slots[j]? = if j < c.slots.length then some none else none := by
  unfold clear
  rw [foldl_releaseSlot_get]
  by_cases h : j < c.slots.length
  · simp [h]
  · simp [h]

theorem put_ok_iff (c : MessageCache V M) (e : CacheEntry V M) :
    (∃ c', c.put e = .ok c') ↔ 0 < c.slots.length := by
  unfold put bufIdx
  split
  · rename_i h
    simp at h
    constructor
    · rintro ⟨_, h'⟩; cases h'
    · intro h0
      have := Nat.mod_lt e.msgId h0
      omega
  · rename_i h
    constructor
    · intro _
      have := List.mem_of_getElem? h
      exact List.length_pos_of_mem this
    · intro _; exact ⟨_, rfl⟩

theorem put_spec {c c' : MessageCache V M} {e : CacheEntry V M} (h : c.put e = .ok c') :
    c'.slots.length = c.slots.length ∧ 0 < c.slots.length ∧
    (∀ j, c'.slots[j]? = if j = e.msgId % c.slots.length then some (some e) else c.slots[j]?) ∧
    c'.log = (c.releaseSlot (e.msgId % c.slots.length)).log := by
  have hpos : 0 < c.slots.length := (put_ok_iff c e).1 ⟨c', h⟩
  have hlt := Nat.mod_lt e.msgId hpos
  unfold put bufIdx at h
  split at h
  · cases h
  · cases h
    refine ⟨by simp [releaseSlot_length], hpos, ?_, rfl⟩
    intro j
    by_cases hj : j = e.msgId % c.slots.length
    · subst hj
      simp [releaseSlot_length, hlt]
    · have hj' : e.msgId % c.slots.length ≠ j := fun e => hj e.symm
      simp [List.getElem?_set_ne hj', releaseSlot_get, hj]

theorem release_spec {c : MessageCache V M} {id : Nat} (hpos : 0 < c.slots.length) :
    (∃ e, c.slots[id % c.slots.length]? = some (some e) ∧ e.msgId = id ∧
        c.release id = .ok (c.releaseSlot (id % c.slots.length))) ∨
    ((∀ e, c.slots[id % c.slots.length]? = some (some e) → e.msgId ≠ id) ∧
        c.release id = .error .cacheMiss) := by
  have hlt := Nat.mod_lt id hpos
  unfold release bufIdx
  rw [List.getElem?_eq_getElem hlt]
  cases hc : c.slots[id % c.slots.length] with
  | none => right; simp
  | some e =>
    by_cases he : e.msgId = id
    · left; exact ⟨e, rfl, he, by simp [he]⟩
    · right; simp [he]

theorem get_spec {c : MessageCache V M} {id : Nat} (hpos : 0 < c.slots.length) (v : V) :
    c.get id = .ok v ↔
      ∃ e, c.slots[id % c.slots.length]? = some (some e) ∧ e.msgId = id ∧ e.object = v := by
  have hlt := Nat.mod_lt id hpos
  unfold get bufIdx
  rw [List.getElem?_eq_getElem hlt]
  cases hc : c.slots[id % c.slots.length] with
  | none => simp
  | some e =>
    by_cases he : e.msgId = id
    · simp [he]
    · simp [he]

theorem get_err {c : MessageCache V M} {id : Nat} (hpos : 0 < c.slots.length)
    (h : ∀ v, c.get id ≠ .ok v) : c.get id = .error .cacheMiss := by
  have hlt := Nat.mod_lt id hpos
  have : ∀ v, ¬ c.get id = .ok v := h
  unfold get bufIdx at this ⊢
  rw [List.getElem?_eq_getElem hlt] at this ⊢
  cases hc : c.slots[id % c.slots.length] with
  | none => rfl
  | some e =>
    by_cases he : e.msgId = id
    · exact absurd (by simp [hc, he]) (this e.object)
    · simp [he]

theorem mem_keys {c : MessageCache V M} {id : Nat} :
    id ∈ c.keys ↔ ∃ (j : Nat) (e : CacheEntry V M), c.slots[j]? = some (some e) ∧ e.msgId = id := by
  unfold keys
  rw [List.mem_filterMap]
  constructor
  · rintro ⟨o, ho, h⟩
    obtain ⟨j, hj⟩ := List.getElem?_of_mem ho
    cases o with
    | none => simp at h
    | some e => exact ⟨j, e, hj, by simpa using h⟩
  · rintro ⟨j, e, hj, h⟩
    exact ⟨some e, List.mem_of_getElem? hj, by simp [h]⟩

/-- Memory tokens currently held by the cache. -/
def heldMem (c : MessageCache V M) : List M := c.slots.filterMap (fun o => o.bind (·.mem))

theorem filterMap_set_count [DecidableEq M] {α : Type} (f : α → Option M) (l : List α) (i : Nat) (b b' : α)
    (h : l[i]? = some b) (t : M) :
    ((l.set i b').filterMap f).count t + (if f b = some t then 1 else 0) =
      (l.filterMap f).count t + (if f b' = some t then 1 else 0) := by
  induction l generalizing i with
  | nil => simp at h
  | cons a l ih =>
    cases i with
    | zero =>
      simp at h
      subst h
      simp only [List.set_cons_zero, List.filterMap_cons]
      cases h1 : f a <;> cases h2 : f b' <;> simp [List.count_cons] <;> split <;> split <;> simp_all <;> omega
    | succ i =>
      simp at h
      have := ih i h
      simp only [List.set_cons_succ, List.filterMap_cons]
      cases h1 : f a <;> simp [List.count_cons] <;> omega

/-- The log written by releasing the views `ms` one after the other. -/
def pairs (ms : List M) : List (MemEvent M) := ms.flatMap (fun m => [.exitCtx m, .release m])

theorem releaseSlot_log [DecidableEq M] (c : MessageCache V M) (i : Nat) (ms : List M)
    (h : c.log = pairs ms) :
    ∃ ms', (c.releaseSlot i).log = pairs ms' ∧
      ∀ t, ms'.count t + (c.releaseSlot i).heldMem.count t = ms.count t + c.heldMem.count t := by
  unfold releaseSlot
  split
  · rename_i e he
    have key := fun t => filterMap_set_count (fun o : Option (CacheEntry V M) => o.bind (·.mem))
      c.slots i (some e) none he t
    cases hm : e.mem with
    | none =>
      refine ⟨ms, by simp [h], ?_⟩
      intro t
      have := key t
      simp only [heldMem]
      simp [hm] at this
      omega
    | some m =>
      refine ⟨ms ++ [m], by simp [h, pairs], ?_⟩
      intro t
      have := key t
      simp only [heldMem]
      simp only [hm, Option.bind_some, Option.some.injEq, Option.bind_none] at this
      simp only [List.count_append, List.count_singleton]
      by_cases hmt : m = t
      · simp [hmt] at this ⊢; omega
      · simp [hmt] at this ⊢; omega
  · exact ⟨ms, h, fun _ => rfl⟩

theorem clear_log [DecidableEq M] (c : MessageCache V M) (ms : List M) (h : c.log = pairs ms) :
    ∃ ms', c.clear.log = pairs ms' ∧
      ∀ t, ms'.count t + c.clear.heldMem.count t = ms.count t + c.heldMem.count t := by
  unfold clear
  generalize List.range c.slots.length = l
  induction l generalizing c ms with
  | nil => exact ⟨ms, h, fun _ => rfl⟩
  | cons a l ih =>
    obtain ⟨ms1, h1, h2⟩ := releaseSlot_log c a ms h
    obtain ⟨ms2, h3, h4⟩ := ih (c.releaseSlot a) ms1 h1
    exact ⟨ms2, h3, fun t => (h4 t).trans (h2 t)⟩

theorem put_log [DecidableEq M] {c c' : MessageCache V M} {e : CacheEntry V M} (hput : c.put e = .ok c')
    (ms : List M) (h : c.log = pairs ms) :
    ∃ ms', c'.log = pairs ms' ∧ ∀ t, ms'.count t + c'.heldMem.count t =
      ms.count t + c.heldMem.count t + (if e.mem = some t then 1 else 0) := by
  obtain ⟨_, hpos, _, hlog⟩ := put_spec hput
  have hlt := Nat.mod_lt e.msgId hpos
  obtain ⟨ms1, h1, h2⟩ := releaseSlot_log c (e.msgId % c.slots.length) ms h
  refine ⟨ms1, hlog.trans h1, ?_⟩
  intro t
  rw [← h2 t]
  unfold put bufIdx at hput
  split at hput
  · cases hput
  · cases hput
    have hs : (c.releaseSlot (e.msgId % c.slots.length)).slots[e.msgId % c.slots.length]? =
        some none := by
      rw [releaseSlot_get]; simp [hlt]
    have := filterMap_set_count (fun o : Option (CacheEntry V M) => o.bind (·.mem)) _ _ _ (some e)
      hs t
    simp only [heldMem]
    simp at this
    omega

theorem clear_heldMem (c : MessageCache V M) : c.clear.heldMem = [] := by
  unfold heldMem
  rw [List.filterMap_eq_nil_iff]
  intro o ho
  obtain ⟨j, hj⟩ := List.getElem?_of_mem ho
  rw [clear_get] at hj
  split at hj
  · cases hj; rfl
  · cases hj

end Ez.MessageCache
