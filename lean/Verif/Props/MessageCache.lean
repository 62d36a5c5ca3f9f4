import Verif.Lemmas.MessageCache
import Verif.Props.Backpressure

/-!
# C03, C04: the message cache

Specification: a history of calls, and which put is still in effect for a message id.
-/

set_option linter.unusedSectionVars false
set_option linter.unusedSimpArgs false

namespace Ez
variable {V M : Type}

/-- A call on a `MessageCache`. -/
inductive CacheCall (V M : Type) where
  | putLocal (v : V) (id : Nat)
  | putFromMem (m : M) (v : V) (id : Nat)
  | release (id : Nat)
  | clear

namespace CacheCall

/-- One call; an exception leaves the cache as it is (the caller catches it). -/
def exec (c : MessageCache V M) : CacheCall V M → MessageCache V M
  | .putLocal v id => match c.putLocal v id with | .ok c' => c' | .error _ => c
  | .putFromMem m v id => match c.putFromMem m v id with | .ok c' => c' | .error _ => c
  | .release id => match c.release id with | .ok c' => c' | .error _ => c
  | .clear => c.clear

/-- A history of calls, oldest first. -/
def execAll (h : List (CacheCall V M)) (c : MessageCache V M) : MessageCache V M :=
  h.foldl exec c

/-- The call stores object `v` under message id `id`. -/
def Stores (id : Nat) (v : V) : CacheCall V M → Prop
  | .putLocal v' id' => v' = v ∧ id' = id
  | .putFromMem _ v' id' => v' = v ∧ id' = id
  | _ => False

/-- In a cache of `n` buffers the call ends the retention of message `id`: it stores a message
in the same slot, releases the message, or clears the cache. -/
def Ends (n id : Nat) : CacheCall V M → Prop
  | .putLocal _ id' => id' % n = id % n
  | .putFromMem _ _ id' => id' % n = id % n
  | .release id' => id' = id
  | .clear => True

/-- Memory views handed to the cache, oldest first. -/
def handed : List (CacheCall V M) → List M
  | [] => []
  | .putFromMem m _ _ :: h => m :: handed h
  | _ :: h => handed h

end CacheCall

/-- Specification: message `id` was stored with object `v` and nothing ended its retention since. -/
def Retained (n : Nat) (h : List (CacheCall V M)) (id : Nat) (v : V) : Prop :=
  ∃ pre c post, h = pre ++ c :: post ∧ c.Stores id v ∧ ∀ d ∈ post, ¬ d.Ends n id

theorem retained_nil (n id : Nat) (v : V) : ¬ Retained (M := M) n [] id v := by
  rintro ⟨pre, c, post, h, _⟩
  simp at h

theorem retained_snoc (n : Nat) (h : List (CacheCall V M)) (c : CacheCall V M) (id : Nat) (v : V) :
    Retained n (h ++ [c]) id v ↔ c.Stores id v ∨ (Retained n h id v ∧ ¬ c.Ends n id) := by
  constructor
  · rintro ⟨pre, d, post, he, h1, h2⟩
    rcases List.eq_nil_or_concat post with hp | ⟨post', x, hp⟩
    · subst hp
      have := List.append_inj' he (by simp)
      left
      have e : c = d := by simpa using this.2
      rw [e]; exact h1
    · subst hp
      right
      have he' : h ++ [c] = (pre ++ d :: post') ++ [x] := by simp [he]
      obtain ⟨e1, e2⟩ := List.append_inj' he' (by simp)
      have e2 : c = x := by simpa using e2
      subst e2
      exact ⟨⟨pre, d, post', e1, h1, fun y hy => h2 y (by simp [hy])⟩, h2 c (by simp)⟩
  · rintro (h1 | ⟨⟨pre, d, post, rfl, h1, h2⟩, h3⟩)
    · exact ⟨h, c, [], by simp, h1, by simp⟩
    · refine ⟨pre, d, post ++ [c], by simp, h1, ?_⟩
      intro y hy
      simp at hy
      rcases hy with hy | rfl
      · exact h2 y hy
      · exact h3

open MessageCache in
/-- The slot contents after a history. -/
theorem cache_refines (n : Nat) (hn : 0 < n) (h : List (CacheCall V M)) :
    (CacheCall.execAll h (init n)).slots.length = n ∧
    (∀ (j : Nat) (e : CacheEntry V M),
      (CacheCall.execAll h (init n)).slots[j]? = some (some e) → j = e.msgId % n) ∧
    ∀ id v, (CacheCall.execAll h (init n)).get id = .ok v ↔ Retained n h id v := by
  induction h using list_snoc_induction with
  | h0 =>
    refine ⟨by simp [CacheCall.execAll, init], ?_, ?_⟩
    · intro j e hj
      have := List.mem_of_getElem? hj
      simp [CacheCall.execAll, init] at this
    · intro id v
      rw [get_spec (by simpa [CacheCall.execAll, init] using hn)]
      constructor
      · rintro ⟨e, he, _⟩
        have := List.mem_of_getElem? he
        simp [CacheCall.execAll, init] at this
      · intro h; exact absurd h (retained_nil n id v)
  | hs h c ih =>
    have hsn : CacheCall.execAll (h ++ [c]) (init n) =
        CacheCall.exec (CacheCall.execAll h (init n)) c := by
      simp [CacheCall.execAll]
    rw [hsn]
    generalize CacheCall.execAll h (init n) = c0 at ih
    obtain ⟨i1, i2, i3⟩ := ih
    have hpos : 0 < c0.slots.length := by omega
    -- both kinds of put
    have hput : ∀ (e : CacheEntry V M), ∃ c', c0.put e = .ok c' ∧ c'.slots.length = n ∧
        (∀ (j : Nat) (e' : CacheEntry V M), c'.slots[j]? = some (some e') → j = e'.msgId % n) ∧
        ∀ id v, c'.get id = .ok v ↔
          (e.object = v ∧ e.msgId = id) ∨ (Retained n h id v ∧ ¬ e.msgId % n = id % n) := by
      intro e
      obtain ⟨c', hc'⟩ := (put_ok_iff c0 e).2 hpos
      obtain ⟨p1, _, p3, _⟩ := put_spec hc'
      rw [i1] at p3
      refine ⟨c', hc', by omega, ?_, ?_⟩
      · intro j e' hj
        rw [p3] at hj
        split at hj
        · cases hj; assumption
        · exact i2 j e' hj
      · intro id v
        rw [get_spec (by omega), p1, i1, ← i3, get_spec hpos, i1, p3]
        by_cases hid : id % n = e.msgId % n
        · simp only [hid, if_true, not_true_eq_false, and_false, or_false]
          constructor
          · rintro ⟨x, hx, h1, h2⟩; cases hx; exact ⟨h2, h1⟩
          · rintro ⟨h1, h2⟩; exact ⟨e, rfl, h2, h1⟩
        · simp only [hid, if_false]
          have hid' : ¬ e.msgId % n = id % n := fun h => hid h.symm
          simp only [hid', not_false_eq_true, and_true]
          constructor
          · intro hx; exact Or.inr hx
          · rintro (⟨_, rfl⟩ | hx)
            · exact absurd rfl hid
            · exact hx
    cases c with
    | putLocal v0 id0 =>
      obtain ⟨c', hc', q1, q2, q3⟩ := hput ⟨v0, id0, none⟩
      simp only [CacheCall.exec, putLocal, hc']
      refine ⟨q1, q2, ?_⟩
      intro id v
      rw [q3, retained_snoc]
      rfl
    | putFromMem m v0 id0 =>
      obtain ⟨c', hc', q1, q2, q3⟩ := hput ⟨v0, id0, some m⟩
      simp only [CacheCall.exec, putFromMem, hc']
      refine ⟨q1, q2, ?_⟩
      intro id v
      rw [q3, retained_snoc]
      rfl
    | release id0 =>
      rcases release_spec (c := c0) (id := id0) hpos with ⟨e, he, he', hr⟩ | ⟨hno, hr⟩
      · simp only [CacheCall.exec, hr]
        refine ⟨by rw [releaseSlot_length]; exact i1, ?_, ?_⟩
        · intro j e' hj
          rw [releaseSlot_get] at hj
          split at hj
          · cases hj
          · exact i2 j e' hj
        · intro id v
          rw [get_spec (by rw [releaseSlot_length]; exact hpos), releaseSlot_length,
            releaseSlot_get, retained_snoc, ← i3, get_spec hpos]
          simp only [CacheCall.Stores, CacheCall.Ends, false_or]
          have hlt := Nat.mod_lt id0 hpos
          constructor
          · rintro ⟨x, hx, h1, h2⟩
            split at hx
            · cases hx
            · rename_i hne
              refine ⟨⟨x, hx, h1, h2⟩, ?_⟩
              rintro rfl
              exact hne ⟨rfl, hlt⟩
          · rintro ⟨⟨x, hx, h1, h2⟩, hne⟩
            refine ⟨x, ?_, h1, h2⟩
            split
            · rename_i heq
              rw [heq.1, he] at hx
              cases hx
              exact absurd (he'.symm.trans h1) hne
            · exact hx
      · simp only [CacheCall.exec, hr]
        refine ⟨i1, i2, ?_⟩
        intro id v
        rw [retained_snoc, ← i3]
        simp only [CacheCall.Stores, CacheCall.Ends, false_or]
        constructor
        · intro hg
          refine ⟨hg, ?_⟩
          rintro rfl
          obtain ⟨e, he, he', _⟩ := (get_spec hpos v).1 hg
          exact hno e he he'
        · exact fun hg => hg.1
    | clear =>
      simp only [CacheCall.exec]
      refine ⟨by rw [clear_length]; exact i1, ?_, ?_⟩
      · intro j e' hj
        rw [clear_get] at hj
        split at hj <;> cases hj
      · intro id v
        rw [get_spec (by rw [clear_length]; exact hpos), retained_snoc]
        simp only [CacheCall.Stores, CacheCall.Ends, not_true_eq_false, and_false, or_self, iff_false]
        rintro ⟨e, he, _⟩
        rw [clear_get] at he
        split at he <;> cases he

/-- **C03.** After any history on a cache with at least one buffer, looking up `id` returns `v` if
and only if `v` was stored under `id` and nothing ended its retention since; otherwise the lookup
raises `CacheMiss`. -/
theorem C03_cache_lookup (n : Nat) (hn : 0 < n) (h : List (CacheCall V M)) (id : Nat) :
    (∀ v, (CacheCall.execAll h (MessageCache.init n)).get id = .ok v ↔ Retained n h id v) ∧
    ((¬ ∃ v, Retained n h id v) →
      (CacheCall.execAll h (MessageCache.init n)).get id = .error .cacheMiss) := by
  obtain ⟨i1, _, i3⟩ := cache_refines n hn h
  refine ⟨i3 id, ?_⟩
  intro hno
  apply MessageCache.get_err (by omega)
  intro v hv
  exact hno ⟨v, (i3 id v).1 hv⟩

/-- **C03 (release).** `release(id)` raises `CacheMiss` exactly when `id` is not retained. -/
theorem C03_cache_release_raises (n : Nat) (hn : 0 < n) (h : List (CacheCall V M)) (id : Nat) :
    (CacheCall.execAll h (MessageCache.init n)).release id = .error .cacheMiss ↔
      ¬ ∃ v, Retained n h id v := by
  obtain ⟨i1, _, i3⟩ := cache_refines n hn h
  have hpos : 0 < (CacheCall.execAll h (MessageCache.init n)).slots.length := by omega
  rcases MessageCache.release_spec (id := id) hpos with ⟨e, he, he', hr⟩ | ⟨hno, hr⟩
  · rw [hr]
    simp only [reduceCtorEq, false_iff]
    intro hn
    exact hn ⟨e.object, (i3 id _).1 ((MessageCache.get_spec hpos _).2 ⟨e, he, he', rfl⟩)⟩
  · simp only [hr, true_iff]
    rintro ⟨v, hv⟩
    obtain ⟨e, he, he', _⟩ := (MessageCache.get_spec hpos v).1 ((i3 id v).2 hv)
    exact hno e he he'

/-- A cache without buffers cannot store anything (the constructor accepts it, every access
raises). -/
theorem C03_cache_zero_buffers (e : CacheEntry V M) (id : Nat) :
    (MessageCache.init 0 : MessageCache V M).put e = .error .zeroDivision ∧
    (MessageCache.init 0 : MessageCache V M).get id = .error .zeroDivision := by
  simp [MessageCache.put, MessageCache.get, MessageCache.init, MessageCache.bufIdx]

/-- Non-vacuity of C03: with two buffers, putting 4, 5, 6, releasing 4 (already displaced) and 5. -/
example :
    let c := CacheCall.execAll
      [.putLocal "a" 4, .putFromMem 0 "b" 5, .putLocal "c" 6, .release 4, .release 5]
      (MessageCache.init 2 : MessageCache String Nat)
    (match c.get 6 with | .ok v => some v | _ => none) = some "c" ∧
      (match c.get 4 with | .ok v => some v | _ => none) = none ∧
      (match c.get 5 with | .ok v => some v | _ => none) = none ∧ c.keys = [6] := by
  decide

theorem retained_consecutive (n : Nat) (hn : 0 < n) (h : List (CacheCall V M)) (a k : Nat)
    (obj : Nat → V) (i : Nat) (hi : i < k) (v : V) :
    Retained n (h ++ (List.range k).map (fun i => CacheCall.putLocal (obj i) (a + i))) (a + i) v ↔
      (k ≤ i + n ∧ v = obj i) := by
  induction k with
  | zero => omega
  | succ k ih =>
    rw [List.range_succ, List.map_append, List.map_singleton, ← List.append_assoc, retained_snoc]
    simp only [CacheCall.Stores, CacheCall.Ends]
    by_cases hik : i = k
    · subst hik
      constructor
      · rintro (⟨h1, _⟩ | ⟨_, h2⟩)
        · exact ⟨by omega, h1.symm⟩
        · exact absurd rfl h2
      · rintro ⟨_, rfl⟩; exact Or.inl ⟨rfl, rfl⟩
    · have hlt : i < k := by omega
      rw [ih hlt]
      have hmod : (a + k) % n = (a + i) % n ↔ (k - i) % n = 0 := by
        have hk : k = i + (k - i) := by omega
        generalize k - i = d at hk
        subst hk
        have e : a + (i + d) = (a + i) + d := by omega
        rw [e]
        constructor
        · intro hh
          have := Nat.sub_mod_eq_zero_of_mod_eq hh
          simpa using this
        · intro hh
          rw [Nat.add_mod, hh]
          simp
      constructor
      · rintro (⟨_, h1⟩ | ⟨⟨h1, h2⟩, h3⟩)
        · omega
        · refine ⟨?_, h2⟩
          rw [hmod] at h3
          by_cases hd : k - i = n
          · rw [hd] at h3; simp at h3
          · omega
      · rintro ⟨h1, h2⟩
        refine Or.inr ⟨⟨by omega, h2⟩, ?_⟩
        rw [hmod, Nat.mod_eq_of_lt (by omega)]
        omega

/-- **C04 (retention).** Put the consecutive ids `a, a+1, ..., a+k-1` after any history: exactly
the last `n` of them are retrievable, each with its own object. -/
theorem C04_cache_keeps_newest (n : Nat) (hn : 0 < n) (h : List (CacheCall V M)) (a k : Nat)
    (obj : Nat → V) (i : Nat) (hi : i < k) (v : V) :
    (CacheCall.execAll (h ++ (List.range k).map (fun i => CacheCall.putLocal (obj i) (a + i)))
      (MessageCache.init n)).get (a + i) = .ok v ↔ (k ≤ i + n ∧ v = obj i) := by
  obtain ⟨_, _, i3⟩ := cache_refines n hn
    (h ++ (List.range k).map (fun i => CacheCall.putLocal (M := M) (obj i) (a + i)))
  rw [i3]
  exact retained_consecutive n hn h a k obj i hi v

/-- Non-vacuity of C04 (retention): three buffers, five ids; 2 and 3 are gone, 4, 5, 6 remain. -/
example :
    (CacheCall.execAll ([] ++ (List.range 5).map (fun i => CacheCall.putLocal (i * i) (2 + i)))
      (MessageCache.init 3 : MessageCache Nat Nat)).keys = [6, 4, 5] := by decide

/-- **C04 (keys).** `keys()` lists exactly the retrievable ids, each once. -/
theorem C04_cache_keys (n : Nat) (hn : 0 < n) (h : List (CacheCall V M)) :
    (CacheCall.execAll h (MessageCache.init n)).keys.Nodup ∧
    ∀ id, id ∈ (CacheCall.execAll h (MessageCache.init n)).keys ↔ ∃ v, Retained n h id v := by
  obtain ⟨i1, i2, i3⟩ := cache_refines n hn h
  generalize CacheCall.execAll h (MessageCache.init n) = c at i1 i2 i3
  have hpos : 0 < c.slots.length := by omega
  constructor
  · unfold MessageCache.keys
    rw [List.nodup_iff_pairwise_ne, List.pairwise_filterMap]
    rw [List.pairwise_iff_getElem]
    intro p q hp hq hpq b hb b' hb' hbb
    subst hbb
    cases ep : c.slots[p] with
    | none => simp [ep] at hb
    | some e =>
      cases eq : c.slots[q] with
      | none => simp [eq] at hb'
      | some e' =>
        have h1 := i2 p e (by rw [List.getElem?_eq_getElem hp, ep])
        have h2 := i2 q e' (by rw [List.getElem?_eq_getElem hq, eq])
        simp [ep] at hb
        simp [eq] at hb'
        rw [hb] at h1
        rw [hb'] at h2
        omega
  · intro id
    rw [MessageCache.mem_keys]
    constructor
    · rintro ⟨j, e, hj, he⟩
      refine ⟨e.object, (i3 id _).1 ((MessageCache.get_spec hpos _).2 ⟨e, ?_, he, rfl⟩)⟩
      have := i2 j e hj
      rw [i1, ← he, ← this]; exact hj
    · rintro ⟨v, hv⟩
      obtain ⟨e, he, he', _⟩ := (MessageCache.get_spec hpos v).1 ((i3 id v).2 hv)
      exact ⟨_, e, he, he'⟩

theorem handed_append (h : List (CacheCall V M)) (c : CacheCall V M) :
    CacheCall.handed (h ++ [c]) = CacheCall.handed h ++ CacheCall.handed [c] := by
  induction h with
  | nil => rfl
  | cons a h ih => cases a <;> simp [CacheCall.handed, ih]

open MessageCache in
theorem cache_log [DecidableEq M] (n : Nat) (hn : 0 < n) (h : List (CacheCall V M)) :
    ∃ ms, (CacheCall.execAll h (init n)).log = pairs ms ∧
      ∀ t, ms.count t + (CacheCall.execAll h (init n)).heldMem.count t =
        (CacheCall.handed h).count t := by
  induction h using list_snoc_induction with
  | h0 =>
    refine ⟨[], by simp [CacheCall.execAll, init, pairs], ?_⟩
    intro t
    have : (init n : MessageCache V M).heldMem = [] := by
      unfold heldMem init
      rw [List.filterMap_eq_nil_iff]
      intro o ho
      simp at ho
      simp [ho.2]
    simp [CacheCall.execAll, this, CacheCall.handed]
  | hs h c ih =>
    have hsn : CacheCall.execAll (h ++ [c]) (init n) =
        CacheCall.exec (CacheCall.execAll h (init n)) c := by
      simp [CacheCall.execAll]
    rw [hsn]
    have hlen := (cache_refines n hn h).1
    obtain ⟨ms, h1, h2⟩ := ih
    generalize CacheCall.execAll h (init n) = c0 at h1 h2 hlen
    have hpos : 0 < c0.slots.length := by omega
    have hh := handed_append h c
    cases c with
    | putLocal v id =>
      obtain ⟨c', hc'⟩ := (put_ok_iff c0 ⟨v, id, none⟩).2 hpos
      obtain ⟨ms', p1, p2⟩ := put_log hc' ms h1
      simp only [CacheCall.exec, putLocal, hc']
      refine ⟨ms', p1, ?_⟩
      intro t
      rw [p2, h2, hh]
      simp [CacheCall.handed]
    | putFromMem m v id =>
      obtain ⟨c', hc'⟩ := (put_ok_iff c0 ⟨v, id, some m⟩).2 hpos
      obtain ⟨ms', p1, p2⟩ := put_log hc' ms h1
      simp only [CacheCall.exec, putFromMem, hc']
      refine ⟨ms', p1, ?_⟩
      intro t
      rw [p2, h2, hh]
      simp [CacheCall.handed, List.count_singleton]
    | release id =>
      rcases release_spec (c := c0) (id := id) hpos with ⟨e, he, he', hr⟩ | ⟨hno, hr⟩
      · obtain ⟨ms', p1, p2⟩ := releaseSlot_log c0 (id % c0.slots.length) ms h1
        simp only [CacheCall.exec, hr]
        refine ⟨ms', p1, ?_⟩
        intro t
        rw [p2, h2, hh]
        simp [CacheCall.handed]
      · simp only [CacheCall.exec, hr]
        refine ⟨ms, h1, ?_⟩
        intro t
        rw [h2, hh]
        simp [CacheCall.handed]
    | clear =>
      obtain ⟨ms', p1, p2⟩ := clear_log c0 ms h1
      simp only [CacheCall.exec]
      refine ⟨ms', p1, ?_⟩
      intro t
      rw [p2, h2, hh]
      simp [CacheCall.handed]

/-- The memory views released so far, in order. -/
def releasedViews (l : List (MemEvent M)) : List M :=
  l.filterMap (fun e => match e with | .release m => some m | .exitCtx _ => none)

theorem releasedViews_pairs (ms : List M) : releasedViews (MessageCache.pairs ms) = ms := by
  induction ms with
  | nil => rfl
  | cons a ms ih =>
    simp only [MessageCache.pairs, releasedViews] at ih ⊢
    simp [List.flatMap_cons, ih]

/-- **C04 (release exactly once).** After any history that ends in `clear()`, the views released
are exactly the views handed over, each as often as it was handed over; at every earlier point no
view has been released more often than it was handed over; and every single release is immediately
preceded by leaving that view's deserialisation context. -/
theorem C04_cache_releases_once [DecidableEq M] (n : Nat) (hn : 0 < n) (h : List (CacheCall V M)) :
    (releasedViews (CacheCall.execAll (h ++ [.clear]) (MessageCache.init n)).log).Perm
      (CacheCall.handed h) ∧
    (∀ t, (releasedViews (CacheCall.execAll h (MessageCache.init n)).log).count t ≤
      (CacheCall.handed h).count t) ∧
    ∃ ms : List M, (CacheCall.execAll h (MessageCache.init n)).log =
      ms.flatMap (fun m => [.exitCtx m, .release m]) := by
  refine ⟨?_, ?_, ?_⟩
  · obtain ⟨ms, h1, h2⟩ := cache_log n hn (h ++ [CacheCall.clear])
    rw [h1, releasedViews_pairs, List.perm_iff_count]
    intro t
    have := h2 t
    have hc : (CacheCall.execAll (h ++ [CacheCall.clear]) (MessageCache.init n)).heldMem = [] := by
      simp [CacheCall.execAll, CacheCall.exec, MessageCache.clear_heldMem]
    rw [hc, handed_append] at this
    simpa [CacheCall.handed] using this
  · intro t
    obtain ⟨ms, h1, h2⟩ := cache_log n hn h
    rw [h1, releasedViews_pairs]
    have := h2 t
    omega
  · obtain ⟨ms, h1, _⟩ := cache_log n hn h
    exact ⟨ms, h1⟩

/-- A list with an element satisfying `p` splits at the first such element. -/
theorem exists_first {α : Type} (p : α → Prop) (l : List α) (h : ∃ d ∈ l, p d) :
    ∃ p1 x p2, l = p1 ++ x :: p2 ∧ p x ∧ ∀ y ∈ p1, ¬ p y := by
  obtain ⟨d, hd1, hd2⟩ := h
  induction l with
  | nil => simp at hd1
  | cons a post ih =>
    by_cases ha : p a
    · exact ⟨[], a, post, rfl, ha, by simp⟩
    · have : d ∈ post := by
        rcases List.mem_cons.1 hd1 with rfl | h
        · exact absurd hd2 ha
        · exact h
      obtain ⟨p1, x, p2, h1, h2, h3⟩ := ih this
      refine ⟨a :: p1, x, p2, by simp [h1], h2, ?_⟩
      intro y hy
      rcases List.mem_cons.1 hy with rfl | hy
      · exact ha
      · exact h3 y hy

open MessageCache in
theorem releaseSlot_log_prefix (c : MessageCache V M) (i : Nat) :
    c.log <+: (c.releaseSlot i).log := by
  unfold releaseSlot
  split
  · rename_i e _
    cases e.mem with
    | none => exact List.prefix_rfl
    | some m => exact List.prefix_append _ _
  · exact List.prefix_rfl

open MessageCache in
theorem foldl_releaseSlot_log_prefix (l : List Nat) (c : MessageCache V M) :
    c.log <+: (l.foldl releaseSlot c).log := by
  induction l generalizing c with
  | nil => exact List.prefix_rfl
  | cons a l ih => exact (releaseSlot_log_prefix c a).trans (ih _)

open MessageCache in
theorem exec_log_prefix (c : MessageCache V M) (d : CacheCall V M) :
    c.log <+: (CacheCall.exec c d).log := by
  have hput : ∀ e, c.log <+: (match c.put e with | .ok c' => c' | .error _ => c).log := by
    intro e
    cases hc : c.put e with
    | error => exact List.prefix_rfl
    | ok c' => rw [(put_spec hc).2.2.2]; exact releaseSlot_log_prefix _ _
  cases d with
  | putLocal v id => exact hput _
  | putFromMem m v id => exact hput _
  | release id =>
    simp only [CacheCall.exec]
    unfold release
    split
    · rename_i c' h
      split at h
      · cases h
      · cases h
      · split at h
        · cases h
        · cases h; exact releaseSlot_log_prefix _ _
    · exact List.prefix_rfl
  | clear => exact foldl_releaseSlot_log_prefix _ _

theorem execAll_log_prefix (l : List (CacheCall V M)) (c : MessageCache V M) :
    c.log <+: (CacheCall.execAll l c).log := by
  induction l generalizing c with
  | nil => exact List.prefix_rfl
  | cons a l ih => exact (exec_log_prefix c a).trans (ih _)

open MessageCache in
theorem releaseSlot_logs {c : MessageCache V M} {i : Nat} {e : CacheEntry V M} {m : M}
    (h : c.slots[i]? = some (some e)) (hm : e.mem = some m) :
    MemEvent.release m ∈ (c.releaseSlot i).log := by
  unfold releaseSlot
  simp [h, hm]

open MessageCache in
/-- A call that does not end the retention of the entry keeps it in its slot. -/
theorem exec_keeps {n : Nat} {c : MessageCache V M} {e : CacheEntry V M} (d : CacheCall V M)
    (hn : c.slots.length = n) (h : c.slots[e.msgId % n]? = some (some e))
    (hd : ¬ d.Ends n e.msgId) :
    (CacheCall.exec c d).slots.length = n ∧
    (CacheCall.exec c d).slots[e.msgId % n]? = some (some e) := by
  subst hn
  have hpos : 0 < c.slots.length := List.length_pos_of_mem (List.mem_of_getElem? h)
  have hput : ∀ x : CacheEntry V M, ¬ x.msgId % c.slots.length = e.msgId % c.slots.length →
      (match c.put x with | .ok c' => c' | .error _ => c).slots.length = c.slots.length ∧
      (match c.put x with | .ok c' => c' | .error _ => c).slots[e.msgId % c.slots.length]? =
        some (some e) := by
    intro x hx
    obtain ⟨c', hc'⟩ := (put_ok_iff c x).2 hpos
    obtain ⟨p1, _, p3, _⟩ := put_spec hc'
    simp only [hc']
    refine ⟨p1, ?_⟩
    rw [p3, if_neg (fun h => hx h.symm)]
    exact h
  cases d with
  | putLocal v id => exact hput _ hd
  | putFromMem m v id => exact hput _ hd
  | release id =>
    simp only [CacheCall.exec]
    rcases release_spec (c := c) (id := id) hpos with ⟨x, hx, hx', hr⟩ | ⟨hno, hr⟩
    · rw [hr]
      refine ⟨releaseSlot_length _ _, ?_⟩
      simp only
      rw [releaseSlot_get, if_neg ?_]
      · exact h
      · rintro ⟨h1, _⟩
        rw [h1, hx] at h
        cases h
        exact hd hx'.symm
    · rw [hr]; exact ⟨rfl, h⟩
  | clear => exact absurd trivial hd

open MessageCache in
/-- A call that ends the retention of the entry releases its view. -/
theorem exec_ends {n : Nat} {c : MessageCache V M} {e : CacheEntry V M} {m : M} (d : CacheCall V M)
    (hn : c.slots.length = n) (h : c.slots[e.msgId % n]? = some (some e)) (hm : e.mem = some m)
    (hd : d.Ends n e.msgId) :
    MemEvent.release m ∈ (CacheCall.exec c d).log := by
  subst hn
  have hpos : 0 < c.slots.length := List.length_pos_of_mem (List.mem_of_getElem? h)
  have hput : ∀ x : CacheEntry V M, x.msgId % c.slots.length = e.msgId % c.slots.length →
      MemEvent.release m ∈ (match c.put x with | .ok c' => c' | .error _ => c).log := by
    intro x hx
    obtain ⟨c', hc'⟩ := (put_ok_iff c x).2 hpos
    simp only [hc', (put_spec hc').2.2.2, hx]
    exact releaseSlot_logs h hm
  cases d with
  | putLocal v id => exact hput _ hd
  | putFromMem m v id => exact hput _ hd
  | release id =>
    have hd : id = e.msgId := hd
    subst hd
    simp only [CacheCall.exec]
    rcases release_spec (c := c) (id := e.msgId) hpos with ⟨x, hx, hx', hr⟩ | ⟨hno, hr⟩
    · rw [hr]; exact releaseSlot_logs h hm
    · exact absurd rfl (hno e h)
  | clear =>
    simp only [CacheCall.exec, clear]
    have hlt : e.msgId % c.slots.length < c.slots.length := Nat.mod_lt _ hpos
    obtain ⟨l1, l2, hl⟩ := List.append_of_mem (List.mem_range.2 hlt)
    have hnd : (List.range c.slots.length).Nodup := List.nodup_range
    rw [hl] at hnd ⊢
    rw [List.foldl_append, List.foldl_cons]
    have hnot : e.msgId % c.slots.length ∉ l1 := by
      intro hmem
      rw [List.nodup_append] at hnd
      exact hnd.2.2 _ hmem _ (by simp) rfl
    have hslot : (l1.foldl releaseSlot c).slots[e.msgId % c.slots.length]? = some (some e) := by
      rw [foldl_releaseSlot_get, if_neg (fun hh => hnot hh.1)]
      exact h
    exact (foldl_releaseSlot_log_prefix _ _).subset (releaseSlot_logs hslot hm)

/-- **C04 (no early, no late release).** If every view is handed over once, the view of the put
between `pre` and `post` has been released if and only if some later call ended the retention of
its message. -/
theorem C04_cache_release_iff_not_retained [DecidableEq M] (n : Nat) (hn : 0 < n)
    (pre post : List (CacheCall V M)) (m : M) (v : V) (id : Nat)
    (hd : (CacheCall.handed (pre ++ .putFromMem m v id :: post)).Nodup) :
    m ∈ releasedViews (CacheCall.execAll (pre ++ .putFromMem m v id :: post)
        (MessageCache.init n)).log ↔
      ∃ d ∈ post, d.Ends n id := by
  have hrun : CacheCall.execAll (pre ++ .putFromMem m v id :: post) (MessageCache.init n) =
      CacheCall.execAll post (CacheCall.execAll (pre ++ [.putFromMem m v id]) (MessageCache.init n)) := by
    simp [CacheCall.execAll]
  obtain ⟨e, he⟩ : ∃ e : CacheEntry V M, e = ⟨v, id, some m⟩ := ⟨_, rfl⟩
  have hlen := (cache_refines n hn (pre ++ [.putFromMem m v id])).1
  -- the entry is in its slot right after the put
  have hslot0 : (CacheCall.execAll (pre ++ [.putFromMem m v id]) (MessageCache.init n)).slots[
      e.msgId % n]? = some (some e) := by
    have hl0 := (cache_refines n hn pre).1
    simp only [CacheCall.execAll, List.foldl_append, List.foldl_cons, List.foldl_nil] at hl0 ⊢
    obtain ⟨c', hc'⟩ := (MessageCache.put_ok_iff
      (List.foldl CacheCall.exec (MessageCache.init n) pre) e).2 (by omega)
    obtain ⟨_, _, p3, _⟩ := MessageCache.put_spec hc'
    subst he
    simp only [CacheCall.exec, MessageCache.putFromMem, hc']
    rw [p3, hl0]
    simp
  -- it stays there while nothing ends its retention
  have hstay : ∀ l : List (CacheCall V M), (∀ d ∈ l, ¬ d.Ends n id) →
      (CacheCall.execAll l (CacheCall.execAll (pre ++ [.putFromMem m v id])
        (MessageCache.init n))).slots.length = n ∧
      (CacheCall.execAll l (CacheCall.execAll (pre ++ [.putFromMem m v id])
        (MessageCache.init n))).slots[e.msgId % n]? = some (some e) := by
    intro l
    induction l using list_snoc_induction with
    | h0 => intro _; exact ⟨hlen, hslot0⟩
    | hs l d ih =>
      intro hl
      obtain ⟨a1, a2⟩ := ih (fun x hx => hl x (by simp [hx]))
      have hs : ∀ c : MessageCache V M, CacheCall.execAll (l ++ [d]) c =
          CacheCall.exec (CacheCall.execAll l c) d := by intro c; simp [CacheCall.execAll]
      rw [hs]
      have hde : ¬ d.Ends n e.msgId := by subst he; exact hl d (by simp)
      exact exec_keeps d a1 a2 hde
  rw [hrun]
  constructor
  · intro hrel
    apply Classical.byContradiction
    intro hno
    have hno' : ∀ d ∈ post, ¬ d.Ends n id := fun d hd' hde => hno ⟨d, hd', hde⟩
    obtain ⟨a1, a2⟩ := hstay post hno'
    obtain ⟨ms, l1, l2⟩ := cache_log n hn (pre ++ .putFromMem m v id :: post)
    rw [hrun] at l1 l2
    rw [l1, releasedViews_pairs] at hrel
    have h1 : 0 < ms.count m := List.count_pos_iff.2 hrel
    have h2 : 0 < (CacheCall.execAll post (CacheCall.execAll (pre ++ [.putFromMem m v id])
        (MessageCache.init n))).heldMem.count m := by
      rw [List.count_pos_iff]
      unfold MessageCache.heldMem
      rw [List.mem_filterMap]
      exact ⟨some e, List.mem_of_getElem? a2, by simp [he]⟩
    have h3 := l2 m
    have h4 := List.nodup_iff_count.1 hd m
    omega
  · rintro ⟨d, hd1, hd2⟩
    obtain ⟨p1, x, p2, hp, hx, hp1⟩ := exists_first (CacheCall.Ends n id) post ⟨d, hd1, hd2⟩
    obtain ⟨a1, a2⟩ := hstay p1 hp1
    subst hp
    have hs : ∀ c : MessageCache V M, CacheCall.execAll (p1 ++ x :: p2) c =
        CacheCall.execAll p2 (CacheCall.exec (CacheCall.execAll p1 c) x) := by
      intro c; simp [CacheCall.execAll]
    rw [hs]
    have hx' : x.Ends n e.msgId := by subst he; exact hx
    have hlog := (execAll_log_prefix p2 _).subset (exec_ends x a1 a2 (m := m) (by simp [he]) hx')
    unfold releasedViews
    rw [List.mem_filterMap]
    exact ⟨_, hlog, rfl⟩

/-- Non-vacuity of C04 (release): three views; view 10 is displaced, 11 is released, 12 stays until
the cache is cleared. -/
example :
    let h : List (CacheCall String Nat) :=
      [.putFromMem 10 "a" 0, .putFromMem 11 "b" 1, .putFromMem 12 "c" 2, .release 1]
    CacheCall.handed h = [10, 11, 12] ∧
    releasedViews (CacheCall.execAll h (MessageCache.init 2)).log = [10, 11] ∧
    releasedViews (CacheCall.execAll (h ++ [.clear]) (MessageCache.init 2)).log = [10, 11, 12] := by
  decide

end Ez
