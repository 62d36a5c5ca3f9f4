import Verif.Model.Shm
import Verif.Lemmas.Marshal

set_option linter.unusedSimpArgs false

namespace Ez

/-- Overwrite `v.length` bytes at `s`. -/
def putAt (mem : Bytes) (s : Nat) (v : Bytes) : Bytes := mem.take s ++ v ++ mem.drop (s + v.length)

theorem getElem?_slice (mem : Bytes) (a b k : Nat) :
    (slice mem a b)[k]? = if a + k < b then mem[a + k]? else none := by
  unfold slice
  rw [List.getElem?_drop, List.getElem?_take]

theorem getElem?_putAt (mem v : Bytes) (s k : Nat) (h : s + v.length ≤ mem.length) :
    (putAt mem s v)[k]? =
      if s ≤ k ∧ k < s + v.length then v[k - s]? else mem[k]? := by
  unfold putAt
  have hl : (mem.take s).length = s := by simp; omega
  rw [List.append_assoc]
  by_cases h1 : k < s
  · rw [List.getElem?_append_left (by omega), List.getElem?_take, if_pos h1, if_neg (by omega)]
  · rw [List.getElem?_append_right (by omega), hl]
    by_cases h2 : k < s + v.length
    · rw [if_pos ⟨by omega, h2⟩, List.getElem?_append_left (by omega)]
    · rw [if_neg (by omega), List.getElem?_append_right (by omega), List.getElem?_drop]
      congr 1
      omega

theorem length_putAt (mem v : Bytes) (s : Nat) (h : s + v.length ≤ mem.length) :
    (putAt mem s v).length = mem.length := by
  simp [putAt]
  omega

theorem slice_putAt_self (mem v : Bytes) (s e : Nat) (h : s + v.length ≤ mem.length)
    (he : e = s + v.length) : slice (putAt mem s v) s e = v := by
  subst he
  apply List.ext_getElem?
  intro k
  rw [getElem?_slice, getElem?_putAt _ _ _ _ h]
  by_cases hk : k < v.length
  · rw [if_pos (by omega), if_pos (by omega)]
    congr 1
    omega
  · rw [if_neg (by omega)]
    rw [List.getElem?_eq_none (by omega)]

theorem slice_putAt_disjoint (mem v : Bytes) (s a b : Nat) (h : s + v.length ≤ mem.length)
    (hd : b ≤ s ∨ s + v.length ≤ a) : slice (putAt mem s v) a b = slice mem a b := by
  apply List.ext_getElem?
  intro k
  rw [getElem?_slice, getElem?_slice, getElem?_putAt _ _ _ _ h]
  by_cases hk : a + k < b
  · rw [if_pos hk, if_pos hk, if_neg (by omega)]
  · rw [if_neg hk, if_neg hk]

theorem putAt_slice (mem : Bytes) (s e : Nat) (hse : s ≤ e) (he : e ≤ mem.length) :
    putAt mem s (slice mem s e) = mem := by
  have hl : (slice mem s e).length = e - s := by rw [length_slice]; omega
  apply List.ext_getElem?
  intro k
  rw [getElem?_putAt _ _ _ _ (by rw [hl]; omega)]
  split
  · rename_i h
    rw [getElem?_slice, if_pos (by omega)]
    congr 1
    omega
  · rfl

/-- The segment has the given geometry. -/
structure Geometry (mem : Bytes) (n bs : Nat) : Prop where
  hn : slice mem 0 8 = toBytesLE 8 n
  hbs : slice mem 8 16 = toBytesLE 8 bs
  nlt : n < 2 ^ 64
  bslt : bs < 2 ^ 64
  big : 16 ≤ bs
  pos : 0 < n
  len : n * bs ≤ mem.length

theorem attach_eq {mem : Bytes} {n bs : Nat} (h : Geometry mem n bs) :
    shmAttach mem = ⟨n, bs, (List.range n).map (fun i => (i * bs + 16, i * bs + bs))⟩ := by
  unfold shmAttach
  simp only [h.hn, h.hbs, decode_uint64 _ h.nlt, decode_uint64 _ h.bslt]
  congr 1
  apply List.ext_getElem
  · simp
  · intro i h1 h2
    simp

theorem segs_get {mem : Bytes} {n bs i : Nat} (h : Geometry mem n bs) (hi : i < n) :
    (shmAttach mem).segs[i]? = some (i * bs + 16, i * bs + bs) := by
  rw [attach_eq h]
  simp [hi]

theorem slot_bound {mem : Bytes} {n bs i : Nat} (h : Geometry mem n bs) (hi : i < n) :
    i * bs + bs ≤ mem.length := by
  have h1 : (i + 1) * bs ≤ n * bs := Nat.mul_le_mul_right bs hi
  rw [Nat.succ_mul] at h1
  exact Nat.le_trans h1 h.len

theorem slot_order {i j bs : Nat} (h : i < j) : i * bs + bs ≤ j * bs := by
  have h1 : (i + 1) * bs ≤ j * bs := Nat.mul_le_mul_right bs h
  rw [Nat.succ_mul] at h1
  exact h1

theorem view_eq {mem : Bytes} {n bs i : Nat} (h : Geometry mem n bs) (hi : i < n) :
    shmView mem (shmAttach mem) i = some (slice mem (i * bs + 16) (i * bs + bs)) := by
  unfold shmView
  rw [segs_get h hi]
  rfl

theorem length_view {mem : Bytes} {n bs i : Nat} (h : Geometry mem n bs) (hi : i < n) :
    (slice mem (i * bs + 16) (i * bs + bs)).length = bs - 16 := by
  have := slot_bound h hi
  rw [length_slice]
  omega

theorem put_eq {mem : Bytes} {n bs i : Nat} (h : Geometry mem n bs) (hi : i < n) (v : Bytes) :
    shmPut mem (shmAttach mem) i v = putAt mem (i * bs + 16) v := by
  unfold shmPut
  rw [segs_get h hi]
  rfl

theorem put_geometry {mem : Bytes} {n bs i : Nat} (h : Geometry mem n bs) (hi : i < n) (v : Bytes)
    (hv : v.length = bs - 16) : Geometry (putAt mem (i * bs + 16) v) n bs := by
  have h1 := slot_bound h hi
  have h2 := h.big
  have h3 : i * bs + 16 + v.length ≤ mem.length := by omega
  refine ⟨?_, ?_, h.nlt, h.bslt, h.big, h.pos, ?_⟩
  · rw [slice_putAt_disjoint _ _ _ _ _ h3 (Or.inl (by omega)), h.hn]
  · rw [slice_putAt_disjoint _ _ _ _ _ h3 (Or.inl (by omega)), h.hbs]
  · rw [length_putAt _ _ _ h3]; exact h.len

theorem view_put_self {mem : Bytes} {n bs i : Nat} (h : Geometry mem n bs) (hi : i < n) (v : Bytes)
    (hv : v.length = bs - 16) :
    slice (putAt mem (i * bs + 16) v) (i * bs + 16) (i * bs + bs) = v := by
  have h1 := slot_bound h hi
  have h2 := h.big
  exact slice_putAt_self _ _ _ _ (by omega) (by omega)

theorem view_put_other {mem : Bytes} {n bs i j : Nat} (h : Geometry mem n bs) (hi : i < n)
    (v : Bytes) (hv : v.length = bs - 16) (hne : i ≠ j) :
    slice (putAt mem (i * bs + 16) v) (j * bs + 16) (j * bs + bs) =
      slice mem (j * bs + 16) (j * bs + bs) := by
  have h1 := slot_bound h hi
  have h2 := h.big
  apply slice_putAt_disjoint _ _ _ _ _ (by omega)
  rcases Nat.lt_or_gt_of_ne hne with hlt | hgt
  · have := slot_order (bs := bs) hlt
    right; omega
  · have := slot_order (bs := bs) hgt
    left; omega

/-- The bytes of a fresh segment. -/
theorem create_eq {n req slack : Nat} {mem : Bytes} (h : shmCreate n req slack = some mem) :
    0 < n ∧ n < 2 ^ 64 ∧ req + 16 * n < 2 ^ 64 ∧
    mem = toBytesLE 8 n ++ toBytesLE 8 (req + 16 * n) ++
      List.replicate (n * (req + 16 * n) + slack - 16) 0x30 := by
  unfold shmCreate at h
  simp only [bind, Option.bind] at h
  split at h
  · cases h
  · rename_i hz
    · have hpos : 0 < n := by
        rcases Nat.eq_zero_or_pos n with h | h
        · subst h; simp at hz
        · exact h
      have hsz : 16 ≤ n * (req + 16 * n) := by
        have : 1 * 16 ≤ n * (req + 16 * n) := Nat.mul_le_mul hpos (by omega)
        omega
      generalize n * (req + 16 * n) = sz at *
      split at h
      · cases h
      · rename_i b1 hb1
        obtain ⟨hn, rfl⟩ := uint64ToBytes_some hb1
        dsimp only at h
        split at h
        · cases h
        · rename_i m1 hm1
          dsimp only at h
          split at h
          · cases h
          · rename_i b2 hb2
            obtain ⟨hb, rfl⟩ := uint64ToBytes_some hb2
            refine ⟨hpos, hn, hb, ?_⟩
            have e1 := assign_ok [] (List.replicate (sz + slack) (0x30 : UInt8)) (toBytesLE 8 n)
              (by rw [length_toBytesLE, List.length_replicate]; omega)
            simp only [List.nil_append, List.length_nil, length_toBytesLE, Nat.zero_add] at e1
            rw [e1] at hm1
            injection hm1 with hm1
            subst hm1
            have e2 := assign_ok (toBytesLE 8 n)
              (List.drop 8 (List.replicate (sz + slack) (0x30 : UInt8)))
              (toBytesLE 8 (req + 16 * n))
              (by rw [length_toBytesLE, List.length_drop, List.length_replicate]; omega)
            simp only [length_toBytesLE, Nat.reduceAdd] at e2
            dsimp only at h
            rw [e2] at h
            injection h with h
            rw [← h]
            simp only [List.drop_replicate]
            congr 2

theorem create_some {n req : Nat} (slack : Nat) (hn : 0 < n) (h1 : n < 2 ^ 64)
    (h2 : req + 16 * n < 2 ^ 64) :
    shmCreate n req slack = some (toBytesLE 8 n ++ toBytesLE 8 (req + 16 * n) ++
      List.replicate (n * (req + 16 * n) + slack - 16) 0x30) := by
  have hsz : 16 ≤ n * (req + 16 * n) := by
    have : 1 * 16 ≤ n * (req + 16 * n) := Nat.mul_le_mul hn (by omega)
    omega
  have g1 := uint64ToBytes_nat n h1
  have g2 := uint64ToBytes_nat (req + 16 * n) h2
  unfold shmCreate
  simp only [bind, Option.bind]
  generalize n * (req + 16 * n) = sz at *
  rw [if_neg (by omega)]
  rw [g1]
  have e1 := assign_ok [] (List.replicate (sz + slack) (0x30 : UInt8)) (toBytesLE 8 n)
    (by rw [length_toBytesLE, List.length_replicate]; omega)
  simp only [List.nil_append, List.length_nil, length_toBytesLE, Nat.zero_add] at e1
  simp only [e1]
  rw [g2]
  have e2 := assign_ok (toBytesLE 8 n)
    (List.drop 8 (List.replicate (sz + slack) (0x30 : UInt8)))
    (toBytesLE 8 (req + 16 * n))
    (by rw [length_toBytesLE, List.length_drop, List.length_replicate]; omega)
  simp only [length_toBytesLE, Nat.reduceAdd] at e2
  dsimp only
  rw [e2]
  simp only [List.drop_replicate]
  have : sz + slack - 8 - 8 = sz + slack - 16 := by omega
  rw [this]

theorem create_geometry {n req slack : Nat} {mem : Bytes} (h : shmCreate n req slack = some mem) :
    Geometry mem n (req + 16 * n) ∧ mem.length = n * (req + 16 * n) + slack := by
  obtain ⟨h1, h2, h3, rfl⟩ := create_eq h
  have hsz : 16 ≤ n * (req + 16 * n) := by
    have : 1 * 16 ≤ n * (req + 16 * n) := Nat.mul_le_mul h1 (by omega)
    omega
  have hlen : (toBytesLE 8 n ++ toBytesLE 8 (req + 16 * n) ++
      List.replicate (n * (req + 16 * n) + slack - 16) (0x30 : UInt8)).length =
      n * (req + 16 * n) + slack := by
    simp only [List.length_append, length_toBytesLE, List.length_replicate]; omega
  refine ⟨⟨?_, ?_, h2, h3, by omega, h1, by rw [hlen]; omega⟩, hlen⟩
  · rw [List.append_assoc]
    exact slice_append [] (toBytesLE 8 n) _ 0 8 rfl (by rw [length_toBytesLE])
  · exact slice_append _ _ _ 8 16 (by rw [length_toBytesLE]) (by rw [length_toBytesLE])

theorem create_uninit {n req slack : Nat} {mem : Bytes} (h : shmCreate n req slack = some mem)
    (i : Nat) (hi : i < n) :
    initialized (slice mem (i * (req + 16 * n) + 16) (i * (req + 16 * n) + (req + 16 * n))) =
      false := by
  obtain ⟨g, _⟩ := create_geometry h
  obtain ⟨h1, h2, h3, rfl⟩ := create_eq h
  have hb := slot_bound g hi
  unfold initialized
  rw [decide_eq_false_iff_not]
  intro hh
  have h0 : (slice (slice (toBytesLE 8 n ++ toBytesLE 8 (req + 16 * n) ++
      List.replicate (n * (req + 16 * n) + slack - 16) 0x30) (i * (req + 16 * n) + 16)
      (i * (req + 16 * n) + (req + 16 * n))) 0 2)[0]? = some (0x45 : UInt8) := by rw [hh]; rfl
  rw [getElem?_slice, if_pos (by omega), getElem?_slice] at h0
  split at h0
  · rw [List.getElem?_append_right (by
      rw [List.length_append, length_toBytesLE, length_toBytesLE]; omega),
      List.getElem?_replicate] at h0
    split at h0
    · exact absurd h0 (by decide)
    · cases h0
  · cases h0

/-! ## Slots holding messages -/

variable {Obj : Type}

/-- Slot `i` of the segment holds `ct i` (`none`: no message). -/
structure Seg (c : Codec Obj) (mem : Bytes) (n bs : Nat) (ct : Nat → Option (Nat × Obj)) : Prop where
  geo : Geometry mem n bs
  empty : ∀ i, i < n → ct i = none →
    initialized (slice mem (i * bs + 16) (i * bs + bs)) = false
  full : ∀ i, i < n → ∀ id obj, ct i = some (id, obj) →
    Encodable id (c.dump obj) ∧ ∃ R, slice mem (i * bs + 16) (i * bs + bs) =
      headerOf id (c.dump obj) ++ (c.dump obj).flatten ++ R

/-- Total size of the marshalled message. -/
def totalSize (bufs : List Bytes) : Nat := 18 + 8 * bufs.length + bufs.flatten.length

theorem serialize_total {id : Nat} {bufs : List Bytes} (h : Encodable id bufs) :
    serialize id bufs = .ok (totalSize bufs, headerOf id bufs) := by
  rw [serialize_ok h, length_headerOf, ← length_flatten_sum]
  rfl

theorem seg_put {c : Codec Obj} {mem : Bytes} {n bs : Nat} {ct : Nat → Option (Nat × Obj)}
    (h : Seg c mem n bs ct) {i : Nat} (hi : i < n) {id : Nat} {obj : Obj}
    (he : Encodable id (c.dump obj)) (R : Bytes)
    (hv : (headerOf id (c.dump obj) ++ (c.dump obj).flatten ++ R).length = bs - 16) :
    Seg c (putAt mem (i * bs + 16) (headerOf id (c.dump obj) ++ (c.dump obj).flatten ++ R)) n bs
      (fun j => if j = i then some (id, obj) else ct j) := by
  refine ⟨put_geometry h.geo hi _ hv, ?_, ?_⟩
  · intro j hj hc
    have hc : (if j = i then some (id, obj) else ct j) = none := hc
    split at hc
    · cases hc
    · rename_i hne
      rw [view_put_other h.geo hi _ hv (fun hh => hne hh.symm)]
      exact h.empty j hj hc
  · intro j hj id' obj' hc
    have hc : (if j = i then some (id, obj) else ct j) = some (id', obj') := hc
    split at hc
    · rename_i heq
      subst heq
      simp only [if_true, Option.some.injEq, Prod.mk.injEq] at hc
      obtain ⟨rfl, rfl⟩ := hc
      exact ⟨he, R, view_put_self h.geo hi _ hv⟩
    · rename_i hne
      rw [view_put_other h.geo hi _ hv (fun hh => hne hh.symm)]
      exact h.full j hj id' obj' hc

theorem msgIdOf_uninit {mem : Bytes} (h : initialized mem = false) :
    msgIdOf mem = .error .uninitialized := by
  unfold msgIdOf; rw [h]; rfl

theorem bufsFromMem_uninit {mem : Bytes} (h : initialized mem = false) :
    bufsFromMem mem = .error .uninitialized := by
  unfold bufsFromMem; rw [h]; rfl

theorem toMem_ok {id : Nat} {bufs : List Bytes} {mem : Bytes} (h : Encodable id bufs)
    (hl : totalSize bufs < mem.length) :
    toMem id bufs mem = (headerOf id bufs ++ bufs.flatten ++ mem.drop (totalSize bufs), none) := by
  unfold toMem
  rw [serialize_total h]
  simp only
  rw [if_neg (by omega), write_ok _ _ _ (by rw [length_headerOf]; unfold totalSize at hl; omega)]
  simp only [length_headerOf, if_true, totalSize]

theorem copyObj_full {c : Codec Obj} (hc : ∀ o, c.load (c.dump o) = o) (hne : ∀ o, c.dump o ≠ [])
    {id : Nat} {obj : Obj} (he : Encodable id (c.dump obj)) (R dst : Bytes)
    (hl : totalSize (c.dump obj) < dst.length) :
    copyObj c (headerOf id (c.dump obj) ++ (c.dump obj).flatten ++ R) dst =
      (headerOf id (c.dump obj) ++ (c.dump obj).flatten ++ dst.drop (totalSize (c.dump obj)),
        none) := by
  unfold copyObj
  have h1 : msgIdOf (headerOf id (c.dump obj) ++ (c.dump obj).flatten ++ R) = .ok id := by
    rw [List.append_assoc]; exact msgIdOf_header _ _ _ he.id
  have h2 : objFromMem c (headerOf id (c.dump obj) ++ (c.dump obj).flatten ++ R) = .ok obj := by
    unfold objFromMem
    rw [bufsFromMem_frame _ _ _ he (hne obj)]
    simp [Except.map, hc]
  rw [h1]
  simp only [h2]
  exact toMem_ok he hl

theorem copyObj_empty {c : Codec Obj} {src : Bytes} (dst : Bytes) (h : initialized src = false) :
    copyObj c src dst = (dst, some .uninitialized) := by
  unfold copyObj
  rw [msgIdOf_uninit h]

theorem copySlots_spec {c : Codec Obj} (hc : ∀ o, c.load (c.dump o) = o)
    (hne : ∀ o, c.dump o ≠ []) {old : Bytes} {n bs : Nat} {ct : Nat → Option (Nat × Obj)}
    (ho : Seg c old n bs ct) {bs' : Nat} (hbs : bs < bs') (is : List Nat) (his : ∀ i ∈ is, i < n)
    (hnd : is.Nodup) {new : Bytes} {cur : Nat → Option (Nat × Obj)} (hnew : Seg c new n bs' cur)
    (hcur : ∀ i ∈ is, cur i = none) :
    ∃ mem, copySlots c old new is = .ok mem ∧
      Seg c mem n bs' (fun j => if j ∈ is then ct j else cur j) := by
  induction is generalizing new cur with
  | nil => exact ⟨new, rfl, by simpa using hnew⟩
  | cons i is ih =>
    have hi := his i (by simp)
    rw [List.nodup_cons] at hnd
    unfold copySlots
    rw [view_eq ho.geo hi, view_eq hnew.geo hi]
    simp only
    cases hct : ct i with
    | none =>
      rw [copyObj_empty _ (ho.empty i hi hct)]
      simp only
      rw [put_eq hnew.geo hi, putAt_slice _ _ _ (by have := hnew.geo.big; omega)
        (slot_bound hnew.geo hi)]
      obtain ⟨mem, e1, e2⟩ := ih (fun x hx => his x (by simp [hx])) hnd.2 hnew
        (fun x hx => hcur x (by simp [hx]))
      refine ⟨mem, e1, ?_⟩
      have : (fun j => if j ∈ i :: is then ct j else cur j) =
          (fun j => if j ∈ is then ct j else cur j) := by
        funext j
        by_cases hj : j = i
        · subst hj
          simp [hnd.1, hct, hcur j (by simp)]
        · simp [hj]
      rw [this]
      exact e2
    | some p =>
      obtain ⟨id, obj⟩ := p
      obtain ⟨he, R, hR⟩ := ho.full i hi id obj hct
      have hlen : totalSize (c.dump obj) ≤ bs - 16 := by
        have := length_view ho.geo hi
        rw [hR, List.length_append, List.length_append, length_headerOf] at this
        unfold totalSize
        omega
      have hbig := ho.geo.big
      have hdl := length_view hnew.geo hi
      rw [hR, copyObj_full hc hne he R _ (by rw [hdl]; omega)]
      simp only
      rw [put_eq hnew.geo hi]
      have hseg := seg_put hnew hi he
        ((slice new (i * bs' + 16) (i * bs' + bs')).drop (totalSize (c.dump obj))) (by
          rw [List.length_append, List.length_append, length_headerOf, List.length_drop, hdl]
          unfold totalSize at hlen ⊢
          omega)
      obtain ⟨mem, e1, e2⟩ := ih (fun x hx => his x (by simp [hx])) hnd.2 hseg
        (by
          intro x hx
          have : x ≠ i := by rintro rfl; exact hnd.1 hx
          simp [this, hcur x (by simp [hx])])
      refine ⟨mem, e1, ?_⟩
      have : (fun j => if j ∈ i :: is then ct j else cur j) =
          (fun j => if j ∈ is then ct j else if j = i then some (id, obj) else cur j) := by
        funext j
        by_cases hj : j = i
        · subst hj
          simp [hnd.1, hct]
        · simp [hj]
      rw [this]
      exact e2

theorem create_seg (c : Codec Obj) {n req slack : Nat} {mem : Bytes}
    (h : shmCreate n req slack = some mem) : Seg c mem n (req + 16 * n) (fun _ => none) :=
  ⟨(create_geometry h).1, fun i hi _ => create_uninit h i hi,
    fun _ _ _ _ h => by cases h⟩

/-- Writing a message into a segment whose slots are large enough or not. -/
theorem place_write {c : Codec Obj} {mem : Bytes} {n bs : Nat} {ct : Nat → Option (Nat × Obj)}
    (h : Seg c mem n bs ct) (id : Nat) (obj : Obj) (he : Encodable id (c.dump obj)) :
    let r : Except PlaceError Bytes :=
      (match shmView mem (shmAttach mem) (id % n) with
      | none => .error .index
      | some view =>
        match write view (headerOf id (c.dump obj)) (c.dump obj) with
        | (view', true) => .ok (shmPut mem (shmAttach mem) (id % n) view')
        | (_, false) => .error .valueError)
    (totalSize (c.dump obj) ≤ bs - 16 → ∃ mem', r = .ok mem' ∧
      Seg c mem' n bs (fun j => if j = id % n then some (id, obj) else ct j)) ∧
    (bs - 16 < totalSize (c.dump obj) → r = .error .valueError) := by
  have hi : id % n < n := Nat.mod_lt _ h.geo.pos
  have hl := length_view h.geo hi
  simp only
  rw [view_eq h.geo hi]
  simp only
  constructor
  · intro hle
    rw [write_ok _ _ _ (by rw [length_headerOf, hl]; unfold totalSize at hle; omega)]
    simp only
    rw [put_eq h.geo hi]
    refine ⟨_, rfl, ?_⟩
    apply seg_put h hi he
    rw [List.length_append, List.length_append, List.length_drop, hl, length_headerOf]
    unfold totalSize at hle
    omega
  · intro hlt
    have := (write_fail (slice mem (id % n * bs + 16) (id % n * bs + bs))
      (headerOf id (c.dump obj)) (c.dump obj)
      (by rw [length_headerOf, hl]; unfold totalSize at hlt; omega)).1
    split
    · rename_i heq; rw [heq] at this; cases this
    · rfl

theorem place_spec {c : Codec Obj} (hc : ∀ o, c.load (c.dump o) = o)
    (hne : ∀ o, c.dump o ≠ []) (slack : Nat) {mem : Bytes} {n bs : Nat}
    {ct : Nat → Option (Nat × Obj)} (h : Seg c mem n bs ct) (id : Nat) (obj : Obj) :
    (¬ Encodable id (c.dump obj) → placeMessage c slack n mem id obj = .error .overflow) ∧
    (Encodable id (c.dump obj) →
      (totalSize (c.dump obj) ≤ bs - 16 → ∃ mem', placeMessage c slack n mem id obj = .ok mem' ∧
        Seg c mem' n bs (fun j => if j = id % n then some (id, obj) else ct j)) ∧
      (bs - 16 < totalSize (c.dump obj) → totalSize (c.dump obj) ≤ bs →
        placeMessage c slack n mem id obj = .error .valueError) ∧
      (bs < totalSize (c.dump obj) →
        (2 ^ 64 ≤ totalSize (c.dump obj) * 2 + 16 * n →
          placeMessage c slack n mem id obj = .error .create) ∧
        (totalSize (c.dump obj) * 2 + 16 * n < 2 ^ 64 →
          ∃ mem', placeMessage c slack n mem id obj = .ok mem' ∧
            Seg c mem' n (totalSize (c.dump obj) * 2 + 16 * n)
              (fun j => if j = id % n then some (id, obj) else ct j)))) := by
  constructor
  · intro hn
    unfold placeMessage
    rw [serialize_overflow hn]
  · intro he
    have hatt : (shmAttach mem).bufSize = bs := by rw [attach_eq h.geo]
    have hbig := h.geo.big
    obtain ⟨w1, w2⟩ := place_write h id obj he
    refine ⟨?_, ?_, ?_⟩
    · intro hle
      unfold placeMessage
      rw [serialize_total he]
      simp only [hatt]
      rw [if_neg (by omega)]
      exact w1 hle
    · intro hlt hle
      unfold placeMessage
      rw [serialize_total he]
      simp only [hatt]
      rw [if_neg (by omega)]
      exact w2 hlt
    · intro hgt
      unfold placeMessage
      rw [serialize_total he]
      simp only [hatt]
      rw [if_pos hgt]
      constructor
      · intro hov
        have : shmCreate n (totalSize (c.dump obj) * 2) slack = none := by
          cases hcr : shmCreate n (totalSize (c.dump obj) * 2) slack with
          | none => rfl
          | some m =>
            have := (create_eq hcr).2.2.1
            omega
        rw [this]
      · intro hfit
        obtain ⟨new, hnew⟩ : ∃ new, shmCreate n (totalSize (c.dump obj) * 2) slack = some new :=
          ⟨_, create_some slack h.geo.pos h.geo.nlt hfit⟩
        rw [hnew]
        simp only
        have hs := create_seg c hnew
        obtain ⟨mem', e1, e2⟩ := copySlots_spec hc hne h (bs' := totalSize (c.dump obj) * 2 + 16 * n)
          (by omega) (List.range n) (by simp) List.nodup_range hs (fun _ _ => rfl)
        rw [e1]
        simp only
        obtain ⟨v1, _⟩ := place_write e2 id obj he
        obtain ⟨mem'', f1, f2⟩ := v1 (by have := h.geo.pos; omega)
        refine ⟨mem'', f1, ?_⟩
        have hi : id % n < n := Nat.mod_lt _ h.geo.pos
        refine ⟨f2.geo, ?_, ?_⟩
        · intro i hi' hcc
          apply f2.empty i hi'
          simpa [hi'] using hcc
        · intro i hi' id' obj' hcc
          apply f2.full i hi'
          simpa [hi'] using hcc

end Ez
