import Verif.Model.Marshal
import Verif.Lemmas.Netprotocol

set_option linter.unusedSimpArgs false

namespace Ez

theorem slice_append (P Q R : Bytes) (a b : Nat) (ha : a = P.length) (hb : b = a + Q.length) :
    slice (P ++ Q ++ R) a b = Q := by
  subst ha; subst hb
  unfold slice
  rw [List.append_assoc, List.take_length_add_append, List.drop_left, List.take_left]

theorem length_slice (mem : Bytes) (a b : Nat) : (slice mem a b).length = min b mem.length - a := by
  simp [slice]

/-- Bytes of the length fields of a header. -/
def lenBytes (bufs : List Bytes) : Bytes := (bufs.map (fun b => toBytesLE 8 b.length)).flatten

/-- The header of a message. -/
def headerOf (msgId : Nat) (bufs : List Bytes) : Bytes :=
  PREAMBLE ++ toBytesLE 8 msgId ++ (toBytesLE 8 bufs.length ++ lenBytes bufs)

/-- Message id and all lengths fit 64 bits. -/
structure Encodable (msgId : Nat) (bufs : List Bytes) : Prop where
  id : msgId < 2 ^ 64
  count : bufs.length < 2 ^ 64
  lens : ∀ b ∈ bufs, b.length < 2 ^ 64

theorem mapM_lens (bufs : List Bytes) :
    ((∀ b ∈ bufs, b.length < 2 ^ 64) →
      bufs.mapM (fun b => uint64ToBytes b.length) = some (bufs.map (fun b => toBytesLE 8 b.length))) ∧
    ((¬ ∀ b ∈ bufs, b.length < 2 ^ 64) → bufs.mapM (fun b => uint64ToBytes b.length) = none) := by
  induction bufs with
  | nil => simp
  | cons b bs ih =>
    constructor
    · intro h
      have h1 := uint64ToBytes_nat _ (h b (by simp))
      have h2 := ih.1 (fun x hx => h x (by simp [hx]))
      rw [List.mapM_cons, h1, h2]
      rfl
    · intro h
      by_cases hb : b.length < 2 ^ 64
      · have h2 := ih.2 (fun hh => h (by
          intro x hx
          rcases List.mem_cons.1 hx with rfl | hx
          · exact hb
          · exact hh x hx))
        rw [List.mapM_cons, h2, uint64ToBytes_nat _ hb]
        rfl
      · rw [List.mapM_cons, uint64ToBytes_big _ (Nat.le_of_not_lt hb)]
        rfl

theorem serialize_ok {msgId : Nat} {bufs : List Bytes} (h : Encodable msgId bufs) :
    serialize msgId bufs =
      .ok ((headerOf msgId bufs).length + (bufs.map List.length).sum, headerOf msgId bufs) := by
  have h1 := uint64ToBytes_nat _ h.count
  have h2 := (mapM_lens bufs).1 h.lens
  have h3 := uint64ToBytes_nat _ h.id
  unfold serialize
  generalize uint64ToBytes (bufs.length : Int) = x1 at h1
  generalize bufs.mapM (fun b => uint64ToBytes b.length) = x2 at h2
  generalize uint64ToBytes (msgId : Int) = x3 at h3
  subst h1 h2 h3
  rfl

theorem serialize_overflow {msgId : Nat} {bufs : List Bytes} (h : ¬ Encodable msgId bufs) :
    serialize msgId bufs = .error .overflow := by
  have h1 : uint64ToBytes (bufs.length : Int) = none ∨
      bufs.mapM (fun b => uint64ToBytes b.length) = none ∨ uint64ToBytes (msgId : Int) = none := by
    by_cases h1 : msgId < 2 ^ 64
    · by_cases h2 : bufs.length < 2 ^ 64
      · exact Or.inr (Or.inl ((mapM_lens bufs).2 (fun hh => h ⟨h1, h2, hh⟩)))
      · exact Or.inl (uint64ToBytes_big _ (Nat.le_of_not_lt h2))
    · exact Or.inr (Or.inr (uint64ToBytes_big _ (Nat.le_of_not_lt h1)))
  unfold serialize
  generalize uint64ToBytes (bufs.length : Int) = x1 at h1
  generalize bufs.mapM (fun b => uint64ToBytes b.length) = x2 at h1
  generalize uint64ToBytes (msgId : Int) = x3 at h1
  rcases h1 with h1 | h1 | h1 <;> subst h1 <;> (split <;> simp_all)

theorem serialize_inv {msgId : Nat} {bufs : List Bytes} {r : Nat × Bytes}
    (h : serialize msgId bufs = .ok r) : Encodable msgId bufs ∧
      r = ((headerOf msgId bufs).length + (bufs.map List.length).sum, headerOf msgId bufs) := by
  by_cases he : Encodable msgId bufs
  · rw [serialize_ok he] at h
    exact ⟨he, by injection h with h; exact h.symm⟩
  · rw [serialize_overflow he] at h; cases h

theorem length_lenBytes (bufs : List Bytes) : (lenBytes bufs).length = 8 * bufs.length := by
  induction bufs with
  | nil => rfl
  | cons b bs ih =>
    simp only [lenBytes, List.map_cons, List.flatten_cons, List.length_append, length_toBytesLE,
      List.length_cons] at ih ⊢
    omega

theorem length_headerOf (msgId : Nat) (bufs : List Bytes) :
    (headerOf msgId bufs).length = 18 + 8 * bufs.length := by
  simp only [headerOf, List.length_append, length_toBytesLE, length_lenBytes, PREAMBLE,
    List.length_cons, List.length_nil]
  omega

theorem length_flatten_sum (bufs : List Bytes) :
    bufs.flatten.length = (bufs.map List.length).sum := by
  simp [List.length_flatten]

/-! ## Writing -/

theorem assign_ok (P R src : Bytes) (h : src.length ≤ R.length) :
    assign (P ++ R) P.length (P.length + src.length) src =
      some (P ++ src ++ R.drop src.length) := by
  unfold assign
  rw [if_pos]
  · congr 1
    rw [List.take_left, List.drop_length_add_append]
  · rw [length_slice, List.length_append]
    omega

theorem assign_fail (P R src : Bytes) (h : R.length < src.length) :
    assign (P ++ R) P.length (P.length + src.length) src = none := by
  unfold assign
  rw [if_neg]
  rw [length_slice, List.length_append]
  omega

theorem writeBufs_ok (P R : Bytes) (bufs : List Bytes) (h : bufs.flatten.length ≤ R.length) :
    writeBufs (P ++ R) P.length bufs = (P ++ bufs.flatten ++ R.drop bufs.flatten.length, true) := by
  induction bufs generalizing P R with
  | nil => simp [writeBufs]
  | cons b bs ih =>
    simp only [List.flatten_cons, List.length_append] at h
    unfold writeBufs
    rw [assign_ok P R b (by omega)]
    simp only
    have := ih (P ++ b) (R.drop b.length) (by rw [List.length_drop]; omega)
    rw [List.length_append] at this
    rw [this]
    simp [Nat.add_comm]

theorem writeBufs_fail (P R : Bytes) (bufs : List Bytes) (h : R.length < bufs.flatten.length) :
    ∃ R', writeBufs (P ++ R) P.length bufs = (P ++ R', false) ∧ R'.length = R.length := by
  induction bufs generalizing P R with
  | nil => simp at h
  | cons b bs ih =>
    unfold writeBufs
    by_cases hb : b.length ≤ R.length
    · rw [assign_ok P R b hb]
      simp only
      simp only [List.flatten_cons, List.length_append] at h
      obtain ⟨R', e1, e2⟩ := ih (P ++ b) (R.drop b.length) (by rw [List.length_drop]; omega)
      rw [List.length_append] at e1
      refine ⟨b ++ R', ?_, ?_⟩
      · rw [e1]; simp
      · simp at e2 ⊢; omega
    · rw [assign_fail P R b (by omega)]
      exact ⟨R, rfl, rfl⟩

theorem write_ok (mem header : Bytes) (bufs : List Bytes)
    (h : header.length + bufs.flatten.length ≤ mem.length) :
    write mem header bufs =
      (header ++ bufs.flatten ++ mem.drop (header.length + bufs.flatten.length), true) := by
  unfold write
  have := assign_ok [] mem header (by omega)
  simp only [List.nil_append, List.length_nil, Nat.zero_add] at this
  rw [this]
  simp only
  rw [writeBufs_ok _ _ _ (by rw [List.length_drop]; omega)]
  simp

theorem write_fail (mem header : Bytes) (bufs : List Bytes)
    (h : mem.length < header.length + bufs.flatten.length) :
    (write mem header bufs).2 = false ∧ (write mem header bufs).1.length = mem.length := by
  unfold write
  by_cases hh : header.length ≤ mem.length
  · have := assign_ok [] mem header hh
    simp only [List.nil_append, List.length_nil, Nat.zero_add] at this
    rw [this]
    simp only
    obtain ⟨R', e1, e2⟩ := writeBufs_fail header (mem.drop header.length) bufs (by rw [List.length_drop]; omega)
    rw [e1]
    simp at e2 ⊢
    omega
  · have := assign_fail [] mem header (by omega)
    simp only [List.nil_append, List.length_nil, Nat.zero_add] at this
    rw [this]
    exact ⟨rfl, rfl⟩

/-! ## Reading -/

theorem readLens_append (P R : Bytes) (bufs : List Bytes) (h : ∀ b ∈ bufs, b.length < 2 ^ 64) :
    readLens (P ++ lenBytes bufs ++ R) bufs.length P.length =
      (bufs.map List.length, P.length + 8 * bufs.length) := by
  induction bufs generalizing P with
  | nil => simp [readLens]
  | cons b bs ih =>
    have h1 : slice (P ++ lenBytes (b :: bs) ++ R) P.length (P.length + 8) =
        toBytesLE 8 b.length := by
      have : P ++ lenBytes (b :: bs) ++ R = P ++ toBytesLE 8 b.length ++ (lenBytes bs ++ R) := by
        simp [lenBytes]
      rw [this]
      exact slice_append _ _ _ _ _ rfl (by rw [length_toBytesLE])
    have h2 : P ++ lenBytes (b :: bs) ++ R = (P ++ toBytesLE 8 b.length) ++ lenBytes bs ++ R := by
      simp [lenBytes]
    simp only [List.length_cons, readLens, h1, decode_uint64 _ (h b (by simp))]
    have := ih (P ++ toBytesLE 8 b.length) (fun x hx => h x (by simp [hx]))
    rw [List.length_append, length_toBytesLE] at this
    rw [h2, this]
    simp
    omega

theorem readBufs_append (P R : Bytes) (bufs : List Bytes) :
    readBufs (P ++ bufs.flatten ++ R) (bufs.map List.length) P.length = bufs := by
  induction bufs generalizing P with
  | nil => simp [readBufs]
  | cons b bs ih =>
    have h1 : slice (P ++ (b :: bs).flatten ++ R) P.length (P.length + b.length) = b := by
      have : P ++ (b :: bs).flatten ++ R = P ++ b ++ (bs.flatten ++ R) := by simp
      rw [this]
      exact slice_append _ _ _ _ _ rfl rfl
    have h2 : P ++ (b :: bs).flatten ++ R = (P ++ b) ++ bs.flatten ++ R := by simp
    simp only [List.map_cons, readBufs, h1]
    have := ih (P ++ b)
    rw [List.length_append] at this
    rw [h2, this]

theorem initialized_header (msgId : Nat) (bufs : List Bytes) (R : Bytes) :
    initialized (headerOf msgId bufs ++ R) = true := by
  unfold initialized
  rw [decide_eq_true_eq]
  have : headerOf msgId bufs ++ R = [] ++ PREAMBLE ++ (toBytesLE 8 msgId ++
      (toBytesLE 8 bufs.length ++ lenBytes bufs) ++ R) := by simp [headerOf]
  rw [this]
  exact slice_append _ _ _ _ _ rfl rfl

theorem msgIdOf_header (msgId : Nat) (bufs : List Bytes) (R : Bytes) (h : msgId < 2 ^ 64) :
    msgIdOf (headerOf msgId bufs ++ R) = .ok msgId := by
  unfold msgIdOf
  rw [initialized_header, if_pos rfl]
  have h1 : headerOf msgId bufs ++ R = PREAMBLE ++ toBytesLE 8 msgId ++
      ((toBytesLE 8 bufs.length ++ lenBytes bufs) ++ R) := by simp [headerOf]
  rw [h1, slice_append _ _ _ 2 10 rfl (by rw [length_toBytesLE]), decode_uint64 _ h]

theorem bufsFromMem_frame (msgId : Nat) (bufs : List Bytes) (R : Bytes)
    (h : Encodable msgId bufs) (hne : bufs ≠ []) :
    bufsFromMem (headerOf msgId bufs ++ bufs.flatten ++ R) = .ok bufs := by
  unfold bufsFromMem
  rw [List.append_assoc, initialized_header, if_pos rfl]
  have h1 : headerOf msgId bufs ++ (bufs.flatten ++ R) = (PREAMBLE ++ toBytesLE 8 msgId) ++
      toBytesLE 8 bufs.length ++ (lenBytes bufs ++ (bufs.flatten ++ R)) := by simp [headerOf]
  have hl : (PREAMBLE ++ toBytesLE 8 msgId).length = 10 := by
    rw [List.length_append, length_toBytesLE]; rfl
  have h2 : slice (headerOf msgId bufs ++ (bufs.flatten ++ R)) 10 18 = toBytesLE 8 bufs.length := by
    rw [h1]
    exact slice_append _ _ _ 10 18 hl.symm (by rw [length_toBytesLE])
  rw [h2, decode_uint64 _ h.count]
  have hn : bufs.length ≠ 0 := by
    intro hh; exact hne (List.length_eq_zero_iff.1 hh)
  simp only
  rw [if_neg hn]
  have h3 : headerOf msgId bufs ++ (bufs.flatten ++ R) =
      (PREAMBLE ++ toBytesLE 8 msgId ++ toBytesLE 8 bufs.length) ++ lenBytes bufs ++
        (bufs.flatten ++ R) := by simp [headerOf]
  have hl3 : (PREAMBLE ++ toBytesLE 8 msgId ++ toBytesLE 8 bufs.length).length = 18 := by
    rw [List.length_append, hl, length_toBytesLE]
  have h4 := readLens_append (PREAMBLE ++ toBytesLE 8 msgId ++ toBytesLE 8 bufs.length)
    (bufs.flatten ++ R) bufs h.lens
  rw [hl3, ← h3] at h4
  rw [h4]
  simp only
  have h5 := readBufs_append (headerOf msgId bufs) R bufs
  rw [length_headerOf, List.append_assoc] at h5
  rw [h5]

end Ez
