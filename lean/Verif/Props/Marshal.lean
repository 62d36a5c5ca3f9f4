import Verif.Lemmas.Shm

/-!
# C14, C15: marshalled messages

pickle is abstracted by a codec that reproduces objects (`load (dump o) = o`) and always produces at
least one buffer (`dump` starts with the pickle stream itself, messagemarshal.py:191-193).
-/

set_option linter.unusedSimpArgs false

namespace Ez
variable {Obj : Type}

/-- What is assumed of pickle. -/
structure Codec.Faithful (c : Codec Obj) : Prop where
  load_dump : ∀ o, c.load (c.dump o) = o
  nonempty : ∀ o, c.dump o ≠ []

/-- **C14 (round trip).** If serialising succeeds and the message fits, writing it to memory succeeds,
and reading that memory gives the same id and the same object whatever the memory contained
before; the reported total size is the number of bytes written, and these bytes read back the
same in front of any other bytes (this is how TCP delivery reads them). -/
theorem C14_marshal_roundtrip (c : Codec Obj) (hc : c.Faithful) (msgId : Nat) (obj : Obj)
    (mem : Bytes) (total : Nat) (header : Bytes)
    (hs : serialize msgId (c.dump obj) = .ok (total, header)) (hfit : total ≤ mem.length) :
    ∃ mem', write mem header (c.dump obj) = (mem', true) ∧
      msgIdOf mem' = .ok msgId ∧ objFromMem c mem' = .ok obj ∧
      mem'.take total = header ++ (c.dump obj).flatten ∧
      mem'.drop total = mem.drop total ∧
      (header ++ (c.dump obj).flatten).length = total ∧
      ∀ rest, msgIdOf (header ++ (c.dump obj).flatten ++ rest) = .ok msgId ∧
        objFromMem c (header ++ (c.dump obj).flatten ++ rest) = .ok obj := by
  obtain ⟨he, hr⟩ := serialize_inv hs
  injection hr with h1 h2
  subst h2
  rw [← length_flatten_sum, ← List.length_append] at h1
  have key : ∀ rest, msgIdOf (headerOf msgId (c.dump obj) ++ (c.dump obj).flatten ++ rest) = .ok msgId ∧
      objFromMem c (headerOf msgId (c.dump obj) ++ (c.dump obj).flatten ++ rest) = .ok obj := by
    intro rest
    constructor
    · rw [List.append_assoc]; exact msgIdOf_header _ _ _ he.id
    · unfold objFromMem
      rw [bufsFromMem_frame _ _ _ he (hc.nonempty obj)]
      simp [Except.map, hc.load_dump]
  refine ⟨_, write_ok _ _ _ (by rw [List.length_append] at h1; omega), (key _).1, (key _).2, ?_, ?_,
    h1.symm, key⟩
  · rw [h1, List.take_left]
  · rw [h1, List.drop_left, List.length_append]

/-- **C14 (what can be marshalled).** A message can be serialised exactly when its id, the number of its
buffers and their lengths are below 2^64, and then takes 18 bytes, 8 for each buffer, and the buffers. -/
theorem C14_marshal_succeeds (msgId : Nat) (bufs : List Bytes) :
    (serialize msgId bufs = .error .overflow ∧
      ¬ (msgId < 2 ^ 64 ∧ bufs.length < 2 ^ 64 ∧ ∀ b ∈ bufs, b.length < 2 ^ 64)) ∨
    ((msgId < 2 ^ 64 ∧ bufs.length < 2 ^ 64 ∧ ∀ b ∈ bufs, b.length < 2 ^ 64) ∧
      ∃ header, serialize msgId bufs = .ok (18 + 8 * bufs.length + (bufs.map List.length).sum, header)) := by
  by_cases he : Encodable msgId bufs
  · refine Or.inr ⟨⟨he.id, he.count, he.lens⟩, headerOf msgId bufs, ?_⟩
    rw [serialize_ok he, length_headerOf]
  · exact Or.inl ⟨serialize_overflow he, fun h => he ⟨h.1, h.2.1, h.2.2⟩⟩

/-- **C14 (refusals).** Memory is refused as uninitialised exactly when it does not start with the two
preamble bytes `E Z`; a message without buffers, once written, is refused as invalid. -/
theorem C14_marshal_refusals (c : Codec Obj) (mem : Bytes) :
    (¬ [0x45, 0x5a] <+: mem →
      msgIdOf mem = .error .uninitialized ∧ objFromMem c mem = .error .uninitialized) ∧
    ([0x45, 0x5a] <+: mem →
      msgIdOf mem ≠ .error .uninitialized ∧ objFromMem c mem ≠ .error .uninitialized) ∧
    (∀ msgId total header mem', serialize msgId [] = .ok (total, header) →
      write mem header [] = (mem', true) → objFromMem c mem' = .error .valueError) := by
  have hiff : initialized mem = true ↔ [0x45, 0x5a] <+: mem := by
    unfold initialized slice PREAMBLE
    rw [decide_eq_true_eq, List.drop_zero, List.prefix_iff_eq_take]
    exact eq_comm
  refine ⟨?_, ?_, ?_⟩
  · intro h
    have hi : initialized mem = false := by
      cases hh : initialized mem
      · rfl
      · exact absurd (hiff.1 hh) h
    constructor
    · exact msgIdOf_uninit hi
    · unfold objFromMem; rw [bufsFromMem_uninit hi]; rfl
  · intro h
    have hi := hiff.2 h
    constructor
    · unfold msgIdOf; rw [hi]; simp
    · unfold objFromMem bufsFromMem
      rw [hi]
      simp only [if_true]
      split <;> simp [Except.map]
  · intro msgId total header mem' hs hw
    obtain ⟨he, hr⟩ := serialize_inv hs
    injection hr with h1 h2
    subst h2
    by_cases hl : (headerOf msgId []).length + ([] : List Bytes).flatten.length ≤ mem.length
    · rw [write_ok _ _ _ hl] at hw
      injection hw with hw _
      subst hw
      have h3 : slice (headerOf msgId [] ++ ([] : List Bytes).flatten ++
          mem.drop ((headerOf msgId []).length + ([] : List Bytes).flatten.length)) 10 18 =
          toBytesLE 8 0 := by
        have : headerOf msgId [] = (PREAMBLE ++ toBytesLE 8 msgId) ++ toBytesLE 8 0 := by
          simp [headerOf, lenBytes]
        rw [this, List.append_assoc _ [].flatten]
        exact slice_append _ _ _ 10 18 (by rw [List.length_append, length_toBytesLE]; rfl)
          (by rw [length_toBytesLE])
      unfold objFromMem bufsFromMem
      rw [h3]
      simp only [List.append_assoc]
      rw [initialized_header]
      rfl
    · have := (write_fail mem (headerOf msgId []) [] (by omega)).1
      rw [hw] at this
      cases this

/-- **C15.** `to_mem` refuses exactly the targets that are not strictly larger than the message, leaving
them unchanged; otherwise it succeeds, puts the message into the first `total` bytes and changes no others. Direct writing succeeds
exactly when the message fits, then changes only the first `total` bytes; the target never changes
size. -/
theorem C15_marshal_stays_in_buffer (msgId : Nat) (bufs : List Bytes) (mem : Bytes) (total : Nat)
    (header : Bytes) (hs : serialize msgId bufs = .ok (total, header)) :
    (mem.length ≤ total → toMem msgId bufs mem = (mem, some (.undersized total))) ∧
    (total < mem.length → (toMem msgId bufs mem).2 = none ∧
      (toMem msgId bufs mem).1.length = mem.length ∧
      (toMem msgId bufs mem).1.take total = header ++ bufs.flatten ∧
      (toMem msgId bufs mem).1.drop total = mem.drop total) ∧
    ((write mem header bufs).2 = true ↔ total ≤ mem.length) ∧
    (write mem header bufs).1.length = mem.length ∧
    (write mem header bufs).1.drop total = mem.drop total := by
  obtain ⟨he, hr⟩ := serialize_inv hs
  injection hr with h1 h2
  subst h2
  rw [← length_flatten_sum] at h1
  have htot : total = totalSize bufs := by rw [h1, length_headerOf]; rfl
  have hhl := length_headerOf msgId bufs
  have hlenhf : (headerOf msgId bufs ++ bufs.flatten).length = total := by
    rw [List.length_append, h1]
  have hw := fun hl => write_ok mem (headerOf msgId bufs) bufs hl
  have hf := fun hl => write_fail mem (headerOf msgId bufs) bufs hl
  rw [← h1] at hw hf
  refine ⟨?_, ?_, ?_, ?_, ?_⟩
  · intro hl
    unfold toMem
    rw [hs]
    simp only
    rw [if_pos hl]
  · intro hl
    rw [toMem_ok he (by omega), ← htot]
    refine ⟨rfl, ?_, ?_, ?_⟩
    · simp only [List.length_append, List.length_drop] at hlenhf ⊢; omega
    · rw [← hlenhf]
      simp only [List.take_left]
    · rw [← hlenhf]
      simp only [List.drop_left]
  · constructor
    · intro hh
      rcases Nat.lt_or_ge mem.length total with hl | hl
      · rw [(hf hl).1] at hh; cases hh
      · exact hl
    · intro hl
      rw [hw hl]
  · rcases Nat.lt_or_ge mem.length total with hl | hl
    · exact (hf hl).2
    · rw [hw hl]
      simp only [List.length_append, List.length_drop] at hlenhf ⊢; omega
  · rcases Nat.lt_or_ge mem.length total with hl | hl
    · rw [List.drop_of_length_le (by rw [(hf hl).2]; omega), List.drop_of_length_le (by omega)]
    · rw [hw hl]
      simp only
      have : ∀ rest, (headerOf msgId bufs ++ bufs.flatten ++ rest).drop total = rest := by
        intro rest; rw [← hlenhf, List.drop_left]
      rw [this]

/-- A faithful codec: an object is a list of bytes, dumped as one buffer. -/
def bytesCodec : Codec Bytes := ⟨fun o => [o], fun b => b.headD []⟩

theorem bytesCodec_faithful : bytesCodec.Faithful := ⟨fun _ => rfl, fun _ => by simp [bytesCodec]⟩

/-- Non-vacuity of C14/C15: message 7 with the two bytes `1 2` takes 28 bytes. -/
example : serialize 7 (bytesCodec.dump [1, 2]) = .ok (28, [0x45, 0x5a, 7, 0, 0, 0, 0, 0, 0, 0,
    1, 0, 0, 0, 0, 0, 0, 0, 2, 0, 0, 0, 0, 0, 0, 0]) := by
  rfl

end Ez
