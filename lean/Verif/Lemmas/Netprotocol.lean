import Verif.Model.Netprotocol

set_option linter.unusedSimpArgs false

namespace Ez

theorem length_toBytesLE (n v : Nat) : (toBytesLE n v).length = n := by
  induction n generalizing v with
  | zero => rfl
  | succ n ih => simp [toBytesLE, ih]

theorem bytesToUint_toBytesLE (n v : Nat) (h : v < 256 ^ n) : bytesToUint (toBytesLE n v) = v := by
  induction n generalizing v with
  | zero => simp at h; subst h; rfl
  | succ n ih =>
    have : v / 256 < 256 ^ n := by
      rw [Nat.div_lt_iff_lt_mul (by decide)]
      rw [Nat.pow_succ] at h
      exact h
    simp only [toBytesLE, bytesToUint, ih _ this]
    have h2 : (UInt8.ofNat (v % 256)).toNat = v % 256 := by
      simp [UInt8.toNat_ofNat']
    rw [h2]
    omega

theorem uint64ToBytes_nat (v : Nat) (h : v < 2 ^ 64) : uint64ToBytes v = some (toBytesLE 8 v) :=
  if_pos h

theorem uint64ToBytes_big (v : Nat) (h : 2 ^ 64 ≤ v) : uint64ToBytes v = none :=
  if_neg (Nat.not_lt_of_le h)

theorem uint64ToBytes_some {v : Nat} {b : Bytes} (h : uint64ToBytes v = some b) :
    v < 2 ^ 64 ∧ b = toBytesLE 8 v := by
  by_cases hv : v < 2 ^ 64
  · rw [uint64ToBytes_nat v hv] at h
    exact ⟨hv, by simpa using h.symm⟩
  · rw [uint64ToBytes_big v (by omega)] at h
    exact absurd h (by simp)

theorem decode_uint64 (v : Nat) (h : v < 2 ^ 64) : bytesToUint (toBytesLE 8 v) = v :=
  bytesToUint_toBytesLE 8 v (by simpa using h)

theorem utf8Decode_utf8 (s : String) : utf8Decode (utf8 s) = some s := by
  unfold utf8Decode utf8 String.fromUTF8?
  have h : (⟨s.toUTF8.data.toList.toArray⟩ : ByteArray) = s.toUTF8 := by simp
  rw [h]
  have hv : s.toUTF8.IsValidUTF8 := by simpa using s.isValidUTF8
  rw [dif_pos hv]
  congr 1

theorem readExactly_append (a rest : Bytes) :
    readExactly a.length (a ++ rest) = .ok (a, rest) := by
  simp [readExactly]

theorem readInt_append (v : Nat) (h : v < 2 ^ 64) (rest : Bytes) :
    readInt (toBytesLE 8 v ++ rest) = .ok (v, rest) := by
  have := readExactly_append (toBytesLE 8 v) rest
  rw [length_toBytesLE] at this
  simp only [readInt, UINT64_SIZE, this, bind, Except.bind, pure, Except.pure, decode_uint64 v h]

theorem readStr_append (s : String) (h : (utf8 s).length < 2 ^ 64) (rest : Bytes) :
    readStr (toBytesLE 8 (utf8 s).length ++ utf8 s ++ rest) = .ok (s, rest) := by
  rw [List.append_assoc]
  simp only [readStr, readInt_append _ h, bind, Except.bind, readExactly_append,
    utf8Decode_utf8, pure, Except.pure]

theorem readInt_short (r : Bytes) (h : r.length < 8) : readInt r = .error .incomplete := by
  have : readExactly UINT64_SIZE r = .error .incomplete := by
    unfold readExactly UINT64_SIZE
    rw [if_neg (by omega)]
  simp [readInt, this, bind, Except.bind]

theorem readStr_short (s : String) (h : (utf8 s).length < 2 ^ 64) (p : Bytes)
    (hp : p <+: toBytesLE 8 (utf8 s).length ++ utf8 s)
    (hl : p.length < (toBytesLE 8 (utf8 s).length ++ utf8 s).length) :
    readStr p = .error .incomplete := by
  by_cases h8 : p.length < 8
  · simp [readStr, readInt_short p h8, bind, Except.bind]
  · obtain ⟨t, ht⟩ := hp
    have h1 : toBytesLE 8 (utf8 s).length <+: p := by
      apply List.prefix_of_prefix_length_le (l₃ := toBytesLE 8 (utf8 s).length ++ utf8 s)
      · exact List.prefix_append _ _
      · exact ⟨t, ht⟩
      · rw [length_toBytesLE]; omega
    obtain ⟨q, rfl⟩ := h1
    have hq : q.length < (utf8 s).length := by simpa using hl
    have : readExactly (utf8 s).length q = .error .incomplete := by
      unfold readExactly; rw [if_neg (by omega)]
    simp only [readStr, readInt_append _ h, bind, Except.bind, this]

/-! ## Splitting and integers -/

theorem pySplit_ne_nil (sep : Char) (s : List Char) : pySplit sep s ≠ [] := by
  cases s with
  | nil => simp [pySplit]
  | cons c cs =>
    simp only [pySplit]
    split
    · simp
    · split <;> simp

theorem pySplit_no_sep (sep : Char) (s : List Char) (h : sep ∉ s) : pySplit sep s = [s] := by
  induction s with
  | nil => rfl
  | cons c cs ih =>
    simp at h
    simp only [pySplit]
    rw [if_neg (fun hh => h.1 hh.symm), ih h.2]

theorem length_pySplit (sep : Char) (s : List Char) :
    (pySplit sep s).length = s.count sep + 1 := by
  induction s with
  | nil => simp [pySplit]
  | cons c cs ih =>
    simp only [pySplit]
    by_cases hc : c = sep
    · subst hc
      simp [ih]
    · rw [if_neg hc, List.count_cons_of_ne (by simpa using fun h => hc h)]
      rw [← ih]
      split
      · rename_i h; exact absurd h (pySplit_ne_nil _ _)
      · rename_i h; rw [h]; simp

theorem pySplit_append (sep : Char) (a b : List Char) (h : sep ∉ a) :
    pySplit sep (a ++ sep :: b) = a :: pySplit sep b := by
  induction a with
  | nil => simp [pySplit]
  | cons c cs ih =>
    simp at h
    simp only [List.cons_append, pySplit]
    rw [if_neg (fun hh => h.1 hh.symm), ih h.2]

theorem pyDigits_digits (l : List Char) (h : ∀ c ∈ l, c.isDigit = true) :
    pyDigits true l = some l ∧ (l ≠ [] → pyDigits false l = some l) := by
  induction l with
  | nil => simp [pyDigits]
  | cons c cs ih =>
    have hc := h c (by simp)
    have := (ih (fun x hx => h x (by simp [hx]))).1
    simp [pyDigits, hc, this]

theorem digit_not_special {c : Char} (h : c.isDigit = true) :
    isPySpace c = false ∧ c ≠ '-' ∧ c ≠ '+' ∧ c ≠ ':' := by
  refine ⟨?_, ?_, ?_, ?_⟩
  · unfold isPySpace
    rw [decide_eq_false_iff_not]
    rintro (h1|h1|h1|h1|h1|h1|h1|h1|h1|h1) <;> (subst h1; revert h; decide)
  all_goals (intro h1; subst h1; revert h; decide)

theorem toDigits_digits (n : Nat) : ∀ c ∈ Nat.toDigits 10 n, c.isDigit = true :=
  fun _ hc => Nat.isDigit_of_mem_toDigits (by decide) (by decide) hc

theorem dropWhile_self {p : Char → Bool} (l : List Char) (h : ∀ c ∈ l, p c = false) :
    l.dropWhile p = l := by
  cases l with
  | nil => rfl
  | cons c cs => simp [List.dropWhile, h c (by simp)]

theorem strip_self (l : List Char) (h : ∀ c ∈ l, isPySpace c = false) :
    ((l.dropWhile isPySpace).reverse.dropWhile isPySpace).reverse = l := by
  rw [dropWhile_self l h, dropWhile_self l.reverse (by intro c hc; exact h c (by simpa using hc))]
  simp

theorem pyInt_pyStrInt (i : Int) : pyInt (pyStrInt i) = some i := by
  cases i with
  | ofNat n =>
    simp only [pyStrInt]
    have hd := toDigits_digits n
    have hne : Nat.toDigits 10 n ≠ [] := Nat.toDigits_ne_nil
    unfold pyInt
    rw [strip_self _ (fun c hc => (digit_not_special (hd c hc)).1)]
    have h1 := (pyDigits_digits _ hd).2 hne
    have h2 := @Nat.ofDigitChars_ten_toDigits n
    generalize Nat.toDigits 10 n = l at hd hne h1 h2
    show (match l with
      | '-' :: ds => Option.map (fun d => -(Nat.ofDigitChars 10 d 0 : Int)) (pyDigits false ds)
      | '+' :: ds => Option.map (fun d => (Nat.ofDigitChars 10 d 0 : Int)) (pyDigits false ds)
      | ds => Option.map (fun d => (Nat.ofDigitChars 10 d 0 : Int)) (pyDigits false ds)) = _
    split
    · rename_i ds; exact absurd rfl (digit_not_special (hd '-' (by simp))).2.1
    · rename_i ds; exact absurd rfl (digit_not_special (hd '+' (by simp))).2.2.1
    · rw [h1]; simp [h2]
  | negSucc n =>
    simp only [pyStrInt]
    have hd := toDigits_digits (n + 1)
    have hne : Nat.toDigits 10 (n + 1) ≠ [] := Nat.toDigits_ne_nil
    unfold pyInt
    rw [strip_self]
    · simp only
      rw [(pyDigits_digits _ hd).2 hne]
      simp [Nat.ofDigitChars_ten_toDigits]
      omega
    · intro c hc
      rcases List.mem_cons.1 hc with rfl | hc
      · decide
      · exact (digit_not_special (hd c hc)).1

theorem colon_not_mem_pyStrInt (i : Int) : ':' ∉ pyStrInt i := by
  cases i with
  | ofNat n =>
    intro h
    exact (digit_not_special (toDigits_digits n _ h)).2.2.2 rfl
  | negSucc n =>
    intro h
    rcases List.mem_cons.1 h with h | h
    · exact absurd h (by decide)
    · exact (digit_not_special (toDigits_digits (n+1) _ h)).2.2.2 rfl

/-! ## Port scan -/

theorem scanPorts_spec (free : Nat → Bool) (ignore : List Nat) (maxPort start : Nat) :
    (∀ p, scanPorts free ignore maxPort start = .bound p ↔
      (start ≤ p ∧ p ≤ maxPort ∧ p ∉ ignore ∧ free p = true ∧
        ∀ q, start ≤ q → q < p → q ∈ ignore ∨ free q = false)) ∧
    (scanPorts free ignore maxPort start = .ioError ↔
      ∀ q, start ≤ q → q ≤ maxPort → q ∈ ignore ∨ free q = false) ∧
    scanPorts free ignore maxPort start ≠ .osError := by
  fun_induction scanPorts free ignore maxPort start with
  | case1 port h1 h2 =>
    refine ⟨?_, ?_, by simp⟩
    · intro p
      constructor
      · intro h
        injection h with h
        subst h
        exact ⟨Nat.le_refl _, h1, h2.1, h2.2, fun q a b => by omega⟩
      · rintro ⟨a, b, c, d, e⟩
        rcases Nat.lt_or_ge port p with hlt | hge
        · rcases e port (Nat.le_refl _) hlt with h | h
          · exact absurd h h2.1
          · rw [h2.2] at h; cases h
        · have : port = p := by omega
          rw [this]
    · simp
      exact ⟨port, Nat.le_refl _, h1, h2.1, h2.2⟩
  | case2 port h1 h2 ih =>
    obtain ⟨i1, i2, i3⟩ := ih
    have hp : port ∈ ignore ∨ free port = false := by
      by_cases hm : port ∈ ignore
      · exact Or.inl hm
      · right
        cases hf : free port
        · rfl
        · exact absurd ⟨hm, hf⟩ h2
    refine ⟨?_, ?_, i3⟩
    · intro p
      rw [i1]
      constructor
      · rintro ⟨a, b, c, d, e⟩
        refine ⟨by omega, b, c, d, ?_⟩
        intro q hq1 hq2
        rcases Nat.eq_or_lt_of_le hq1 with h | h
        · subst h; exact hp
        · exact e q h hq2
      · rintro ⟨a, b, c, d, e⟩
        refine ⟨?_, b, c, d, fun q hq1 hq2 => e q (by omega) hq2⟩
        rcases Nat.eq_or_lt_of_le a with h | h
        · subst h
          exact absurd ⟨c, d⟩ h2
        · exact h
    · rw [i2]
      constructor
      · intro h q hq1 hq2
        rcases Nat.eq_or_lt_of_le hq1 with h' | h'
        · subst h'; exact hp
        · exact h q h' hq2
      · intro h q hq1 hq2
        exact h q (by omega) hq2
  | case3 port h1 =>
    refine ⟨?_, ?_, by simp⟩
    · intro p
      constructor
      · intro h; cases h
      · rintro ⟨a, b, _⟩; omega
    · simp
      intro q a b
      omega

end Ez
