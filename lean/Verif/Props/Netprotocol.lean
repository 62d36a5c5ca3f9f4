import Verif.Lemmas.Netprotocol

/-!
# C12, C13, C39: integers, strings and addresses on the wire; port scan
-/

set_option linter.unusedSimpArgs false

namespace Ez

/-- A value sent over the wire. -/
inductive WireVal where
  | int (n : Nat)
  | str (s : String)
deriving DecidableEq

/-- What the reader expects next. -/
inductive WireKind where
  | int
  | str

def WireVal.kind : WireVal → WireKind
  | .int _ => .int
  | .str _ => .str

/-- The sender's bytes for one value. -/
def WireVal.encode : WireVal → Option Bytes
  | .int n => uint64ToBytes n
  | .str s => encodeStr s

/-- The receiver's read of one value. -/
def WireKind.read (r : Bytes) : WireKind → Except ReadError (WireVal × Bytes)
  | .int => (readInt r).map (fun p => (.int p.1, p.2))
  | .str => (readStr r).map (fun p => (.str p.1, p.2))

/-- Sender: all values one after another. -/
def encodeVals : List WireVal → Option Bytes
  | [] => some []
  | v :: vs => do return (← v.encode) ++ (← encodeVals vs)

/-- Receiver: read values of the expected kinds one after another. -/
def readVals (r : Bytes) : List WireKind → Except ReadError (List WireVal × Bytes)
  | [] => .ok ([], r)
  | k :: ks => do
    let (v, r) ← k.read r
    let (vs, r) ← readVals r ks
    return (v :: vs, r)

/-- The value is in the range the wire format supports. -/
def WireVal.fits : WireVal → Prop
  | .int n => n < 2 ^ 64
  | .str s => (utf8 s).length < 2 ^ 64

theorem encode_int_ok (n : Nat) (h : n < 2 ^ 64) :
    (WireVal.int n).encode = some (toBytesLE 8 n) := by
  rw [WireVal.encode, uint64ToBytes_nat n h]

theorem read_int_ok (n : Nat) (h : n < 2 ^ 64) (rest : Bytes) :
    (WireVal.int n).kind.read (toBytesLE 8 n ++ rest) = .ok (.int n, rest) := by
  rw [WireVal.kind, WireKind.read, readInt_append n h, Except.map]

theorem read_int_short (n : Nat) (p : Bytes) (hl : p.length < (toBytesLE 8 n).length) :
    (WireVal.int n).kind.read p = .error .incomplete := by
  rw [length_toBytesLE] at hl
  rw [WireVal.kind, WireKind.read, readInt_short p hl, Except.map]

theorem encodeStr_ok (s : String) (h : (utf8 s).length < 2 ^ 64) :
    encodeStr s = some (toBytesLE 8 (utf8 s).length ++ utf8 s) := by
  unfold encodeStr; dsimp only
  rw [uint64ToBytes_nat _ h]
  rfl

theorem encodeStr_big (s : String) (h : 2 ^ 64 ≤ (utf8 s).length) : encodeStr s = none := by
  unfold encodeStr; dsimp only
  rw [uint64ToBytes_big _ h]
  rfl

theorem read_str_ok (s : String) (h : (utf8 s).length < 2 ^ 64) (rest : Bytes) :
    (WireVal.str s).kind.read (toBytesLE 8 (utf8 s).length ++ utf8 s ++ rest) =
      .ok (.str s, rest) := by
  rw [WireVal.kind, WireKind.read, readStr_append s h, Except.map]

theorem read_str_short (s : String) (h : (utf8 s).length < 2 ^ 64) (p : Bytes)
    (hp : p <+: toBytesLE 8 (utf8 s).length ++ utf8 s)
    (hl : p.length < (toBytesLE 8 (utf8 s).length ++ utf8 s).length) :
    (WireVal.str s).kind.read p = .error .incomplete := by
  rw [WireVal.kind, WireKind.read, readStr_short s h p hp hl, Except.map]

theorem encode_fits (v : WireVal) (hv : v.fits) :
    ∃ b, v.encode = some b ∧ (∀ rest, v.kind.read (b ++ rest) = .ok (v, rest)) ∧
      ∀ p, p <+: b → p.length < b.length → v.kind.read p = .error .incomplete := by
  cases v with
  | int n =>
    rw [WireVal.fits] at hv
    exact ⟨_, encode_int_ok n hv, read_int_ok n hv, fun p _ hl => read_int_short n p hl⟩
  | str s =>
    rw [WireVal.fits] at hv
    exact ⟨_, by rw [WireVal.encode, encodeStr_ok s hv], read_str_ok s hv, read_str_short s hv⟩

/-- **C12 (round trip, framing).** Any sequence of integers below 2^64 and strings of UTF-8 length below
2^64 can be sent, and is read back unchanged whatever follows it on the stream, leaving exactly
what follows; if the stream ends anywhere before the last byte, the reader reports an incomplete read
and never a value sequence. -/
theorem C12_wire_roundtrip (vs : List WireVal) (h : ∀ v ∈ vs, v.fits) :
    ∃ b, encodeVals vs = some b ∧
      (∀ rest, readVals (b ++ rest) (vs.map WireVal.kind) = .ok (vs, rest)) ∧
      (∀ p, p <+: b → p.length < b.length →
        readVals p (vs.map WireVal.kind) = .error .incomplete) := by
  induction vs with
  | nil => exact ⟨[], rfl, fun _ => rfl, fun p _ hl => by simp at hl⟩
  | cons v vs ih =>
    obtain ⟨b, h1, h2, h3⟩ := ih (fun x hx => h x (by simp [hx]))
    obtain ⟨c, g1, g2, g3⟩ := encode_fits v (h v (by simp))
    refine ⟨c ++ b, ?_, ?_, ?_⟩
    · simp [encodeVals, h1, g1]
    · intro rest
      simp only [List.map_cons, readVals, List.append_assoc, g2, bind, Except.bind, h2, pure,
        Except.pure]
    · intro p hp hl
      by_cases hlc : p.length < c.length
      · have : p <+: c := List.prefix_of_prefix_length_le hp (List.prefix_append _ _) (by omega)
        simp only [List.map_cons, readVals, g3 p this hlc, bind, Except.bind]
      · have hcp : c <+: p := List.prefix_of_prefix_length_le (List.prefix_append _ _) hp (by omega)
        obtain ⟨q, rfl⟩ := hcp
        have hq : q <+: b := by
          obtain ⟨t, ht⟩ := hp
          refine ⟨t, ?_⟩
          rw [List.append_assoc] at ht
          exact List.append_cancel_left ht
        have hql : q.length < b.length := by simpa using hl
        simp only [List.map_cons, readVals, g2, bind, Except.bind, h3 q hq hql]

/-- **C12 (rejection).** The encoder raises for every integer outside `0 ≤ i < 2^64` (negative ones
included) and produces exactly eight bytes otherwise; a string is rejected exactly when its UTF-8 form
has 2^64 bytes or more. -/
theorem C12_encoder_range (i : Int) (s : String) :
    (uint64ToBytes i = none ↔ i < 0 ∨ 2 ^ 64 ≤ i) ∧
    (∀ b, uint64ToBytes i = some b → b.length = 8) ∧
    (encodeStr s = none ↔ 2 ^ 64 ≤ (utf8 s).length) := by
  refine ⟨?_, ?_, ?_⟩
  · cases i with
    | ofNat n =>
      rcases Nat.lt_or_ge n (2 ^ 64) with h | h
      · have := uint64ToBytes_nat n h
        simp only [Int.ofNat_eq_natCast] at this ⊢
        rw [this]
        simp
        omega
      · have := uint64ToBytes_big n h
        simp only [Int.ofNat_eq_natCast] at this ⊢
        rw [this]
        simp
        omega
    | negSucc n =>
      simp only [uint64ToBytes, true_iff]
      left
      exact Int.negSucc_lt_zero n
  · intro b hb
    cases i with
    | ofNat n =>
      have := (uint64ToBytes_some (v := n) hb).2
      rw [this, length_toBytesLE]
    | negSucc n => cases hb
  · constructor
    · intro h
      rcases Nat.lt_or_ge (utf8 s).length (2 ^ 64) with hl | hl
      · simp [encodeStr, uint64ToBytes_nat _ hl] at h
      · exact hl
    · intro h
      exact encodeStr_big s h

/-- Non-vacuity of C12: a small integer and a non-ASCII string are in range, and the encoding of
258 is the expected little-endian one. -/
example : (∀ v ∈ [WireVal.int 258, WireVal.str "é"], v.fits) ∧
    uint64ToBytes 258 = some [2, 1, 0, 0, 0, 0, 0, 0] := by
  refine ⟨?_, by decide⟩
  intro v hv
  rcases List.mem_cons.1 hv with rfl | hv
  · simp [WireVal.fits]
  · rcases List.mem_cons.1 hv with rfl | hv
    · have : (utf8 "é").length = 2 := by decide
      simp only [WireVal.fits, this]; decide
    · cases hv

/-- **C13.** An address is recovered from its printed form for every host without a colon and every
port; a host containing a colon is always refused. -/
theorem C13_address_roundtrip (host : List Char) (port : Int) :
    (':' ∉ host → Address.fromString (Address.toStr ⟨host, port⟩) = some ⟨host, port⟩) ∧
    (':' ∈ host → Address.fromString (Address.toStr ⟨host, port⟩) = none) := by
  constructor
  · intro h
    unfold Address.fromString Address.toStr
    rw [pySplit_append _ _ _ h, pySplit_no_sep _ _ (colon_not_mem_pyStrInt port)]
    simp [pyInt_pyStrInt]
  · intro h
    unfold Address.fromString
    have hlen := length_pySplit ':' (Address.toStr ⟨host, port⟩)
    have hcnt : 2 ≤ (Address.toStr ⟨host, port⟩).count ':' := by
      unfold Address.toStr
      rw [List.count_append, List.count_cons_self]
      have := List.one_le_count_iff.2 h
      simp only
      omega
    split
    · rename_i a b heq
      rw [heq] at hlen
      simp at hlen
      omega
    · rfl

/-- Non-vacuity of C13. -/
example : Address.fromString "127.0.0.1:25978".toList = some ⟨"127.0.0.1".toList, 25978⟩ ∧
    Address.fromString "::1:80".toList = none ∧ Address.toStr ⟨"h".toList, -3⟩ = "h:-3".toList := by
  decide

/-- The ports a scan over `start..maxPort` may use. -/
def Usable (free : Nat → Bool) (ignore : List Nat) (start maxPort p : Nat) : Prop :=
  start ≤ p ∧ p ≤ maxPort ∧ p ∉ ignore ∧ free p = true

/-- **C39.** With no explicit port, the smallest usable port of the range is bound, and the error is
raised exactly when there is none; an explicit port is bound (even if reserved) exactly when it is
free. -/
theorem C39_port_scan (free : Nat → Bool) (start maxPort : Nat) (ignore : List Nat) :
    (∀ p, createSocket free none start maxPort ignore = .bound p ↔
      (Usable free ignore start maxPort p ∧ ∀ q, Usable free ignore start maxPort q → p ≤ q)) ∧
    (createSocket free none start maxPort ignore = .ioError ↔
      ¬ ∃ p, Usable free ignore start maxPort p) ∧
    (createSocket free none start maxPort ignore ≠ .osError) ∧
    (∀ p, createSocket free (some p) start maxPort ignore =
      if free p then .bound p else .osError) := by
  obtain ⟨h1, h2, h3⟩ := scanPorts_spec free ignore maxPort start
  refine ⟨?_, ?_, h3, fun p => rfl⟩
  · intro p
    simp only [createSocket, h1, Usable]
    constructor
    · rintro ⟨a, b, c, d, e⟩
      refine ⟨⟨a, b, c, d⟩, ?_⟩
      rintro q ⟨q1, q2, q3, q4⟩
      rcases Nat.lt_or_ge q p with hlt | hge
      · rcases e q q1 hlt with hh | hh
        · exact absurd hh q3
        · rw [q4] at hh; cases hh
      · exact hge
    · rintro ⟨⟨a, b, c, d⟩, e⟩
      refine ⟨a, b, c, d, ?_⟩
      intro q hq1 hq2
      by_cases hm : q ∈ ignore
      · exact Or.inl hm
      · right
        cases hf : free q
        · rfl
        · have := e q ⟨hq1, by omega, hm, hf⟩
          omega
  · simp only [createSocket, h2, Usable]
    constructor
    · rintro h ⟨p, p1, p2, p3, p4⟩
      rcases h p p1 p2 with hh | hh
      · exact p3 hh
      · rw [p4] at hh; cases hh
    · intro h q hq1 hq2
      by_cases hm : q ∈ ignore
      · exact Or.inl hm
      · right
        cases hf : free q
        · rfl
        · exact absurd ⟨q, hq1, hq2, hm, hf⟩ h

/-- Non-vacuity of C39: 5 is in use, 6 reserved, so 7 is chosen. -/
example : createSocket (fun p => p != 5) none 5 9 [6] = .bound 7 := by
  simp [createSocket, scanPorts]

end Ez
