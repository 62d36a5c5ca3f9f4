/-!
# Model of `src/ezmsg/core/netprotocol.py`: integers, strings, addresses, port scan

Bytes are `UInt8`, `bytes`/`memoryview` objects are `List UInt8`. An `asyncio.StreamReader` is the
list of bytes it will deliver before end of stream. Python `str` is Lean's `String` (a Python string
with lone surrogates, which `encode` rejects, has no counterpart).
-/

namespace Ez

abbrev Bytes := List UInt8

/-- `UINT64_SIZE`. netprotocol.py:14 -/
def UINT64_SIZE : Nat := 8

/-- `int.to_bytes(n, "little")` for a value known to fit. -/
def toBytesLE : Nat → Nat → Bytes
  | 0, _ => []
  | n + 1, v => UInt8.ofNat (v % 256) :: toBytesLE n (v / 256)

/-- `uint64_to_bytes`, netprotocol.py:191-200. `none` is the `OverflowError` raised for negative or
too large integers. -/
def uint64ToBytes : Int → Option Bytes
  | .ofNat n => if n < 2 ^ 64 then some (toBytesLE UINT64_SIZE n) else none
  | .negSucc _ => none

/-- `bytes_to_uint`, netprotocol.py:203-212 (`int.from_bytes(b, "little")`). -/
def bytesToUint : Bytes → Nat
  | [] => 0
  | b :: bs => b.toNat + 256 * bytesToUint bs

/-- `string.encode("utf-8")` -/
def utf8 (s : String) : Bytes := s.toUTF8.data.toList

/-- `bytes.decode("utf-8")`; `none` is `UnicodeDecodeError`. -/
def utf8Decode (b : Bytes) : Option String := String.fromUTF8? ⟨b.toArray⟩

/-- `encode_str`, netprotocol.py:215-226. -/
def encodeStr (s : String) : Option Bytes := do
  let strBytes := utf8 s
  let strLenBytes ← uint64ToBytes strBytes.length
  return strLenBytes ++ strBytes

/-- How reading from a stream can fail. -/
inductive ReadError where
  | incomplete  -- `asyncio.IncompleteReadError`
  | decode      -- `UnicodeDecodeError`
deriving DecidableEq, Repr

/-- `StreamReader.readexactly(n)` -/
def readExactly (n : Nat) (r : Bytes) : Except ReadError (Bytes × Bytes) :=
  if n ≤ r.length then .ok (r.take n, r.drop n) else .error .incomplete

/-- `read_int`, netprotocol.py:229-240. -/
def readInt (r : Bytes) : Except ReadError (Nat × Bytes) := do
  let (raw, r) ← readExactly UINT64_SIZE r
  return (bytesToUint raw, r)

/-- `read_str`, netprotocol.py:243-246. -/
def readStr (r : Bytes) : Except ReadError (String × Bytes) := do
  let (size, r) ← readInt r
  let (raw, r) ← readExactly size r
  match utf8Decode raw with
  | some s => return (s, r)
  | none => .error .decode

/-- Python `str.split(sep)` for a one character separator. -/
def pySplit (sep : Char) : List Char → List (List Char)
  | [] => [[]]
  | c :: cs =>
    if c = sep then [] :: pySplit sep cs
    else match pySplit sep cs with
      | [] => [[c]]
      | p :: ps => (c :: p) :: ps

/-- Whitespace stripped by `int()`. Simplification: ASCII only. -/
def isPySpace (c : Char) : Bool :=
  c = ' ' ∨ c = '\t' ∨ c = '\n' ∨ c = '\r' ∨ c = '\x0b' ∨ c = '\x0c' ∨
  c = '\x1c' ∨ c = '\x1d' ∨ c = '\x1e' ∨ c = '\x1f'

/-- Digits with single underscores between them, as accepted by `int()`; `prev` tells whether the
previous character was a digit. Returns the digits. Simplification: ASCII digits only. -/
def pyDigits (prev : Bool) : List Char → Option (List Char)
  | [] => if prev then some [] else none
  | c :: cs =>
    if c.isDigit then (pyDigits true cs).map (c :: ·)
    else if c = '_' ∧ prev then pyDigits false cs
    else none

/-- Python `int(str)`; `none` is `ValueError`. -/
def pyInt (s : List Char) : Option Int :=
  let s := ((s.dropWhile isPySpace).reverse.dropWhile isPySpace).reverse
  match s with
  | '-' :: ds => (pyDigits false ds).map (fun d => -(Nat.ofDigitChars 10 d 0 : Int))
  | '+' :: ds => (pyDigits false ds).map (fun d => (Nat.ofDigitChars 10 d 0 : Int))
  | ds => (pyDigits false ds).map (fun d => (Nat.ofDigitChars 10 d 0 : Int))

/-- Python `str(int)` -/
def pyStrInt : Int → List Char
  | .ofNat n => Nat.toDigits 10 n
  | .negSucc n => '-' :: Nat.toDigits 10 (n + 1)

/-- `Address`, netprotocol.py:37-47. Host names are lists of characters. -/
structure Address where
  host : List Char
  port : Int
deriving DecidableEq, Repr

namespace Address

/-- `Address.__str__`, netprotocol.py:93-94. -/
def toStr (a : Address) : List Char := a.host ++ ':' :: pyStrInt a.port

/-- `Address.from_string`, netprotocol.py:61-72; `none` is the `ValueError` of unpacking anything
but two parts or of `int`. -/
def fromString (s : List Char) : Option Address :=
  match pySplit ':' s with
  | [host, port] => (pyInt port).map (fun p => ⟨host, p⟩)
  | _ => none

end Address

/-- Result of `create_socket`: the bound port, or the error of the explicit bind, or `IOError`. -/
inductive SockResult where
  | bound (port : Nat)
  | osError
  | ioError
deriving DecidableEq, Repr

/-- The scanning loop of `create_socket`, netprotocol.py:389-405; `free p` says whether
`sock.bind((host, p))` succeeds. -/
def scanPorts (free : Nat → Bool) (ignore : List Nat) (maxPort : Nat) (port : Nat) : SockResult :=
  if port ≤ maxPort then
    if port ∉ ignore ∧ free port then .bound port
    else scanPorts free ignore maxPort (port + 1)
  else .ioError
termination_by maxPort + 1 - port

/-- `create_socket`, netprotocol.py:351-405 (host and socket options have no influence on which port
is chosen other than through `free`). -/
def createSocket (free : Nat → Bool) (port : Option Nat) (startPort maxPort : Nat)
    (ignore : List Nat) : SockResult :=
  match port with
  | some p => if free p then .bound p else .osError
  | none => scanPorts free ignore maxPort startPort

end Ez
