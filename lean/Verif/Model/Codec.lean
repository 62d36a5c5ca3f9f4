import Verif.Model.Py

/-!
# The message log codec (`src/ezmsg/util/messagecodec.py`)

* A message is a tree of what `json` writes itself (scalars, lists, tuples, string-keyed dicts), dataclass instances, numpy
  arrays, and other objects, which are pickled. Floats are given by their `repr`, which `json` writes and reads exactly.
* JSON text is represented by the tree it stands for: that `json.loads` parses what `json.dumps` prints is assumed.
* `base64`, `pickle`, dtype names and the importable classes are in a `Lib`; what is assumed of them is `Lib.Ok`.
* Dataclasses have no `__post_init__`, `InitVar` or custom `__init__`. A decoded array is read-only, which is not modelled.
-/

namespace Ez
namespace Codec

/-- Module and qualified name of a class. -/
structure Ty where
  module : String
  qual : String
  deriving DecidableEq

/-- `type_str`: messagecodec.py:45-56. -/
def Ty.str (t : Ty) : String := t.module ++ ":" ++ t.qual

/-- Messages. -/
inductive Msg (O D : Type) where
  | null
  | bool (b : Bool)
  | int (i : Int)
  | flt (r : String)
  | str (s : String)
  | list (xs : List (Msg O D))
  | tuple (xs : List (Msg O D))
  | dict (es : List (String × Msg O D))
  /-- a dataclass instance with the values of its fields -/
  | obj (t : Ty) (fs : List (String × Msg O D))
  /-- dtype, shape and the bytes in C order -/
  | array (d : D) (shape : List Nat) (data : List UInt8)
  | pickled (o : O)

/-- JSON values. -/
inductive Json where
  | null
  | bool (b : Bool)
  | int (i : Int)
  | flt (r : String)
  | str (s : String)
  | arr (xs : List Json)
  | obj (es : List (String × Json))

/-- A field of a dataclass. -/
structure Field (O D : Type) where
  name : String
  init : Bool
  default : Option (Msg O D)

/-- A class found by `import_type`. -/
structure Class (O D : Type) where
  ty : Ty
  fields : List (Field O D)

/-- What the codec uses. -/
structure Lib (O D : Type) where
  b64 : List UInt8 → String
  unb64 : String → Option (List UInt8)
  dumps : O → List UInt8
  loads : List UInt8 → Option O
  dtypeStr : D → String
  dtype : String → Option D
  itemsize : D → Nat
  /-- `import_type`: messagecodec.py:59-76; `none` if it raises. -/
  resolve : String → Option (Class O D)

variable {O D : Type}

/-! ## Encoding -/

/-- The JSON array of a shape. -/
def shapeJson (shape : List Nat) : Json := .arr (shape.map (fun (n : Nat) => .int (n : Int)))

mutual
/-- `MessageEncoder` with the results of `default` encoded in turn: messagecodec.py:90-115. -/
def encode (L : Lib O D) : Msg O D → Json
  | .null => .null
  | .bool b => .bool b
  | .int i => .int i
  | .flt r => .flt r
  | .str s => .str s
  | .list xs => .arr (encodeList L xs)
  | .tuple xs => .arr (encodeList L xs)
  | .dict es => .obj (encodeEntries L es)
  | .obj t fs => .obj (PyDict.set (encodeEntries L fs) "_type" (.str t.str))
  | .array d shape data => .obj [("_type", .str "_ndarray"), ("dtype", .str (L.dtypeStr d)), ("data", .str (L.b64 data)),
      ("shape", shapeJson shape)]
  | .pickled o => .obj [("_type", .str "_pickle"), ("data", .str (L.b64 (L.dumps o)))]

def encodeList (L : Lib O D) : List (Msg O D) → List Json
  | [] => []
  | x :: xs => encode L x :: encodeList L xs

def encodeEntries (L : Lib O D) : List (String × Msg O D) → List (String × Json)
  | [] => []
  | (k, x) :: es => (k, encode L x) :: encodeEntries L es
end

/-! ## Decoding -/

/-- The exceptions of decoding. -/
inductive Err where
  | binascii
  | unpickling
  | typeError
  | valueError
  | importError
  | attributeError
  deriving DecidableEq

/-- `cls(**kwargs)` of a dataclass: the arguments must be fields with `init=True`, those without default must be given; the
other fields get their default. -/
def construct (c : Class O D) (kw : List (String × Msg O D)) : Except Err (Msg O D) :=
  if kw.all (fun e => c.fields.any (fun f => f.init && f.name == e.1)) then
    (go c.fields).map (.obj c.ty)
  else .error .typeError
where
  go : List (Field O D) → Except Err (List (String × Msg O D))
    | [] => .ok []
    | f :: fs =>
      match (if f.init then (PyDict.get? kw f.name).or f.default else f.default), f.init with
      | some x, _ => (go fs).map ((f.name, x) :: ·)
      | none, true => .error .typeError
      | none, false => go fs

/-- The numbers of a shape; `none` if something else is in it. -/
def shapeOf : Msg O D → Option (List Nat)
  | .list xs => xs.mapM (fun x => match x with | .int (.ofNat n) => some n | _ => none)
  | _ => none

/-- `np.frombuffer(buf, dtype).reshape(shape)`: the number of bytes must fit. -/
def frombuffer (L : Lib O D) (buf : List UInt8) (dtype : Msg O D) (shape : Msg O D) : Except Err (Msg O D) :=
  match dtype with
  | .str d => match L.dtype d with
    | none => .error .typeError
    | some d => match shapeOf shape with
      | none => .error .typeError
      | some sh => if buf.length = sh.foldl (· * ·) 1 * L.itemsize d then .ok (.array d sh buf) else .error .valueError
  | _ => .error .typeError

/-- `x is not None` for an entry that may be missing. -/
def present (x : Option (Msg O D)) : Option (Msg O D) :=
  match x with
  | some .null => none
  | x => x

/-- `_object_hook`: messagecodec.py:132-173. -/
def hook (L : Lib O D) (es : List (String × Msg O D)) : Except Err (Msg O D) :=
  match present (PyDict.get? es "_type") with
  | none => .ok (.dict es)
  | some (.str t) =>
    if t = "_ndarray" then
      match PyDict.get? es "data", present (PyDict.get? es "shape"), present (PyDict.get? es "dtype") with
      | some (.str s), some sh, some d =>
        match L.unb64 s with
        | none => .error .binascii
        | some buf => frombuffer L buf d sh
      | _, _, _ => .ok (.dict es)
    else if t = "_pickle" then
      match PyDict.get? es "data" with
      | some (.str s) =>
        match L.unb64 s with
        | none => .error .binascii
        | some buf => match L.loads buf with
          | none => .error .unpickling
          | some o => .ok (.pickled o)
      | _ => .ok (.dict es)
    else
      match L.resolve t with
      | none => .error .importError
      | some c => construct c (PyDict.pop es "_type")
  | some _ => .error .attributeError

mutual
/-- `json.loads(…, cls=MessageDecoder)`: objects are decoded from the inside out. -/
def decode (L : Lib O D) : Json → Except Err (Msg O D)
  | .null => .ok .null
  | .bool b => .ok (.bool b)
  | .int i => .ok (.int i)
  | .flt r => .ok (.flt r)
  | .str s => .ok (.str s)
  | .arr xs => (decodeList L xs).map .list
  | .obj es => (decodeEntries L es).bind (hook L)

def decodeList (L : Lib O D) : List Json → Except Err (List (Msg O D))
  | [] => .ok []
  | x :: xs => (decode L x).bind fun y => (decodeList L xs).map (y :: ·)

def decodeEntries (L : Lib O D) : List (String × Json) → Except Err (List (String × Msg O D))
  | [] => .ok []
  | (k, x) :: es => (decode L x).bind fun y => (decodeEntries L es).map ((k, y) :: ·)
end

/-! ## Log files -/

/-- `LogStart`: messagecodec.py:40-42. -/
def logStart : Ty := ⟨"ezmsg.util.messagecodec", "LogStart"⟩

/-- `log_object` with time stamp `ts`: messagelogger.py:16-25. -/
def logLine (L : Lib O D) (ts : String) (m : Msg O D) : Json := encode L (.dict [("ts", .flt ts), ("obj", m)])

/-- `isinstance(obj, LogStart)` -/
def isStart : Msg O D → Bool
  | .obj t _ => decide (t = logStart)
  | _ => false

/-- `message_log(fname)`: the yielded messages and the exception that ends the generator, if any
(messagecodec.py:188-209). A line must be an object with the key `obj`. -/
def messageLog (L : Lib O D) : List Json → List (Msg O D) × Option Err
  | [] => ([], none)
  | l :: ls =>
    match decode L l with
    | .error e => ([], some e)
    | .ok (.dict es) => match PyDict.get? es "obj" with
      | none => ([], some .attributeError)
      | some m => if isStart m then messageLog L ls else
          let r := messageLog L ls
          (m :: r.1, r.2)
    | .ok _ => ([], some .typeError)

end Codec
end Ez
