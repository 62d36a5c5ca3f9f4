import Verif.Model.Codec
import Verif.Lemmas.Py

/-!
# C45: logged messages decode to what was encoded
-/

set_option linter.unusedSectionVars false
set_option linter.unusedSimpArgs false

namespace Ez
namespace Codec
variable {O D : Type}

/-- What is assumed of the libraries. -/
structure Lib.Ok (L : Lib O D) : Prop where
  b64 : ∀ b, L.unb64 (L.b64 b) = some b
  pickle : ∀ o, L.loads (L.dumps o) = some o
  dtype : ∀ d, L.dtype (L.dtypeStr d) = some d

mutual
/-- Specification: messages of the claim. Dicts do not use the reserved key; dataclass instances are of an importable class
and have its fields, all of which are arguments of its constructor; arrays have the bytes their shape says. -/
def Loggable (L : Lib O D) : Msg O D → Prop
  | .list xs => LoggableList L xs
  | .tuple _ => False
  | .dict es => "_type" ∉ es.map (·.1) ∧ LoggableEntries L es
  | .obj t fs => (∃ c, L.resolve t.str = some c ∧ c.ty = t ∧ c.fields.map (·.name) = fs.map (·.1) ∧
      ∀ f ∈ c.fields, f.init = true) ∧ (fs.map (·.1)).Nodup ∧ "_type" ∉ fs.map (·.1) ∧ LoggableEntries L fs
  | .array d shape data => data.length = shape.foldl (· * ·) 1 * L.itemsize d
  | _ => True

def LoggableList (L : Lib O D) : List (Msg O D) → Prop
  | [] => True
  | x :: xs => Loggable L x ∧ LoggableList L xs

def LoggableEntries (L : Lib O D) : List (String × Msg O D) → Prop
  | [] => True
  | (_, x) :: es => Loggable L x ∧ LoggableEntries L es
end

theorem typeStr_ne (t : Ty) (s : String) (h : ':' ∉ s.toList) : t.str ≠ s := by
  intro e
  apply h
  rw [← e]
  simp [Ty.str]

theorem decodeEntries_append (L : Lib O D) : ∀ (es fs : List (String × Json)) (es' fs' : List (String × Msg O D)),
    decodeEntries L es = .ok es' → decodeEntries L fs = .ok fs' → decodeEntries L (es ++ fs) = .ok (es' ++ fs')
  | [], fs, es', fs', h1, h2 => by
    simp only [decodeEntries, Except.ok.injEq] at h1
    subst h1
    simpa using h2
  | (k, x) :: es, fs, es', fs', h1, h2 => by
    simp only [List.cons_append, decodeEntries] at h1 ⊢
    cases hx : decode L x with
    | error e => rw [hx] at h1; cases h1
    | ok y =>
      rw [hx] at h1
      simp only [Except.bind] at h1 ⊢
      cases hd : decodeEntries L es with
      | error e => rw [hd] at h1; cases h1
      | ok ys =>
        rw [hd] at h1
        simp only [Except.map, Except.ok.injEq] at h1
        subst h1
        rw [decodeEntries_append L es fs ys fs' hd h2]
        rfl

theorem encodeEntries_keys (L : Lib O D) : ∀ es : List (String × Msg O D), (encodeEntries L es).map (·.1) = es.map (·.1)
  | [] => by simp [encodeEntries]
  | (k, x) :: es => by simp [encodeEntries, encodeEntries_keys L es]

theorem set_new {A : Type} {es : List (String × A)} {k : String} {x : A} (h : k ∉ es.map (·.1)) :
    PyDict.set es k x = es ++ [(k, x)] := by
  have : (PyDict.get? es k).isSome = false := by
    cases hg : (PyDict.get? es k).isSome with
    | false => rfl
    | true => exact absurd ((PyDict.mem_keys (d := es)).2 hg) h
  simp [PyDict.set, this]

theorem get?_last {A : Type} {es : List (String × A)} {k : String} {x : A} (h : k ∉ es.map (·.1)) :
    PyDict.get? (es ++ [(k, x)]) k = some x := by
  have : PyDict.get? es k = none := by
    cases hg : PyDict.get? es k with
    | none => rfl
    | some v => exact absurd ((PyDict.mem_keys (d := es)).2 (by rw [hg]; rfl)) h
  simp [PyDict.get?_append, this, PyDict.get?_cons]

theorem pop_last {A : Type} {es : List (String × A)} {k : String} {x : A} (h : k ∉ es.map (·.1)) :
    PyDict.pop (es ++ [(k, x)]) k = es := by
  simp only [PyDict.pop, List.filter_append, List.filter_cons, ne_eq, not_true, decide_false, Bool.false_eq_true, if_false,
    List.filter_nil, List.append_nil]
  rw [List.filter_eq_self]
  intro e he
  simp only [decide_eq_true_eq]
  rintro rfl
  exact h (List.mem_map_of_mem he)

theorem construct_go (kw : List (String × Msg O D)) : ∀ (fs : List (Field O D)) (vs : List (String × Msg O D)),
    fs.map (·.name) = vs.map (·.1) → (∀ f ∈ fs, f.init = true) → (∀ e ∈ vs, PyDict.get? kw e.1 = some e.2) →
    construct.go kw fs = .ok vs
  | [], [], _, _, _ => rfl
  | [], _ :: _, h, _, _ => by simp at h
  | _ :: _, [], h, _, _ => by simp at h
  | f :: fs, (k, x) :: vs, h, hi, hv => by
    simp only [List.map_cons, List.cons.injEq] at h
    have h1 : f.init = true := hi f (by simp)
    have h2 : PyDict.get? kw f.name = some x := by rw [h.1]; exact hv (k, x) (by simp)
    simp only [construct.go, h1, if_true, h2, Option.some_or]
    rw [construct_go kw fs vs h.2 (fun g hg => hi g (by simp [hg])) (fun e he => hv e (by simp [he]))]
    rw [h.1]
    rfl

theorem construct_ok {c : Class O D} {vs : List (String × Msg O D)} (hn : c.fields.map (·.name) = vs.map (·.1))
    (hi : ∀ f ∈ c.fields, f.init = true) (hd : (vs.map (·.1)).Nodup) : construct c vs = .ok (.obj c.ty vs) := by
  have hall : vs.all (fun e => c.fields.any (fun f => f.init && f.name == e.1)) = true := by
    rw [List.all_eq_true]
    intro e he
    have : e.1 ∈ c.fields.map (·.name) := by rw [hn]; exact List.mem_map_of_mem he
    obtain ⟨f, hf, hfe⟩ := List.mem_map.1 this
    rw [List.any_eq_true]
    exact ⟨f, hf, by simp [hi f hf, hfe]⟩
  simp only [construct, hall, if_true]
  rw [construct_go vs c.fields vs hn hi (fun e he => PyDict.get?_of_mem hd he)]
  rfl

theorem shape_roundtrip (L : Lib O D) (sh : List Nat) : ∃ xs, decode L (shapeJson sh) = .ok (.list xs) ∧ shapeOf (.list xs : Msg O D) = some sh := by
  have h : ∀ sh : List Nat, decodeList L (sh.map (fun (n : Nat) => Json.int (n : Int))) =
      .ok (sh.map (fun (n : Nat) => (Msg.int (n : Int) : Msg O D))) := by
    intro sh
    induction sh with
    | nil => rfl
    | cons n sh ih => simp [decodeList, decode, Except.bind, Except.map, ih]
  have h2 : ∀ sh : List Nat, (sh.map (fun (n : Nat) => (Msg.int (n : Int) : Msg O D))).mapM
      (fun x => match x with | .int (.ofNat n) => some n | _ => none) = some sh := by
    intro sh
    induction sh with
    | nil => rfl
    | cons n sh ih =>
      rw [List.map_cons, List.mapM_cons, ih]
      rfl
  exact ⟨sh.map (fun (n : Nat) => (Msg.int (n : Int) : Msg O D)), by simp [shapeJson, decode, h, Except.map], h2 sh⟩

mutual
theorem roundtrip {L : Lib O D} (ok : L.Ok) : ∀ (m : Msg O D), Loggable L m → decode L (encode L m) = .ok m
  | .null, _ => by simp [encode, decode]
  | .bool b, _ => by simp [encode, decode]
  | .int i, _ => by simp [encode, decode]
  | .flt r, _ => by simp [encode, decode]
  | .str s, _ => by simp [encode, decode]
  | .list xs, h => by
    simp only [Loggable] at h
    simp only [encode, decode, roundtripList ok xs h]
    rfl
  | .tuple xs, h => by simp [Loggable] at h
  | .dict es, h => by
    simp only [Loggable] at h
    simp only [encode, decode, roundtripEntries ok es h.2, Except.bind]
    have : PyDict.get? es "_type" = none := by
      cases hg : PyDict.get? es "_type" with
      | none => rfl
      | some v => exact absurd ((PyDict.mem_keys (d := es)).2 (by rw [hg]; rfl)) h.1
    simp only [hook, this, present]
  | .obj t fs, h => by
    simp only [Loggable] at h
    obtain ⟨⟨c, h1, h2, h3, h4⟩, h5, h6, h7⟩ := h
    simp only [encode, decode]
    rw [set_new (by rw [encodeEntries_keys]; exact h6)]
    rw [decodeEntries_append L _ [("_type", .str t.str)] _ [("_type", .str t.str)] (roundtripEntries ok fs h7)
      (by simp [decodeEntries, decode, Except.bind, Except.map])]
    simp only [Except.bind, hook]
    rw [get?_last h6]
    have n1 := typeStr_ne t "_ndarray" (by decide)
    have n2 := typeStr_ne t "_pickle" (by decide)
    simp only [present, n1, n2, if_false, h1, pop_last h6]
    rw [construct_ok h3 h4 h5, h2]
  | .array d shape data, h => by
    simp only [Loggable] at h
    obtain ⟨xs, hm, hs⟩ := shape_roundtrip L shape
    simp only [encode, decode, decodeEntries, hm, Except.bind, Except.map]
    simp only [hook, PyDict.get?_cons, PyDict.get?_nil]
    simp [present, ok.b64, frombuffer, ok.dtype, hs, h]
  | .pickled o, _ => by
    simp only [encode, decode, decodeEntries, Except.bind, Except.map]
    simp only [hook, PyDict.get?_cons, PyDict.get?_nil]
    simp [present, ok.b64, ok.pickle]

theorem roundtripList {L : Lib O D} (ok : L.Ok) : ∀ (xs : List (Msg O D)), LoggableList L xs →
    decodeList L (encodeList L xs) = .ok xs
  | [], _ => by simp [encodeList, decodeList]
  | x :: xs, h => by
    simp only [LoggableList] at h
    simp only [encodeList, decodeList, roundtrip ok x h.1, roundtripList ok xs h.2]
    rfl

theorem roundtripEntries {L : Lib O D} (ok : L.Ok) : ∀ (es : List (String × Msg O D)), LoggableEntries L es →
    decodeEntries L (encodeEntries L es) = .ok es
  | [], _ => by simp [encodeEntries, decodeEntries]
  | (k, x) :: es, h => by
    simp only [LoggableEntries] at h
    simp only [encodeEntries, decodeEntries, roundtrip ok x h.1, roundtripEntries ok es h.2]
    rfl
end

/-- **C45 (partial).** Encoding and decoding gives the message back, however nested: scalars, lists, dicts without the reserved key,
dataclass instances, arrays and pickled objects. Missing: instances of classes with a field that is not an argument of the
constructor, see `C45_negation_init_false`. -/
theorem C45_roundtrip_partial {L : Lib O D} (ok : L.Ok) (m : Msg O D) (h : Loggable L m) : decode L (encode L m) = .ok m := roundtrip ok m h

/-- **C45, log files (partial).** Reading a log file gives the logged messages in order, without the start markers. Missing
as above. -/
theorem C45_log_partial {L : Lib O D} (ok : L.Ok) : ∀ (ms : List (String × Msg O D)), (∀ m ∈ ms, Loggable L m.2) →
    messageLog L (ms.map (fun m => logLine L m.1 m.2)) = ((ms.map (·.2)).filter (fun m => !isStart m), none)
  | [], _ => rfl
  | (ts, m) :: ms, h => by
    have hd : decode L (logLine L ts m) = .ok (.dict [("ts", .flt ts), ("obj", m)]) := by
      refine roundtrip ok _ ?_
      simp only [Loggable, LoggableEntries, and_true, true_and]
      exact ⟨by simp, h (ts, m) (by simp)⟩
    have ih := C45_log_partial ok ms (fun x hx => h x (by simp [hx]))
    simp only [List.map_cons, messageLog, hd, PyDict.get?_cons, PyDict.get?_nil, ih]
    cases hs : isStart m <;> simp [hs]

/-! ## Examples and limits -/

/-- A library with one class, bytes as strings of their values, dtypes `u1` and `u2`, and numbers as the pickled objects. -/
def demo : Lib Nat Bool :=
  { b64 := fun b => String.ofList (b.map (fun x => Char.ofNat x.toNat))
    unb64 := fun s => some (s.toList.map (fun c => c.toNat.toUInt8))
    dumps := fun o => List.replicate o 7
    loads := fun b => some b.length
    dtypeStr := fun d => if d then "u2" else "u1"
    dtype := fun s => if s = "u2" then some true else if s = "u1" then some false else none
    itemsize := fun d => if d then 2 else 1
    resolve := fun s => if s = "m:P" then some ⟨⟨"m", "P"⟩, [⟨"x", true, none⟩, ⟨"y", true, none⟩]⟩
      else if s = "m:Q" then some ⟨⟨"m", "Q"⟩, [⟨"x", true, none⟩, ⟨"n", false, some (.int 0)⟩]⟩ else none }

theorem toUInt8_ofNat : ∀ x : UInt8, (Char.ofNat x.toNat).toNat.toUInt8 = x := by
  intro x
  have h : ∀ n : Fin 256, (Char.ofNat n.val).toNat = n.val := by decide +kernel
  have := h ⟨x.toNat, x.toNat_lt⟩
  simp only at this
  rw [this]
  exact UInt8.ofNat_toNat

theorem demo_ok : demo.Ok where
  b64 b := by
    simp only [demo, String.toList_ofList, List.map_map, Option.some.injEq]
    conv => rhs; rw [← List.map_id b]
    exact List.map_congr_left (fun x _ => toUInt8_ofNat x)
  pickle o := by simp [demo]
  dtype d := by cases d <;> simp [demo]

/-- A dataclass instance with a list of an array and a dict in it meets the hypotheses. -/
example : Loggable demo (.obj ⟨"m", "P"⟩ [("x", .list [.array true [2, 1] [1, 2, 3, 4], .dict [("a", .pickled 3)]]), ("y", .null)]) := by
  simp [Loggable, LoggableList, LoggableEntries, demo, Ty.str]

/-- **Limit of C45**: a tuple comes back as a list. -/
theorem C45_tuple_becomes_list (L : Lib O D) (ok : L.Ok) (xs : List (Msg O D)) (h : LoggableList L xs) :
    decode L (encode L (.tuple xs)) = .ok (.list xs) := by
  simp only [encode, decode, roundtripList ok xs h]
  rfl

/-- **C45 fails** for an instance of a dataclass with a field declared `init=False`: it is logged, but `cls(**obj)` raises
`TypeError` when the log is read, and the reader gets none of the later messages either. -/
theorem C45_negation_init_false :
    let q : Msg Nat Bool := .obj ⟨"m", "Q"⟩ [("x", .int 1), ("n", .int 2)]
    decode demo (encode demo q) = .error .typeError ∧
    messageLog demo [logLine demo "0.5" q, logLine demo "0.6" (.int 3)] = ([], some .typeError) := ⟨rfl, rfl⟩

/-- Why the reserved key is excluded: a plain dict with it is taken for an instance of a class. -/
theorem C45_reserved_key :
    decode demo (encode demo (.dict [("_type", .str "m:P"), ("x", .int 1), ("y", .int 2)])) =
      .ok (.obj ⟨"m", "P"⟩ [("x", .int 1), ("y", .int 2)]) ∧
    decode demo (encode demo (.dict [("_type", .int 1)])) = .error .attributeError := ⟨rfl, rfl⟩

end Codec
end Ez
