import Verif.Model.SettingsMeta
import Verif.Lemmas.Py

/-!
# C84, C85: structured settings values and settings schemas
-/

set_option linter.unusedSectionVars false
set_option linter.unusedSimpArgs false

namespace Ez
namespace SettingsMeta
variable (repr : Val → String)

/-! ## Specification -/

mutual
/-- Specification: plain data: `None`, `bool`, `int`, `float`, `str`, lists and dictionaries of these with strings as
keys, which are different. -/
def Plain : Val → Prop
  | .scalar _ c => c = none
  | .list xs => PlainL xs
  | .dict es => (es.map (·.1.text)).Nodup ∧ PlainE es
  | _ => False
def PlainL : List Val → Prop
  | [] => True
  | x :: xs => Plain x ∧ PlainL xs
def PlainE : List (Key × Val) → Prop
  | [] => True
  | (k, x) :: xs => k = strKey k.text ∧ Plain x ∧ PlainE xs
end

mutual
/-- Specification: there is no object of a subclass of `bool`, `int`, `float` or `str` in the value. -/
def Builtin : Val → Prop
  | .scalar _ c => c = none
  | .enum _ v => Builtin v
  | .dict es => BuiltinE es
  | .mapping es _ => BuiltinE es
  | .list xs => BuiltinL xs
  | .tuple xs => BuiltinL xs
  | .set xs => BuiltinL xs
  | .data _ fs => BuiltinF fs
  | .obj _ _ => True
def BuiltinL : List Val → Prop
  | [] => True
  | x :: xs => Builtin x ∧ BuiltinL xs
def BuiltinE : List (Key × Val) → Prop
  | [] => True
  | (_, x) :: xs => Builtin x ∧ BuiltinE xs
def BuiltinF : List (String × Val) → Prop
  | [] => True
  | (_, x) :: xs => Builtin x ∧ BuiltinF xs
end

/-- Specification: one step into a value: a field or an entry by its name, an item by its position. -/
inductive Part where
  | name (s : String)
  | item (n : Nat)
deriving DecidableEq

/-- Specification: the part of a value; of entries with the same text the first. The parts of a member of an enumeration are
those of its value, the items of a set are in the order of iteration. -/
def Val.part : Val → Part → Option Val
  | .enum _ v, p => v.part p
  | .mapping es _, .name s => (es.find? fun e => e.1.text = s).map (·.2)
  | .set xs, .item n => xs[n]?
  | .data _ fs, .name s => (fs.find? fun f => f.1 = s).map (·.2)
  | .dict es, .name s => (es.find? fun e => e.1.text = s).map (·.2)
  | .list xs, .item n => xs[n]?
  | .tuple xs, .item n => xs[n]?
  | _, _ => none

/-- Specification: the part of a value at the end of a path. -/
def Val.at : Val → List Part → Option Val
  | v, [] => some v
  | v, p :: ps => (v.part p).bind fun x => x.at ps

/-- Specification: the scalar that is meant: of a member of an enumeration the one which is its value. -/
def Val.scalarOf : Val → Option Scalar
  | .scalar s _ => some s
  | .enum _ v => v.scalarOf
  | _ => none

mutual
/-- Specification: all parts of the value can be copied. -/
def Copied : Val → Prop
  | .scalar _ _ => True
  | .enum _ v => Copied v
  | .dict es => CopiedE es
  | .mapping es c => c = true ∧ CopiedE es
  | .list xs => CopiedL xs
  | .tuple xs => CopiedL xs
  | .set xs => CopiedL xs
  | .data _ fs => CopiedF fs
  | .obj _ c => c = true
def CopiedL : List Val → Prop
  | [] => True
  | x :: xs => Copied x ∧ CopiedL xs
def CopiedE : List (Key × Val) → Prop
  | [] => True
  | (k, x) :: xs => k.copies = true ∧ Copied x ∧ CopiedE xs
def CopiedF : List (String × Val) → Prop
  | [] => True
  | (_, x) :: xs => Copied x ∧ CopiedF xs
end

mutual
/-- Specification: the keys of no dictionary have the same text. -/
def Clear : Val → Prop
  | .enum _ v => Clear v
  | .mapping es _ => (es.map (·.1.text)).Nodup ∧ ClearE es
  | .set xs => ClearL xs
  | .dict es => (es.map (·.1.text)).Nodup ∧ ClearE es
  | .list xs => ClearL xs
  | .tuple xs => ClearL xs
  | .data _ fs => (fs.map (·.1)).Nodup ∧ ClearF fs
  | _ => True
def ClearL : List Val → Prop
  | [] => True
  | x :: xs => Clear x ∧ ClearL xs
def ClearE : List (Key × Val) → Prop
  | [] => True
  | (_, x) :: xs => Clear x ∧ ClearE xs
def ClearF : List (String × Val) → Prop
  | [] => True
  | (_, x) :: xs => Clear x ∧ ClearF xs
end

/-! ## What `sanitize` computes -/

theorem sanitize_scalar (s : Scalar) (c : Option String) : sanitize repr (.scalar s c) = .scalar s c := by
  rw [sanitize]
theorem sanitize_enum (c : String) (v : Val) : sanitize repr (.enum c v) = sanitize repr v := by
  rw [sanitize]
theorem sanitize_dict (es : List (Key × Val)) :
    sanitize repr (.dict es) = .dict (collect (es.map fun e => (e.1, sanitize repr e.2))) := by
  rw [sanitize]
  exact congrArg (fun l => Val.dict (collect l)) (List.attach_map_val (f := fun e : Key × Val => (e.1, sanitize repr e.2)))
theorem sanitize_mapping (es : List (Key × Val)) (c : Bool) :
    sanitize repr (.mapping es c) = .dict (collect (es.map fun e => (e.1, sanitize repr e.2))) := by
  rw [sanitize]
  exact congrArg (fun l => Val.dict (collect l)) (List.attach_map_val (f := fun e : Key × Val => (e.1, sanitize repr e.2)))
theorem sanitize_list (xs : List Val) : sanitize repr (.list xs) = .list (xs.map (sanitize repr)) := by
  rw [sanitize]; simp
theorem sanitize_tuple (xs : List Val) : sanitize repr (.tuple xs) = .list (xs.map (sanitize repr)) := by
  rw [sanitize]; simp
theorem sanitize_set (xs : List Val) : sanitize repr (.set xs) = .list (xs.map (sanitize repr)) := by
  rw [sanitize]; simp
theorem sanitize_obj (t : String) (c : Bool) : sanitize repr (.obj t c) = .scalar (.str (repr (.obj t c))) none := by
  rw [sanitize]
theorem sanitize_data_some {c : String} {fs : List (String × Val)} {w : Val} (h : (Val.data c fs).asdict = some w) :
    sanitize repr (.data c fs) = sanitize repr w := by
  rw [sanitize]; split <;> simp_all
theorem sanitize_data_none {c : String} {fs : List (String × Val)} (h : (Val.data c fs).asdict = none) :
    sanitize repr (.data c fs) = .scalar (.str (repr (.data c fs))) none := by
  rw [sanitize]; split <;> simp_all

mutual
/-- Values that `asdict` has converted are sanitized to the same. -/
theorem sanitize_asdict : ∀ (v w : Val), v.asdict = some w → sanitize repr w = sanitize repr v
  | .data _ fs, w, h => (sanitize_data_some repr h).symm
  | .list xs, w, h => by
    simp only [Val.asdict, Option.map_eq_some_iff] at h
    obtain ⟨a, ha, rfl⟩ := h
    rw [sanitize_list, sanitize_list, sanitize_asdictL xs a ha]
  | .tuple xs, w, h => by
    simp only [Val.asdict, Option.map_eq_some_iff] at h
    obtain ⟨a, ha, rfl⟩ := h
    rw [sanitize_tuple, sanitize_tuple, sanitize_asdictL xs a ha]
  | .dict es, w, h => by
    simp only [Val.asdict, Option.map_eq_some_iff] at h
    obtain ⟨a, ha, rfl⟩ := h
    rw [sanitize_dict, sanitize_dict, sanitize_asdictE es a ha]
  | .scalar _ _, w, h => by simp only [Val.asdict, Option.some.injEq] at h; subst h; rfl
  | .enum _ _, w, h => by simp only [Val.asdict, Option.some.injEq] at h; subst h; rfl
  | .mapping _ _, w, h => by
    simp only [Val.asdict] at h
    split at h
    · cases h; rfl
    · cases h
  | .set _, w, h => by
    simp only [Val.asdict] at h
    split at h
    · cases h; rfl
    · cases h
  | .obj _ _, w, h => by
    simp only [Val.asdict] at h
    split at h
    · cases h; rfl
    · cases h
theorem sanitize_asdictL : ∀ (xs ys : List Val), asdictL xs = some ys → ys.map (sanitize repr) = xs.map (sanitize repr)
  | [], ys, h => by simp only [asdictL, Option.some.injEq] at h; subst h; rfl
  | x :: xs, ys, h => by
    simp only [asdictL] at h
    split at h
    · rename_i y zs h1 h2
      cases h
      simp only [List.map_cons, sanitize_asdict x y h1, sanitize_asdictL xs zs h2]
    · cases h
theorem sanitize_asdictE : ∀ (xs ys : List (Key × Val)), asdictE xs = some ys →
    ys.map (fun e => (e.1, sanitize repr e.2)) = xs.map (fun e => (e.1, sanitize repr e.2))
  | [], ys, h => by simp only [asdictE, Option.some.injEq] at h; subst h; rfl
  | (k, x) :: xs, ys, h => by
    simp only [asdictE] at h
    split at h
    · rename_i y zs h1 h2
      split at h
      · cases h
        simp only [List.map_cons, sanitize_asdict x y h1, sanitize_asdictE xs zs h2]
      · cases h
    · cases h
end

theorem sanitize_asdictF : ∀ (xs : List (String × Val)) (ys : List (Key × Val)), asdictF xs = some ys →
    ys.map (fun e => (e.1, sanitize repr e.2)) = xs.map (fun f => (strKey f.1, sanitize repr f.2))
  | [], ys, h => by simp only [asdictF, Option.some.injEq] at h; subst h; rfl
  | (n, x) :: xs, ys, h => by
    simp only [asdictF] at h
    split at h
    · rename_i y zs h1 h2
      cases h
      simp only [List.map_cons, sanitize_asdict repr x y h1, sanitize_asdictF xs zs h2]
    · cases h

theorem sanitize_data {c : String} {fs : List (String × Val)} (h : (Val.data c fs).asdict.isSome) :
    sanitize repr (.data c fs) = .dict (collect (fs.map fun f => (strKey f.1, sanitize repr f.2))) := by
  obtain ⟨w, hw⟩ := Option.isSome_iff_exists.1 h
  rw [sanitize_data_some repr hw]
  simp only [Val.asdict, Option.map_eq_some_iff] at hw
  obtain ⟨a, ha, rfl⟩ := hw
  rw [sanitize_dict, sanitize_asdictF repr fs a ha]

/-! ## Collecting entries -/

theorem collect_append (d : List (Key × Val)) : ∀ (es : List (Key × Val)), (es.map (·.1.text)).Nodup →
    (∀ e ∈ es, strKey e.1.text ∉ PyDict.keys d) →
    es.foldl (fun d e => PyDict.set d (strKey e.1.text) e.2) d = d ++ es.map fun e => (strKey e.1.text, e.2)
  | [], _, _ => by simp
  | e :: es, hn, hd => by
    simp only [List.map_cons, List.nodup_cons] at hn
    have h1 : PyDict.set d (strKey e.1.text) e.2 = d ++ [(strKey e.1.text, e.2)] := by
      have := PyDict.get?_eq_none.2 (hd e (by simp))
      simp [PyDict.set, this]
    rw [List.foldl_cons, h1, collect_append (d ++ [(strKey e.1.text, e.2)]) es hn.2]
    · simp
    · intro x hx
      simp only [PyDict.keys, List.map_append, List.mem_append, List.map_cons, List.map_nil, List.mem_singleton, not_or]
      refine ⟨hd x (by simp [hx]), ?_⟩
      intro he
      simp only [strKey, Key.mk.injEq, and_true] at he
      exact hn.1 (List.mem_map.2 ⟨x, hx, he⟩)

/-- Entries whose keys have different texts are all kept. -/
theorem collect_eq {es : List (Key × Val)} (hn : (es.map (·.1.text)).Nodup) :
    collect es = es.map fun e => (strKey e.1.text, e.2) := by
  rw [collect, collect_append [] es hn (by simp [PyDict.keys])]; simp

theorem collect_inv (P : Val → Prop) : ∀ (es d : List (Key × Val)), (∀ e ∈ es, P e.2) →
    (PyDict.keys d).Nodup → (∀ e ∈ d, e.1 = strKey e.1.text ∧ P e.2) →
    let r := es.foldl (fun d e => PyDict.set d (strKey e.1.text) e.2) d
    (PyDict.keys r).Nodup ∧ ∀ e ∈ r, e.1 = strKey e.1.text ∧ P e.2
  | [], d, _, hn, hd => ⟨hn, hd⟩
  | e :: es, d, he, hn, hd => by
    refine collect_inv P es _ (fun x hx => he x (by simp [hx])) (PyDict.nodup_set hn) ?_
    intro x hx
    have h1 := PyDict.get?_of_mem (PyDict.nodup_set (k := strKey e.1.text) (v := e.2) hn) hx
    rw [PyDict.get?_set] at h1
    split at h1
    · rename_i h2
      rw [h2, ← Option.some.inj h1]
      exact ⟨rfl, he e (by simp)⟩
    · exact hd _ (PyDict.mem_of_get? h1)

theorem plainE_iff : ∀ (es : List (Key × Val)), PlainE es ↔ ∀ e ∈ es, e.1 = strKey e.1.text ∧ Plain e.2
  | [] => by simp [PlainE]
  | (k, x) :: es => by simp [PlainE, plainE_iff es, and_assoc]

theorem plainL_iff : ∀ (xs : List Val), PlainL xs ↔ ∀ x ∈ xs, Plain x
  | [] => by simp [PlainL]
  | x :: xs => by simp [PlainL, plainL_iff xs]

theorem builtinE_iff : ∀ (es : List (Key × Val)), BuiltinE es ↔ ∀ e ∈ es, Builtin e.2
  | [] => by simp [BuiltinE]
  | (k, x) :: es => by simp [BuiltinE, builtinE_iff es]

theorem builtinL_iff : ∀ (xs : List Val), BuiltinL xs ↔ ∀ x ∈ xs, Builtin x
  | [] => by simp [BuiltinL]
  | x :: xs => by simp [BuiltinL, builtinL_iff xs]

theorem collect_plain {es : List (Key × Val)} (h : ∀ e ∈ es, Plain e.2) : Plain (.dict (collect es)) := by
  obtain ⟨h1, h2⟩ := collect_inv Plain es [] h (by simp [PyDict.keys]) (by simp)
  refine ⟨?_, (plainE_iff _).2 h2⟩
  have : (PyDict.keys (collect es)).map (·.text) = (collect es).map (·.1.text) := by simp [PyDict.keys]
  rw [← this]
  refine List.pairwise_map.2 (List.Pairwise.imp_of_mem ?_ h1)
  intro a b ha hb hab e
  simp only [PyDict.keys, List.mem_map] at ha hb
  obtain ⟨x, hx, rfl⟩ := ha
  obtain ⟨y, hy, rfl⟩ := hb
  exact hab (by rw [(h2 x hx).1, (h2 y hy).1, e])

mutual
theorem builtin_asdict : ∀ (v w : Val), v.asdict = some w → Builtin v → Builtin w
  | .data _ fs, w, h, hb => by
    simp only [Val.asdict, Option.map_eq_some_iff] at h
    obtain ⟨a, ha, rfl⟩ := h
    exact builtin_asdictF fs a ha hb
  | .list xs, w, h, hb => by
    simp only [Val.asdict, Option.map_eq_some_iff] at h
    obtain ⟨a, ha, rfl⟩ := h
    exact builtin_asdictL xs a ha hb
  | .tuple xs, w, h, hb => by
    simp only [Val.asdict, Option.map_eq_some_iff] at h
    obtain ⟨a, ha, rfl⟩ := h
    exact builtin_asdictL xs a ha hb
  | .dict es, w, h, hb => by
    simp only [Val.asdict, Option.map_eq_some_iff] at h
    obtain ⟨a, ha, rfl⟩ := h
    exact builtin_asdictE es a ha hb
  | .scalar _ _, w, h, hb => by simp only [Val.asdict, Option.some.injEq] at h; subst h; exact hb
  | .enum _ _, w, h, hb => by simp only [Val.asdict, Option.some.injEq] at h; subst h; exact hb
  | .mapping _ _, w, h, hb => by
    simp only [Val.asdict] at h
    split at h
    · cases h; exact hb
    · cases h
  | .set _, w, h, hb => by
    simp only [Val.asdict] at h
    split at h
    · cases h; exact hb
    · cases h
  | .obj _ _, w, h, hb => by
    simp only [Val.asdict] at h
    split at h
    · cases h; exact hb
    · cases h
theorem builtin_asdictL : ∀ (xs ys : List Val), asdictL xs = some ys → BuiltinL xs → BuiltinL ys
  | [], ys, h, hb => by simp only [asdictL, Option.some.injEq] at h; subst h; exact hb
  | x :: xs, ys, h, hb => by
    simp only [asdictL] at h
    split at h
    · rename_i y zs h1 h2
      cases h
      exact ⟨builtin_asdict x y h1 hb.1, builtin_asdictL xs zs h2 hb.2⟩
    · cases h
theorem builtin_asdictE : ∀ (xs ys : List (Key × Val)), asdictE xs = some ys → BuiltinE xs → BuiltinE ys
  | [], ys, h, hb => by simp only [asdictE, Option.some.injEq] at h; subst h; exact hb
  | (k, x) :: xs, ys, h, hb => by
    simp only [asdictE] at h
    split at h
    · rename_i y zs h1 h2
      split at h
      · cases h
        exact ⟨builtin_asdict x y h1 hb.1, builtin_asdictE xs zs h2 hb.2⟩
      · cases h
    · cases h
theorem builtin_asdictF : ∀ (xs : List (String × Val)) (ys : List (Key × Val)), asdictF xs = some ys → BuiltinF xs → BuiltinE ys
  | [], ys, h, hb => by simp only [asdictF, Option.some.injEq] at h; subst h; trivial
  | (n, x) :: xs, ys, h, hb => by
    simp only [asdictF] at h
    split at h
    · rename_i y zs h1 h2
      cases h
      exact ⟨builtin_asdict x y h1 hb.1, builtin_asdictF xs zs h2 hb.2⟩
    · cases h
end

/-! ## Plain data -/

/-- C84 (partial): without objects of subclasses of `bool`, `int`, `float` and `str`, sanitizing gives plain data.
Missing: such objects are left as they are (`C84_subclass_kept`). -/
theorem C84_plain_partial (v : Val) (h : Builtin v) : Plain (sanitize repr v) := by
  induction v using sanitize.induct with
  | case1 s c => rw [sanitize_scalar]; exact h
  | case2 c w ih => rw [sanitize_enum]; exact ih h
  | case3 es ih =>
    rw [sanitize_dict]
    refine collect_plain ?_
    intro e he
    obtain ⟨x, hx, rfl⟩ := List.mem_map.1 he
    exact ih ⟨x, hx⟩ ((builtinE_iff es).1 h x hx)
  | case4 es c ih =>
    rw [sanitize_mapping]
    refine collect_plain ?_
    intro e he
    obtain ⟨x, hx, rfl⟩ := List.mem_map.1 he
    exact ih ⟨x, hx⟩ ((builtinE_iff es).1 h x hx)
  | case5 xs ih =>
    rw [sanitize_list]
    refine (plainL_iff _).2 ?_
    intro e he
    obtain ⟨x, hx, rfl⟩ := List.mem_map.1 he
    exact ih ⟨x, hx⟩ ((builtinL_iff xs).1 h x hx)
  | case6 xs ih =>
    rw [sanitize_tuple]
    refine (plainL_iff _).2 ?_
    intro e he
    obtain ⟨x, hx, rfl⟩ := List.mem_map.1 he
    exact ih ⟨x, hx⟩ ((builtinL_iff xs).1 h x hx)
  | case7 xs ih =>
    rw [sanitize_set]
    refine (plainL_iff _).2 ?_
    intro e he
    obtain ⟨x, hx, rfl⟩ := List.mem_map.1 he
    exact ih ⟨x, hx⟩ ((builtinL_iff xs).1 h x hx)
  | case8 c fs w hw ih =>
    rw [sanitize_data_some repr hw]
    exact ih (builtin_asdict _ w hw h)
  | case9 c fs hw => rw [sanitize_data_none repr hw]; rfl
  | case10 t c => rw [sanitize_obj]; rfl

mutual
/-- C84: plain data are left as they are. -/
theorem C84_unchanged : ∀ v : Val, Plain v → sanitize repr v = v
  | .scalar s c, _ => sanitize_scalar repr s c
  | .list xs, h => by rw [sanitize_list, unchangedL xs h]
  | .dict es, h => by
    have hn : ((es.map fun e => (e.1, sanitize repr e.2)).map (·.1.text)).Nodup := by
      simpa [List.map_map, Function.comp_def] using h.1
    rw [sanitize_dict, collect_eq hn, List.map_map]
    exact congrArg Val.dict (unchangedE es h.2)
  | .enum _ _, h => h.elim
  | .mapping _ _, h => h.elim
  | .tuple _, h => h.elim
  | .set _, h => h.elim
  | .data _ _, h => h.elim
  | .obj _ _, h => h.elim
theorem unchangedL : ∀ xs : List Val, PlainL xs → xs.map (sanitize repr) = xs
  | [], _ => rfl
  | x :: xs, h => by rw [List.map_cons, C84_unchanged x h.1, unchangedL xs h.2]
theorem unchangedE : ∀ es : List (Key × Val), PlainE es →
    es.map ((fun e => (strKey e.1.text, e.2)) ∘ fun e => (e.1, sanitize repr e.2)) = es
  | [], _ => rfl
  | (k, x) :: es, h => by
    rw [List.map_cons, unchangedE es h.2.2]
    simp only [Function.comp_apply, C84_unchanged x h.2.1, ← h.1]
end

/-- C84 fails for objects of subclasses: they are left as they are, so that e.g. an `IntEnum` stays what it is while
other enumerations become their values. -/
theorem C84_subclass_kept (s : Scalar) (c : String) :
    sanitize repr (.scalar s (some c)) = .scalar s (some c) ∧ ¬ Plain (sanitize repr (.scalar s (some c))) ∧
      Plain (sanitize repr (.enum c (.scalar s none))) := by
  refine ⟨sanitize_scalar .., ?_, ?_⟩
  · rw [sanitize_scalar]; simp [Plain]
  · rw [sanitize_enum, sanitize_scalar]; rfl

/-! ## Nothing is lost -/

theorem clear_find {s : String} {x : String × Val} : ∀ {fs : List (String × Val)}, ClearF fs → fs.find? (fun f => f.1 = s) = some x →
    Clear x.2
  | [], _, h => by simp at h
  | f :: fs, hc, h => by
    rw [List.find?_cons] at h
    split at h
    · cases h; exact hc.1
    · exact clear_find hc.2 h

theorem clear_findE {s : String} {x : Key × Val} : ∀ {es : List (Key × Val)}, ClearE es → es.find? (fun e => e.1.text = s) = some x →
    Clear x.2
  | [], _, h => by simp at h
  | f :: fs, hc, h => by
    rw [List.find?_cons] at h
    split at h
    · cases h; exact hc.1
    · exact clear_findE hc.2 h

theorem clear_mem {x : Val} : ∀ {xs : List Val}, ClearL xs → x ∈ xs → Clear x
  | [], _, h => by simp at h
  | y :: ys, hc, h => by
    rcases List.mem_cons.1 h with rfl | h
    · exact hc.1
    · exact clear_mem hc.2 h

theorem asdictL_mem {x : Val} : ∀ {xs : List Val}, (asdictL xs).isSome → x ∈ xs → x.asdict.isSome
  | [], _, h => by simp at h
  | y :: ys, hs, h => by
    simp only [asdictL] at hs
    split at hs
    · rename_i h1 h2
      rcases List.mem_cons.1 h with rfl | h
      · simp [h1]
      · exact asdictL_mem (by simp [h2]) h
    · simp at hs

theorem asdictE_mem {x : Key × Val} : ∀ {xs : List (Key × Val)}, (asdictE xs).isSome → x ∈ xs → x.2.asdict.isSome
  | [], _, h => by simp at h
  | y :: ys, hs, h => by
    simp only [asdictE] at hs
    split at hs
    · rename_i h1 h2
      rcases List.mem_cons.1 h with rfl | h
      · simp [h1]
      · exact asdictE_mem (by simp [h2]) h
    · simp at hs

theorem asdictF_mem {x : String × Val} : ∀ {xs : List (String × Val)}, (asdictF xs).isSome → x ∈ xs → x.2.asdict.isSome
  | [], _, h => by simp at h
  | y :: ys, hs, h => by
    simp only [asdictF] at hs
    split at hs
    · rename_i h1 h2
      rcases List.mem_cons.1 h with rfl | h
      · simp [h1]
      · exact asdictF_mem (by simp [h2]) h
    · simp at hs

mutual
theorem copied_ok : ∀ v : Val, Copied v → v.copies = true ∧ v.asdict.isSome
  | .scalar _ _, _ => by simp [Val.copies, Val.asdict]
  | .enum _ _, _ => by simp [Val.copies, Val.asdict]
  | .dict es, h => by
    have := copied_okE es h
    exact ⟨this.1, by simpa [Val.asdict] using this.2⟩
  | .mapping es c, h => by
    have := copied_okE es h.2
    have e : (Val.mapping es c).copies = true := by simp [Val.copies, h.1, this.1]
    exact ⟨e, by simp [Val.asdict, e]⟩
  | .list xs, h => by
    have := copied_okL xs h
    exact ⟨this.1, by simpa [Val.asdict] using this.2⟩
  | .tuple xs, h => by
    have := copied_okL xs h
    exact ⟨this.1, by simpa [Val.asdict] using this.2⟩
  | .set xs, h => by
    have := copied_okL xs h
    have e : (Val.set xs).copies = true := this.1
    exact ⟨e, by simp [Val.asdict, e]⟩
  | .data _ fs, h => by
    have := copied_okF fs h
    exact ⟨this.1, by simpa [Val.asdict] using this.2⟩
  | .obj _ c, h => by
    have h : c = true := h
    simp [Val.copies, Val.asdict, h]
theorem copied_okL : ∀ xs : List Val, CopiedL xs → copiesL xs = true ∧ (asdictL xs).isSome
  | [], _ => by simp [copiesL, asdictL]
  | x :: xs, h => by
    have h1 := copied_ok x h.1
    have h2 := copied_okL xs h.2
    obtain ⟨a, ha⟩ := Option.isSome_iff_exists.1 h1.2
    obtain ⟨b, hb⟩ := Option.isSome_iff_exists.1 h2.2
    simp [copiesL, asdictL, h1.1, h2.1, ha, hb]
theorem copied_okE : ∀ xs : List (Key × Val), CopiedE xs → copiesE xs = true ∧ (asdictE xs).isSome
  | [], _ => by simp [copiesE, asdictE]
  | (k, x) :: xs, h => by
    have h1 := copied_ok x h.2.1
    have h2 := copied_okE xs h.2.2
    obtain ⟨a, ha⟩ := Option.isSome_iff_exists.1 h1.2
    obtain ⟨b, hb⟩ := Option.isSome_iff_exists.1 h2.2
    simp [copiesE, asdictE, h1.1, h2.1, ha, hb, h.1]
theorem copied_okF : ∀ xs : List (String × Val), CopiedF xs → copiesF xs = true ∧ (asdictF xs).isSome
  | [], _ => by simp [copiesF, asdictF]
  | (k, x) :: xs, h => by
    have h1 := copied_ok x h.1
    have h2 := copied_okF xs h.2
    obtain ⟨a, ha⟩ := Option.isSome_iff_exists.1 h1.2
    obtain ⟨b, hb⟩ := Option.isSome_iff_exists.1 h2.2
    simp [copiesF, asdictF, h1.1, h2.1, ha, hb]
end

theorem copied_mem {x : Val} : ∀ {xs : List Val}, CopiedL xs → x ∈ xs → Copied x
  | [], _, h => by simp at h
  | y :: ys, hc, h => by
    rcases List.mem_cons.1 h with rfl | h
    · exact hc.1
    · exact copied_mem hc.2 h

theorem copied_memE {x : Key × Val} : ∀ {xs : List (Key × Val)}, CopiedE xs → x ∈ xs → Copied x.2
  | [], _, h => by simp at h
  | y :: ys, hc, h => by
    rcases List.mem_cons.1 h with rfl | h
    · exact hc.2.1
    · exact copied_memE hc.2.2 h

theorem copied_memF {x : String × Val} : ∀ {xs : List (String × Val)}, CopiedF xs → x ∈ xs → Copied x.2
  | [], _, h => by simp at h
  | y :: ys, hc, h => by
    rcases List.mem_cons.1 h with rfl | h
    · exact hc.1
    · exact copied_memF hc.2 h

theorem part_sanitize (v : Val) {x : Val} {p : Part} (hc : Clear v) (ha : Copied v) (h : v.part p = some x) :
    (sanitize repr v).part p = some (sanitize repr x) ∧ Clear x ∧ Copied x := by
  match v with
  | .data c fs =>
    cases p with
    | item n => simp [Val.part] at h
    | name s =>
      simp only [Val.part, Option.map_eq_some_iff] at h
      obtain ⟨y, hy, rfl⟩ := h
      rw [sanitize_data repr (copied_ok _ ha).2]
      rw [collect_eq (by simpa [List.map_map, Function.comp_def, strKey] using hc.1)]
      refine ⟨?_, clear_find hc.2 hy, copied_memF ha (List.mem_of_find?_eq_some hy)⟩
      simp only [Val.part, List.map_map, List.find?_map, Function.comp_def, strKey, hy, Option.map_some]
  | .dict es =>
    cases p with
    | item n => simp [Val.part] at h
    | name s =>
      simp only [Val.part, Option.map_eq_some_iff] at h
      obtain ⟨y, hy, rfl⟩ := h
      rw [sanitize_dict]
      rw [collect_eq (by simpa [List.map_map, Function.comp_def, strKey] using hc.1)]
      refine ⟨?_, clear_findE hc.2 hy, copied_memE ha (List.mem_of_find?_eq_some hy)⟩
      simp only [Val.part, List.map_map, List.find?_map, Function.comp_def, strKey, hy, Option.map_some]
  | .mapping es c =>
    cases p with
    | item n => simp [Val.part] at h
    | name s =>
      simp only [Val.part, Option.map_eq_some_iff] at h
      obtain ⟨y, hy, rfl⟩ := h
      rw [sanitize_mapping]
      rw [collect_eq (by simpa [List.map_map, Function.comp_def, strKey] using hc.1)]
      refine ⟨?_, clear_findE hc.2 hy, copied_memE ha.2 (List.mem_of_find?_eq_some hy)⟩
      simp only [Val.part, List.map_map, List.find?_map, Function.comp_def, strKey, hy, Option.map_some]
  | .list xs =>
    cases p with
    | name s => simp [Val.part] at h
    | item n =>
      simp only [Val.part] at h
      rw [sanitize_list]
      exact ⟨by simp [Val.part, h], clear_mem hc (List.mem_of_getElem? h), copied_mem ha (List.mem_of_getElem? h)⟩
  | .tuple xs =>
    cases p with
    | name s => simp [Val.part] at h
    | item n =>
      simp only [Val.part] at h
      rw [sanitize_tuple]
      exact ⟨by simp [Val.part, h], clear_mem hc (List.mem_of_getElem? h), copied_mem ha (List.mem_of_getElem? h)⟩
  | .set xs =>
    cases p with
    | name s => simp [Val.part] at h
    | item n =>
      simp only [Val.part] at h
      rw [sanitize_set]
      exact ⟨by simp [Val.part, h], clear_mem hc (List.mem_of_getElem? h), copied_mem ha (List.mem_of_getElem? h)⟩
  | .enum c w =>
    rw [sanitize_enum]
    simp only [Val.part] at h
    exact part_sanitize w hc ha h
  | .scalar s c => cases p <;> simp [Val.part] at h
  | .obj s c => cases p <;> simp [Val.part] at h

theorem at_sanitize : ∀ (ps : List Part) {v x : Val}, Clear v → Copied v → v.at ps = some x →
    (sanitize repr v).at ps = some (sanitize repr x)
  | [], v, x, _, _, h => by simp only [Val.at, Option.some.injEq] at h ⊢; rw [h]
  | p :: ps, v, x, hc, ha, h => by
    simp only [Val.at, Option.bind_eq_some_iff] at h
    obtain ⟨y, hy, h⟩ := h
    obtain ⟨h1, h2, h3⟩ := part_sanitize repr v hc ha hy
    simp only [Val.at, h1, Option.bind_some]
    exact at_sanitize ps h2 h3 h

theorem sanitize_scalarOf : ∀ (v : Val) (s : Scalar), v.scalarOf = some s → ∃ k, sanitize repr v = .scalar s k
  | .scalar s k, t, h => by
    simp only [Val.scalarOf, Option.some.injEq] at h
    exact ⟨k, by rw [sanitize_scalar, h]⟩
  | .enum _ v, t, h => by
    rw [sanitize_enum]
    exact sanitize_scalarOf v t h
  | .dict _, _, h => by simp [Val.scalarOf] at h
  | .mapping _ _, _, h => by simp [Val.scalarOf] at h
  | .list _, _, h => by simp [Val.scalarOf] at h
  | .tuple _, _, h => by simp [Val.scalarOf] at h
  | .set _, _, h => by simp [Val.scalarOf] at h
  | .data _ _, _, h => by simp [Val.scalarOf] at h
  | .obj _ _, _, h => by simp [Val.scalarOf] at h

/-- C84 (partial): if all parts of a settings object can be copied and no dictionary has keys with the same text, there
is a structured value, and every scalar in the settings, or the value of a member of an enumeration, is found in it under the
same names and positions; any other object is there as the text that `repr` gives.
Missing: parts which cannot be copied (`C84_uncopied_lost`) and keys with the same text (`C84_keys_collide`). -/
theorem C84_shown_partial (c : String) (fs : List (String × Val)) (a b d : Option (List (Key × Val)))
    (hc : Clear (.data c fs)) (ha : Copied (.data c fs)) :
    ∃ w, structured repr (.data c fs) a b d = some w ∧
      (∀ ps v s, (Val.data c fs).at ps = some v → v.scalarOf = some s → ∃ k, w.at ps = some (.scalar s k)) ∧
      ∀ ps t q, (Val.data c fs).at ps = some (.obj t q) → w.at ps = some (.scalar (.str (repr (.obj t q))) none) := by
  obtain ⟨w, hw⟩ := Option.isSome_iff_exists.1 (copied_ok _ ha).2
  refine ⟨sanitize repr w, by simp [structured, hw], ?_, ?_⟩
  · intro ps v s h hv
    obtain ⟨k, hk⟩ := sanitize_scalarOf repr v s hv
    exact ⟨k, by rw [sanitize_asdict repr _ w hw, at_sanitize repr ps hc ha h, hk]⟩
  · intro ps t q h
    rw [sanitize_asdict repr _ w hw, at_sanitize repr ps hc ha h, sanitize_obj]

/-- C84: the entries of the structured value of a settings object are its fields, in order. -/
theorem C84_fields (c : String) (fs : List (String × Val)) (a b d : Option (List (Key × Val)))
    (hn : (fs.map (·.1)).Nodup) (ha : (Val.data c fs).asdict.isSome) :
    ∃ es, structured repr (.data c fs) a b d = some (.dict es) ∧ es.map (·.1) = fs.map fun f => strKey f.1 := by
  obtain ⟨w, hw⟩ := Option.isSome_iff_exists.1 ha
  have : structured repr (.data c fs) a b d = some (sanitize repr (.data c fs)) := by
    rw [← sanitize_asdict repr _ w hw]; simp [structured, hw]
  rw [this, sanitize_data repr ha, collect_eq (by simpa [List.map_map, Function.comp_def, strKey] using hn)]
  exact ⟨_, rfl, by simp [strKey]⟩

/-- C84 fails: one field that cannot be copied, and there is no structured value at all. -/
theorem C84_uncopied_lost (c : String) (fs : List (String × Val)) (f : String × Val) (hf : f ∈ fs) (h : f.2.asdict = none) :
    structured repr (.data c fs) none none none = none ∧
      reprValue repr (.data c fs) none none none = .scalar (.str (repr (.data c fs))) none := by
  have ha : (Val.data c fs).asdict = none := by
    cases e : (Val.data c fs).asdict with
    | none => rfl
    | some w =>
      have : (asdictF fs).isSome := by
        have := congrArg Option.isSome e
        simpa [Val.asdict] using this
      have := asdictF_mem this hf
      rw [h] at this; cases this
  have : structured repr (.data c fs) none none none = none := by simp [structured, ha]
  exact ⟨this, by rw [reprValue, this]; rfl⟩

/-- C84 fails: of two entries whose keys have the same text, e.g. `1` and `"1"`, the first is lost. -/
theorem C84_keys_collide (t : String) (x y : Scalar) :
    sanitize repr (.dict [(⟨t, false, true⟩, .scalar x none), (strKey t, .scalar y none)]) =
      .dict [(strKey t, .scalar y none)] := by
  rw [sanitize_dict]
  simp [sanitize_scalar, collect, PyDict.set, PyDict.get?, PyDict.modify, strKey]

/-! ## Schemas -/

/-- C85: a schema has one entry for every field, in order; exactly the fields without default and without factory are
required. -/
theorem C85_fields (fs : List Field) : (schema repr fs).map (·.name) = fs.map (·.name) ∧
    ∀ m ∈ schema repr fs, ∃ f ∈ fs, m = fieldMeta repr f ∧ m.name = f.name ∧
      (m.required = true ↔ f.default = none ∧ f.factory = none) := by
  refine ⟨by simp [schema, fieldMeta], ?_⟩
  intro m hm
  obtain ⟨f, hf, rfl⟩ := List.mem_map.1 hm
  exact ⟨f, hf, rfl, rfl, by simp [fieldMeta]⟩

/-- What a field holds if the settings are made without arguments; `none` if there is no such value. -/
def Field.initial (f : Field) : Option Val :=
  match f.default, f.factory with
  | some v, _ => some v
  | none, some r => r
  | none, none => none

theorem default_initial {f : Field} {v : Val} (h : f.initial = some v) : (fieldMeta repr f).default = sanitize repr v := by
  simp only [Field.initial] at h
  simp only [fieldMeta]
  split at h <;> simp_all

/-- C85: the defaults in the schema are what the structured value shows for settings made without arguments. -/
theorem C85_defaults (c : String) (fs : List Field) (vs : List (String × Val))
    (hv : vs.map (fun v => some v) = fs.map (fun f => f.initial.map fun v => (f.name, v))) (hn : (fs.map (·.name)).Nodup)
    (ha : (Val.data c vs).asdict.isSome) (a b d : Option (List (Key × Val))) :
    structured repr (.data c vs) a b d = some (.dict ((schema repr fs).map fun m => (strKey m.name, m.default))) := by
  obtain ⟨w, hw⟩ := Option.isSome_iff_exists.1 ha
  have : structured repr (.data c vs) a b d = some (sanitize repr (.data c vs)) := by
    rw [← sanitize_asdict repr _ w hw]; simp [structured, hw]
  rw [this, sanitize_data repr ha]
  have hm : ∀ (vs : List (String × Val)) (fs : List Field),
      vs.map (fun v => some v) = fs.map (fun f => f.initial.map fun v => (f.name, v)) →
      vs.map (fun f => (strKey f.1, sanitize repr f.2)) = (schema repr fs).map fun m => (strKey m.name, m.default) := by
    intro vs
    induction vs with
    | nil => intro fs h; cases fs with
      | nil => rfl
      | cons f fs => simp at h
    | cons v vs ih =>
      intro fs h
      cases fs with
      | nil => simp at h
      | cons f fs =>
        simp only [List.map_cons, List.cons.injEq] at h
        obtain ⟨h1, h2⟩ := h
        obtain ⟨x, hx, rfl⟩ := Option.map_eq_some_iff.1 h1.symm
        have := ih fs h2
        simp only [schema, List.map_cons] at this ⊢
        rw [this, default_initial repr hx]
        rfl
  rw [hm vs fs hv, collect_eq (by simpa [schema, fieldMeta, List.map_map, Function.comp_def, strKey] using hn)]
  simp [schema, strKey, List.map_map, Function.comp_def]

/-- Specification: a truth value, a whole number or a floating point number. -/
def Number (v : Val) : Prop :=
  ∃ s c, v = .scalar s c ∧ ((∃ b, s = .bool b) ∨ (∃ i, s = .int i) ∨ ∃ i, s = .float i)

theorem isNumber_iff (v : Val) : v.isNumber = true ↔ Number v := by
  constructor
  · intro h
    match v with
    | .scalar (.bool b) c => exact ⟨_, c, rfl, .inl ⟨b, rfl⟩⟩
    | .scalar (.int i) c => exact ⟨_, c, rfl, .inr (.inl ⟨i, rfl⟩)⟩
    | .scalar (.float i) c => exact ⟨_, c, rfl, .inr (.inr ⟨i, rfl⟩)⟩
    | .scalar (.str _) _ | .scalar .none _ | .enum _ _ | .dict _ | .mapping _ _ | .list _ | .tuple _ | .set _ | .data _ _ |
      .obj _ _ => simp [Val.isNumber] at h
  · rintro ⟨s, c, rfl, ⟨b, rfl⟩ | ⟨i, rfl⟩ | ⟨i, rfl⟩⟩ <;> rfl

/-- C85: bounds are given exactly if one of the entries for the lower or for the upper bound is a number, and they are these
numbers. -/
theorem C85_bounds (f : Field) : ((fieldMeta repr f).bounds = none ↔
    (∀ v, f.ge.or f.min = some v → ¬ Number v) ∧ ∀ v, f.le.or f.max = some v → ¬ Number v) ∧
    ∀ l u, (fieldMeta repr f).bounds = some (l, u) → (∀ v, l = some v ↔ f.ge.or f.min = some v ∧ Number v) ∧
      ∀ v, u = some v ↔ f.le.or f.max = some v ∧ Number v := by
  simp only [fieldMeta, ← isNumber_iff]
  constructor
  · have key : ∀ x y : Option Val, (if (x.filter Val.isNumber).isSome || (y.filter Val.isNumber).isSome then
        some (x.filter Val.isNumber, y.filter Val.isNumber) else none) = none ↔
        (∀ v, x = some v → ¬ v.isNumber = true) ∧ ∀ v, y = some v → ¬ v.isNumber = true := by
      intro x y
      cases x <;> cases y <;> simp [Option.filter] <;> grind
    exact key _ _
  · intro l u h
    split at h
    · simp only [Option.some.injEq, Prod.mk.injEq] at h
      obtain ⟨rfl, rfl⟩ := h
      constructor <;> intro v <;> simp only [boundOf, Option.filter_eq_some_iff]
    · cases h

/-- C85: the description is the declared one, if it is a text, and the type is the annotation's: for a class its module and name. -/
theorem C85_described (f : Field) :
    (∀ s, (fieldMeta repr f).description = some s ↔ ∃ k, f.description = some (.scalar (.str s) k)) ∧
    (∀ m n, f.type = .cls m n → (fieldMeta repr f).fieldType = m ++ "." ++ n) := by
  refine ⟨?_, fun m n h => by simp [fieldMeta, h, typeName]⟩
  intro s
  simp only [fieldMeta]
  constructor
  · intro h
    split at h
    · rename_i t k e
      cases h
      exact ⟨k, e⟩
    · cases h
  · rintro ⟨k, h⟩
    simp [h]

/-- C85 (partial): fields annotated with the classes `bool`, `int`, `float` and `str` get the widget for their type.
Missing: other types with these words in their names (`C85_hint_wrong`). -/
theorem C85_hint_partial (f : Field) (hc : (fieldMeta repr f).choices = none) :
    (f.type = .cls "builtins" "bool" → (fieldMeta repr f).hint = some "checkbox") ∧
    (f.type = .cls "builtins" "int" → (fieldMeta repr f).hint = some (if (fieldMeta repr f).bounds.isSome then "slider" else "int_input")) ∧
    (f.type = .cls "builtins" "float" → (fieldMeta repr f).hint = some (if (fieldMeta repr f).bounds.isSome then "slider" else "float_input")) ∧
    (f.type = .cls "builtins" "str" → (fieldMeta repr f).hint = some "text_input") := by
  have e : (fieldMeta repr f).hint = widgetHint (typeName f.type) (fieldMeta repr f).choices (fieldMeta repr f).bounds := rfl
  rw [e, hc]
  generalize (fieldMeta repr f).bounds = b
  have low : ∀ t, String.toLower t = t → widgetHint t none b =
      if hasSub "bool" t then some "checkbox"
      else if b.isSome && (hasSub "int" t || hasSub "float" t) then some "slider"
      else if hasSub "int" t then some "int_input"
      else if hasSub "float" t then some "float_input"
      else if hasSub "str" t then some "text_input"
      else none := by
    intro t ht; simp [widgetHint, ht]
  refine ⟨?_, ?_, ?_, ?_⟩ <;> intro ht <;> rw [ht] <;> simp only [typeName]
  · rw [low _ (by decide +kernel), if_pos (by decide +kernel)]
  · rw [low _ (by decide +kernel), if_neg (by decide +kernel)]
    cases b with
    | none => rw [if_neg (by simp), if_pos (by decide +kernel)]; rfl
    | some b => rw [if_pos (by simp only [Option.isSome_some, Bool.true_and]; decide +kernel)]; rfl
  · rw [low _ (by decide +kernel), if_neg (by decide +kernel)]
    cases b with
    | none => rw [if_neg (by simp), if_neg (by decide +kernel), if_pos (by decide +kernel)]; rfl
    | some b => rw [if_pos (by simp only [Option.isSome_some, Bool.true_and]; decide +kernel)]; rfl
  · rw [low _ (by decide +kernel), if_neg (by decide +kernel), if_neg (by
      rw [Bool.and_eq_true]; intro h; exact absurd h.2 (by decide +kernel)), if_neg (by decide +kernel),
      if_neg (by decide +kernel), if_pos (by decide +kernel)]

/-- C85: choices given by the metadata or by a `Literal` are listed, and a list of choices that is not empty is shown as
such. -/
theorem C85_choices (f : Field) (vs : List Val) (hv : vs ≠ [])
    (h : (∃ t, f.choices = none ∧ f.type = .literal vs t) ∨ f.choices = some (.list vs) ∨ f.choices = some (.tuple vs) ∨ f.choices = some (.set vs)) :
    (fieldMeta repr f).choices = some (vs.map (sanitize repr)) ∧ (fieldMeta repr f).hint = some "select" := by
  have e : (fieldMeta repr f).hint = widgetHint (typeName f.type) (fieldMeta repr f).choices (fieldMeta repr f).bounds := rfl
  have h1 : (fieldMeta repr f).choices = some (vs.map (sanitize repr)) := by
    rcases h with ⟨t, h, h'⟩ | h | h | h
    · simp [fieldMeta, h, h', choicesOf]
    · simp [fieldMeta, h]
    · simp [fieldMeta, h]
    · simp [fieldMeta, h]
  refine ⟨h1, ?_⟩
  rw [e, h1]
  simp [widgetHint, hv]

/-- A field of that type without anything else. -/
def Field.plain (t : Ann) : Field :=
  { name := "x", type := t, default := none, factory := none, description := none, choices := none, ge := none,
    min := none, le := none, max := none }

/-- C85 fails: words within names of types count. A class `Point` is shown as an integer, a list of integers as well,
and a class `Instrument` as text. -/
theorem C85_hint_wrong :
    (fieldMeta repr (.plain (.cls "app" "Point"))).hint = some "int_input" ∧
    (fieldMeta repr (.plain (.other "list[int]"))).hint = some "int_input" ∧
    (fieldMeta repr (.plain (.cls "app" "Instrument"))).hint = some "text_input" := by
  refine ⟨?_, ?_, ?_⟩ <;> simp only [fieldMeta, Field.plain, choicesOf, boundOf, typeName] <;> decide +kernel

/-- C85 fails for annotations that have not been evaluated (`from __future__ import annotations`): the choices of a
`Literal` are not listed. -/
theorem C85_choices_hidden (t : String) : (fieldMeta repr (.plain (.other t))).choices = none := rfl

/-! ## Examples -/

/-- A settings object: a number, a nested object, a list. -/
def exampleFields : List (String × Val) :=
  [("rate", .scalar (.int 5) none),
   ("window", .data "Window" [("length", .scalar (.float 1) none), ("kind", .enum "Kind" (.scalar (.str "hann") none))]),
   ("names", .tuple [.scalar (.str "a") none, .scalar (.str "b") none])]

/-- `C84_shown_partial`, `C84_fields`, `C84_plain_partial`. -/
example : Clear (.data "S" exampleFields) ∧ Copied (.data "S" exampleFields) ∧ Builtin (.data "S" exampleFields) := by
  refine ⟨?_, ?_, ?_⟩
  · simp [exampleFields, Clear, ClearF, ClearL]
  · simp [exampleFields, Copied, CopiedF, CopiedL]
  · simp [exampleFields, Builtin, BuiltinF, BuiltinL]

example : (Val.data "S" exampleFields).at [.name "window", .name "length"] = some (.scalar (.float 1) none) ∧
    ((Val.data "S" exampleFields).at [.name "window", .name "kind"]).bind Val.scalarOf = some (.str "hann") := ⟨rfl, rfl⟩

example : sanitize repr (.data "S" exampleFields) =
    .dict [(strKey "rate", .scalar (.int 5) none),
      (strKey "window", .dict [(strKey "length", .scalar (.float 1) none), (strKey "kind", .scalar (.str "hann") none)]),
      (strKey "names", .list [.scalar (.str "a") none, .scalar (.str "b") none])] := by
  rw [sanitize_data repr rfl, collect_eq (by simp [exampleFields, strKey])]
  simp only [exampleFields, List.map_cons, List.map_nil, sanitize_scalar, sanitize_tuple]
  rw [sanitize_data repr rfl, collect_eq (by simp [exampleFields, strKey])]
  simp [sanitize_scalar, sanitize_enum, strKey]

/-- `C84_uncopied_lost`: a lock among the fields. -/
example : (Val.obj "<lock>" false).asdict = none := rfl

/-- `C84_unchanged`. -/
example : Plain (.dict [(strKey "a", .list [.scalar (.int 1) none])]) := by simp [Plain, PlainE, PlainL, strKey]

/-- `C85_defaults`. -/
example : let f : Field := { Field.plain (.cls "builtins" "int") with default := some (.scalar (.int 3) none) }
    [("x", Val.scalar (.int 3) none)].map (fun v => some v) = [f].map (fun f => f.initial.map fun v => (f.name, v)) := rfl

/-- `C85_hint_partial`. -/
example : (fieldMeta repr (.plain (.cls "builtins" "float"))).choices = none := rfl

end SettingsMeta
end Ez
