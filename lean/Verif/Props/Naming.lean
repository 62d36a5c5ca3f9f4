import Verif.Model.Naming
import Verif.Props.Classes

/-!
# C120: names of streams and components

Sources: see `Verif/Model/Naming.lean`.
-/

set_option linter.unusedSimpArgs false
set_option linter.unusedVariables false

namespace Ez
namespace Naming

open Classes (updateAll get?_updateAll updateAll_nodup)

/-! ## Specification -/

/-- The objects of a kind among fields, with their names. -/
def objects (k : Kind) (fs : List (String × Val)) : List (String × Obj) :=
  fs.filterMap fun x => match x.2 with
    | .obj k' o => if k' = k then some (x.1, o) else none
    | .plain => none

/-- The objects that a class statement gives names to: streams, and, for collections, components. -/
def ClassDef.given (d : ClassDef) : List (String × Obj) :=
  objects .stream d.own ++ if d.collection then objects .component d.own else []

/-- All objects that are given names by a program. -/
def given (ds : List ClassDef) : List (String × Obj) := ds.flatMap ClassDef.given

/-- Programs of Python: field names of a class are distinct, bases come before. -/
structure Valid (ds : List ClassDef) : Prop where
  own : ∀ d ∈ ds, (PyDict.keys d.own).Nodup
  bases : ∀ (c : Nat) (d : ClassDef), ds[c]? = some d → ∀ b ∈ d.bases, b < c

/-- The stream or component `n` of a class, as the tables have it. -/
def entry (w : World) (k : Kind) (c : Nat) (n : String) : Option Obj := (w.classes[c]?).bind fun x => PyDict.get? (x.dict k) n

/-- The field `n` of a class, if it is of the kind and the class looks for this kind. -/
def ownEntry (d : ClassDef) (k : Kind) (n : String) : Option Obj :=
  if k = .component ∧ d.collection = false then none
  else match PyDict.get? d.own n with
    | some (.obj k' o) => if k' = k then some o else none
    | _ => none

/-- The last of the values there are. -/
def lastSome : List (Option Obj) → Option Obj
  | [] => none
  | x :: xs => (lastSome xs).or x

/-- The attribute `n` of a class in a program where each class has at most one base: its own, else that of the base. -/
inductive Attr (ds : List ClassDef) (n : String) : Nat → Val → Prop where
  | own {c : Nat} {d : ClassDef} {v : Val} : ds[c]? = some d → PyDict.get? d.own n = some v → Attr ds n c v
  | base {c b : Nat} {d : ClassDef} {v : Val} : ds[c]? = some d → PyDict.get? d.own n = none → d.bases = [b] → Attr ds n b v → Attr ds n c v

/-! ## Lemmas -/

def swap (x : String × Obj) : Obj × String := (x.2, x.1)

theorem objects_cons_plain (k : Kind) (n : String) (fs : List (String × Val)) : objects k ((n, .plain) :: fs) = objects k fs := rfl

theorem objects_cons_obj (k k' : Kind) (n : String) (o : Obj) (fs : List (String × Val)) :
    objects k ((n, .obj k' o) :: fs) = if k' = k then (n, o) :: objects k fs else objects k fs := by
  unfold objects
  by_cases h : k' = k <;> simp [h]

theorem keys_swap (l : List (String × Obj)) : PyDict.keys (l.map swap) = l.map (·.2) := by
  simp [PyDict.keys, swap, Function.comp_def]

theorem keys_append {K V : Type} (a b : PyDict K V) : PyDict.keys (a ++ b) = PyDict.keys a ++ PyDict.keys b := by simp [PyDict.keys]

theorem fields_spec (k : Kind) : ∀ (fs : List (String × Val)) (ns : PyDict Obj String) (d : PyDict String Obj), (PyDict.keys ns).Nodup →
    fields k ns d fs = if (PyDict.keys ns ++ (objects k fs).map (·.2)).Nodup then some (ns ++ (objects k fs).map swap, updateAll d (objects k fs)) else none := by
  intro fs
  induction fs with
  | nil => intro ns d h; simp [fields, objects, updateAll, h]
  | cons x fs ih =>
    obtain ⟨n, v⟩ := x
    intro ns d h
    cases v with
    | plain => rw [objects_cons_plain]; exact ih ns d h
    | obj k' o =>
      rw [objects_cons_obj]
      by_cases hk : k' = k
      · simp only [fields, hk, if_true]
        unfold setName
        split
        · rename_i hs
          rw [if_neg]
          · rfl
          · rw [← PyDict.mem_keys] at hs
            intro hn
            rw [List.nodup_append] at hn
            exact hn.2.2 o hs o (by simp) rfl
        · rename_i hs
          have hs' : o ∉ PyDict.keys ns := by rw [PyDict.mem_keys]; exact hs
          have hn : (PyDict.keys (ns ++ [(o, n)])).Nodup := PyDict.nodup_snoc h hs
          simp only [Option.bind_some]
          rw [ih _ _ hn]
          simp only [keys_append, List.append_assoc, List.map_cons]
          have : PyDict.keys [(o, n)] ++ (objects k fs).map (·.2) = o :: (objects k fs).map (·.2) := rfl
          rw [this]
          simp [swap, updateAll]
      · simp only [fields, hk, if_false]
        exact ih ns d h

theorem make_spec (w : World) (d : ClassDef) (h : (PyDict.keys w.names).Nodup) :
    make w d = if (PyDict.keys w.names ++ d.given.map (·.2)).Nodup then
      some { names := w.names ++ d.given.map swap, classes := w.classes ++ [⟨updateAll (inherit .stream w.classes d.bases) (objects .stream d.own),
        if d.collection then updateAll (inherit .component w.classes d.bases) (objects .component d.own) else []⟩] }
      else none := by
  unfold make ClassDef.given
  rw [fields_spec _ _ _ _ h]
  cases hc : d.collection with
  | false => split <;> simp_all
  | true =>
    by_cases h1 : (PyDict.keys w.names ++ (objects .stream d.own).map (·.2)).Nodup
    · rw [if_pos h1]
      have h2 : (PyDict.keys (w.names ++ (objects .stream d.own).map swap)).Nodup := by rw [keys_append, keys_swap]; exact h1
      simp only [Option.bind_some, if_true]
      rw [fields_spec _ _ _ _ h2, keys_append, keys_swap]
      simp only [List.map_append, List.append_assoc]
      split <;> simp
    · rw [if_neg h1, if_neg]
      · rfl
      · intro h2
        apply h1
        simp only [if_true, List.map_append, ← List.append_assoc] at h2
        exact (List.nodup_append.1 h2).1

theorem define_spec : ∀ (ds : List ClassDef) (w : World), (PyDict.keys w.names).Nodup →
    (define w ds = none ↔ ¬ (PyDict.keys w.names ++ (given ds).map (·.2)).Nodup) ∧
    ∀ w', define w ds = some w' → w'.names = w.names ++ (given ds).map swap ∧ (PyDict.keys w'.names).Nodup := by
  intro ds
  induction ds with
  | nil =>
    intro w h
    refine ⟨by simp [define, given, h], ?_⟩
    intro w' e
    simp only [define, Option.some.injEq] at e
    subst e
    simp [given, h]
  | cons d ds ih =>
    intro w h
    have hg : given (d :: ds) = d.given ++ given ds := by simp [given]
    rw [hg]
    simp only [define]
    rw [make_spec w d h]
    by_cases h1 : (PyDict.keys w.names ++ d.given.map (·.2)).Nodup
    · rw [if_pos h1]
      simp only [Option.bind_some]
      obtain ⟨h3, h4⟩ := ih { names := w.names ++ d.given.map swap, classes := w.classes ++ [⟨updateAll (inherit .stream w.classes d.bases) (objects .stream d.own), if d.collection then updateAll (inherit .component w.classes d.bases) (objects .component d.own) else []⟩] } (by rw [keys_append, keys_swap]; exact h1)
      refine ⟨?_, ?_⟩
      · rw [h3]
        simp only [keys_append, keys_swap, List.map_append, List.append_assoc]
      · intro w' e
        obtain ⟨h5, h6⟩ := h4 w' e
        exact ⟨by rw [h5]; simp, h6⟩
    · rw [if_neg h1]
      refine ⟨by
        simp only [Option.bind_none, true_iff]
        intro h2
        apply h1
        simp only [List.map_append, ← List.append_assoc] at h2
        exact (List.nodup_append.1 h2).1, by intro w' e; simp at e⟩

theorem updateAll_mem {d e : PyDict String Obj} {x : String × Obj} (h : x ∈ updateAll d e) : x ∈ d ∨ x ∈ e := by
  unfold updateAll at h
  induction e generalizing d with
  | nil => exact .inl h
  | cons y e ih =>
    rcases ih h with h1 | h1
    · change x ∈ PyDict.set d y.1 y.2 at h1
      unfold PyDict.set at h1
      split at h1
      · unfold PyDict.modify at h1
        rw [List.mem_map] at h1
        obtain ⟨z, h2, h3⟩ := h1
        split at h3
        · rename_i he
          subst h3
          rw [he]
          exact .inr (by simp)
        · subst h3
          exact .inl h2
      · rw [List.mem_append, List.mem_singleton] at h1
        rcases h1 with h1 | h1
        · exact .inl h1
        · exact .inr (by rw [h1]; simp)
    · exact .inr (by simp [h1])

theorem inherit_mem {k : Kind} {cs : List Class} {x : String × Obj} : ∀ {bases : List Nat}, x ∈ inherit k cs bases → ∃ c ∈ cs, x ∈ c.dict k := by
  have key : ∀ (bases : List Nat) (d : PyDict String Obj), x ∈ bases.foldl (fun d b => updateAll d (((cs[b]?).getD {}).dict k)) d →
      x ∈ d ∨ ∃ c ∈ cs, x ∈ c.dict k := by
    intro bases
    induction bases with
    | nil => intro d h; exact .inl h
    | cons b bases ih =>
      intro d h
      rcases ih _ h with h1 | h1
      · rcases updateAll_mem h1 with h2 | h2
        · exact .inl h2
        · right
          cases hb : cs[b]? with
          | none => rw [hb] at h2; cases k <;> simp [Class.dict] at h2
          | some c =>
            rw [hb] at h2
            exact ⟨c, List.mem_of_getElem? hb, h2⟩
      · exact .inr h1
  intro bases h
  rcases key bases [] h with h1 | h1
  · cases h1
  · exact h1

theorem nodup_inherit (k : Kind) (cs : List Class) (bases : List Nat) : (PyDict.keys (inherit k cs bases)).Nodup := by
  unfold inherit
  have key : ∀ (bases : List Nat) (d : PyDict String Obj), (PyDict.keys d).Nodup →
      (PyDict.keys (bases.foldl (fun d b => updateAll d (((cs[b]?).getD {}).dict k)) d)).Nodup := by
    intro bases
    induction bases with
    | nil => intro d h; exact h
    | cons b bases ih => intro d h; exact ih _ (updateAll_nodup h)
  exact key _ _ (by simp [PyDict.keys])

/-- What holds of the world: objects in tables have the name they are listed under, tables and names have no key twice. -/
structure Inv (w : World) : Prop where
  nodup : (PyDict.keys w.names).Nodup
  listed : ∀ c ∈ w.classes, ∀ k, ∀ x ∈ c.dict k, (x.2, x.1) ∈ w.names
  tables : ∀ c ∈ w.classes, ∀ k, (PyDict.keys (c.dict k)).Nodup

theorem make_inv {w w' : World} {d : ClassDef} (h : Inv w) (hm : make w d = some w') : Inv w' ∧
    w'.classes = w.classes ++ [⟨updateAll (inherit .stream w.classes d.bases) (objects .stream d.own),
      if d.collection then updateAll (inherit .component w.classes d.bases) (objects .component d.own) else []⟩] := by
  rw [make_spec w d h.nodup] at hm
  split at hm
  · rename_i hn
    cases hm
    refine ⟨⟨by rw [keys_append, keys_swap]; exact hn, ?_, ?_⟩, rfl⟩
    · intro c hc k x hx
      simp only at hc ⊢
      rw [List.mem_append, List.mem_singleton] at hc
      rw [List.mem_append]
      rcases hc with hc | rfl
      · exact .inl (h.listed c hc k x hx)
      · have hx' : x ∈ inherit k w.classes d.bases ∨ x ∈ d.given := by
          cases k with
          | stream =>
            rcases updateAll_mem hx with h1 | h1
            · exact .inl h1
            · exact .inr (by simp [ClassDef.given, h1])
          | component =>
            simp only [Class.dict] at hx
            split at hx
            · rename_i hcol
              rcases updateAll_mem hx with h1 | h1
              · exact .inl h1
              · exact .inr (by simp [ClassDef.given, h1, hcol])
            · cases hx
        rcases hx' with h1 | h1
        · obtain ⟨c, hc, h2⟩ := inherit_mem h1
          exact .inl (h.listed c hc k x h2)
        · exact .inr (List.mem_map.2 ⟨x, h1, rfl⟩)
    · intro c hc k
      simp only at hc
      rw [List.mem_append, List.mem_singleton] at hc
      rcases hc with hc | rfl
      · exact h.tables c hc k
      · cases k with
        | stream => exact updateAll_nodup (nodup_inherit _ _ _)
        | component =>
          simp only [Class.dict]
          split
          · exact updateAll_nodup (nodup_inherit _ _ _)
          · simp [PyDict.keys]
  · cases hm

theorem define_inv : ∀ (ds : List ClassDef) (w w' : World), Inv w → define w ds = some w' → Inv w' := by
  intro ds
  induction ds with
  | nil => intro w w' h e; simp only [define, Option.some.injEq] at e; subst e; exact h
  | cons d ds ih =>
    intro w w' h e
    simp only [define, Option.bind_eq_some_iff] at e
    obtain ⟨w1, h1, h2⟩ := e
    exact ih w1 w' (make_inv h h1).1 h2

theorem inv_empty : Inv {} := ⟨by simp [PyDict.keys], by simp, by simp⟩

/-- Classes are made in turn. -/
theorem define_classes : ∀ (ds : List ClassDef) (w w' : World), Inv w → define w ds = some w' →
    w'.classes.length = w.classes.length + ds.length ∧ w'.classes.take w.classes.length = w.classes ∧
    ∀ (i : Nat) (d : ClassDef), ds[i]? = some d → w'.classes[w.classes.length + i]? =
      some ⟨updateAll (inherit .stream (w'.classes.take (w.classes.length + i)) d.bases) (objects .stream d.own),
        if d.collection then updateAll (inherit .component (w'.classes.take (w.classes.length + i)) d.bases) (objects .component d.own) else []⟩ := by
  intro ds
  induction ds with
  | nil => intro w w' h e; simp only [define, Option.some.injEq] at e; subst e; exact ⟨by simp, by simp, by simp⟩
  | cons d ds ih =>
    intro w w' h e
    simp only [define, Option.bind_eq_some_iff] at e
    obtain ⟨w1, h1, h2⟩ := e
    obtain ⟨hi, hc⟩ := make_inv h h1
    obtain ⟨h3, h4, h5⟩ := ih w1 w' hi h2
    have hl : w1.classes.length = w.classes.length + 1 := by rw [hc]; simp
    have h6 : w'.classes.take w.classes.length = w.classes := by
      have := congrArg (List.take w.classes.length) h4
      rw [List.take_take, hl, Nat.min_eq_left (by omega), hc] at this
      rw [this]; simp
    refine ⟨by rw [h3, hl]; simp; omega, h6, ?_⟩
    intro i d' hd
    cases i with
    | zero =>
      simp only [List.getElem?_cons_zero, Option.some.injEq] at hd
      subst hd
      have : w'.classes[w.classes.length]? = (w'.classes.take w1.classes.length)[w.classes.length]? := by
        rw [List.getElem?_take_of_lt (by omega)]
      simp only [Nat.add_zero]
      rw [this, h4, hc, h6]
      simp
    | succ i =>
      simp only [List.getElem?_cons_succ] at hd
      have := h5 i d' hd
      rw [hl] at this
      rw [show w.classes.length + (i + 1) = w.classes.length + 1 + i from by omega]
      exact this

theorem get?_inherit (k : Kind) (cs : List Class) (n : String) (ht : ∀ c ∈ cs, (PyDict.keys (c.dict k)).Nodup) (bases : List Nat) :
    PyDict.get? (inherit k cs bases) n = lastSome (bases.map fun b => (cs[b]?).bind fun x => PyDict.get? (x.dict k) n) := by
  unfold inherit
  have key : ∀ (bases : List Nat) (d : PyDict String Obj), PyDict.get? (bases.foldl (fun d b => updateAll d (((cs[b]?).getD {}).dict k)) d) n =
      (lastSome (bases.map fun b => (cs[b]?).bind fun x => PyDict.get? (x.dict k) n)).or (PyDict.get? d n) := by
    intro bases
    induction bases with
    | nil => intro d; simp [lastSome]
    | cons b bases ih =>
      intro d
      simp only [List.foldl_cons, List.map_cons, lastSome]
      rw [ih, Option.or_assoc]
      congr 1
      cases hb : cs[b]? with
      | none => cases k <;> simp [Class.dict, updateAll]
      | some c =>
        simp only [Option.getD_some, Option.bind_some]
        exact get?_updateAll (ht c (List.mem_of_getElem? hb)) n
  rw [key]
  simp [PyDict.get?_nil]

theorem keys_objects_nodup {k : Kind} : ∀ {fs : List (String × Val)}, (PyDict.keys fs).Nodup → (PyDict.keys (objects k fs)).Nodup ∧
    (∀ n, n ∈ PyDict.keys (objects k fs) → n ∈ PyDict.keys fs) ∧
    ∀ n, PyDict.get? (objects k fs) n = match PyDict.get? fs n with
      | some (.obj k' o) => if k' = k then some o else none
      | _ => none := by
  intro fs
  induction fs with
  | nil => intro _; simp [objects, PyDict.keys, PyDict.get?_nil]
  | cons x fs ih =>
    obtain ⟨m, v⟩ := x
    intro h
    have h' : m ∉ PyDict.keys fs ∧ (PyDict.keys fs).Nodup := by simpa [PyDict.keys] using h
    obtain ⟨i1, i2, i3⟩ := ih h'.2
    have hm : PyDict.get? fs m = none := PyDict.get?_eq_none.2 h'.1
    cases v with
    | plain =>
      rw [objects_cons_plain]
      refine ⟨i1, fun n hn => by simp only [PyDict.keys, List.map_cons, List.mem_cons]; exact .inr (i2 n hn), fun n => ?_⟩
      rw [i3, PyDict.get?_cons]
      by_cases e : m = n
      · subst e; simp [hm]
      · simp [e]
    | obj k' o =>
      rw [objects_cons_obj]
      by_cases hk : k' = k
      · simp only [hk, if_true]
        refine ⟨?_, ?_, fun n => ?_⟩
        · simp only [PyDict.keys, List.map_cons, List.nodup_cons]
          exact ⟨fun hx => h'.1 (i2 m hx), i1⟩
        · intro n hn
          simp only [PyDict.keys, List.map_cons, List.mem_cons] at hn ⊢
          exact hn.imp id (i2 n)
        · rw [PyDict.get?_cons, PyDict.get?_cons, i3]
          by_cases e : m = n <;> simp [e]
      · simp only [hk, if_false]
        refine ⟨i1, fun n hn => by simp only [PyDict.keys, List.map_cons, List.mem_cons]; exact .inr (i2 n hn), fun n => ?_⟩
        rw [i3, PyDict.get?_cons]
        by_cases e : m = n
        · subst e; simp [hm, hk]
        · simp [e]

theorem copies_spec (ns : PyDict Obj String) : ∀ (d : PyDict String Obj) (next : Nat) (memo : PyDict Obj Obj), (d.map (·.2)).Nodup →
    (∀ x ∈ d, x.2 ∉ PyDict.keys memo) →
    copies ns next memo d = ((d.zipIdx next).map fun x => (x.1.1, x.2, PyDict.get? ns x.1.2), next + d.length) := by
  intro d
  induction d with
  | nil => intro next memo _ _; rfl
  | cons x d ih =>
    obtain ⟨n, o⟩ := x
    intro next memo hn hm
    have ho : PyDict.get? memo o = none := PyDict.get?_eq_none.2 (hm (n, o) (by simp))
    simp only [List.map_cons, List.nodup_cons] at hn
    simp only [copies, ho]
    rw [ih (next + 1) _ hn.2 ?_]
    · simp [List.zipIdx_cons]; omega
    · intro y hy
      rw [keys_append, List.mem_append]
      rintro (h1 | h1)
      · exact hm y (by simp [hy]) h1
      · simp [PyDict.keys] at h1
        exact hn.1 (List.mem_map.2 ⟨y, hy, h1⟩)

theorem values_nodup {d : PyDict String Obj} (hk : (PyDict.keys d).Nodup) (hi : ∀ x ∈ d, ∀ y ∈ d, x.2 = y.2 → x.1 = y.1) : (d.map (·.2)).Nodup := by
  induction d with
  | nil => simp
  | cons x d ih =>
    simp only [PyDict.keys, List.map_cons, List.nodup_cons] at hk ⊢
    refine ⟨?_, ih hk.2 (fun a ha b hb => hi a (by simp [ha]) b (by simp [hb]))⟩
    intro h
    obtain ⟨y, hy, e⟩ := List.mem_map.1 h
    exact hk.1 (List.mem_map.2 ⟨y, hy, hi y (by simp [hy]) x (by simp) e⟩)

theorem fst_of_names {w : World} (h : Inv w) {o : Obj} {n m : String} (h1 : (o, n) ∈ w.names) (h2 : (o, m) ∈ w.names) : n = m := by
  have e1 := PyDict.get?_of_mem h.nodup h1
  have e2 := PyDict.get?_of_mem h.nodup h2
  rw [e1] at e2
  exact Option.some.inj e2

theorem class_values {w : World} (h : Inv w) {c : Class} (hc : c ∈ w.classes) (k : Kind) : ((c.dict k).map (·.2)).Nodup :=
  values_nodup (h.tables c hc k) fun x hx y hy e => fst_of_names h (h.listed c hc k x hx) (e ▸ h.listed c hc k y hy)

/-! ## Theorems -/

/-- C120: the class statements of a program raise exactly if one object would be given a name twice: it is a field of two classes, or two fields of one. -/
theorem C120_refused (ds : List ClassDef) : define {} ds = none ↔ ¬ ((given ds).map (·.2)).Nodup := by
  have := (define_spec ds {} (by simp [PyDict.keys])).1
  simpa [PyDict.keys] using this

/-- C120: otherwise the objects that were given names are those, with the names of their fields. -/
theorem C120_names {ds : List ClassDef} {w : World} (h : define {} ds = some w) {o : Obj} {n : String} :
    PyDict.get? w.names o = some n ↔ (n, o) ∈ given ds := by
  obtain ⟨h1, h2⟩ := (define_spec ds {} (by simp [PyDict.keys])).2 w h
  rw [← PyDict.mem_iff_get? h2, h1]
  simp only [List.nil_append, List.mem_map, swap, Prod.mk.injEq]
  constructor
  · rintro ⟨⟨a, b⟩, h3, rfl, rfl⟩; exact h3
  · intro h3; exact ⟨_, h3, rfl, rfl⟩

/-- C120: every stream and component of every class has the name it is listed under, also where it is inherited; so none is listed under two names. -/
theorem C120_listed {ds : List ClassDef} {w : World} (h : define {} ds = some w) {k : Kind} {c : Nat} {n : String} {o : Obj}
    (he : entry w k c n = some o) : PyDict.get? w.names o = some n ∧ ∀ k' c' n', entry w k' c' n' = some o → n' = n := by
  have hi := define_inv ds _ _ inv_empty h
  have key : ∀ {k c n}, entry w k c n = some o → (o, n) ∈ w.names := by
    intro k c n he
    unfold entry at he
    rw [Option.bind_eq_some_iff] at he
    obtain ⟨x, h1, h2⟩ := he
    exact hi.listed x (List.mem_of_getElem? h1) k (n, o) (PyDict.mem_of_get? h2)
  exact ⟨PyDict.get?_of_mem hi.nodup (key he), fun k' c' n' he' => fst_of_names hi (key he') (key he)⟩

/-- C120: what a class has under a name: its own field if that is of the kind, else what the last of its bases has that has something there. -/
theorem C120_table {ds : List ClassDef} {w : World} (v : Valid ds) (h : define {} ds = some w) {c : Nat} {d : ClassDef} (hd : ds[c]? = some d)
    (k : Kind) (hk : k = .component → d.collection = true) (n : String) :
    entry w k c n = (ownEntry d k n).or (lastSome (d.bases.map fun b => entry w k b n)) := by
  have hi := define_inv ds _ _ inv_empty h
  obtain ⟨h1, _, h3⟩ := define_classes ds _ _ inv_empty h
  simp only [List.length_nil, Nat.zero_add] at h1 h3
  have hc := h3 c d hd
  have hlt : c < w.classes.length := by rw [h1]; exact (List.getElem?_eq_some_iff.1 hd).1
  obtain ⟨o1, _, o3⟩ := keys_objects_nodup (k := k) (v.own d (List.mem_of_getElem? hd))
  have hb : PyDict.get? (inherit k (w.classes.take c) d.bases) n = lastSome (d.bases.map fun b => entry w k b n) := by
    rw [get?_inherit k _ n (fun x hx => hi.tables x (List.mem_of_mem_take hx) k)]
    congr 1
    refine List.map_congr_left fun b hb => ?_
    unfold entry
    rw [List.getElem?_take_of_lt (v.bases c d hd b hb)]
  unfold entry at hb ⊢
  rw [hc]
  have hn : ¬(k = .component ∧ d.collection = false) := by rintro ⟨e1, e2⟩; rw [hk e1] at e2; cases e2
  unfold ownEntry
  rw [if_neg hn]
  simp only [Option.bind_some]
  cases k with
  | stream => simp only [Class.dict]; rw [get?_updateAll o1, o3, hb]; rfl
  | component => simp only [Class.dict, hk rfl, if_true]; rw [get?_updateAll o1, o3, hb]; rfl

/-- C120: where every class has at most one base, and a field of that name is always of the kind and in a class that looks for it, the class has what Python's attribute is.
Missing: several bases (`C120_negation_bases`), and fields that are something else (`C120_negation_removed`). -/
theorem C120_attribute_partial {ds : List ClassDef} {w : World} (v : Valid ds) (h : define {} ds = some w) {k : Kind} {n : String}
    (hb : ∀ d ∈ ds, d.bases.length ≤ 1) (hk : ∀ d ∈ ds, k = .component → d.collection = true)
    (hf : ∀ d ∈ ds, ∀ x, PyDict.get? d.own n = some x → ∃ o, x = .obj k o) {c : Nat} (hc : c < ds.length) (o : Obj) :
    entry w k c n = some o ↔ Attr ds n c (.obj k o) := by
  induction c using Nat.strongRecOn with
  | ind c ih =>
    obtain ⟨d, hd⟩ : ∃ d, ds[c]? = some d := ⟨_, List.getElem?_eq_getElem hc⟩
    have hm := List.mem_of_getElem? hd
    rw [C120_table v h hd k (hk d hm) n]
    have hn : ¬(k = .component ∧ d.collection = false) := by rintro ⟨e1, e2⟩; rw [hk d hm e1] at e2; cases e2
    unfold ownEntry
    rw [if_neg hn]
    cases hg : PyDict.get? d.own n with
    | some x =>
      obtain ⟨o', rfl⟩ := hf d hm x hg
      simp only [if_true, Option.some_or, Option.some.injEq]
      constructor
      · rintro rfl; exact .own hd hg
      · intro ha
        cases ha with
        | own h1 h2 => rw [hd] at h1; cases h1; rw [hg] at h2; cases h2; rfl
        | base h1 h2 => rw [hd] at h1; cases h1; rw [hg] at h2; cases h2
    | none =>
      simp only [Option.none_or]
      match hbs : d.bases with
      | [] =>
        simp only [List.map_nil, lastSome]
        constructor
        · intro e; cases e
        · intro ha
          cases ha with
          | own h1 h2 => rw [hd] at h1; cases h1; rw [hg] at h2; cases h2
          | base h1 h2 h3 => rw [hd] at h1; cases h1; rw [hbs] at h3; cases h3
      | [b] =>
        have hlt : b < c := v.bases c d hd b (by rw [hbs]; simp)
        simp only [List.map_cons, List.map_nil, lastSome, Option.none_or]
        rw [ih b hlt (by omega)]
        constructor
        · intro ha; exact .base hd hg hbs ha
        · intro ha
          cases ha with
          | own h1 h2 => rw [hd] at h1; cases h1; rw [hg] at h2; cases h2
          | base h1 h2 h3 h4 => rw [hd] at h1; cases h1; rw [hbs] at h3; cases h3; exact h4
      | b :: b' :: bs =>
        have := hb d hm
        rw [hbs] at this
        simp at this

/-- The attributes of an instance of a kind. -/
def Inst.dict (i : Inst) : Kind → List (String × Obj × Option String)
  | .stream => i.streams
  | .component => i.components

/-- The objects of an instance. -/
def Inst.objects (i : Inst) : List Obj := (i.streams ++ i.components).map (·.2.1)

theorem instantiate_eq {w : World} (h : Inv w) {cl : Class} (hc : cl ∈ w.classes) (next : Nat) :
    instantiate w next cl = (⟨(cl.streams.zipIdx next).map fun x => (x.1.1, x.2, PyDict.get? w.names x.1.2),
      (cl.components.zipIdx (next + cl.streams.length)).map fun x => (x.1.1, x.2, PyDict.get? w.names x.1.2)⟩,
      next + cl.streams.length + cl.components.length) := by
  unfold instantiate
  rw [copies_spec w.names cl.streams next [] (class_values h hc .stream) (by simp [PyDict.keys])]
  simp only
  rw [copies_spec w.names cl.components _ [] (class_values h hc .component) (by simp [PyDict.keys])]

/-- C120: an instance has an attribute for every stream and component of its class; the object there has that name; the objects are new, and all different. -/
theorem C120_instance {ds : List ClassDef} {w : World} (h : define {} ds = some w) {c : Nat} {cl : Class} (hc : w.classes[c]? = some cl) (next : Nat) :
    (∀ k, ((instantiate w next cl).1.dict k).map (·.1) = PyDict.keys (cl.dict k)) ∧
      (∀ k, ∀ x ∈ (instantiate w next cl).1.dict k, x.2.2 = some x.1) ∧
      (instantiate w next cl).1.objects.Nodup ∧
      ∀ o ∈ (instantiate w next cl).1.objects, next ≤ o ∧ o < (instantiate w next cl).2 := by
  have hi := define_inv ds _ _ inv_empty h
  have hm := List.mem_of_getElem? hc
  rw [instantiate_eq hi hm]
  have hz : ∀ (d : PyDict String Obj) (i : Nat), (d.zipIdx i).map (fun x => x.1.1) = PyDict.keys d := by
    intro d
    induction d with
    | nil => intro i; rfl
    | cons x d ih => intro i; simp [List.zipIdx_cons, PyDict.keys, ih, Function.comp_def]
  have hr : ∀ (d : PyDict String Obj) (i : Nat), (d.zipIdx i).map (fun x => x.2) = List.range' i d.length := by
    intro d
    induction d with
    | nil => intro i; rfl
    | cons x d ih => intro i; simp [List.zipIdx_cons, ih, List.range'_succ]
  have hname : ∀ k, ∀ (i : Nat), ∀ x ∈ ((cl.dict k).zipIdx i).map (fun x => (x.1.1, x.2, PyDict.get? w.names x.1.2)), x.2.2 = some x.1 := by
    intro k i x hx
    rw [List.mem_map] at hx
    obtain ⟨y, hy, rfl⟩ := hx
    have hy' : y.1 ∈ cl.dict k := by
      obtain ⟨a, b⟩ := y
      rw [List.mem_zipIdx_iff_le_and_getElem?_sub] at hy
      exact List.mem_of_getElem? hy.2
    exact PyDict.get?_of_mem hi.nodup (hi.listed cl hm k y.1 hy')
  have ho : (Inst.mk ((cl.streams.zipIdx next).map fun x => (x.1.1, x.2, PyDict.get? w.names x.1.2))
      ((cl.components.zipIdx (next + cl.streams.length)).map fun x => (x.1.1, x.2, PyDict.get? w.names x.1.2))).objects =
      List.range' next (cl.streams.length + cl.components.length) := by
    simp only [Inst.objects, List.map_append, List.map_map, Function.comp_def]
    rw [hr, hr, List.range'_append_1]
  refine ⟨fun k => ?_, fun k => ?_, ?_, ?_⟩
  · cases k <;> simp only [Inst.dict, List.map_map, Function.comp_def, Class.dict] <;> exact hz _ _
  · cases k
    · exact hname .stream _
    · exact hname .component _
  · rw [ho]; exact List.nodup_range'
  · rw [ho]
    intro o h1
    rw [List.mem_range'_1] at h1
    refine ⟨h1.1, ?_⟩
    exact Nat.lt_of_lt_of_eq h1.2 (Nat.add_assoc _ _ _).symm

/-- C120: so two instances, of one class or of two, share no object. -/
theorem C120_apart {ds : List ClassDef} {w : World} (h : define {} ds = some w) {c c' : Nat} {cl cl' : Class} (hc : w.classes[c]? = some cl)
    (hc' : w.classes[c']? = some cl') (next : Nat) {o : Obj} (ho : o ∈ (instantiate w next cl).1.objects) :
    o ∉ (instantiate w (instantiate w next cl).2 cl').1.objects := by
  intro h2
  have h3 := (C120_instance h hc next).2.2.2 o ho
  have h4 := (C120_instance h hc' (instantiate w next cl).2).2.2.2 o h2
  exact Nat.lt_irrefl _ (Nat.lt_of_lt_of_le h3.2 h4.1)

theorem setup_spec : ∀ (cs : List (String × Obj)) (ns : PyDict Obj String), (PyDict.keys ns).Nodup →
    setup ns cs = if (PyDict.keys ns ++ cs.map (·.2)).Nodup then some (ns ++ cs.map swap) else none := by
  intro cs
  induction cs with
  | nil => intro ns h; simp [setup, h]
  | cons x cs ih =>
    obtain ⟨n, o⟩ := x
    intro ns h
    simp only [setup, setName]
    split
    · rename_i hs
      rw [← PyDict.mem_keys] at hs
      rw [if_neg]
      · rfl
      · intro hn
        rw [List.nodup_append] at hn
        exact hn.2.2 o hs o (by simp) rfl
    · rename_i hs
      have hn : (PyDict.keys (ns ++ [(o, n)])).Nodup := PyDict.nodup_snoc h hs
      simp only [Option.bind_some]
      rw [ih _ hn]
      have e : PyDict.keys (ns ++ [(o, n)]) ++ cs.map (·.2) = PyDict.keys ns ++ ((n, o) :: cs).map (·.2) := by
        rw [keys_append, List.append_assoc]; rfl
      rw [e]
      simp [swap]

/-- C120: components can be run under the names they are given exactly if they are different and none has a name; then they have these. -/
theorem C120_run {ns : PyDict Obj String} (h : (PyDict.keys ns).Nodup) (cs : List (String × Obj)) :
    (setup ns cs = none ↔ ¬ ((cs.map (·.2)).Nodup ∧ ∀ x ∈ cs, PyDict.get? ns x.2 = none)) ∧
      ∀ ns', setup ns cs = some ns' → ∀ x ∈ cs, PyDict.get? ns' x.2 = some x.1 := by
  rw [setup_spec cs ns h]
  have hiff : (PyDict.keys ns ++ cs.map (·.2)).Nodup ↔ ((cs.map (·.2)).Nodup ∧ ∀ x ∈ cs, PyDict.get? ns x.2 = none) := by
    rw [List.nodup_append]
    constructor
    · rintro ⟨_, h2, h3⟩
      exact ⟨h2, fun x hx => PyDict.get?_eq_none.2 fun hk => h3 _ hk _ (List.mem_map.2 ⟨x, hx, rfl⟩) rfl⟩
    · rintro ⟨h2, h3⟩
      refine ⟨h, h2, fun a ha b hb e => ?_⟩
      obtain ⟨x, hx, rfl⟩ := List.mem_map.1 hb
      subst e
      exact PyDict.get?_eq_none.1 (h3 x hx) ha
  by_cases hn : (PyDict.keys ns ++ cs.map (·.2)).Nodup
  · rw [if_pos hn]
    refine ⟨by rw [← hiff]; simp [hn], ?_⟩
    intro ns' e x hx
    cases e
    refine PyDict.get?_of_mem (by rw [keys_append, keys_swap]; exact hn) ?_
    rw [List.mem_append]
    exact .inr (List.mem_map.2 ⟨x, hx, rfl⟩)
  · rw [if_neg hn]
    exact ⟨by rw [← hiff]; simp [hn], by intro ns' e; cases e⟩

/-- C120: components that were run cannot be run again, under whatever names. -/
theorem C120_run_once {ns ns' : PyDict Obj String} (h : (PyDict.keys ns).Nodup) {cs cs' : List (String × Obj)} (hs : setup ns cs = some ns')
    {x y : String × Obj} (hx : x ∈ cs) (hy : y ∈ cs') (e : x.2 = y.2) : setup ns' cs' = none := by
  have hn : (PyDict.keys ns').Nodup := by
    rw [setup_spec cs ns h] at hs
    split at hs
    · rename_i hn
      cases hs
      rw [keys_append, keys_swap]
      exact hn
    · cases hs
  rw [(C120_run hn cs').1]
  rintro ⟨_, h2⟩
  have := (C120_run h cs).2 ns' hs x hx
  rw [e, h2 y hy] at this
  cases this

/-- C120 fails: two bases have a component of one name; Python takes the first base's, the class the last one's. -/
def twoBases : List ClassDef := [{ own := [("U", .obj .component 1)] }, { own := [("U", .obj .component 2)] }, { bases := [0, 1] }]

theorem C120_negation_bases : ∃ w, Valid twoBases ∧ define {} twoBases = some w ∧ entry w .component 0 "U" = some 1 ∧ entry w .component 2 "U" = some 2 := by
  refine ⟨_, ⟨by decide, ?_⟩, rfl, rfl, rfl⟩
  intro c d hd b hb
  match c, hd with
  | 0, hd => cases hd; cases hb
  | 1, hd => cases hd; cases hb
  | 2, hd => cases hd; simp at hb; omega
  | c + 3, hd => cases hd

/-- C120 fails: a class cannot take away a component of its base: `U = None` is ignored. -/
def removed : List ClassDef := [{ own := [("U", .obj .component 1)] }, { bases := [0], own := [("U", .plain)] }]

theorem C120_negation_removed : ∃ w, Valid removed ∧ define {} removed = some w ∧ Attr removed "U" 1 .plain ∧ entry w .component 1 "U" = some 1 ∧
    ∀ cl, w.classes[1]? = some cl → (instantiate w 10 cl).1.components = [("U", 10, some "U")] := by
  refine ⟨_, ⟨by decide, ?_⟩, rfl, .own rfl rfl, rfl, ?_⟩
  · intro c d hd b hb
    match c, hd with
    | 0, hd => cases hd; cases hb
    | 1, hd => cases hd; simp at hb; omega
    | c + 2, hd => cases hd
  · intro cl hc
    cases hc
    rfl

/-! ## Examples -/

/-- A unit with two streams, a collection with two components and a topic, and one derived from it with another component. -/
def program : List ClassDef :=
  [{ collection := false, own := [("IN", .obj .stream 1), ("OUT", .obj .stream 2)] },
   { own := [("T", .obj .stream 3), ("A", .obj .component 4), ("B", .obj .component 5)] },
   { bases := [1], own := [("B", .obj .component 6), ("C", .obj .component 7)] }]

example : ((define {} program).map fun w => w.classes.map fun c => (c.streams, c.components)) =
    some [([("IN", 1), ("OUT", 2)], []), ([("T", 3)], [("A", 4), ("B", 5)]), ([("T", 3)], [("A", 4), ("B", 6), ("C", 7)])] := by decide +kernel

example : ((define {} program).bind fun w => (w.classes[2]?).map fun c => (instantiate w 10 c).1.components) =
    some [("A", 11, some "A"), ("B", 12, some "B"), ("C", 13, some "C")] := by decide +kernel

/-- One unit in two collections. -/
example : define {} [{ own := [("A", .obj .component 1)] }, { own := [("B", .obj .component 1)] }] = none := by
  rw [C120_refused]; decide

example : setup [] [("A", 1), ("B", 2)] = some [(1, "A"), (2, "B")] ∧ setup [(1, "A"), (2, "B")] [("C", 2)] = none := by decide

end Naming
end Ez
