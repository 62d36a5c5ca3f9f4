import Verif.Model.Equality
import Verif.Lemmas.Py

/-!
# C86, C87: when messages are equal, and what a linear axis finds

Specification: the content of a message, independent of `==` (`Same`), and what is compared (`Like`).
-/

set_option linter.unusedSectionVars false
set_option linter.unusedSimpArgs false

namespace Ez
namespace Equality

open AA

/-! ## Specification -/

/-- `ix` is a position in an array of this shape. -/
def InShape : List Nat → List Nat → Prop
  | [], [] => True
  | i :: ix, n :: s => i < n ∧ InShape ix s
  | _, _ => False

/-- The same shape, and the same element at every position. -/
def SameArr {α : Type} (a b : NArr α) : Prop :=
  a.shape = b.shape ∧ ∀ ix, InShape ix a.shape → a.get ix = b.get ix

/-- Axes with the same content. -/
def SameAx {R : Type} : Ax R → Ax R → Prop
  | .linear c u g o, .linear c' u' g' o' => c = c' ∧ u = u' ∧ g = g' ∧ o = o'
  | .coord u d ds, .coord u' d' ds' => u = u' ∧ SameArr d d' ∧ ds = ds'
  | _, _ => False

/-- Axes with the same content, where of a coordinate axis only the unit matters. -/
def LikeAx {R : Type} : Ax R → Ax R → Prop
  | .linear c u g o, .linear c' u' g' o' => c = c' ∧ u = u' ∧ g = g' ∧ o = o'
  | .coord u _ _, .coord u' _ _ => u = u'
  | _, _ => False

/-- The same names, with related values. -/
def SameDict {V : Type} (rel : V → V → Prop) (a b : PyDict String (Obj V)) : Prop :=
  ∀ k, match a.get? k, b.get? k with
    | none, none => True
    | some v, some w => rel v.val w.val
    | _, _ => False

/-- Messages of the same class with the same data, dimensions, key, attributes, and with axes related by `rel`. -/
structure Alike {α R : Type} (rel : Ax R → Ax R → Prop) (a b : Msg α R) : Prop where
  cls : a.cls = b.cls
  dims : a.dims = b.dims
  data : SameArr a.data b.data
  key : a.key = b.key
  attrs : SameDict (· = ·) a.attrs b.attrs
  axes : SameDict rel a.axes b.axes

/-- Messages with the same content. -/
abbrev Same {α R : Type} (a b : Msg α R) : Prop := Alike SameAx a b

/-- Messages with the same content but for the values of coordinate axes. -/
abbrev Like {α R : Type} (a b : Msg α R) : Prop := Alike LikeAx a b

/-- Objects with the same identity have the same content. -/
def Honest {V : Type} (a b : PyDict String (Obj V)) : Prop :=
  ∀ k l v w, (k, v) ∈ a → (l, w) ∈ b → v.id = w.id → v.val = w.val

/-- The names in a dictionary are distinct. -/
def Distinct {V : Type} (a : PyDict String V) : Prop := (PyDict.keys a).Nodup

/-- Two messages as they may occur in a program. -/
structure Ok {α R : Type} (a b : Obj (Msg α R)) : Prop where
  same : a.id = b.id → a.val = b.val
  attrs : Honest a.val.attrs b.val.attrs
  axes : Honest a.val.axes b.val.axes
  da : Distinct a.val.attrs
  db : Distinct b.val.attrs
  xa : Distinct a.val.axes
  xb : Distinct b.val.axes

/-- The attribute is a string or an array of one element. -/
def Attr.Plain {R : Type} : Attr R → Prop
  | .str _ => True
  | .array xs => xs.length = 1

/-- All attributes are plain. -/
def Msg.Plain {α R : Type} (m : Msg α R) : Prop := ∀ k v, (k, v) ∈ m.attrs → v.val.Plain

/-- The message has no coordinate axis. -/
def Msg.Linear {α R : Type} (m : Msg α R) : Prop := ∀ k v u d ds, (k, v) ∈ m.axes → v.val ≠ .coord u d ds

/-! ## Lemmas -/

theorem mem_indices : ∀ {s ix : List Nat}, ix ∈ indices s ↔ InShape ix s
  | [], [] => by simp [indices, InShape]
  | [], _ :: _ => by simp [indices, InShape]
  | _ :: _, [] => by simp [indices, InShape]
  | n :: s, i :: ix => by simp [indices, InShape, mem_indices (s := s) (ix := ix)]

section
variable {α R : Type} [BEq α] [LawfulBEq α] [BEq R] [LawfulBEq R]

theorem arrayEqual_iff {a b : NArr α} : arrayEqual a b = true ↔ SameArr a b := by
  simp [arrayEqual, SameArr, mem_indices]

theorem axesEqual_ok (a b : Obj (Ax R)) (h : a.id ≠ b.id) :
    ∃ r, axesEqual a b = .ok r ∧ (r = true ↔ LikeAx a.val b.val) := by
  obtain ⟨i, a⟩ := a
  obtain ⟨j, b⟩ := b
  simp only [ne_eq] at h
  cases a with
  | linear c u g o =>
    cases b with
    | linear c' u' g' o' =>
      by_cases hc : c = c'
      · exact ⟨u == u' && g == g' && o == o', by simp [axesEqual, axEq, pyEq, hc], by simp [LikeAx, hc, and_assoc]⟩
      · exact ⟨false, by simp [axesEqual, axEq, pyEq, hc, Ne.symm hc, h], by simp [LikeAx, hc]⟩
    | coord u' d' ds' => exact ⟨false, by simp [axesEqual, axEq, pyEq, h], by simp [LikeAx]⟩
  | coord u d ds =>
    cases b with
    | linear c' u' g' o' => exact ⟨false, by simp [axesEqual, axEq, pyEq, h], by simp [LikeAx]⟩
    | coord u' d' ds' => exact ⟨u == u', by simp [axesEqual, axEq, pyEq], by simp [LikeAx]⟩

theorem attrsEqual_ok (a b : Obj (Attr R)) (ha : a.val.Plain) (hb : b.val.Plain) :
    ∃ r, attrsEqual a b = .ok r ∧ (r = true ↔ a.val = b.val) := by
  obtain ⟨i, a⟩ := a
  obtain ⟨j, b⟩ := b
  simp only at ha hb
  cases a with
  | str s =>
    cases b with
    | str t => exact ⟨_, rfl, by simp⟩
    | array ys =>
      match ys, hb with
      | [y], _ => exact ⟨false, rfl, by simp⟩
  | array xs =>
    match xs, ha with
    | [x], _ =>
      cases b with
      | str t => exact ⟨false, rfl, by simp⟩
      | array ys =>
        match ys, hb with
        | [y], _ => exact ⟨_, rfl, by simp⟩

theorem likeAx_refl (a : Ax R) : LikeAx a a := by cases a <;> simp [LikeAx]

theorem dictLoop_ok {V : Type} {eqv : Obj V → Obj V → Except Err Bool} {rel : V → V → Prop} {b : PyDict String (Obj V)}
    (hr : ∀ v, rel v v) :
    ∀ (l : List (String × Obj V)),
      (∀ k v, (k, v) ∈ l → ∀ w, b.get? k = some w → v.id = w.id → v.val = w.val) →
      (∀ k v, (k, v) ∈ l → ∀ w, b.get? k = some w → v.id ≠ w.id →
        ∃ r, eqv v w = .ok r ∧ (r = true ↔ rel v.val w.val)) →
      ∃ r, dictLoop eqv b l = .ok r ∧
        (r = true ↔ ∀ k v, (k, v) ∈ l → ∃ w, b.get? k = some w ∧ rel v.val w.val)
  | [], _, _ => ⟨true, rfl, by simp⟩
  | (k, v) :: t, h1, h2 => by
    have ih := dictLoop_ok (eqv := eqv) hr t (fun k' v' h => h1 k' v' (List.mem_cons_of_mem _ h))
      (fun k' v' h => h2 k' v' (List.mem_cons_of_mem _ h))
    obtain ⟨r, hr1, hr2⟩ := ih
    cases hb : b.get? k with
    | none =>
      refine ⟨false, by simp [dictLoop, hb], ?_⟩
      simp only [Bool.false_eq_true, false_iff]
      intro h
      obtain ⟨w, hw, _⟩ := h k v (List.mem_cons_self ..)
      simp [hb] at hw
    | some w =>
      by_cases hi : v.id = w.id
      · refine ⟨r, by simp [dictLoop, hb, hi, hr1], ?_⟩
        rw [hr2]
        have e := h1 k v (List.mem_cons_self ..) w hb hi
        constructor
        · intro h k' v' hm
          rcases List.mem_cons.1 hm with hm | hm
          · injection hm with e1 e2; subst e1 e2
            exact ⟨w, hb, by rw [e]; exact hr _⟩
          · exact h k' v' hm
        · intro h k' v' hm
          exact h k' v' (List.mem_cons_of_mem _ hm)
      · obtain ⟨q, hq1, hq2⟩ := h2 k v (List.mem_cons_self ..) w hb hi
        cases q with
        | true =>
          refine ⟨r, by simp [dictLoop, hb, hi, hr1, hq1], ?_⟩
          rw [hr2]
          constructor
          · intro h k' v' hm
            rcases List.mem_cons.1 hm with hm | hm
            · injection hm with e1 e2; subst e1 e2
              exact ⟨w, hb, hq2.1 rfl⟩
            · exact h k' v' hm
          · intro h k' v' hm
            exact h k' v' (List.mem_cons_of_mem _ hm)
        | false =>
          refine ⟨false, by simp [dictLoop, hb, hi, hq1], ?_⟩
          simp only [Bool.false_eq_true, false_iff]
          intro h
          obtain ⟨w', hw, hr'⟩ := h k v (List.mem_cons_self ..)
          rw [hb] at hw
          cases hw
          exact absurd (hq2.2 hr') (by simp)

theorem len_le {l ss : List String} (hl : l.Nodup) (h : ∀ x ∈ l, x ∈ ss) : l.length ≤ ss.length := by
  induction l generalizing ss with
  | nil => simp
  | cons a l ih =>
    obtain ⟨ha, hl⟩ := List.nodup_cons.1 hl
    have hm := h a (List.mem_cons_self ..)
    have := ih (ss := ss.erase a) hl (by
      intro x hx
      refine (List.mem_erase_of_ne ?_).2 (h x (List.mem_cons_of_mem _ hx))
      intro e; exact ha (e ▸ hx))
    rw [List.length_erase_of_mem hm] at this
    have : 0 < ss.length := List.length_pos_of_mem hm
    simp only [List.length_cons]
    omega

/-- Dictionaries with distinct names: as many names, all of them in the other one. -/
theorem sameDict_iff {V : Type} {rel : V → V → Prop} {a b : PyDict String (Obj V)} (ha : Distinct a) (hb : Distinct b) :
    SameDict rel a b ↔
      a.length = b.length ∧ ∀ k v, (k, v) ∈ a → ∃ w, b.get? k = some w ∧ rel v.val w.val := by
  have lk : ∀ {d : PyDict String (Obj V)}, (PyDict.keys d).length = d.length := by
    intro d; simp [PyDict.keys]
  constructor
  · intro h
    have hab : ∀ k, k ∈ PyDict.keys a ↔ k ∈ PyDict.keys b := by
      intro k
      have := h k
      rw [PyDict.mem_keys, PyDict.mem_keys]
      cases e1 : PyDict.get? a k <;> cases e2 : PyDict.get? b k <;> simp [e1, e2] at this ⊢
    refine ⟨?_, ?_⟩
    · rw [← lk, ← lk]
      exact (List.perm_ext_iff_of_nodup ha hb |>.2 hab).length_eq
    · intro k v hm
      have hg := PyDict.get?_of_mem ha hm
      have := h k
      rw [hg] at this
      cases e2 : PyDict.get? b k with
      | none => simp [e2] at this
      | some w => exact ⟨w, rfl, by simpa [e2] using this⟩
  · rintro ⟨hl, h⟩ k
    have hsub : PyDict.keys a ⊆ PyDict.keys b := by
      intro x hx
      rw [PyDict.mem_keys] at hx ⊢
      obtain ⟨v, hv⟩ := Option.isSome_iff_exists.1 hx
      obtain ⟨w, hw, _⟩ := h x v (PyDict.mem_of_get? hv)
      simp [hw]
    have hp : ∀ x, x ∈ PyDict.keys b → x ∈ PyDict.keys a := by
      intro x hx
      apply Classical.byContradiction
      intro hn
      have := len_le (l := x :: PyDict.keys a) (ss := PyDict.keys b) (List.nodup_cons.2 ⟨hn, ha⟩)
        (by
          intro y hy
          rcases List.mem_cons.1 hy with rfl | hy
          · exact hx
          · exact hsub hy)
      simp only [List.length_cons, lk] at this
      omega
    cases e1 : PyDict.get? a k with
    | none =>
      have : k ∉ PyDict.keys b := fun hx => PyDict.get?_eq_none.1 e1 (hp k hx)
      simp [PyDict.get?_eq_none.2 this]
    | some v =>
      obtain ⟨w, hw, hr⟩ := h k v (PyDict.mem_of_get? e1)
      simp [hw, hr]

theorem dictEqual_ok {V : Type} {eqv : Obj V → Obj V → Except Err Bool} {rel : V → V → Prop} {a b : PyDict String (Obj V)}
    (ha : Distinct a) (hb : Distinct b) (hr : ∀ v, rel v v) (h1 : Honest a b)
    (h2 : ∀ k l v w, (k, v) ∈ a → (l, w) ∈ b → v.id ≠ w.id → ∃ r, eqv v w = .ok r ∧ (r = true ↔ rel v.val w.val)) :
    ∃ r, dictEqual eqv a b = .ok r ∧ (r = true ↔ SameDict rel a b) := by
  rw [sameDict_iff ha hb]
  by_cases hl : a.length = b.length
  · obtain ⟨r, hr1, hr2⟩ := dictLoop_ok (eqv := eqv) (b := b) hr a
      (fun k v hm w hw => h1 k k v w hm (PyDict.mem_of_get? hw))
      (fun k v hm w hw => h2 k k v w hm (PyDict.mem_of_get? hw))
    exact ⟨r, by rw [dictEqual, if_pos hl, hr1], by rw [hr2]; simp [hl]⟩
  · exact ⟨false, by rw [dictEqual, if_neg hl], by simp [hl]⟩

theorem namedDims_iff {a b : Obj (Msg α R)} (h : a.id = b.id → a.val = b.val) :
    namedDimsEq a b = true ↔ a.val.cls = b.val.cls ∧ a.val.dims = b.val.dims ∧ SameArr a.val.data b.val.data := by
  simp only [namedDimsEq, Bool.or_eq_true, Bool.and_eq_true, decide_eq_true_eq, arrayEqual_iff]
  constructor
  · rintro (h' | h')
    · rw [h h']; simp [SameArr]
    · exact h'
  · exact Or.inr

theorem sameArr_symm {a b : NArr α} (h : SameArr a b) : SameArr b a :=
  ⟨h.1.symm, fun ix hi => (h.2 ix (h.1 ▸ hi)).symm⟩

theorem namedDims_symm {a b : Obj (Msg α R)} (h : a.id = b.id → a.val = b.val) :
    namedDimsEq b a = namedDimsEq a b := by
  rw [Bool.eq_iff_iff, namedDims_iff h, namedDims_iff (fun e => (h e.symm).symm)]
  constructor <;> rintro ⟨h1, h2, h3⟩ <;> exact ⟨h1.symm, h2.symm, sameArr_symm h3⟩

/-! ## Theorems -/

/-- C86: comparing messages with plain attributes gives an answer, and they are equal exactly if they have the
same class, data, dimensions, key, attributes and axes, where of a coordinate axis only the unit matters. -/
theorem C86_equal (a b : Obj (Msg α R)) (ok : Ok a b) (ha : a.val.Plain) (hb : b.val.Plain) :
    ∃ r, messagesEqual a b = .ok r ∧ (r = true ↔ Like a.val b.val) := by
  by_cases hn : namedDimsEq a b = true
  · have hn' := (namedDims_iff ok.same).1 hn
    by_cases hk : a.val.key = b.val.key
    · obtain ⟨r, h1, h2⟩ := dictEqual_ok (eqv := attrsEqual) (rel := (· = ·)) ok.da ok.db (fun _ => rfl) ok.attrs
        (fun k l v w hv hw _ => attrsEqual_ok v w (ha k v hv) (hb l w hw))
      obtain ⟨q, h3, h4⟩ := dictEqual_ok (eqv := axesEqual) (rel := LikeAx) ok.xa ok.xb likeAx_refl ok.axes
        (fun k l v w _ _ hi => axesEqual_ok v w hi)
      cases r with
      | false =>
        refine ⟨false, by simp [messagesEqual, msgEq, pyEq, hn, hk, h1], ?_⟩
        simp only [Bool.false_eq_true, false_iff] at h2 ⊢
        exact fun h => h2 h.attrs
      | true =>
        refine ⟨q, by cases q <;> simp [messagesEqual, msgEq, pyEq, hn, hk, h1, h3], ?_⟩
        rw [h4]
        exact ⟨fun h => ⟨hn'.1, hn'.2.1, hn'.2.2, hk, h2.1 rfl, h⟩, fun h => h.axes⟩
    · refine ⟨false, by simp [messagesEqual, msgEq, pyEq, hn, hk], ?_⟩
      simp only [Bool.false_eq_true, false_iff]
      exact fun h => hk h.key
  · have hn2 : ¬ (namedDimsEq b a = true) := by rw [namedDims_symm ok.same]; exact hn
    have hi : a.id ≠ b.id := by
      intro h; apply hn; simp [namedDimsEq, h]
    refine ⟨false, by simp [messagesEqual, msgEq, pyEq, hn, hn2, hi], ?_⟩
    simp only [Bool.false_eq_true, false_iff]
    exact fun h => hn ((namedDims_iff ok.same).2 ⟨h.cls, h.dims, h.data⟩)

theorem sameAx_like {a b : Ax R} (h : SameAx a b) : LikeAx a b := by
  cases a <;> cases b <;> simp_all [SameAx, LikeAx]

theorem sameDict_mono {V : Type} {p q : V → V → Prop} {a b : PyDict String (Obj V)} (hp : SameDict p a b)
    (h : ∀ k v w, a.get? k = some v → b.get? k = some w → p v.val w.val → q v.val w.val) : SameDict q a b := by
  intro k
  have := hp k
  cases e1 : PyDict.get? a k <;> cases e2 : PyDict.get? b k <;> simp only [e1, e2] at this ⊢
  exact h _ _ _ e1 e2 this

/-- C86: messages with the same content and plain attributes compare equal. -/
theorem C86_same (a b : Obj (Msg α R)) (ok : Ok a b) (ha : a.val.Plain) (hb : b.val.Plain) (h : Same a.val b.val) :
    messagesEqual a b = .ok true := by
  obtain ⟨r, h1, h2⟩ := C86_equal a b ok ha hb
  rw [h1, h2.2 ⟨h.cls, h.dims, h.data, h.key, h.attrs, sameDict_mono h.axes (fun _ _ _ _ _ h => sameAx_like h)⟩]

/-- C86, partial: messages without coordinate axes and with plain attributes are equal exactly if they have the
same content. Missing: messages with coordinate axes (`C86_coordinates_ignored`) and attributes that hold
arrays (`C86_attrs_raise`). -/
theorem C86_equal_partial (a b : Obj (Msg α R)) (ok : Ok a b) (ha : a.val.Plain) (hb : b.val.Plain)
    (hl : a.val.Linear ∨ b.val.Linear) :
    ∃ r, messagesEqual a b = .ok r ∧ (r = true ↔ Same a.val b.val) := by
  obtain ⟨r, h1, h2⟩ := C86_equal a b ok ha hb
  refine ⟨r, h1, h2.trans ⟨fun h => ⟨h.cls, h.dims, h.data, h.key, h.attrs, sameDict_mono h.axes ?_⟩, fun h =>
    ⟨h.cls, h.dims, h.data, h.key, h.attrs, sameDict_mono h.axes (fun _ _ _ _ _ h => sameAx_like h)⟩⟩⟩
  intro k v w hv hw hlike
  cases e1 : v.val with
  | linear c u g o => cases e2 : w.val <;> simp_all [LikeAx, SameAx]
  | coord u d ds =>
    cases e2 : w.val with
    | linear c u g o => simp [e1, e2, LikeAx] at hlike
    | coord u' d' ds' =>
      rcases hl with hl | hl
      · exact absurd e1 (hl k v u d ds (PyDict.mem_of_get? hv))
      · exact absurd e2 (hl k w u' d' ds' (PyDict.mem_of_get? hw))

/-- C86: equality does not depend on the order. -/
theorem C86_symmetric (a b : Obj (Msg α R)) (ok : Ok a b) (ok' : Ok b a) (ha : a.val.Plain) (hb : b.val.Plain) :
    messagesEqual a b = messagesEqual b a := by
  obtain ⟨r, h1, h2⟩ := C86_equal a b ok ha hb
  obtain ⟨q, h3, h4⟩ := C86_equal b a ok' hb ha
  have sym : ∀ {x y : Msg α R}, Like x y → Like y x := by
    intro x y h
    refine ⟨h.cls.symm, h.dims.symm, sameArr_symm h.data, h.key.symm, ?_, ?_⟩
    · intro k
      have := h.attrs k
      cases e1 : PyDict.get? x.attrs k <;> cases e2 : PyDict.get? y.attrs k <;> simp_all
    · intro k
      have := h.axes k
      cases e1 : PyDict.get? x.axes k <;> cases e2 : PyDict.get? y.axes k <;> simp only [e1, e2] at this ⊢
      rename_i v w
      cases e3 : v.val <;> cases e4 : w.val <;> simp_all [LikeAx]
  rw [h1, h3]
  have : r = q := by
    rw [Bool.eq_iff_iff, h2, h4]
    exact ⟨sym, sym⟩
  rw [this]
end

section
variable {α R : Type} [BEq α] [BEq R]

theorem dictLoop_self {V : Type} {eqv : Obj V → Obj V → Except Err Bool} {d : PyDict String (Obj V)} (hd : Distinct d) :
    ∀ l : List (String × Obj V), (∀ x ∈ l, x ∈ d) → dictLoop eqv d l = .ok true
  | [], _ => rfl
  | (k, v) :: t, h => by
    have hg := PyDict.get?_of_mem hd (h (k, v) (List.mem_cons_self ..))
    simp [dictLoop, hg, dictLoop_self hd t (fun x hx => h x (List.mem_cons_of_mem _ hx))]

theorem dictEqual_self {V : Type} {eqv : Obj V → Obj V → Except Err Bool} {d : PyDict String (Obj V)} (hd : Distinct d) :
    dictEqual eqv d d = .ok true := by
  rw [dictEqual, if_pos rfl, dictLoop_self hd d (fun _ h => h)]

/-- C86: a message is equal to itself, whatever it contains. -/
theorem C86_self (a : Obj (Msg α R)) (h1 : Distinct a.val.attrs) (h2 : Distinct a.val.axes) :
    messagesEqual a a = .ok true := by
  simp [messagesEqual, msgEq, pyEq, namedDimsEq, dictEqual_self h1, dictEqual_self h2]

/-- C86: a message with an element that is unlike itself (NaN) is not equal to another message with the same content. -/
theorem C86_nan (m : Msg α R) (i j : Nat) (hij : i ≠ j) (ix : List Nat) (hx : InShape ix m.data.shape)
    (h : (m.data.get ix == m.data.get ix) = false) :
    messagesEqual ⟨i, m⟩ ⟨j, m⟩ = .ok false := by
  have hn : arrayEqual m.data m.data = false := by
    simp only [arrayEqual, decide_true, Bool.true_and]
    exact List.all_eq_false.2 ⟨ix, mem_indices.2 hx, by simp [h]⟩
  simp [messagesEqual, msgEq, pyEq, namedDimsEq, hn, hij, Ne.symm hij]

theorem arrayEqual_refl [ReflBEq α] (a : NArr α) : arrayEqual a a = true := by simp [arrayEqual]

/-- C86 is violated: messages that differ in the values of a coordinate axis compare equal. -/
theorem C86_coordinates_ignored [ReflBEq α] (m : Msg α R) (ha : Distinct m.attrs) (name unit : String) (d d' : NArr R)
    (ds ds' : List String) (i j p q : Nat) :
    messagesEqual ⟨i, { m with axes := [(name, ⟨p, .coord unit d ds⟩)] }⟩
      ⟨j, { m with axes := [(name, ⟨q, .coord unit d' ds'⟩)] }⟩ = .ok true := by
  have hx : dictEqual (axesEqual (R := R)) [(name, ⟨p, .coord unit d ds⟩)] [(name, ⟨q, .coord unit d' ds'⟩)] = .ok true := by
    simp [dictEqual, dictLoop, PyDict.get?, axesEqual, axEq, pyEq]
  simp [messagesEqual, msgEq, pyEq, namedDimsEq, arrayEqual_refl, dictEqual_self ha, hx]

/-- C86 is violated: if an attribute is an array that does not have exactly one element, then comparing the message
with another one that has the same content raises. -/
theorem C86_attrs_raise [ReflBEq α] (m : Msg α R) (name : String) (xs : List R) (hl : xs.length ≠ 1) (i j p q : Nat)
    (hpq : p ≠ q) :
    messagesEqual ⟨i, { m with attrs := [(name, ⟨p, .array xs⟩)] }⟩ ⟨j, { m with attrs := [(name, ⟨q, .array xs⟩)] }⟩ =
      .error .valueError := by
  have e : attrsEqual (⟨p, .array xs⟩ : Obj (Attr R)) ⟨q, .array xs⟩ = .error .valueError := by
    match xs, hl with
    | [], _ => rfl
    | _ :: _ :: _, _ => rfl
  have hx : dictEqual (attrsEqual (R := R)) [(name, ⟨p, .array xs⟩)] [(name, ⟨q, .array xs⟩)] = .error .valueError := by
    simp [dictEqual, dictLoop, PyDict.get?, e, hpq]
  simp [messagesEqual, msgEq, pyEq, namedDimsEq, arrayEqual_refl, hx]
end

/-! ## Examples -/

/-- An array of numbers. -/
def row (xs : List Nat) : NArr Nat := ⟨[xs.length], fun ix => xs.getD (ix.headD 0) 0⟩

/-- A message with a time axis and names of channels. -/
def sample (ch : Ax Nat) : Msg Nat Nat :=
  ⟨0, row [1, 2], ["time"], [("time", ⟨1, .linear .linearAxis "s" 1 0⟩), ("ch", ⟨2, ch⟩)], [("a", ⟨3, .str "x"⟩)], "k"⟩

/-- The same message with other objects in another order. -/
def again (ch : Ax Nat) (s : String) : Msg Nat Nat :=
  ⟨0, row [1, 2], ["time"], [("ch", ⟨5, ch⟩), ("time", ⟨6, .linear .linearAxis "s" 1 0⟩)], [("a", ⟨7, .str s⟩)], "k"⟩

theorem sample_ok (ch ch' : Ax Nat) (s : String) : Ok ⟨10, sample ch⟩ ⟨11, again ch' s⟩ := by
  constructor <;> simp [Honest, Distinct, sample, again, PyDict.keys]
  · rintro k l v w - rfl - rfl; simp
  · rintro k l v w (⟨-, rfl⟩ | ⟨-, rfl⟩) (⟨-, rfl⟩ | ⟨-, rfl⟩) <;> simp

example : messagesEqual ⟨10, sample (.linear .linearAxis "" 2 1)⟩ ⟨11, again (.linear .linearAxis "" 2 1) "x"⟩ = .ok true ∧
    messagesEqual ⟨10, sample (.linear .linearAxis "" 2 1)⟩ ⟨11, again (.linear .linearAxis "" 2 3) "x"⟩ = .ok false ∧
    messagesEqual ⟨10, sample (.linear .linearAxis "" 2 1)⟩ ⟨11, again (.linear .deprecated "" 2 1) "x"⟩ = .ok false ∧
    messagesEqual ⟨10, sample (.linear .linearAxis "" 2 1)⟩ ⟨11, again (.linear .linearAxis "" 2 1) "y"⟩ = .ok false ∧
    messagesEqual ⟨10, sample (.coord "" (row [1, 2]) ["ch"])⟩ ⟨11, again (.coord "" (row [3]) ["x"]) "x"⟩ = .ok true :=
  ⟨rfl, rfl, rfl, rfl, rfl⟩

example := C86_equal _ _ (sample_ok (.linear .linearAxis "" 2 1) (.linear .linearAxis "" 2 3) "x")
  (by simp [Msg.Plain, sample, Attr.Plain]) (by simp [Msg.Plain, again, Attr.Plain])

example : messagesEqual ⟨10, sample (.linear .linearAxis "" 2 1)⟩ ⟨11, again (.linear .linearAxis "" 2 1) "x"⟩ = .ok true :=
  C86_same _ _ (sample_ok _ _ _) (by simp [Msg.Plain, sample, Attr.Plain]) (by simp [Msg.Plain, again, Attr.Plain])
    (by
      refine ⟨rfl, rfl, ⟨rfl, fun _ _ => rfl⟩, rfl, ?_, ?_⟩ <;> intro k <;> simp only [sample, again, PyDict.get?]
      · by_cases h : k = "a"
        · subst h; simp [List.find?]
        · simp [List.find?, Ne.symm h]
      · by_cases h : k = "time"
        · subst h; simp [List.find?, SameAx]
        · by_cases h' : k = "ch"
          · subst h'; simp [List.find?, SameAx]
          · simp [List.find?, Ne.symm h, Ne.symm h'])

example := C86_equal_partial _ _ (sample_ok (.linear .linearAxis "" 2 1) (.coord "" (row [1]) ["ch"]) "x")
  (by simp [Msg.Plain, sample, Attr.Plain]) (by simp [Msg.Plain, again, Attr.Plain])
  (.inl (by rintro k v u d ds h e; simp [sample] at h; rcases h with ⟨-, rfl⟩ | ⟨-, rfl⟩ <;> cases e))

theorem sample_ok' (ch ch' : Ax Nat) (s : String) : Ok ⟨11, again ch' s⟩ ⟨10, sample ch⟩ := by
  constructor <;> simp [Honest, Distinct, sample, again, PyDict.keys]
  · rintro k l v w - rfl - rfl; simp
  · rintro k l v w (⟨-, rfl⟩ | ⟨-, rfl⟩) (⟨-, rfl⟩ | ⟨-, rfl⟩) <;> simp

example := C86_symmetric _ _ (sample_ok (.linear .linearAxis "" 2 1) (.linear .linearAxis "" 2 3) "x") (sample_ok' _ _ _)
  (by simp [Msg.Plain, sample, Attr.Plain]) (by simp [Msg.Plain, again, Attr.Plain])

example := C86_self (⟨0, sample (.coord "" (row [1]) [])⟩ : Obj (Msg Nat Nat)) (by simp [Distinct, sample, PyDict.keys])
  (by simp [Distinct, sample, PyDict.keys])

/-- Numbers, one of which is unlike itself. -/
inductive Num where
  | nan
  | num (n : Nat)

instance : BEq Num := ⟨fun | .num m, .num n => m == n | _, _ => false⟩

example : messagesEqual (⟨0, ⟨0, ⟨[1], fun _ => .nan⟩, ["x"], [], [], ""⟩⟩ : Obj (Msg Num Num))
    ⟨1, ⟨0, ⟨[1], fun _ => .nan⟩, ["x"], [], [], ""⟩⟩ = .ok false :=
  C86_nan _ 0 1 (by simp) [0] (by simp [InShape]) rfl

example := C86_coordinates_ignored (sample (.linear .linearAxis "" 1 0)) (by simp [Distinct, sample, PyDict.keys]) "ch" ""
  (row [1, 2]) (row [3, 4]) ["ch"] ["ch"] 0 1 2 3

example := C86_attrs_raise (sample (.linear .linearAxis "" 1 0)) "a" [1, 2] (by simp) 0 1 2 3 (by simp)

/-! ## C87 -/

/-- C87: the position of the value at position `i` is `i`, for every way of rounding that leaves whole numbers alone. -/
theorem C87_round_trip (fn : Rat → Int) (hf : ∀ i : Int, fn i = i) (gain offset : Rat) (hg : gain ≠ 0) (i : Int) :
    index fn gain offset (value gain offset i) = i := by
  have : ((i : Rat) * gain + offset - offset) / gain = i := by grind
  rw [index, value, this, hf]

/-- C87: the value at the position that is found is at most half a step away, if `fn` rounds to a nearest whole number. The
step may be negative. -/
theorem C87_nearest (fn : Rat → Int) (hf : ∀ x : Rat, (fn x : Rat) - x ≤ 1 / 2 ∧ x - (fn x : Rat) ≤ 1 / 2)
    (gain offset v : Rat) (hg : gain ≠ 0) :
    ∀ d, d = value gain offset (index fn gain offset v) - v →
    (0 < gain → -(gain / 2) ≤ d ∧ d ≤ gain / 2) ∧ (gain < 0 → gain / 2 ≤ d ∧ d ≤ -(gain / 2)) := by
  rintro d rfl
  obtain ⟨h1, h2⟩ := hf ((v - offset) / gain)
  rw [index, value]
  generalize (fn ((v - offset) / gain) : Rat) = n at *
  have e : (v - offset) = ((v - offset) / gain) * gain := by grind
  generalize (v - offset) / gain = x at *
  have e' : v = x * gain + offset := by grind
  constructor <;> intro hg
  · have a1 : (n - x) * gain ≤ (1 / 2) * gain := Rat.mul_le_mul_of_nonneg_right h1 (Rat.le_of_lt hg)
    have a2 : (x - n) * gain ≤ (1 / 2) * gain := Rat.mul_le_mul_of_nonneg_right h2 (Rat.le_of_lt hg)
    constructor <;> grind
  · have hg' : 0 ≤ -gain := by grind
    have a1 : (n - x) * -gain ≤ (1 / 2) * -gain := Rat.mul_le_mul_of_nonneg_right h1 hg'
    have a2 : (x - n) * -gain ≤ (1 / 2) * -gain := Rat.mul_le_mul_of_nonneg_right h2 hg'
    constructor <;> grind

/-- Rounding half up. -/
def roundUp (x : Rat) : Int := (x + 1 / 2).floor

theorem roundUp_int (i : Int) : roundUp i = i := by
  unfold roundUp
  have h1 : i ≤ ((i : Rat) + 1 / 2).floor := Rat.le_floor_iff.2 (by grind)
  have h2 : ((i : Rat) + 1 / 2).floor < i + 1 := Rat.floor_lt_iff.2 (by push_cast; grind)
  omega

theorem roundUp_near (x : Rat) : (roundUp x : Rat) - x ≤ 1 / 2 ∧ x - (roundUp x : Rat) ≤ 1 / 2 := by
  unfold roundUp
  have h1 : ((x + 1 / 2).floor : Rat) ≤ x + 1 / 2 := Rat.floor_le _
  have h2 : (x + 1 / 2) - 1 < ((x + 1 / 2).floor : Rat) := Rat.lt_floor
  constructor <;> grind

example (i : Int) : index roundUp (1 / 500) 10 (value (1 / 500) 10 i) = i :=
  C87_round_trip roundUp roundUp_int _ _ (by decide +kernel) i

example : index roundUp (1 / 2) 10 (111 / 10) = 2 := by decide +kernel

example (v : Rat) := C87_nearest roundUp roundUp_near (-1 / 500) 10 v (by decide +kernel) _ rfl

end Equality
end Ez
