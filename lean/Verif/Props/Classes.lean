import Verif.Model.Classes
import Verif.Lemmas.Py
import Verif.Props.Backpressure

/-!
# C74: what a unit runs is what its class has
-/

namespace Ez
namespace Classes

set_option linter.unusedSectionVars false
set_option linter.unusedSimpArgs false

variable {F : Type}

/-! ## Specification: Python's resolution of attributes -/

/-- `e` is `c` or one of its direct and indirect bases. -/
inductive Anc (ds : List (ClassDef F)) : Nat → Nat → Prop where
  | refl (c : Nat) : Anc ds c c
  | step {c b e : Nat} {d : ClassDef F} : ds[c]? = some d → b ∈ d.bases → Anc ds b e → Anc ds c e

/-- The field of a class itself. -/
def ownOf (ds : List (ClassDef F)) (n : String) (c : Nat) : Option (Kind × F) :=
  (ds[c]?).bind fun d => PyDict.get? d.own n

/-- A method resolution order: all classes above, each once, subclasses before their bases. -/
structure IsMro (ds : List (ClassDef F)) (c : Nat) (l : List Nat) : Prop where
  mem : ∀ e, e ∈ l ↔ Anc ds c e
  order : l.Pairwise (fun d e => ¬ Anc ds e d)

/-- The attribute `n` of a class: that of the first class in the order which has it. -/
def resolve (ds : List (ClassDef F)) (l : List Nat) (n : String) : Option (Kind × F) := l.findSome? (ownOf ds n)

/-- Programs of Python: bases exist, field names are distinct, a class with a unit among its bases is a unit. -/
structure Valid (ds : List (ClassDef F)) : Prop where
  bases : ∀ (c : Nat) (d : ClassDef F), ds[c]? = some d → ∀ b ∈ d.bases, b < c
  own : ∀ d ∈ ds, (PyDict.keys d.own).Nodup
  unit : ∀ (c : Nat) (d : ClassDef F) (b : Nat) (e : ClassDef F), ds[c]? = some d → b ∈ d.bases → ds[b]? = some e → e.unit = true → d.unit = true

/-- Some class from `b` upwards has a field `n`. -/
def Has (ds : List (ClassDef F)) (n : String) (b : Nat) : Prop := ∃ e, Anc ds b e ∧ ownOf ds n e ≠ none

/-! ## Tables -/

/-- Dictionaries of a table have distinct keys. -/
def WFT (t : Table F) : Prop := ∀ k, (PyDict.keys (t.dict k)).Nodup

theorem updateAll_nodup {d e : PyDict String F} (h : (PyDict.keys d).Nodup) : (PyDict.keys (updateAll d e)).Nodup := by
  unfold updateAll
  induction e generalizing d with
  | nil => exact h
  | cons x e ih => exact ih (PyDict.nodup_set h)

theorem get?_updateAll {d e : PyDict String F} (h : (PyDict.keys e).Nodup) (n : String) :
    PyDict.get? (updateAll d e) n = (PyDict.get? e n).or (PyDict.get? d n) := by
  unfold updateAll
  induction e generalizing d with
  | nil => simp [PyDict.get?_nil]
  | cons x e ih =>
    simp only [PyDict.keys, List.map_cons, List.nodup_cons] at h
    rw [List.foldl_cons, ih h.2, PyDict.get?_set, PyDict.get?_cons]
    by_cases hx : n = x.1
    · have : PyDict.get? e n = none := PyDict.get?_eq_none.2 (by rw [hx]; exact h.1)
      rw [this]; simp [hx]
    · have hx' : ¬ x.1 = n := fun e => hx e.symm
      simp [hx, hx']

theorem inherit_dict {t t' b : Table F} (h : inherit t (some b) = some t') (k : Kind) :
    t'.dict k = updateAll (t.dict k) (b.dict k) := by
  simp only [inherit, Option.ite_none_left_eq_some, Option.some.injEq] at h
  obtain ⟨_, rfl⟩ := h
  cases k <;> rfl

theorem inherit_wf {t t' : Table F} {b : Option (Table F)} (h : inherit t b = some t') (w : WFT t) : WFT t' := by
  cases b with
  | none => simp only [inherit, Option.some.injEq] at h; subst h; exact w
  | some b => intro k; rw [inherit_dict h]; exact updateAll_nodup (w k)

theorem inheritAll_dict {bs : List (Option (Table F))} (hb : ∀ b ∈ bs, ∀ t, b = some t → WFT t) {t t' : Table F}
    (h : inheritAll t bs = some t') (w : WFT t) : WFT t' ∧ ∀ k n, PyDict.get? (t'.dict k) n =
      (bs.reverse.findSome? (fun b => b.bind fun t => PyDict.get? (t.dict k) n)).or (PyDict.get? (t.dict k) n) := by
  induction bs generalizing t with
  | nil => simp only [inheritAll, Option.some.injEq] at h; subst h; exact ⟨w, by simp⟩
  | cons b bs ih =>
    simp only [inheritAll, Option.bind_eq_some_iff] at h
    obtain ⟨t1, h1, h2⟩ := h
    obtain ⟨w', h3⟩ := ih (fun b hb' => hb b (by simp [hb'])) h2 (inherit_wf h1 w)
    refine ⟨w', fun k n => ?_⟩
    rw [h3, List.reverse_cons, List.findSome?_append]
    cases b with
    | none =>
      simp only [inherit, Option.some.injEq] at h1
      subst h1
      simp
    | some b =>
      rw [inherit_dict h1, get?_updateAll (hb _ (by simp) b rfl k)]
      simp only [List.findSome?_cons, List.findSome?_nil, Option.bind_some]
      cases List.findSome? (fun b => b.bind fun t => PyDict.get? (t.dict k) n) bs.reverse <;>
        cases PyDict.get? (b.dict k) n <;> simp

theorem field_wf {t : Table F} {x : String × (Kind × F)} (w : WFT t) : WFT (field t x) := by
  intro k
  obtain ⟨m, k', f⟩ := x
  have := w k
  cases k' <;> cases k <;> simp only [field, Table.dict] at this ⊢ <;> first | exact this | exact PyDict.nodup_set this

/-- Kinds which are kept in dictionaries. -/
def Kind.named : Kind → Bool
  | .stream | .task | .thread => true
  | _ => false

theorem get?_field {t : Table F} {x : String × (Kind × F)} {k : Kind} (hk : k.named = true) {n : String} :
    PyDict.get? ((field t x).dict k) n =
      if n = x.1 ∧ x.2.1 = k then some x.2.2 else PyDict.get? (t.dict k) n := by
  obtain ⟨m, k', f⟩ := x
  cases k' <;> cases k <;> simp [field, Table.dict, Kind.named, PyDict.get?_set] at hk ⊢

theorem fields_dict {own : PyDict String (Kind × F)} (hn : (PyDict.keys own).Nodup) {t : Table F} (w : WFT t) :
    WFT (own.foldl field t) ∧ ∀ k n, k.named = true → PyDict.get? ((own.foldl field t).dict k) n =
      match PyDict.get? own n with
      | some (k', f) => if k' = k then some f else PyDict.get? (t.dict k) n
      | none => PyDict.get? (t.dict k) n := by
  induction own generalizing t with
  | nil => exact ⟨w, by simp [PyDict.get?_nil]⟩
  | cons x own ih =>
    simp only [PyDict.keys, List.map_cons, List.nodup_cons] at hn
    obtain ⟨w', h⟩ := ih hn.2 (field_wf (x := x) w)
    refine ⟨w', fun k n hk => ?_⟩
    rw [List.foldl_cons, h k n hk, get?_field hk, PyDict.get?_cons]
    by_cases hx : n = x.1
    · have hne : PyDict.get? own n = none := PyDict.get?_eq_none.2 (by rw [hx]; exact hn.1)
      rw [hne]
      obtain ⟨m, k', f⟩ := x
      simp [hx]
    · have hx' : ¬ x.1 = n := fun e => hx e.symm
      simp [hx, hx']

theorem define_spec {ts0 ts : List (Option (Table F))} {ds : List (ClassDef F)} (h : define ts0 ds = some ts) :
    ts.length = ts0.length + ds.length ∧ ts.take ts0.length = ts0 ∧
    ∀ i d, ds[i]? = some d → make (ts.take (ts0.length + i)) d = ts[ts0.length + i]? := by
  induction ds generalizing ts0 with
  | nil =>
    simp only [define, Option.some.injEq] at h
    subst h
    exact ⟨by simp, by simp, by simp⟩
  | cons d ds ih =>
    simp only [define, Option.bind_eq_some_iff] at h
    obtain ⟨t, h1, h2⟩ := h
    obtain ⟨h3, h4, h5⟩ := ih h2
    have h6 : ts.take ts0.length = ts0 := by
      have := congrArg (List.take ts0.length) h4
      rw [List.take_take] at this
      simpa using this
    refine ⟨by simp at h3 ⊢; omega, h6, fun i d' hd => ?_⟩
    cases i with
    | zero =>
      simp only [List.getElem?_cons_zero, Option.some.injEq] at hd
      subst hd
      rw [Nat.add_zero, h6, h1]
      have := congrArg (fun l => l[ts0.length]?) h4
      simp only [List.length_append, List.length_cons, List.length_nil, Nat.zero_add] at this
      rw [List.getElem?_take_of_lt (by omega)] at this
      rw [this]
      simp
    | succ i =>
      have := h5 i d' (by simpa using hd)
      simp only [List.length_append, List.length_cons, List.length_nil, Nat.zero_add] at this
      rw [show ts0.length + (i + 1) = ts0.length + 1 + i by omega]
      exact this

/-- The entry of a class for a name. -/
def tab (ts : List (Option (Table F))) (k : Kind) (n : String) (c : Nat) : Option F :=
  ((ts[c]?).getD none).bind fun t => PyDict.get? (t.dict k) n

/-- What the tables of all classes contain. -/
theorem tab_eq {ds : List (ClassDef F)} {ts : List (Option (Table F))} (v : Valid ds) (h : define [] ds = some ts)
    {k : Kind} (hk : k.named = true) {n : String} {c : Nat} {d : ClassDef F} (hd : ds[c]? = some d) :
    tab ts k n c = if d.unit then
      (match PyDict.get? d.own n with
       | some (k', f) => if k' = k then some f else d.bases.reverse.findSome? (tab ts k n)
       | none => d.bases.reverse.findSome? (tab ts k n))
      else none := by
  obtain ⟨h1, _, h3⟩ := define_spec h
  simp only [List.length_nil, Nat.zero_add] at h1 h3
  -- all tables are well formed
  have wf : ∀ (c : Nat) (t : Table F), ts[c]? = some (some t) → WFT t := by
    intro c
    induction c using Nat.strongRecOn with
    | ind c ih =>
      intro t ht
      have hlt : c < ds.length := by rw [← h1]; exact (List.getElem?_eq_some_iff.1 ht).1
      obtain ⟨d, hd⟩ : ∃ d, ds[c]? = some d := ⟨_, List.getElem?_eq_getElem hlt⟩
      have hm := h3 c d hd
      rw [ht] at hm
      unfold make at hm
      split at hm
      · rw [Option.map_eq_some_iff] at hm
        obtain ⟨t1, h4, h5⟩ := hm
        simp only [Option.some.injEq] at h5
        subst h5
        refine (fields_dict (v.own d (List.mem_of_getElem? hd)) ?_).1
        refine (inheritAll_dict ?_ h4 (by intro k; cases k <;> simp [Table.dict, PyDict.keys])).1
        intro b hb t' hb'
        rw [List.mem_map] at hb
        obtain ⟨i, hi, rfl⟩ := hb
        have hic := v.bases c d hd i hi
        rw [List.getElem?_take_of_lt hic] at hb'
        refine ih i hic t' ?_
        cases hx : ts[i]? with
        | none => rw [hx] at hb'; simp at hb'
        | some x => rw [hx] at hb'; simp at hb'; rw [hb']
      · simp at hm
  have hm := h3 c d hd
  unfold make at hm
  split
  next hu =>
    rw [if_pos hu] at hm
    have hlt : c < ts.length := by rw [h1]; exact (List.getElem?_eq_some_iff.1 hd).1
    rw [List.getElem?_eq_getElem hlt, Option.map_eq_some_iff] at hm
    obtain ⟨t1, h4, h5⟩ := hm
    have hbs : ∀ b ∈ d.bases, ((ts.take c)[b]?).getD none = (ts[b]?).getD none := fun b hb => by
      rw [List.getElem?_take_of_lt (v.bases c d hd b hb)]
    have hin := inheritAll_dict (t := {}) (by
      intro b hb t' hb'
      rw [List.mem_map] at hb
      obtain ⟨i, hi, rfl⟩ := hb
      rw [hbs i hi] at hb'
      refine wf i t' ?_
      cases hx : ts[i]? with
      | none => rw [hx] at hb'; simp at hb'
      | some x => rw [hx] at hb'; simp at hb'; rw [hb']) h4 (by intro k; cases k <;> simp [Table.dict, PyDict.keys])
    have hf := (fields_dict (v.own d (List.mem_of_getElem? hd)) hin.1).2 k n hk
    have h0 : PyDict.get? (({} : Table F).dict k) n = none := by cases k <;> simp [Table.dict, PyDict.get?_nil]
    have e1 : PyDict.get? (t1.dict k) n = d.bases.reverse.findSome? (tab ts k n) := by
      rw [hin.2 k n, h0, Option.or_none, ← List.map_reverse, List.findSome?_map]
      have : ∀ l : List Nat, (∀ b ∈ l, b ∈ d.bases) →
          l.findSome? ((fun b => b.bind fun t => PyDict.get? (t.dict k) n) ∘ fun b => ((ts.take c)[b]?).getD none) =
          l.findSome? (tab ts k n) := by
        intro l
        induction l with
        | nil => simp
        | cons b l ih =>
          intro hl
          rw [List.findSome?_cons, List.findSome?_cons, ih (fun x hx => hl x (by simp [hx]))]
          simp only [Function.comp, hbs b (hl b (by simp)), tab]
      exact this _ (fun b hb => by simpa using hb)
    have e2 : tab ts k n c = PyDict.get? ((d.own.foldl field t1).dict k) n := by
      simp only [tab, List.getElem?_eq_getElem hlt, Option.getD_some, ← h5, Option.bind_some]
    rw [e2, hf, e1]
  next hu =>
    rw [if_neg hu] at hm
    simp [tab, ← hm]

/-! ## Resolution -/

theorem anc_le {ds : List (ClassDef F)} (v : Valid ds) {c e : Nat} (h : Anc ds c e) : e ≤ c := by
  induction h with
  | refl => exact Nat.le_refl _
  | step hd hb _ ih => have := v.bases _ _ hd _ hb; omega

theorem Anc.trans {ds : List (ClassDef F)} {a b c : Nat} (h : Anc ds a b) (h' : Anc ds b c) : Anc ds a c := by
  induction h with
  | refl => exact h'
  | step hd hb _ ih => exact .step hd hb (ih h')

theorem anc_unit {ds : List (ClassDef F)} (v : Valid ds) {c e : Nat} (h : Anc ds c e) {x : ClassDef F}
    (hx : ds[e]? = some x) (hu : x.unit = true) : ∀ d, ds[c]? = some d → d.unit = true := by
  induction h with
  | refl => intro d hd; rw [hx, Option.some.injEq] at hd; rw [← hd]; exact hu
  | step hd hb h' ih =>
    intro d' hd'
    rw [hd, Option.some.injEq] at hd'
    subst hd'
    rename_i c b e d
    have hlt := v.bases _ _ hd _ hb
    have hl := (List.getElem?_eq_some_iff.1 hd).1
    have hb' : ds[b]? = some ds[b] := List.getElem?_eq_getElem (by omega)
    exact v.unit c d b _ hd hb hb' (ih hx _ hb')

/-- For the name `n`: no class has two bases which both have it, and all fields of this name are marked alike, in units. -/
structure Tidy (ds : List (ClassDef F)) (k : Kind) (n : String) (c : Nat) : Prop where
  bases : ∀ (x : Nat) (d : ClassDef F), Anc ds c x → ds[x]? = some d → d.bases.Pairwise (fun a b => ¬ (Has ds n a ∧ Has ds n b))
  kind : ∀ x k' f, Anc ds c x → ownOf ds n x = some (k', f) → k' = k ∧ ∀ d : ClassDef F, ds[x]? = some d → d.unit = true

theorem findSome?_unique {α β : Type} {l : List α} {g : α → Option β} {b : α} (hb : b ∈ l)
    (h : ∀ x ∈ l, g x = none ∨ x = b) : l.findSome? g = g b := by
  induction l with
  | nil => simp at hb
  | cons x l ih =>
    rw [List.findSome?_cons]
    by_cases hx : x = b
    · subst hx
      cases hg : g x with
      | some y => rfl
      | none =>
        by_cases hl : x ∈ l
        · exact (ih hl (fun y hy => h y (by simp [hy]))).trans hg
        · rw [List.findSome?_eq_none_iff]
          intro y hy
          rcases h y (by simp [hy]) with h1 | h1
          · exact h1
          · subst h1; exact absurd hy hl
    · rw [(h x (by simp)).resolve_right hx]
      exact ih ((List.mem_cons.1 hb).resolve_left (fun e => hx e.symm)) (fun y hy => h y (by simp [hy]))

theorem pairwise_unique {l : List Nat} {P : Nat → Prop} (h : l.Pairwise (fun a b => ¬ (P a ∧ P b))) {a b : Nat}
    (ha : a ∈ l) (hb : b ∈ l) (pa : P a) (pb : P b) : a = b := by
  induction l with
  | nil => simp at ha
  | cons x l ih =>
    rw [List.pairwise_cons] at h
    rcases List.mem_cons.1 ha with rfl | ha'
    · rcases List.mem_cons.1 hb with rfl | hb'
      · rfl
      · exact absurd ⟨pa, pb⟩ (h.1 b hb')
    · rcases List.mem_cons.1 hb with rfl | hb'
      · exact absurd ⟨pb, pa⟩ (h.1 a ha')
      · exact ih h.2 ha' hb'

/-- The lowest class with a field is the one whose field is in the table. -/
theorem lowest {ds : List (ClassDef F)} {ts : List (Option (Table F))} (v : Valid ds) (h : define [] ds = some ts)
    {k : Kind} (hk : k.named = true) {n : String} {c : Nat} (hc : c < ds.length) (ht : Tidy ds k n c) :
    (¬ Has ds n c → tab ts k n c = none) ∧
    (Has ds n c → ∃ D f, Anc ds c D ∧ ownOf ds n D = some (k, f) ∧ tab ts k n c = some f ∧
      ∀ e, Anc ds c e → ownOf ds n e ≠ none → Anc ds D e) := by
  induction c using Nat.strongRecOn with
  | ind c ih =>
    have hd : ds[c]? = some ds[c] := List.getElem?_eq_getElem hc
    have hown : ownOf ds n c = PyDict.get? ds[c].own n := by simp [ownOf, hd]
    have ihb : ∀ b ∈ ds[c].bases, (¬ Has ds n b → tab ts k n b = none) ∧
        (Has ds n b → ∃ D f, Anc ds b D ∧ ownOf ds n D = some (k, f) ∧ tab ts k n b = some f ∧
          ∀ e, Anc ds b e → ownOf ds n e ≠ none → Anc ds D e) := by
      intro b hb
      have hlt := v.bases c _ hd b hb
      refine ih b hlt (by omega) ⟨fun x d hx => ht.bases x d (.step hd hb hx), fun x k' f hx => ht.kind x k' f (.step hd hb hx)⟩
    have te := tab_eq v h hk (n := n) hd
    constructor
    · intro hh
      rw [te]
      have h0 : PyDict.get? ds[c].own n = none := by
        rw [← hown]
        cases ho : ownOf ds n c with
        | none => rfl
        | some y => exact absurd ⟨c, .refl c, by simp [ho]⟩ hh
      rw [h0]
      split
      · simp only [List.findSome?_eq_none_iff, List.mem_reverse]
        intro b hb
        exact (ihb b hb).1 (fun ⟨e, he, h1⟩ => hh ⟨e, .step hd hb he, h1⟩)
      · rfl
    · intro hh
      cases ho : ownOf ds n c with
      | some y =>
        obtain ⟨k', f⟩ := y
        obtain ⟨rfl, hu⟩ := ht.kind c k' f (.refl c) ho
        refine ⟨c, f, .refl c, ho, ?_, fun e he _ => he⟩
        rw [te, if_pos (hu _ hd), ← hown, ho]
        simp
      | none =>
        obtain ⟨e, he, h1⟩ := hh
        cases he with
        | refl => exact absurd ho h1
        | step hd' hb he' =>
          rename_i b d
          rw [hd, Option.some.injEq] at hd'
          subst hd'
          have hbh : Has ds n b := ⟨e, he', h1⟩
          obtain ⟨D, f, h2, h3, h4, h5⟩ := (ihb b hb).2 hbh
          have hbu : ∀ b' ∈ ds[c].bases, tab ts k n b' = none ∨ b' = b := by
            intro b' hb'
            by_cases hb'h : Has ds n b'
            · exact .inr (pairwise_unique (ht.bases c _ (.refl c) hd) hb' hb hb'h hbh)
            · exact .inl ((ihb b' hb').1 hb'h)
          refine ⟨D, f, .step hd hb h2, h3, ?_, ?_⟩
          · obtain ⟨x, hx⟩ : ∃ x, ds[D]? = some x := by
              cases hx : ds[D]? with
              | none => simp [ownOf, hx] at h3
              | some x => exact ⟨x, rfl⟩
            have hDu := (ht.kind D k f (.step hd hb h2) h3).2 x hx
            rw [te, if_pos (anc_unit v (.step hd hb h2) hx hDu _ hd), ← hown, ho]
            simp only
            rw [findSome?_unique (b := b) (by simpa using hb) (fun x hx => hbu x (by simpa using hx)), h4]
          · intro e' he' h6
            cases he' with
            | refl => exact absurd ho h6
            | step hd' hb' he'' =>
              rename_i b' d'
              rw [hd, Option.some.injEq] at hd'
              subst hd'
              have : b' = b := pairwise_unique (ht.bases c _ (.refl c) hd) hb' hb ⟨e', he'', h6⟩ hbh
              subst this
              exact h5 e' he'' h6

/-- **C74** (partial: names which no two bases of a class share, and which are marked alike wherever they are overridden).  The
tasks, threads and streams of a unit are those its class has by Python's resolution of attributes. -/
theorem C74_attributes_partial {ds : List (ClassDef F)} {ts : List (Option (Table F))} (v : Valid ds)
    (h : define [] ds = some ts) {k : Kind} (hk : k.named = true) {n : String} {c : Nat} (hc : c < ds.length)
    (ht : Tidy ds k n c) {l : List Nat} (hl : IsMro ds c l) :
    tab ts k n c = (resolve ds l n).map (·.2) := by
  obtain ⟨h1, h2⟩ := lowest v h hk hc ht
  by_cases hh : Has ds n c
  · obtain ⟨D, f, h3, h4, h5, h6⟩ := h2 hh
    rw [h5]
    have hD : D ∈ l := (hl.mem D).2 h3
    have key : ∀ l' : List Nat, l'.Pairwise (fun d e => ¬ Anc ds e d) → D ∈ l' → (∀ e ∈ l', Anc ds c e) →
        l'.findSome? (ownOf ds n) = some (k, f) := by
      intro l'
      induction l' with
      | nil => intro _ h; simp at h
      | cons x l' ih =>
        intro hp hm ha
        rw [List.pairwise_cons] at hp
        rw [List.findSome?_cons]
        by_cases hx : x = D
        · subst hx; rw [h4]
        · have hm' := (List.mem_cons.1 hm).resolve_left (fun e => hx e.symm)
          cases ho : ownOf ds n x with
          | none => exact ih hp.2 hm' (fun e he => ha e (by simp [he]))
          | some y => exact absurd (h6 x (ha x (by simp)) (by simp [ho])) (hp.1 D hm')
    rw [resolve, key l hl.order hD (fun e he => (hl.mem e).1 he)]
    rfl
  · rw [h1 hh]
    have : resolve ds l n = none := by
      rw [resolve, List.findSome?_eq_none_iff]
      intro e he
      cases ho : ownOf ds n e with
      | none => rfl
      | some y => exact absurd ⟨e, (hl.mem e).1 he, by simp [ho]⟩ hh
    rw [this]; rfl

/-! ## Main functions -/

/-- The main function which a class itself has: the last field marked as such. -/
def ownMain (ds : List (ClassDef F)) (c : Nat) : Option F :=
  (ds[c]?).bind fun d => d.own.reverse.findSome? fun x => if x.2.1 = .main then some x.2.2 else none

/-- The main function of a class by Python's resolution: that of the first class in the order which has one. -/
def resolveMain (ds : List (ClassDef F)) (l : List Nat) : Option F := l.findSome? (ownMain ds)

/-- The main function in the table of a class. -/
def mainOf (ts : List (Option (Table F))) (c : Nat) : Option F := ((ts[c]?).getD none).bind (·.main)

/-- The main function after the bases: that of the last unit among them. -/
def lastUnit (ts : List (Option (Table F))) (bs : List Nat) : Option F :=
  (bs.reverse.findSome? fun b => (ts[b]?).getD none).bind (·.main)

theorem fields_main {own : PyDict String (Kind × F)} {t : Table F} : (own.foldl field t).main =
    (own.reverse.findSome? fun x => if x.2.1 = .main then some x.2.2 else none).or t.main := by
  induction own generalizing t with
  | nil => simp
  | cons x own ih =>
    rw [List.foldl_cons, ih, List.reverse_cons, List.findSome?_append]
    obtain ⟨m, k, f⟩ := x
    cases List.findSome? (fun x : String × (Kind × F) => if x.2.1 = .main then some x.2.2 else none) own.reverse <;>
      cases k <;> simp [field]

theorem inheritAll_main {bs : List (Option (Table F))} {t t' : Table F} (h : inheritAll t bs = some t') :
    t'.main = match bs.reverse.findSome? id with
      | some b => b.main
      | none => t.main := by
  induction bs generalizing t with
  | nil => simp only [inheritAll, Option.some.injEq] at h; subst h; simp
  | cons b bs ih =>
    simp only [inheritAll, Option.bind_eq_some_iff] at h
    obtain ⟨t1, h1, h2⟩ := h
    rw [ih h2, List.reverse_cons, List.findSome?_append]
    cases hf : List.findSome? id bs.reverse with
    | some y => simp
    | none =>
      cases b with
      | none => simp only [inherit, Option.some.injEq] at h1; subst h1; simp
      | some b =>
        simp only [inherit, Option.ite_none_left_eq_some, Option.some.injEq] at h1
        obtain ⟨_, rfl⟩ := h1
        simp

/-- **C74** (what the code does about main functions).  A unit without a main function of its own has that of the last unit among
its bases, also if this one has none. -/
theorem C74_main_of_last {ds : List (ClassDef F)} {ts : List (Option (Table F))} (v : Valid ds) (h : define [] ds = some ts)
    {c : Nat} {d : ClassDef F} (hd : ds[c]? = some d) (hu : d.unit = true) :
    mainOf ts c = (ownMain ds c).or (lastUnit ts d.bases) := by
  obtain ⟨h1, _, h3⟩ := define_spec h
  simp only [List.length_nil, Nat.zero_add] at h1 h3
  have hm := h3 c d hd
  unfold make at hm
  have hlt : c < ts.length := by rw [h1]; exact (List.getElem?_eq_some_iff.1 hd).1
  rw [if_pos hu, List.getElem?_eq_getElem hlt, Option.map_eq_some_iff] at hm
  obtain ⟨t1, h4, h5⟩ := hm
  have h6 := inheritAll_main h4
  simp only [mainOf, List.getElem?_eq_getElem hlt, Option.getD_some, ← h5, Option.bind_some, fields_main, ownMain, hd]
  congr 1
  have hbs : d.bases.map (fun b => ((ts.take c)[b]?).getD none) = d.bases.map (fun b => (ts[b]?).getD none) := by
    apply List.map_congr_left
    intro b hb
    rw [List.getElem?_take_of_lt (v.bases c d hd b hb)]
  rw [h6, hbs, lastUnit, ← List.map_reverse, List.findSome?_map]
  simp only [Function.comp_def, id]
  cases List.findSome? (fun b => (ts[b]?).getD none) d.bases.reverse <;> rfl

/-- Some class from `b` upwards has a main function. -/
def HasMain (ds : List (ClassDef F)) (b : Nat) : Prop := ∃ e, Anc ds b e ∧ ownMain ds e ≠ none

/-- Only the last base of a class may have a main function, and only units have them. -/
structure TidyMain (ds : List (ClassDef F)) (c : Nat) : Prop where
  bases : ∀ (x : Nat) (d : ClassDef F), Anc ds c x → ds[x]? = some d → ∀ b ∈ d.bases.dropLast, ¬ HasMain ds b
  unit : ∀ (x : Nat) (d : ClassDef F), Anc ds c x → ownMain ds x ≠ none → ds[x]? = some d → d.unit = true

/-- A unit has a table. -/
theorem unit_table {ds : List (ClassDef F)} {ts : List (Option (Table F))} (h : define [] ds = some ts) {c : Nat}
    {d : ClassDef F} (hd : ds[c]? = some d) : (∃ t, ts[c]? = some (some t)) ↔ d.unit = true := by
  obtain ⟨h1, _, h3⟩ := define_spec h
  simp only [List.length_nil, Nat.zero_add] at h1 h3
  have hm := h3 c d hd
  have hlt : c < ts.length := by rw [h1]; exact (List.getElem?_eq_some_iff.1 hd).1
  unfold make at hm
  split at hm
  next hu =>
    rw [List.getElem?_eq_getElem hlt, Option.map_eq_some_iff] at hm
    obtain ⟨t1, _, h5⟩ := hm
    exact ⟨fun _ => hu, fun _ => ⟨_, by rw [List.getElem?_eq_getElem hlt, ← h5]⟩⟩
  next hu =>
    rw [← hm]
    simp [hu]

theorem lowest_main {ds : List (ClassDef F)} {ts : List (Option (Table F))} (v : Valid ds) (h : define [] ds = some ts)
    {c : Nat} (hc : c < ds.length) (ht : TidyMain ds c) :
    (¬ HasMain ds c → mainOf ts c = none) ∧
    (HasMain ds c → ∃ D f, Anc ds c D ∧ ownMain ds D = some f ∧ mainOf ts c = some f ∧
      ∀ e, Anc ds c e → ownMain ds e ≠ none → Anc ds D e) := by
  induction c using Nat.strongRecOn with
  | ind c ih =>
    have hd : ds[c]? = some ds[c] := List.getElem?_eq_getElem hc
    have ihb : ∀ b ∈ ds[c].bases, (¬ HasMain ds b → mainOf ts b = none) ∧
        (HasMain ds b → ∃ D f, Anc ds b D ∧ ownMain ds D = some f ∧ mainOf ts b = some f ∧
          ∀ e, Anc ds b e → ownMain ds e ≠ none → Anc ds D e) := by
      intro b hb
      have hlt := v.bases c _ hd b hb
      exact ih b hlt (by omega) ⟨fun x d hx => ht.bases x d (.step hd hb hx), fun x d hx => ht.unit x d (.step hd hb hx)⟩
    constructor
    · intro hh
      cases hu : ds[c].unit with
      | false =>
        have : ¬ ∃ t, ts[c]? = some (some t) := fun e => by simpa [hu] using (unit_table h hd).1 e
        rw [mainOf]
        cases hx : ts[c]? with
        | none => rfl
        | some x => cases x with
          | none => rfl
          | some t => exact absurd ⟨t, hx⟩ this
      | true =>
        rw [C74_main_of_last v h hd hu]
        have h0 : ownMain ds c = none := by
          cases ho : ownMain ds c with
          | none => rfl
          | some y => exact absurd ⟨c, .refl c, by simp [ho]⟩ hh
        rw [h0, Option.none_or, lastUnit]
        cases hf : List.findSome? (fun b => (ts[b]?).getD none) ds[c].bases.reverse with
        | none => rfl
        | some t =>
          obtain ⟨b, hb, hbt⟩ := List.exists_of_findSome?_eq_some hf
          rw [List.mem_reverse] at hb
          have := (ihb b hb).1 (fun ⟨e, he, h1⟩ => hh ⟨e, .step hd hb he, h1⟩)
          simpa [mainOf, hbt] using this
    · intro hh
      cases ho : ownMain ds c with
      | some f =>
        refine ⟨c, f, .refl c, ho, ?_, fun e he _ => he⟩
        rw [C74_main_of_last v h hd (ht.unit c _ (.refl c) (by simp [ho]) hd), ho]
        rfl
      | none =>
        -- a class above, through the last base
        have last : ∀ e, Anc ds c e → ownMain ds e ≠ none → ∃ b bs, ds[c].bases = bs ++ [b] ∧ Anc ds b e := by
          intro e he h1
          cases he with
          | refl => exact absurd ho h1
          | step hd' hb he' =>
            rename_i b d
            rw [hd, Option.some.injEq] at hd'
            subst hd'
            have hne : ds[c].bases ≠ [] := by intro e; rw [e] at hb; simp at hb
            have hb0 := hb
            rw [← List.dropLast_concat_getLast hne] at hb
            rcases List.mem_append.1 hb with hb' | hb'
            · exact absurd ⟨e, he', h1⟩ (ht.bases c _ (.refl c) hd b hb')
            · simp only [List.mem_singleton] at hb'
              exact ⟨b, ds[c].bases.dropLast, by rw [hb', List.dropLast_concat_getLast hne], he'⟩
        obtain ⟨e, he, h1⟩ := hh
        obtain ⟨b, bs, hbs, hbe⟩ := last e he h1
        have hb : b ∈ ds[c].bases := by rw [hbs]; simp
        obtain ⟨D, f, h2, h3, h4, h5⟩ := (ihb b hb).2 ⟨e, hbe, h1⟩
        refine ⟨D, f, .step hd hb h2, h3, ?_, ?_⟩
        · have hD : D < ds.length := by
            have := anc_le v h2
            have := v.bases c _ hd b hb
            omega
          have hx : ds[D]? = some ds[D] := List.getElem?_eq_getElem hD
          have hDu := ht.unit D _ (.step hd hb h2) (by simp [h3]) hx
          rw [C74_main_of_last v h hd (anc_unit v (.step hd hb h2) hx hDu _ hd), ho, Option.none_or, lastUnit, hbs,
            List.reverse_append, List.reverse_singleton, List.singleton_append, List.findSome?_cons]
          rw [mainOf, Option.bind_eq_some_iff] at h4
          obtain ⟨t, h6, h7⟩ := h4
          rw [h6]
          exact h7
        · intro e' he' h6
          obtain ⟨b', bs', hbs', hbe'⟩ := last e' he' h6
          have : b' = b := by
            rw [hbs] at hbs'
            have := congrArg List.getLast? hbs'
            simpa using this.symm
          subst this
          exact h5 e' hbe' h6

/-- **C74** (partial: only the last base of a class may have a main function).  The main function of a unit is that of the
first class in its order which has one. -/
theorem C74_main_partial {ds : List (ClassDef F)} {ts : List (Option (Table F))} (v : Valid ds)
    (h : define [] ds = some ts) {c : Nat} (hc : c < ds.length) (ht : TidyMain ds c) {l : List Nat} (hl : IsMro ds c l) :
    mainOf ts c = resolveMain ds l := by
  obtain ⟨h1, h2⟩ := lowest_main v h hc ht
  by_cases hh : HasMain ds c
  · obtain ⟨D, f, h3, h4, h5, h6⟩ := h2 hh
    rw [h5]
    have hD : D ∈ l := (hl.mem D).2 h3
    have key : ∀ l' : List Nat, l'.Pairwise (fun d e => ¬ Anc ds e d) → D ∈ l' → (∀ e ∈ l', Anc ds c e) →
        l'.findSome? (ownMain ds) = some f := by
      intro l'
      induction l' with
      | nil => intro _ h; simp at h
      | cons x l' ih =>
        intro hp hm ha
        rw [List.pairwise_cons] at hp
        rw [List.findSome?_cons]
        by_cases hx : x = D
        · subst hx; rw [h4]
        · have hm' := (List.mem_cons.1 hm).resolve_left (fun e => hx e.symm)
          cases ho : ownMain ds x with
          | none => exact ih hp.2 hm' (fun e he => ha e (by simp [he]))
          | some y => exact absurd (h6 x (ha x (by simp)) (by simp [ho])) (hp.1 D hm')
    rw [resolveMain, key l hl.order hD (fun e he => (hl.mem e).1 he)]
  · rw [h1 hh]
    symm
    rw [resolveMain, List.findSome?_eq_none_iff]
    intro e he
    cases ho : ownMain ds e with
    | none => rfl
    | some y => exact absurd ⟨e, (hl.mem e).1 he, by simp [ho]⟩ hh

theorem anc_prefix {ds : List (ClassDef F)} {d : ClassDef F} (v : Valid (ds ++ [d])) {c e : Nat} (hc : c < ds.length) :
    Anc (ds ++ [d]) c e ↔ Anc ds c e := by
  constructor
  · intro h
    induction h with
    | refl => exact .refl _
    | step hd hb _ ih =>
      have := v.bases _ _ hd _ hb
      rw [List.getElem?_append_left hc] at hd
      exact .step hd hb (ih (by omega))
  · intro h
    clear hc
    induction h with
    | refl => exact .refl _
    | step hd hb _ ih =>
      have hlt := (List.getElem?_eq_some_iff.1 hd).1
      exact .step (by rw [List.getElem?_append_left hlt]; exact hd) hb ih

theorem valid_prefix {ds : List (ClassDef F)} {d : ClassDef F} (v : Valid (ds ++ [d])) : Valid ds := by
  have ext : ∀ (c : Nat) (x : ClassDef F), ds[c]? = some x → (ds ++ [d])[c]? = some x := fun c x hx => by
    rw [List.getElem?_append_left (List.getElem?_eq_some_iff.1 hx).1]; exact hx
  exact ⟨fun c x hx => v.bases c x (ext c x hx), fun x hx => v.own x (by simp [hx]),
    fun c x b e hx hb he => v.unit c x b e (ext c x hx) hb (ext b e he)⟩

theorem hasMain_prefix {ds : List (ClassDef F)} {d : ClassDef F} (v : Valid (ds ++ [d])) {c : Nat} (hc : c < ds.length)
    (h : HasMain ds c) : HasMain (ds ++ [d]) c := by
  obtain ⟨e, he, h1⟩ := h
  refine ⟨e, (anc_prefix v hc).2 he, ?_⟩
  have := anc_le (valid_prefix v) he
  rw [ownMain, List.getElem?_append_left (by omega)]
  exact h1

theorem tidyMain_prefix {ds : List (ClassDef F)} {d : ClassDef F} (v : Valid (ds ++ [d])) {c : Nat} (hc : c < ds.length)
    (h : TidyMain (ds ++ [d]) c) : TidyMain ds c := by
  constructor
  · intro x y hx hy b hb hm
    have hxl := (List.getElem?_eq_some_iff.1 hy).1
    have hy' : (ds ++ [d])[x]? = some y := by rw [List.getElem?_append_left hxl]; exact hy
    have hbx := v.bases x y hy' b (List.dropLast_subset _ hb)
    exact h.bases x y ((anc_prefix v hc).2 hx) hy' b hb (hasMain_prefix v (by omega) hm)
  · intro x y hx h1 hy
    have hxl := (List.getElem?_eq_some_iff.1 hy).1
    have hy' : (ds ++ [d])[x]? = some y := by rw [List.getElem?_append_left hxl]; exact hy
    refine h.unit x y ((anc_prefix v hc).2 hx) ?_ hy'
    rw [ownMain, List.getElem?_append_left hxl]
    exact h1

theorem inheritAll_some {bs : List (Option (Table F))} {t : Table F} (ht : t.main = none)
    (hb : ∀ b ∈ bs.dropLast, ∀ x, b = some x → x.main = none) : ∃ t', inheritAll t bs = some t' := by
  induction bs generalizing t with
  | nil => exact ⟨t, rfl⟩
  | cons b bs ih =>
    have hi : ∃ t1, inherit t b = some t1 ∧ (t1.main = none ∨ ∃ x, b = some x ∧ t1.main = x.main) := by
      cases b with
      | none => exact ⟨t, rfl, .inl ht⟩
      | some x =>
        exact ⟨⟨updateAll t.streams x.streams, updateAll t.tasks x.tasks, updateAll t.threads x.threads, x.main⟩,
          by simp [inherit, ht], .inr ⟨x, rfl, rfl⟩⟩
    obtain ⟨t1, h1, h2⟩ := hi
    simp only [inheritAll, h1, Option.bind_some]
    cases bs with
    | nil => exact ⟨t1, rfl⟩
    | cons b' bs =>
      rw [List.dropLast_cons_of_ne_nil (by simp)] at hb
      refine ih ?_ (fun y hy => hb y (by simp [hy]))
      rcases h2 with h2 | ⟨x, hx, h2⟩
      · exact h2
      · rw [h2]; exact hb b (by simp) x hx

theorem define_snoc {ts0 : List (Option (Table F))} {ds : List (ClassDef F)} {d : ClassDef F} :
    define ts0 (ds ++ [d]) = (define ts0 ds).bind fun ts => (make ts d).bind fun t => some (ts ++ [t]) := by
  induction ds generalizing ts0 with
  | nil => simp [define]
  | cons x ds ih =>
    simp only [List.cons_append, define]
    cases make ts0 x with
    | none => rfl
    | some t => simp only [Option.bind_some]; exact ih

/-- **C74** (partial: only the last base of a class may have a main function).  Then all classes can be made. -/
theorem C74_made_partial {ds : List (ClassDef F)} (v : Valid ds) (ht : ∀ c < ds.length, TidyMain ds c) :
    ∃ ts, define [] ds = some ts := by
  induction ds using list_snoc_induction with
  | h0 => exact ⟨[], rfl⟩
  | hs ds d ih =>
    obtain ⟨ts, hts⟩ := ih (valid_prefix v) (fun c hc => tidyMain_prefix v hc (ht c (by simp; omega)))
    rw [define_snoc, hts, Option.bind_some]
    suffices hm : ∃ t, make ts d = some t by
      obtain ⟨t, hm⟩ := hm
      exact ⟨_, by rw [hm]; rfl⟩
    unfold make
    split
    · have hdd : (ds ++ [d])[ds.length]? = some d := by simp
      obtain ⟨t, h1⟩ := inheritAll_some (t := ({} : Table F)) (bs := d.bases.map (fun b => (ts[b]?).getD none)) rfl (by
        intro b hb x hx
        rw [← List.map_dropLast, List.mem_map] at hb
        obtain ⟨i, hi, rfl⟩ := hb
        have hil := v.bases _ d hdd i (List.dropLast_subset _ hi)
        have hn := (ht ds.length (by simp)).bases ds.length d (.refl _) hdd i hi
        have := (lowest_main (valid_prefix v) hts hil (tidyMain_prefix v hil (ht i (by simp; omega)))).1
          (fun hm => hn (hasMain_prefix v hil hm))
        simpa [mainOf, hx] using this)
      exact ⟨_, by rw [h1]; rfl⟩
    · exact ⟨_, rfl⟩

/-! ## Where the code goes wrong -/

theorem anc_iff {ds : List (ClassDef F)} {c e : Nat} :
    Anc ds c e ↔ e = c ∨ ∃ d, ds[c]? = some d ∧ ∃ b ∈ d.bases, Anc ds b e := by
  constructor
  · intro h
    cases h with
    | refl => exact .inl rfl
    | step hd hb h => exact .inr ⟨_, hd, _, hb, h⟩
  · rintro (rfl | ⟨d, hd, b, hb, h⟩)
    · exact .refl _
    · exact .step hd hb h

/-- The field found is that of the lowest class which has one. -/
theorem resolve_lowest {ds : List (ClassDef F)} {c D : Nat} {l : List Nat} (hl : IsMro ds c l) {n : String} (hD : Anc ds c D)
    (ho : ownOf ds n D ≠ none) (h : ∀ e, Anc ds c e → ownOf ds n e ≠ none → Anc ds D e) :
    resolve ds l n = ownOf ds n D := by
  have key : ∀ l' : List Nat, l'.Pairwise (fun d e => ¬ Anc ds e d) → D ∈ l' → (∀ e ∈ l', Anc ds c e) →
      l'.findSome? (ownOf ds n) = ownOf ds n D := by
    intro l'
    induction l' with
    | nil => intro _ h; simp at h
    | cons x l' ih =>
      intro hp hm ha
      rw [List.pairwise_cons] at hp
      rw [List.findSome?_cons]
      by_cases hx : x = D
      · subst hx
        cases hy : ownOf ds n x with
        | none => exact absurd hy ho
        | some y => rfl
      · have hm' := (List.mem_cons.1 hm).resolve_left (fun e => hx e.symm)
        cases hy : ownOf ds n x with
        | none => exact ih hp.2 hm' (fun e he => ha e (by simp [he]))
        | some y => exact absurd (h x (ha x (by simp)) (by simp [hy])) (hp.1 D hm')
  exact key l hl.order ((hl.mem D).2 hD) (fun e he => (hl.mem e).1 he)

/-- `Base` has a task `t`, `A(Base)` overrides it, `B(Base)` does not, `C(A, B)`. -/
def diamond : List (ClassDef Nat) :=
  [{ own := [("t", .task, 0)] }, { bases := [0], own := [("t", .task, 1)] }, { bases := [0] }, { bases := [1, 2] }]

/-- `A(Base)` overrides the task `t` of `Base` by a function which is not a task. -/
def unmarked : List (ClassDef Nat) := [{ own := [("t", .task, 0)] }, { bases := [0], own := [("t", .plain, 1)] }]

/-- An ordinary class `Mixin` with a task `t`, and `C(Mixin, Unit)`. -/
def mixin : List (ClassDef Nat) := [{}, { unit := false, own := [("t", .task, 0)] }, { bases := [1, 0] }]

/-- `A` has a main function, `B` has not, `C(A, B)`. -/
def lost : List (ClassDef Nat) := [{}, { bases := [0], own := [("m", .main, 7)] }, { bases := [0] }, { bases := [1, 2] }]

/-- `Base` has a main function, `A(Base)`, `B(Base)`, `C(A, B)`. -/
def twice : List (ClassDef Nat) := [{ own := [("m", .main, 7)] }, { bases := [0] }, { bases := [0] }, { bases := [1, 2] }]

theorem get?_four {α : Type} {a b c d x : α} {i : Nat} (h : [a, b, c, d][i]? = some x) :
    i = 0 ∧ x = a ∨ i = 1 ∧ x = b ∨ i = 2 ∧ x = c ∨ i = 3 ∧ x = d := by
  match i, h with
  | 0, h => simp_all
  | 1, h => simp_all
  | 2, h => simp_all
  | 3, h => simp_all
  | n + 4, h => simp at h

/-- Validity of concrete programs. -/
def validB (ds : List (ClassDef F)) : Bool :=
  (List.range ds.length).all fun c => match ds[c]? with
    | some d => decide (PyDict.keys d.own).Nodup && d.bases.all fun b => decide (b < c) &&
        match ds[b]? with
        | some e => !e.unit || d.unit
        | none => true
    | none => true

theorem valid_of_validB {ds : List (ClassDef F)} (h : validB ds = true) : Valid ds := by
  have hh : ∀ (c : Nat) (d : ClassDef F), ds[c]? = some d → (PyDict.keys d.own).Nodup ∧ ∀ b ∈ d.bases, b < c ∧
      ∀ e, ds[b]? = some e → e.unit = true → d.unit = true := by
    intro c d hd
    have hc := (List.getElem?_eq_some_iff.1 hd).1
    simp only [validB, List.all_eq_true, List.mem_range] at h
    have h1 := h c hc
    rw [hd] at h1
    simp only [Bool.and_eq_true, decide_eq_true_eq, List.all_eq_true] at h1
    refine ⟨h1.1, fun b hb => ⟨(h1.2 b hb).1, fun e he hu => ?_⟩⟩
    have := (h1.2 b hb).2
    rw [he] at this
    simpa [hu] using this
  refine ⟨fun c d hd b hb => ((hh c d hd).2 b hb).1, fun d hd => ?_, fun c d b e hd hb he hu => ((hh c d hd).2 b hb).2 e he hu⟩
  obtain ⟨c, hc⟩ := List.getElem?_of_mem hd
  exact (hh c d hc).1

/-- **C74** (violated).  With `C(A, B)`, `A` overriding the task of the base which it shares with `B`, every order of resolution
gives the task of `A`; the unit runs that of `Base`. -/
theorem C74_diamond_fails : ∃ ts, Valid diamond ∧ define [] diamond = some ts ∧ (∃ l, IsMro diamond 3 l) ∧
    (∀ l, IsMro diamond 3 l → resolve diamond l "t" = some (.task, 1)) ∧ tab ts .task "t" 3 = some 0 := by
  have v : Valid diamond := valid_of_validB (by decide +kernel)
  have a0 : ∀ e, Anc diamond 0 e ↔ e = 0 := fun e => by rw [anc_iff]; simp [diamond]
  have a1 : ∀ e, Anc diamond 1 e ↔ e = 1 ∨ e = 0 := fun e => by
    rw [anc_iff]; simp [diamond]; exact or_congr Iff.rfl (a0 e)
  have a2 : ∀ e, Anc diamond 2 e ↔ e = 2 ∨ e = 0 := fun e => by
    rw [anc_iff]; simp [diamond]; exact or_congr Iff.rfl (a0 e)
  have a3 : ∀ e, Anc diamond 3 e ↔ e = 3 ∨ e = 1 ∨ e = 2 ∨ e = 0 := fun e => by
    rw [anc_iff]
    have : (∃ d, diamond[3]? = some d ∧ ∃ b ∈ d.bases, Anc diamond b e) ↔ Anc diamond 1 e ∨ Anc diamond 2 e := by
      simp [diamond]
    rw [this, a1, a2]
    omega
  refine ⟨_, v, rfl, ⟨[3, 1, 2, 0], ⟨fun e => by rw [a3]; simp, ?_⟩⟩, ?_, by decide +kernel⟩
  · simp [a0, a1, a2, a3]
  · intro l hl
    rw [resolve_lowest hl (D := 1) ((a3 1).2 (by simp)) (by decide +kernel)]
    · decide +kernel
    · intro e he h1
      rw [a1]
      rcases (a3 e).1 he with rfl | rfl | rfl | rfl
      · exact absurd (by decide +kernel) h1
      · simp
      · exact absurd (by decide +kernel) h1
      · simp

/-- **C74** (violated).  The class does not have a task `t` any more; the unit still runs that of its base. -/
theorem C74_unmarked_fails : ∃ ts, Valid unmarked ∧ define [] unmarked = some ts ∧ (∃ l, IsMro unmarked 1 l) ∧
    (∀ l, IsMro unmarked 1 l → resolve unmarked l "t" = some (.plain, 1)) ∧ tab ts .task "t" 1 = some 0 := by
  have v : Valid unmarked := valid_of_validB (by decide +kernel)
  have a0 : ∀ e, Anc unmarked 0 e ↔ e = 0 := fun e => by rw [anc_iff]; simp [unmarked]
  have a1 : ∀ e, Anc unmarked 1 e ↔ e = 1 ∨ e = 0 := fun e => by
    rw [anc_iff]; simp [unmarked]; exact or_congr Iff.rfl (a0 e)
  refine ⟨_, v, rfl, ⟨[1, 0], ⟨fun e => by rw [a1]; simp, by simp [a0]⟩⟩, ?_, by decide +kernel⟩
  intro l hl
  rw [resolve_lowest hl (D := 1) (.refl _) (by decide +kernel) (fun e he _ => he)]
  decide +kernel

/-- **C74** (violated).  The class has a task `t`, which the unit never runs. -/
theorem C74_mixin_fails : ∃ ts, Valid mixin ∧ define [] mixin = some ts ∧ (∃ l, IsMro mixin 2 l) ∧
    (∀ l, IsMro mixin 2 l → resolve mixin l "t" = some (.task, 0)) ∧ tab ts .task "t" 2 = none := by
  have v : Valid mixin := valid_of_validB (by decide +kernel)
  have a0 : ∀ e, Anc mixin 0 e ↔ e = 0 := fun e => by rw [anc_iff]; simp [mixin]
  have a1 : ∀ e, Anc mixin 1 e ↔ e = 1 := fun e => by rw [anc_iff]; simp [mixin]
  have a2 : ∀ e, Anc mixin 2 e ↔ e = 2 ∨ e = 1 ∨ e = 0 := fun e => by
    rw [anc_iff]
    have : (∃ d, mixin[2]? = some d ∧ ∃ b ∈ d.bases, Anc mixin b e) ↔ Anc mixin 1 e ∨ Anc mixin 0 e := by
      simp [mixin]
    rw [this, a0, a1]
  refine ⟨_, v, rfl, ⟨[2, 1, 0], ⟨fun e => by rw [a2]; simp, by simp [a0, a1]⟩⟩, ?_, by decide +kernel⟩
  intro l hl
  rw [resolve_lowest hl (D := 1) ((a2 1).2 (by simp)) (by decide +kernel)]
  · decide +kernel
  · intro e he h1
    rcases (a2 e).1 he with rfl | rfl | rfl
    · exact absurd (by decide +kernel) h1
    · exact .refl _
    · exact absurd (by decide +kernel) h1

/-- **C74** (violated).  The class inherits a main function from its first base; the unit has none. -/
theorem C74_main_fails : ∃ ts, Valid lost ∧ define [] lost = some ts ∧ (∃ l, IsMro lost 3 l) ∧
    (∀ l, IsMro lost 3 l → resolveMain lost l = some 7) ∧ mainOf ts 3 = none := by
  have v : Valid lost := valid_of_validB (by decide +kernel)
  have a0 : ∀ e, Anc lost 0 e ↔ e = 0 := fun e => by rw [anc_iff]; simp [lost]
  have a1 : ∀ e, Anc lost 1 e ↔ e = 1 ∨ e = 0 := fun e => by rw [anc_iff]; simp [lost]; exact or_congr Iff.rfl (a0 e)
  have a2 : ∀ e, Anc lost 2 e ↔ e = 2 ∨ e = 0 := fun e => by rw [anc_iff]; simp [lost]; exact or_congr Iff.rfl (a0 e)
  have a3 : ∀ e, Anc lost 3 e ↔ e = 3 ∨ e = 1 ∨ e = 2 ∨ e = 0 := fun e => by
    rw [anc_iff]
    have : (∃ d, lost[3]? = some d ∧ ∃ b ∈ d.bases, Anc lost b e) ↔ Anc lost 1 e ∨ Anc lost 2 e := by
      simp [lost]
    rw [this, a1, a2]
    omega
  refine ⟨_, v, rfl, ⟨[3, 1, 2, 0], ⟨fun e => by rw [a3]; simp, by simp [a0, a1, a2]⟩⟩, ?_, by decide +kernel⟩
  intro l hl
  have hf : ∀ x ∈ l, ownMain lost x = none ∨ x = 1 := by
    intro x hx
    rcases (a3 x).1 ((hl.mem x).1 hx) with rfl | rfl | rfl | rfl
    · exact .inl (by decide +kernel)
    · exact .inr rfl
    · exact .inl (by decide +kernel)
    · exact .inl (by decide +kernel)
  rw [resolveMain, findSome?_unique ((hl.mem 1).2 ((a3 1).2 (by simp))) hf]
  decide +kernel

/-- **C74** (violated).  Two bases with one and the same inherited main function: the class cannot be made. -/
theorem C74_refused : Valid twice ∧ define [] twice = none ∧ ∀ e, ownMain twice e ≠ none → e = 0 := by
  refine ⟨valid_of_validB (by decide +kernel), by decide +kernel, fun e h => ?_⟩
  rw [ownMain, ne_eq, Option.bind_eq_none_iff, Classical.not_forall] at h
  obtain ⟨d, h⟩ := h
  rw [Classical.not_imp] at h
  rcases get?_four h.1 with ⟨rfl, -⟩ | ⟨rfl, rfl⟩ | ⟨rfl, rfl⟩ | ⟨rfl, rfl⟩
  · rfl
  · exact absurd rfl h.2
  · exact absurd rfl h.2
  · exact absurd rfl h.2

/-! ## Examples -/

/-- `Base` has tasks `s` and `t`, a stream `I` and a main function; `A(Base)` overrides `t`. -/
def chain : List (ClassDef Nat) :=
  [{ own := [("s", .task, 0), ("t", .task, 1), ("I", .stream, 2), ("m", .main, 3)] },
   { bases := [0], own := [("t", .task, 4), ("p", .plain, 5), ("m", .main, 6)] }]

theorem chain_anc0 (e : Nat) : Anc chain 0 e ↔ e = 0 := by rw [anc_iff]; simp [chain]

theorem chain_anc1 (e : Nat) : Anc chain 1 e ↔ e = 1 ∨ e = 0 := by
  rw [anc_iff]; simp [chain]; exact or_congr Iff.rfl (chain_anc0 e)

theorem chain_valid : Valid chain := valid_of_validB (by decide +kernel)

theorem chain_mro : IsMro chain 1 [1, 0] := ⟨fun e => by rw [chain_anc1]; simp, by simp [chain_anc0]⟩

theorem chain_get {i : Nat} {d : ClassDef Nat} (h : chain[i]? = some d) : d.unit = true ∧ d.bases.length ≤ 1 := by
  match i, h with
  | 0, h => simp [chain] at h; subst h; simp
  | 1, h => simp [chain] at h; subst h; simp
  | n + 2, h => simp [chain] at h

theorem chain_tidy : Tidy chain .task "t" 1 := by
  refine ⟨fun x d _ hd => ?_, fun x k f hx ho => ⟨?_, fun d hd => (chain_get hd).1⟩⟩
  · have := (chain_get hd).2
    match hb : d.bases, this with
    | [], _ => simp
    | [b], _ => simp
  · rcases (chain_anc1 x).1 hx with rfl | rfl
    · have : ownOf chain "t" 1 = some (.task, 4) := by decide +kernel
      rw [this] at ho; simp at ho; exact ho.1.symm
    · have : ownOf chain "t" 0 = some (.task, 1) := by decide +kernel
      rw [this] at ho; simp at ho; exact ho.1.symm

theorem chain_tidyMain (c : Nat) : TidyMain chain c := by
  refine ⟨fun x d _ hd => ?_, fun x d _ _ hd => (chain_get hd).1⟩
  have := (chain_get hd).2
  match hb : d.bases, this with
  | [], _ => simp
  | [b], _ => simp

/-- The overriding task is the one which runs. -/
example : ∃ ts, define [] chain = some ts ∧ tab ts .task "t" 1 = some 4 ∧ tab ts .task "s" 1 = some 0 ∧
    tab ts .stream "I" 1 = some 2 ∧ mainOf ts 1 = some 6 := by
  refine ⟨_, rfl, ?_⟩
  decide +kernel

example : ∃ ts, define [] chain = some ts ∧ tab ts .task "t" 1 = (resolve chain [1, 0] "t").map (·.2) :=
  ⟨_, rfl, C74_attributes_partial chain_valid rfl rfl (by decide) chain_tidy chain_mro⟩

example : ∃ ts, define [] chain = some ts ∧ mainOf ts 1 = resolveMain chain [1, 0] :=
  ⟨_, rfl, C74_main_partial chain_valid rfl (by decide) (chain_tidyMain 1) chain_mro⟩

example : ∃ ts, define [] chain = some ts := C74_made_partial chain_valid (fun c _ => chain_tidyMain c)

example : ∃ ts, define [] lost = some ts ∧ mainOf ts 3 = (ownMain lost 3).or (lastUnit ts [1, 2]) :=
  ⟨_, rfl, C74_main_of_last (valid_of_validB (by decide +kernel)) rfl (d := { bases := [1, 2] }) rfl rfl⟩

end Classes
end Ez
