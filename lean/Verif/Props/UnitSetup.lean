import Verif.Model.UnitSetup
import Verif.Lemmas.Py

/-!
# C89: units start with the settings they are given and a complete state of their own
-/

set_option linter.unusedSectionVars false
set_option linter.unusedSimpArgs false

namespace Ez
namespace UnitSetup

/-! ## Specification -/

/-- The arguments fit the fields: not too many, no unknown name, none given twice, none missing. -/
structure Fits (fs : List (String × Option Val)) (args : List Val) (kw : PyDict String Val) : Prop where
  length : args.length ≤ fs.length
  known : ∀ k, (kw.get? k).isSome → k ∈ (fs.drop args.length).map (·.1)
  given : ∀ f, (f, none) ∈ fs.drop args.length → (kw.get? f).isSome

/-- The fields have the values which the arguments say: those at the front in order, others by name, the rest by default. -/
structure Binds (fs : List (String × Option Val)) (args : List Val) (kw : PyDict String Val) (res : List (String × Val)) :
    Prop where
  names : res.map (·.1) = fs.map (·.1)
  front : (res.map (·.2)).take args.length = args
  others : ∀ f v, (f, v) ∈ res.drop args.length →
    kw.get? f = some v ∨ (kw.get? f = none ∧ (f, some v) ∈ fs.drop args.length)

/-- What `initialize` finds: objects with numbers from `n` up to `n'` exactly for the fields with factories, all different. -/
structure Fresh (fields : List (String × Default)) (n n' : Nat) (st : PyDict String Nat) : Prop where
  made : ∀ f, (f, .factory) ∈ fields → (st.get? f).isSome
  only : ∀ f o, st.get? f = some o → (f, .factory) ∈ fields ∧ n ≤ o ∧ o < n'
  apart : ∀ f g o, st.get? f = some o → st.get? g = some o → f = g

/-! ## Lemmas -/

theorem bind_isSome : ∀ (fs : List (String × Option Val)) (args : List Val) (kw : PyDict String Val),
    (fs.map (·.1)).Nodup → ((bind fs args kw).isSome ↔ Fits fs args kw)
  | [], [], [], _ => by
    simp only [bind, Option.isSome_some, true_iff]
    exact ⟨by simp, by simp [PyDict.get?], by simp⟩
  | [], [], (k, v) :: kw, _ => by
    simp only [bind, Option.isSome_none, Bool.false_eq_true, false_iff]
    intro h
    simpa using h.known k (by simp [PyDict.get?])
  | [], a :: args, kw, _ => by
    simp only [bind, Option.isSome_none, Bool.false_eq_true, false_iff]
    intro h
    simpa using h.length
  | (f, d) :: fs, a :: args, kw, hn => by
    simp only [List.map_cons, List.nodup_cons] at hn
    have ih := bind_isSome fs args kw hn.2
    cases hg : kw.get? f with
    | some v =>
      simp only [bind, hg, Option.isSome_none, Bool.false_eq_true, false_iff]
      intro h
      have := h.known f (by simp [hg])
      simp only [List.length_cons, List.drop_succ_cons] at this
      obtain ⟨x, hx, rfl⟩ := List.mem_map.1 this
      exact hn.1 (List.mem_map.2 ⟨x, List.mem_of_mem_drop hx, rfl⟩)
    | none =>
      simp only [bind, hg, Option.isSome_map, ih]
      constructor
      · intro h; exact ⟨by simpa using h.length, by simpa using h.known, by simpa using h.given⟩
      · intro h; exact ⟨by simpa using h.length, by simpa using h.known, by simpa using h.given⟩
  | (f, d) :: fs, [], kw, hn => by
    simp only [List.map_cons, List.nodup_cons] at hn
    cases hg : kw.get? f with
    | some v =>
      have ih := bind_isSome fs [] (kw.pop f) hn.2
      simp only [bind, hg, Option.isSome_map, ih]
      constructor
      · intro h
        refine ⟨by simp, ?_, ?_⟩
        · intro k hk
          by_cases e : k = f
          · simp [e]
          · have := h.known k (by rw [PyDict.get?_pop]; simpa [e] using hk)
            simp only [List.length_nil, List.drop_zero, List.map_cons, List.mem_cons] at this ⊢
            exact .inr this
        · intro g hm
          simp only [List.length_nil, List.drop_zero, List.mem_cons] at hm
          rcases hm with hm | hm
          · injection hm with e1 e2; subst e1; simp [hg]
          · have := h.given g (by simpa using hm)
            rw [PyDict.get?_pop] at this
            split at this
            · simp at this
            · exact this
      · intro h
        refine ⟨by simp, ?_, ?_⟩
        · intro k hk
          rw [PyDict.get?_pop] at hk
          split at hk
          · simp at hk
          · rename_i hne
            have := h.known k hk
            simp only [List.length_nil, List.drop_zero, List.map_cons, List.mem_cons] at this ⊢
            exact this.resolve_left hne
        · intro g hm
          simp only [List.length_nil, List.drop_zero] at hm
          have hne : g ≠ f := by
            rintro rfl
            exact hn.1 (List.mem_map.2 ⟨_, hm, rfl⟩)
          rw [PyDict.get?_pop, if_neg hne]
          exact h.given g (by simp [hm])
    | none =>
      have ih := bind_isSome fs [] kw hn.2
      have base : Fits ((f, d) :: fs) [] kw → Fits fs [] kw := by
        intro h
        refine ⟨by simp, ?_, ?_⟩
        · intro k hk
          have := h.known k hk
          simp only [List.length_nil, List.drop_zero, List.map_cons, List.mem_cons] at this ⊢
          refine this.resolve_left ?_
          rintro rfl
          simp [hg] at hk
        · intro g hm
          exact h.given g (by simp at hm; simp [hm])
      cases d with
      | none =>
        simp only [bind, hg, Option.isSome_none, Bool.false_eq_true, false_iff]
        intro h
        simpa [hg] using h.given f (by simp)
      | some v =>
        simp only [bind, hg, Option.isSome_map, ih]
        refine ⟨fun h => ⟨by simp, ?_, ?_⟩, base⟩
        · intro k hk
          have := h.known k hk
          simp only [List.length_nil, List.drop_zero, List.map_cons, List.mem_cons] at this ⊢
          exact .inr this
        · intro g hm
          simp only [List.length_nil, List.drop_zero, List.mem_cons] at hm
          rcases hm with hm | hm
          · injection hm with _ e2; simp at e2
          · exact h.given g (by simpa using hm)

theorem bind_binds : ∀ (fs : List (String × Option Val)) (args : List Val) (kw : PyDict String Val) (res : List (String × Val)),
    (fs.map (·.1)).Nodup → bind fs args kw = some res → Binds fs args kw res
  | [], [], [], res, _, h => by
    simp only [bind, Option.some.injEq] at h
    subst h
    exact ⟨rfl, rfl, by simp⟩
  | [], [], _ :: _, _, _, h => by simp [bind] at h
  | [], _ :: _, _, _, _, h => by simp [bind] at h
  | (f, d) :: fs, a :: args, kw, res, hn, h => by
    simp only [List.map_cons, List.nodup_cons] at hn
    cases hg : kw.get? f with
    | some v => simp [bind, hg] at h
    | none =>
      simp only [bind, hg, Option.map_eq_some_iff] at h
      obtain ⟨r, hr, rfl⟩ := h
      have ih := bind_binds fs args kw r hn.2 hr
      exact ⟨by simp [ih.names], by simp [ih.front], by simpa using ih.others⟩
  | (f, d) :: fs, [], kw, res, hn, h => by
    simp only [List.map_cons, List.nodup_cons] at hn
    cases hg : kw.get? f with
    | some v =>
      simp only [bind, hg, Option.map_eq_some_iff] at h
      obtain ⟨r, hr, rfl⟩ := h
      have ih := bind_binds fs [] (kw.pop f) r hn.2 hr
      refine ⟨by simp [ih.names], rfl, ?_⟩
      intro g w hm
      simp only [List.length_nil, List.drop_zero, List.mem_cons] at hm
      rcases hm with hm | hm
      · injection hm with e1 e2; subst e1 e2; exact .inl hg
      · have hne : g ≠ f := by
          rintro rfl
          apply hn.1
          rw [← ih.names]
          exact List.mem_map.2 ⟨_, hm, rfl⟩
        have := ih.others g w (by simpa using hm)
        simp only [PyDict.get?_pop, if_neg hne] at this
        rcases this with h' | h'
        · exact .inl h'
        · exact .inr ⟨h'.1, by simp at h'; simp [h'.2]⟩
    | none =>
      cases d with
      | none => simp [bind, hg] at h
      | some v =>
        simp only [bind, hg, Option.map_eq_some_iff] at h
        obtain ⟨r, hr, rfl⟩ := h
        have ih := bind_binds fs [] kw r hn.2 hr
        refine ⟨by simp [ih.names], rfl, ?_⟩
        intro g w hm
        simp only [List.length_nil, List.drop_zero, List.mem_cons] at hm
        rcases hm with hm | hm
        · injection hm with e1 e2; subst e1 e2; exact .inr ⟨hg, by simp⟩
        · have := ih.others g w (by simpa using hm)
          rcases this with h' | h'
          · exact .inl h'
          · exact .inr ⟨h'.1, by simp at h'; simp [h'.2]⟩

theorem instantiate_le : ∀ (fs : List (String × Default)) (n : Nat), n ≤ (instantiate fs n).2
  | [], n => Nat.le_refl n
  | (_, .factory) :: fs, n => Nat.le_trans (Nat.le_succ n) (instantiate_le fs (n + 1))
  | (_, .missing) :: fs, n => instantiate_le fs n
  | (_, .value _) :: fs, n => instantiate_le fs n

theorem instantiate_fresh : ∀ (fs : List (String × Default)) (n : Nat), (fs.map (·.1)).Nodup →
    Fresh fs n (instantiate fs n).2 (instantiate fs n).1
  | [], n, _ => ⟨by simp, by simp [instantiate, PyDict.get?], by simp [instantiate, PyDict.get?]⟩
  | (f, d) :: fs, n, hn => by
    simp only [List.map_cons, List.nodup_cons] at hn
    have keep : ∀ (ih : Fresh fs n (instantiate fs n).2 (instantiate fs n).1), d ≠ .factory →
        Fresh ((f, d) :: fs) n (instantiate fs n).2 (instantiate fs n).1 := by
      intro ih hd
      refine ⟨?_, ?_, ih.apart⟩
      · intro g hm
        rcases List.mem_cons.1 hm with hm | hm
        · injection hm with _ e2; exact absurd e2.symm hd
        · exact ih.made g hm
      · intro g o hg
        have := ih.only g o hg
        exact ⟨List.mem_cons_of_mem _ this.1, this.2⟩
    cases d with
    | missing => exact keep (instantiate_fresh fs n hn.2) (by simp)
    | value o => exact keep (instantiate_fresh fs n hn.2) (by simp)
    | factory =>
      have ih := instantiate_fresh fs (n + 1) hn.2
      have hle := instantiate_le fs (n + 1)
      have look : ∀ g, PyDict.get? ((f, n) :: (instantiate fs (n + 1)).1) g =
          if f = g then some n else PyDict.get? (instantiate fs (n + 1)).1 g := by
        intro g; rw [PyDict.get?_cons]
      refine ⟨?_, ?_, ?_⟩
      · intro g hm
        simp only [instantiate, look]
        split
        · rfl
        · rename_i hne
          rcases List.mem_cons.1 hm with hm | hm
          · injection hm with e1 _; exact absurd e1.symm hne
          · exact ih.made g hm
      · intro g o hg
        simp only [instantiate, look] at hg ⊢
        split at hg
        · rename_i e; subst e
          injection hg with hg; subst hg
          exact ⟨by simp, Nat.le_refl _, hle⟩
        · have := ih.only g o hg
          exact ⟨List.mem_cons_of_mem _ this.1, by omega, this.2.2⟩
      · intro g h o hg hh
        simp only [instantiate, look] at hg hh
        split at hg <;> split at hh
        · rename_i e1 e2; rw [← e1, ← e2]
        · injection hg with hg; subst hg
          have := ih.only h _ hh; omega
        · injection hh with hh; subst hh
          have := ih.only g _ hg; omega
        · exact ih.apart g h o hg hh

/-! ## Theorems: settings -/

/-- C89: settings given by name are the settings of the unit. -/
theorem C89_given (sub : Nat → Nat → Bool) (c : SettingsClass) (args : List Val) (s : Val) (kw : PyDict String Val) :
    initSettings sub c args (some s) kw = .ok (some s) := rfl

/-- C89: a settings object of the unit's settings class given as the only argument is the settings of the unit. -/
theorem C89_given_first (sub : Nat → Nat → Bool) (c : SettingsClass) (k : Nat) (fs : List (String × Val))
    (h : sub k c.cls = true) :
    initSettings sub c [.settings k fs] none [] = .ok (some (.settings k fs)) := by
  simp [initSettings, isinstance, h]

/-- C89: other arguments are refused unless they fit the fields of the settings class, and otherwise the unit has settings of
that class with these values; whatever `__post_init__` raises is raised. -/
theorem C89_built (sub : Nat → Nat → Bool) (c : SettingsClass) (hc : (c.fields.map (·.1)).Nodup) (args : List Val)
    (kw : PyDict String Val) (hne : args ≠ [] ∨ kw ≠ []) (hi : ∀ a, args.head? = some a → isinstance sub c a = false) :
    (initSettings sub c args none kw = .error .typeError ∧ ¬ Fits c.fields args kw) ∨
    (Fits c.fields args kw ∧ ∃ fs, Binds c.fields args kw fs ∧
      initSettings sub c args none kw =
        match c.post fs with
        | some e => .error e
        | none => .ok (some (.settings c.cls fs))) := by
  have e : initSettings sub c args none kw =
      match construct c args kw with
      | .ok s => .ok (some s)
      | .error e => .error e := by
    match args, kw, hne with
    | a :: t, kw, _ => simp [initSettings, hi a rfl]; rfl
    | [], x :: t, _ => simp [initSettings]; rfl
    | [], [], h => simp at h
  have hb := bind_isSome c.fields args kw hc
  cases hq : bind c.fields args kw with
  | none =>
    left
    rw [hq] at hb
    exact ⟨by rw [e]; simp [construct, hq], fun h => by simpa using hb.2 h⟩
  | some fs =>
    right
    rw [hq] at hb
    refine ⟨hb.1 rfl, fs, bind_binds _ _ _ _ hc hq, ?_⟩
    rw [e]
    cases hp : c.post fs <;> simp [construct, hq, hp]

/-- C89: without arguments the unit has settings with all defaults, if every field has one. -/
theorem C89_default (sub : Nat → Nat → Bool) (c : SettingsClass) (fs : List (String × Val))
    (hf : c.fields = fs.map fun x => (x.1, some x.2)) (hp : c.post fs = none) :
    initSettings sub c [] none [] = .ok (some (.settings c.cls fs)) := by
  have hb : ∀ fs : List (String × Val), bind (fs.map fun x => (x.1, some x.2)) [] [] = some fs := by
    intro fs
    induction fs with
    | nil => rfl
    | cons x t ih => simp [bind, PyDict.get?, ih]
  simp [initSettings, construct, hf, hb, hp]

/-- C89: an exception other than `TypeError` that the making of the default settings raises is raised. -/
theorem C89_default_raises (sub : Nat → Nat → Bool) (c : SettingsClass) (fs : List (String × Val)) (e : Exc)
    (hf : c.fields = fs.map fun x => (x.1, some x.2)) (hp : c.post fs = some e) (he : e ≠ .typeError) :
    initSettings sub c [] none [] = .error e := by
  have hb : ∀ fs : List (String × Val), bind (fs.map fun x => (x.1, some x.2)) [] [] = some fs := by
    intro fs
    induction fs with
    | nil => rfl
    | cons x t ih => simp [bind, PyDict.get?, ih]
  cases e <;> first | exact absurd rfl he | simp [initSettings, construct, hf, hb, hp]

/-- C89: without arguments, and without a default for some field, the unit has no settings yet. -/
theorem C89_unset (sub : Nat → Nat → Bool) (c : SettingsClass) (hc : (c.fields.map (·.1)).Nodup) (f : String)
    (hf : (f, none) ∈ c.fields) : initSettings sub c [] none [] = .ok none := by
  have : bind c.fields [] [] = none := by
    cases hq : bind c.fields [] [] with
    | none => rfl
    | some r =>
      have h := (bind_isSome c.fields [] [] hc).1 (by simp [hq])
      simpa [PyDict.get?] using h.given f (by simpa using hf)
  simp [initSettings, construct, this]

/-- C89 is violated: settings of another class are taken as the value of the first field. -/
theorem C89_wrong_class (sub : Nat → Nat → Bool) (c : SettingsClass) (f : String) (d : Option Val) (k : Nat)
    (gs : List (String × Val)) (hf : c.fields = [(f, d)]) (hk : sub k c.cls = false)
    (hp : c.post [(f, .settings k gs)] = none) :
    initSettings sub c [.settings k gs] none [] = .ok (some (.settings c.cls [(f, .settings k gs)])) := by
  simp [initSettings, isinstance, hk, construct, hf, bind, PyDict.get?, hp]

/-- C89 is violated: arguments that come with a settings object are ignored. -/
theorem C89_ignored (sub : Nat → Nat → Bool) (c : SettingsClass) (k : Nat) (fs : List (String × Val)) (h : sub k c.cls = true)
    (args : List Val) (kw : PyDict String Val) :
    initSettings sub c (.settings k fs :: args) none kw = .ok (some (.settings k fs)) := by
  simp [initSettings, isinstance, h]

/-- C89 is violated: a `TypeError` raised while the default settings are made is not reported; the unit has no settings. -/
theorem C89_error_hidden (sub : Nat → Nat → Bool) (c : SettingsClass) (hp : ∀ fs, c.post fs = some .typeError) :
    initSettings sub c [] none [] = .ok none := by
  have : construct c [] [] = .error .typeError := by
    unfold construct
    cases bind c.fields [] [] with
    | none => rfl
    | some fs => simp [hp]
  simp [initSettings, this]

/-! ## Theorems: state -/

/-- C89: if `setup` returns, then `initialize` has been run with the settings of the unit and with new objects for the fields that
have factories, and every field has the value which `initialize` gave it or else its default. -/
theorem C89_ready (u u' : Unit) (n n' : Nat) (hf : (u.fields.map (·.1)).Nodup) (h : setup u n = (u', n', none)) :
    u.state = none ∧ ∃ s st st', u.settings = some s ∧ Fresh u.fields n n' st ∧ u.init s st = .ok st' ∧
      u'.state = some st' ∧ u'.settings = u.settings ∧
      ∀ f d, (f, d) ∈ u.fields → (st'.get? f).isSome ∨ ∃ o, d = .value o := by
  unfold setup at h
  cases hs : u.state with
  | some x => simp [hs] at h
  | none =>
    simp only [hs] at h
    cases hc : u.settings with
    | none => simp [hc] at h
    | some s =>
      simp only [hc] at h
      cases hi : u.init s (instantiate u.fields n).1 with
      | error e => simp [hi] at h
      | ok st' =>
        simp only [hi] at h
        split at h
        · rename_i hk
          simp only [Prod.mk.injEq, and_true] at h
          obtain ⟨rfl, rfl⟩ := h
          refine ⟨rfl, s, _, st', rfl, instantiate_fresh u.fields n hf, hi, rfl, by simp [hc], ?_⟩
          intro f d hm
          have := List.all_eq_true.1 hk (f, d) hm
          simp only [getField] at this
          cases hg : PyDict.get? st' f with
          | some o => simp
          | none =>
            cases d <;> simp [hg] at this ⊢
        · simp at h

/-- C89: a unit with settings is initialized once with a fresh state; setting it up fails if that fails, and otherwise succeeds
exactly if every field of the state then has a value. -/
theorem C89_outcome (u : Unit) (n : Nat) (s : Val) (hf : (u.fields.map (·.1)).Nodup) (h0 : u.state = none)
    (hs : u.settings = some s) :
    ∃ n' st, Fresh u.fields n n' st ∧
      match u.init s st with
      | .error e => (setup u n).2.2 = some e
      | .ok st' => ((setup u n).2.2 = none ↔ ∀ f d, (f, d) ∈ u.fields → (st'.get? f).isSome ∨ ∃ o, d = .value o) ∧
          ((setup u n).2.2 = none ∨ (setup u n).2.2 = some .attributeError) := by
  refine ⟨(instantiate u.fields n).2, (instantiate u.fields n).1, instantiate_fresh u.fields n hf, ?_⟩
  split
  · rename_i e he
    simp [setup, h0, hs, he]
  · rename_i st' he
    have hc : check u.fields st' = true ↔ ∀ f d, (f, d) ∈ u.fields → (st'.get? f).isSome ∨ ∃ o, d = .value o := by
      simp only [check, List.all_eq_true]
      constructor
      · intro h f d hm
        have := h (f, d) hm
        cases hg : st'.get? f <;> cases d <;> simp_all [getField]
      · intro h x hm
        obtain ⟨f, d⟩ := x
        have := h f d hm
        cases hg : st'.get? f <;> cases d <;> simp_all [getField]
    rw [← hc]
    cases hk : check u.fields st' <;> simp [setup, h0, hs, he, hk]

/-- C89: a unit without settings is refused, and `initialize` is not run. -/
theorem C89_no_settings (u : Unit) (n : Nat) (h0 : u.state = none) (hs : u.settings = none) :
    (setup u n).2.2 = some .valueError := by
  simp [setup, h0, hs]

/-- C89: a unit is set up once. -/
theorem C89_once (u : Unit) (n m : Nat) : (setup (setup u n).1 m).2.2 = some .assertionError := by
  have : ∃ st, (setup u n).1.state = some st := by
    unfold setup
    cases hs : u.state with
    | some x => exact ⟨x, hs⟩
    | none =>
      simp only
      cases hc : u.settings with
      | none => exact ⟨_, rfl⟩
      | some s =>
        simp only
        cases hi : u.init s (instantiate u.fields n).1 with
        | error e => exact ⟨_, rfl⟩
        | ok st' =>
          simp only
          split <;> exact ⟨_, rfl⟩
  obtain ⟨st, hst⟩ := this
  generalize (setup u n).1 = w at hst
  simp [setup, hst]

/-- C89, partial: objects that factories make for one unit are not those of a unit that is set up later: what `initialize` of one finds
has nothing in common with what `initialize` of the other finds. Missing: objects which are defaults of the class
(`C89_default_shared`). -/
theorem C89_own_partial (u v u' v' : Unit) (n n' m m' : Nat) (hu : (u.fields.map (·.1)).Nodup)
    (hv : (v.fields.map (·.1)).Nodup) (h : setup u n = (u', n', none)) (hm : n' ≤ m) (h' : setup v m = (v', m', none)) :
    ∃ s st s' st', u.settings = some s ∧ v.settings = some s' ∧ (∃ r, u.init s st = .ok r ∧ u'.state = some r) ∧
      (∃ r, v.init s' st' = .ok r ∧ v'.state = some r) ∧ Fresh u.fields n n' st ∧ Fresh v.fields m m' st' ∧
      ∀ f g o, st.get? f = some o → st'.get? g ≠ some o := by
  obtain ⟨-, s, st, r, a1, a2, a3, a4, -, -⟩ := C89_ready u u' n n' hu h
  obtain ⟨-, s', st', r', b1, b2, b3, b4, -, -⟩ := C89_ready v v' m m' hv h'
  refine ⟨s, st, s', st', a1, b1, ⟨r, a3, a4⟩, ⟨r', b3, b4⟩, a2, b2, ?_⟩
  intro f g o hf hg
  have := (a2.only f o hf).2.2
  have := (b2.only g o hg).2.1
  omega

/-- C89 is violated: a default which is an object is the same object in the states of all units of the class, unless `initialize`
replaces it. -/
theorem C89_default_shared (u : Unit) (s : Val) (f : String) (o n m : Nat) (h0 : u.state = none) (hs : u.settings = some s)
    (hi : ∀ st, u.init s st = .ok st) (hu : u.fields = [(f, .value o)]) :
    ∃ st st', setup u n = ({ u with state := some st }, n, none) ∧ setup u m = ({ u with state := some st' }, m, none) ∧
      getField st f (.value o) = some o ∧ getField st' f (.value o) = some o := by
  refine ⟨[], [], ?_, ?_, rfl, rfl⟩ <;>
    simp [setup, h0, hs, hi, hu, instantiate, check, getField, PyDict.get?]

/-! ## Examples -/

/-- A settings class with two fields, the second of which has a default. -/
def conf : SettingsClass := ⟨0, [("a", none), ("b", some (.obj 5))], fun _ => none⟩

example : initSettings (· == ·) conf [.obj 1] none [("b", .obj 2)] =
    .ok (some (.settings 0 [("a", .obj 1), ("b", .obj 2)])) := rfl

example : initSettings (· == ·) conf [] none [("a", .obj 2)] =
    .ok (some (.settings 0 [("a", .obj 2), ("b", .obj 5)])) := rfl

example : initSettings (· == ·) conf [.obj 1] none [("a", .obj 2)] = .error .typeError ∧
    initSettings (· == ·) conf [] none [("b", .obj 2)] = .error .typeError ∧
    initSettings (· == ·) conf [] none [] = .ok none ∧
    initSettings (· == ·) conf [.settings 1 []] none [] =
      .ok (some (.settings 0 [("a", .settings 1 []), ("b", .obj 5)])) := ⟨rfl, rfl, rfl, rfl⟩

example := C89_built (· == ·) conf (by decide) [.obj 1] [("b", .obj 2)] (by simp) (by simp [isinstance])

/-- A unit with a field of each kind, whose `initialize` sets the first. -/
def unit0 : Unit :=
  ⟨[("x", .missing), ("y", .value 7), ("z", .factory), ("w", .factory)], some (.settings 0 []), none,
    fun _ st => .ok (("x", 9) :: st)⟩

example : (setup unit0 20).2 = (22, none) ∧ (setup unit0 20).1.state = some [("x", 9), ("z", 20), ("w", 21)] ∧
    (setup { unit0 with init := fun _ st => .ok st } 20).2.2 = some .attributeError := ⟨rfl, rfl, rfl⟩

example := C89_own_partial unit0 unit0 _ _ 20 22 25 27 (by decide) (by decide) rfl (by decide) rfl

example := C89_ready unit0 _ 20 22 (by decide) rfl

example := C89_outcome unit0 20 _ (by decide) rfl rfl

example : initSettings (· == ·) ⟨0, [("b", some (.obj 5))], fun _ => some .valueError⟩ [] none [] = .error .valueError :=
  C89_default_raises _ _ [("b", .obj 5)] .valueError rfl rfl (by decide)

end UnitSetup
end Ez
