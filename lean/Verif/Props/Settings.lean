import Verif.Lemmas.SrvSettings
import Verif.Props.Requests

/-!
# C31, C33 for the graph server; C32: settings events and settings snapshot; C51: what the snapshot shows

Specification, from the history of requests alone: the metadata each session registered last
(`metadataOf`), the last report of each component's settings by a process that is still there (`reported`).
-/

set_option linter.unusedSectionVars false
set_option linter.unusedSimpArgs false

namespace Ez
namespace Srv
variable {T I A V : Type} [DecidableEq T] [DecidableEq I] [DecidableEq A]

/-- Specification: the metadata session `s` registered last, if it did not clear or end since. -/
def metadataOf (h : List (Act T I A V × Reply)) (s : I) : Option (PyDict A V) :=
  h.foldl (fun m c => match c with
    | (.sessionRegister s' md, .complete) => if s' = s then some md else m
    | (.sessionClear s', _) => if s' = s then none else m
    | (.sessionGone s', _) => if s' = s then none else m
    | _ => m) none

/-- Specification: the last accepted report of the settings of `a`, if the process has not left since. -/
def reported (h : List (Act T I A V × Reply)) (a : A) : Option (I × V) :=
  h.foldl (fun m c => match c with
    | (.updateSettings p b v, .complete) => if b = a then some (p, v) else m
    | (.processGone p, _) => m.filter (fun x => decide (x.1 ≠ p))
    | _ => m) none

/-- Specification: the last event that satisfies `q`. -/
def lastBy {E : Type} (q : E → Bool) (es : List E) : Option E := es.reverse.find? q

theorem lastBy_append {E : Type} (q : E → Bool) (es fs : List E) :
    lastBy q (es ++ fs) = (lastBy q fs).or (lastBy q es) := by
  unfold lastBy; rw [List.reverse_append, List.find?_append]

/-! ## The metadata of sessions -/

def mdClient : Option (Client T I A V) → Option (PyDict A V)
  | some (.session _ md) => md
  | _ => none

/-- The metadata of session `s` in the server. -/
def mdOf (sv : Server T I A V) (s : I) : Option (PyDict A V) := mdClient (sv.clients.get? s)

/-- The metadata of `s` after a step. -/
def mdAfter (sv : Server T I A V) (s : I) : Act T I A V → Option (PyDict A V)
  | .sessionRegister s' md => if s' = s ∧ collides sv s' md = false then some md else mdOf sv s
  | .sessionClear s' => if s' = s then none else mdOf sv s
  | .sessionGone s' => if s' = s then none else mdOf sv s
  | _ => mdOf sv s

theorem mdOf_step {cfg : Cfg} {sv sv' : Server T I A V} {act : Act T I A V} {r : Reply} (hinv : EdgeInv sv)
    (hu : ∀ i c, sv.clients.get? i = some c → i ∈ sv.used) (h : step cfg sv act = some (sv', r)) (s : I) :
    mdOf sv' s = mdAfter sv s act := by
  have hc := clients_step hinv h s
  have hfresh : ∀ {j : I}, j ∉ sv.used → sv.clients.get? j = none := by
    intro j hj
    cases hj' : sv.clients.get? j with
    | none => rfl
    | some c => exact absurd (hu _ _ hj') hj
  have hne : ∀ {c : Option (Client T I A V)} {j : I}, j ∉ sv.used → mdClient c = none →
      mdClient (if s = j then c else sv.clients.get? s) = mdClient (sv.clients.get? s) := by
    intro c j hj hm
    split
    · rename_i hs; rw [hm, hs, hfresh hj]; rfl
    · rfl
  unfold mdOf
  rw [hc]
  cases act with
  | subscribe j t => exact hne (fresh_step h j (by simp)) rfl
  | publish j t => exact hne (fresh_step h j (by simp)) rfl
  | openSession j => exact hne (fresh_step h j (by simp)) rfl
  | openProcess j => exact hne (fresh_step h j (by simp)) rfl
  | channel j q =>
    have := fresh_step h j (by simp)
    simp only [clientAfter]
    split
    · exact hne this rfl
    · rfl
  | gone j =>
    simp only [clientAfter, mdAfter, mdOf]
    split
    · rename_i hs; subst hs
      simp only [step] at h
      split at h
      · rename_i h1; rw [h1]; rfl
      · rename_i h1; rw [h1]; rfl
      · rename_i h1; rw [h1]; rfl
      · cases h
    · rfl
  | sessionConnect s' x y =>
    simp only [clientAfter, mdAfter, mdOf]
    split
    · unfold editEdges
      split
      · rename_i h1; rw [h1]; rfl
      · rfl
    · rfl
  | sessionDisconnect s' x y =>
    simp only [clientAfter, mdAfter, mdOf]
    split
    · unfold editEdges
      split
      · rename_i h1; rw [h1]; rfl
      · rfl
    · rfl
  | sessionClear s' =>
    by_cases hs : s = s'
    · subst hs; simp [clientAfter, mdAfter, mdClient]
    · simp [clientAfter, mdAfter, mdOf, hs, Ne.symm hs]
  | sessionGone s' =>
    by_cases hs : s = s'
    · subst hs; simp [clientAfter, mdAfter, mdClient]
    · simp [clientAfter, mdAfter, mdOf, hs, Ne.symm hs]
  | sessionRegister s' md =>
    simp only [step] at h
    split at h
    · rename_i x hx
      have hx := sessionInfo_some.1 hx
      by_cases hs : s = s'
      · subst hs
        by_cases hcol : collides sv s md = false
        · simp [clientAfter, mdAfter, hcol, hx, mdClient]
        · simp [clientAfter, mdAfter, hcol, mdOf]
      · simp [clientAfter, mdAfter, mdOf, hs, Ne.symm hs]
    · cases h
  | registerProcess p units =>
    simp only [step] at h
    split at h
    · rename_i x hx
      have hx := processInfo_some.1 hx
      simp only [clientAfter, mdAfter, mdOf]
      split
      · rename_i hs; rw [hs.1, hx]; rfl
      · rfl
    · cases h
  | updateOwnership p added removed =>
    simp only [step] at h
    split at h
    · rename_i x hx
      have hx := processInfo_some.1 hx
      simp only [clientAfter, mdAfter, mdOf]
      split
      · rename_i hs; rw [hs.1, hx]; rfl
      · rfl
    · cases h
  | processGone p =>
    simp only [step] at h
    split at h
    · rename_i x hx
      have hx := processInfo_some.1 hx
      simp only [clientAfter, mdAfter, mdOf]
      split
      · rename_i hs; rw [hs, hx]; rfl
      · rfl
    · cases h
  | notify j =>
    simp only [clientAfter, mdAfter, mdOf]
    split
    · split
      · split
        · rename_i h1; rw [h1]; rfl
        · rfl
      · rfl
    · rfl
  | write s' j =>
    simp only [clientAfter, mdAfter, mdOf]
    split
    · split
      · rename_i h1; rw [h1]
        split <;> rfl
      · rfl
    · rfl
  | _ => rfl

/-! ## Who owns a component -/

theorem sessionOwner_some {sv : Server T I A V} (hn : sv.clients.keys.Nodup) {a : A} {s : I}
    (h : sessionOwner sv a = some s) : ∃ md, mdOf sv s = some md ∧ (PyDict.get? md a).isSome := by
  unfold sessionOwner at h
  obtain ⟨⟨i, c⟩, hm, hc⟩ := List.exists_of_findSome?_eq_some h
  simp only at hc
  split at hc
  · rename_i es md
    split at hc
    · rename_i hs
      cases hc
      refine ⟨md, ?_, hs⟩
      unfold mdOf
      rw [PyDict.get?_of_mem hn hm]; rfl
    · cases hc
  · cases hc

theorem sessionOwner_none {sv : Server T I A V} {a : A} (h : sessionOwner sv a = none) (s : I) (md : PyDict A V)
    (hs : mdOf sv s = some md) : PyDict.get? md a = none := by
  unfold sessionOwner at h
  rw [List.findSome?_eq_none_iff] at h
  unfold mdOf at hs
  cases hc : sv.clients.get? s with
  | none => rw [hc] at hs; cases hs
  | some c =>
    rw [hc] at hs
    have := h _ (PyDict.mem_of_get? hc)
    cases c with
    | session es m =>
      simp only [mdClient] at hs
      subst hs
      simpa using this
    | _ => cases hs

theorem collides_false {sv : Server T I A V} {s : I} {md : PyDict A V} (h : collides sv s md = false)
    {s' : I} {md' : PyDict A V} {a : A} (hs : mdOf sv s' = some md') (ha : (PyDict.get? md' a).isSome)
    (hb : (PyDict.get? md a).isSome) : s' = s := by
  unfold collides at h
  rw [List.any_eq_false] at h
  unfold mdOf at hs
  cases hc : sv.clients.get? s' with
  | none => rw [hc] at hs; cases hs
  | some c =>
    rw [hc] at hs
    have := h _ (PyDict.mem_of_get? hc)
    cases c with
    | session es m =>
      simp only [mdClient] at hs
      subst hs
      simp only [Bool.and_eq_true, decide_eq_true_eq, not_and, Bool.not_eq_true, List.any_eq_false] at this
      apply Decidable.byContradiction
      intro hne
      obtain ⟨v, hv⟩ := Option.isSome_iff_exists.1 hb
      have := this hne (a, v) (PyDict.mem_of_get? hv)
      simp only at this
      rw [this] at ha; cases ha
    | _ => cases hs

/-- A setting after its session gave it up. -/
theorem released_eq_some {s : I} {x y : SettingsState I V} : released s x = some y ↔
    (x.metadataSession ≠ some s ∧ y = x) ∨
    (x.metadataSession = some s ∧ x.sourceProcess ≠ none ∧ y = { x with metadataSession := none }) := by
  unfold released
  by_cases h1 : x.metadataSession = some s <;> by_cases h2 : x.sourceProcess = none <;>
    simp [h1, h2] <;> exact eq_comm

/-! ## The invariant, for abstract tables -/

theorem lastBy_cons {E : Type} (q : E → Bool) (e : E) (es : List E) :
    lastBy q (e :: es) = (lastBy q es).or (if q e then some e else none) := by
  have := lastBy_append q [e] es
  rw [List.singleton_append] at this
  rw [this]
  congr 1
  unfold lastBy
  by_cases h : q e <;> simp [h]

theorem lastBy_none {E : Type} {q : E → Bool} {es : List E} (h : ∀ e ∈ es, q e = false) : lastBy q es = none := by
  unfold lastBy
  rw [List.find?_eq_none]
  intro e he
  simp [h e (List.mem_reverse.1 he)]

/-- Events about component `a`. -/
def about (a : A) (e : SettingsEvent I A V) : Bool := decide (e.address = a)

/-- `SETTINGS_UPDATED` events about component `a`. -/
def updates (a : A) (e : SettingsEvent I A V) : Bool := decide (e.address = a) && decide (e.kind = .updated)

theorem lastBy_initial (s : I) (md : PyDict A V) (hn : md.keys.Nodup) (a : A) :
    lastBy (about a) (md.map (initialEvent s)) = (PyDict.get? md a).map (fun v => initialEvent s (a, v)) := by
  induction md with
  | nil => rfl
  | cons c md ih =>
    have hn' : (c.1 :: PyDict.keys md).Nodup := hn
    rw [List.nodup_cons] at hn'
    rw [List.map_cons, lastBy_cons, ih hn'.2, PyDict.get?_cons]
    by_cases h : c.1 = a
    · subst h
      rw [PyDict.get?_eq_none.2 hn'.1]
      simp [about, initialEvent]
    · simp [about, initialEvent, h]

theorem lastBy_filterMap (g : A → Option (SettingsEvent I A V)) (q : A → SettingsEvent I A V → Bool)
    (hg : ∀ a e, g a = some e → e.address = a) (hq : ∀ a e, q a e = true → e.address = a)
    (l : List A) (hn : l.Nodup) (a : A) :
    lastBy (q a) (l.filterMap g) = if a ∈ l then (g a).filter (q a) else none := by
  induction l with
  | nil => rfl
  | cons b l ih =>
    rw [List.nodup_cons] at hn
    have ih := ih hn.2
    rw [List.filterMap_cons]
    cases hb : g b with
    | none =>
      simp only
      rw [ih]
      by_cases h : a = b
      · subst h; simp [hn.1, hb]
      · simp [h]
    | some e =>
      simp only
      rw [lastBy_cons, ih]
      by_cases h : a = b
      · subst h
        simp [hn.1, hb, Option.filter]
      · have : q a e = false := by
          cases hqe : q a e with
          | false => rfl
          | true => exact absurd ((hq a e hqe).symm.trans (hg b e hb)) h
        simp [h, this]

/-- The relation between the settings table `st`, the metadata of sessions `md`, the reports `rep` and
the events `es`. -/
structure SetCore (st : A → Option (SettingsState I V)) (md : I → Option (PyDict A V))
    (rep : A → Option (I × V)) (es : List (SettingsEvent I A V)) : Prop where
  uniq : ∀ s s' m m' a, md s = some m → md s' = some m' → (PyDict.get? m a).isSome →
    (PyDict.get? m' a).isSome → s = s'
  reports : ∀ a p v, rep a = some (p, v) ↔ ∃ x, st a = some x ∧ x.value = v ∧ x.sourceProcess = some p
  ms : ∀ a x s, st a = some x →
    (x.metadataSession = some s ↔ ∃ m, md s = some m ∧ (PyDict.get? m a).isSome)
  init : ∀ a x, st a = some x → x.sourceProcess = none →
    ∃ s m, md s = some m ∧ PyDict.get? m a = some x.value
  pres : ∀ s m a, md s = some m → (PyDict.get? m a).isSome → ∃ x, st a = some x
  evU : ∀ a p v, rep a = some (p, v) → ∃ e, lastBy (updates a) es = some e ∧ e.value = v ∧ e.process = some p
  evI : ∀ a x, st a = some x → x.sourceProcess = none → ∃ e, lastBy (about a) es = some e ∧ e.value = x.value

variable {st : A → Option (SettingsState I V)} {md : I → Option (PyDict A V)}
  {rep : A → Option (I × V)} {es : List (SettingsEvent I A V)}

theorem SetCore.release (h : SetCore st md rep es) (s : I) :
    SetCore (fun a => (st a).bind (released s)) (fun s' => if s = s' then none else md s') rep es := by
  have key : ∀ a y, (st a).bind (released s) = some y → ∃ x, st a = some x ∧ y.value = x.value ∧
      y.sourceProcess = x.sourceProcess ∧
      ((x.metadataSession ≠ some s ∧ y = x) ∨
        (x.metadataSession = some s ∧ x.sourceProcess ≠ none ∧ y.metadataSession = none)) := by
    intro a y hy
    obtain ⟨x, hx, hr⟩ := Option.bind_eq_some_iff.1 hy
    refine ⟨x, hx, ?_⟩
    rcases released_eq_some.1 hr with ⟨h1, rfl⟩ | ⟨h1, h2, rfl⟩
    · exact ⟨rfl, rfl, Or.inl ⟨h1, rfl⟩⟩
    · exact ⟨rfl, rfl, Or.inr ⟨h1, h2, rfl⟩⟩
  constructor
  · intro s1 s2 m m' a h1 h2
    split at h1
    · cases h1
    · split at h2
      · cases h2
      · exact h.uniq s1 s2 m m' a h1 h2
  · intro a p v
    rw [h.reports]
    constructor
    · rintro ⟨x, h1, h2, h3⟩
      by_cases hm : x.metadataSession = some s
      · exact ⟨{ x with metadataSession := none }, by
          rw [h1, Option.bind_some, released_eq_some]; exact Or.inr ⟨hm, by simp [h3], rfl⟩, h2, h3⟩
      · exact ⟨x, by rw [h1, Option.bind_some, released_eq_some]; exact Or.inl ⟨hm, rfl⟩, h2, h3⟩
    · rintro ⟨y, h1, h2, h3⟩
      obtain ⟨x, hx, hv, hs, _⟩ := key a y h1
      exact ⟨x, hx, hv ▸ h2, hs ▸ h3⟩
  · intro a y s' hy
    obtain ⟨x, hx, hv, hs, hc⟩ := key a y hy
    have hms := h.ms a x s' hx
    by_cases hs' : s = s'
    · subst hs'
      simp only [if_true, reduceCtorEq, false_and, exists_false, iff_false]
      rcases hc with ⟨h1, rfl⟩ | ⟨_, _, h1⟩
      · exact h1
      · simp [h1]
    · simp only [hs', if_false]
      rw [← hms]
      rcases hc with ⟨h1, rfl⟩ | ⟨h0, _, h1⟩
      · rfl
      · rw [h1, h0]; simp [hs']
  · intro a y hy hsrc
    obtain ⟨x, hx, hv, hs, hc⟩ := key a y hy
    rcases hc with ⟨h1, rfl⟩ | ⟨_, h2, _⟩
    · obtain ⟨s0, m, h3, h4⟩ := h.init a y hx hsrc
      have : y.metadataSession = some s0 := (h.ms a y s0 hx).2 ⟨m, h3, by simp [h4]⟩
      have hne : s ≠ s0 := by rintro rfl; exact h1 this
      exact ⟨s0, m, by simp [hne, h3], h4⟩
    · exact absurd (hs ▸ hsrc) h2
  · intro s' m a h1 h2
    split at h1
    · cases h1
    · rename_i hne
      obtain ⟨x, hx⟩ := h.pres s' m a h1 h2
      have hm : x.metadataSession = some s' := (h.ms a x s' hx).2 ⟨m, h1, h2⟩
      refine ⟨x, ?_⟩
      rw [hx, Option.bind_some, released_eq_some]
      refine Or.inl ⟨?_, rfl⟩
      rw [hm]; simp [Ne.symm hne]
  · exact h.evU
  · intro a y hy hsrc
    obtain ⟨x, hx, hv, hs, _⟩ := key a y hy
    rw [hv]
    exact h.evI a x hx (hs ▸ hsrc)

theorem SetCore.apply (h : SetCore st md rep es) (s : I) (m0 : PyDict A V) (hn : m0.keys.Nodup)
    (hs : md s = none)
    (hcol : ∀ s' m a, md s' = some m → (PyDict.get? m a).isSome → PyDict.get? m0 a = none) :
    SetCore (fun a => match PyDict.get? m0 a with
        | none => st a
        | some v => some (applied s v (st a)))
      (fun s' => if s = s' then some m0 else md s') rep (es ++ m0.map (initialEvent s)) := by
  have happ : ∀ v a, (applied s v (st a)).metadataSession = some s ∧
      ((∃ x, st a = some x ∧ x.sourceProcess ≠ none ∧ (applied s v (st a)).value = x.value ∧
          (applied s v (st a)).sourceProcess = x.sourceProcess) ∨
        ((∀ x, st a = some x → x.sourceProcess = none) ∧ (applied s v (st a)).value = v ∧
          (applied s v (st a)).sourceProcess = none)) := by
    intro v a
    unfold applied
    cases hx : st a with
    | none => simp
    | some x =>
      simp only
      by_cases h2 : x.sourceProcess = none
      · simp [h2]
      · simp [h2]
  have hU : ∀ a, lastBy (updates a) (es ++ m0.map (initialEvent s)) = lastBy (updates a) es := by
    intro a
    rw [lastBy_append, lastBy_none (q := updates a) (es := m0.map (initialEvent s)), Option.none_or]
    intro e he
    obtain ⟨c, _, rfl⟩ := List.mem_map.1 he
    simp [updates, initialEvent]
  constructor
  · intro s1 s2 m m' a h1 h2 h3 h4
    split at h1 <;> split at h2
    · rename_i e1 e2; exact e1.symm.trans e2
    · cases h1
      rw [hcol s2 m' a h2 h4] at h3; cases h3
    · cases h2
      rw [hcol s1 m a h1 h3] at h4; cases h4
    · exact h.uniq s1 s2 m m' a h1 h2 h3 h4
  · intro a p v
    rw [h.reports]
    cases hm : PyDict.get? m0 a with
    | none => rfl
    | some w =>
      simp only [Option.some.injEq, exists_eq_left']
      rcases (happ w a).2 with ⟨x, h1, h2, h3, h4⟩ | ⟨h1, h2, h3⟩
      · rw [h3, h4, h1]; simp
      · rw [h3]
        simp only [reduceCtorEq, and_false, iff_false, not_exists, not_and]
        intro x hx _
        rw [h1 x hx]; simp
  · intro a x s' hx
    cases hm : PyDict.get? m0 a with
    | none =>
      rw [hm] at hx
      rw [h.ms a x s' hx]
      by_cases hs' : s = s'
      · subst hs'; simp [hs, hm]
      · simp [hs']
    | some w =>
      rw [hm] at hx
      simp only [Option.some.injEq] at hx
      subst hx
      rw [(happ w a).1]
      by_cases hs' : s = s'
      · subst hs'; simp [hm]
      · simp only [Option.some.injEq, hs', if_false, false_iff, not_exists, not_and]
        intro m h1 h2
        rw [hcol s' m a h1 h2] at hm; cases hm
  · intro a x hx hsrc
    cases hm : PyDict.get? m0 a with
    | none =>
      rw [hm] at hx
      obtain ⟨s0, m, h1, h2⟩ := h.init a x hx hsrc
      have hne : s ≠ s0 := by rintro rfl; rw [hs] at h1; cases h1
      exact ⟨s0, m, by simp [hne, h1], h2⟩
    | some w =>
      rw [hm] at hx
      simp only [Option.some.injEq] at hx
      subst hx
      refine ⟨s, m0, by simp, ?_⟩
      rcases (happ w a).2 with ⟨x, h1, h2, h3, h4⟩ | ⟨h1, h2, h3⟩
      · exact absurd (h4 ▸ hsrc) h2
      · rw [h2, hm]
  · intro s' m a h1 h2
    cases hm : PyDict.get? m0 a with
    | none =>
      split at h1
      · cases h1; rw [hm] at h2; cases h2
      · exact h.pres s' m a h1 h2
    | some w => exact ⟨_, rfl⟩
  · intro a p v hr
    rw [hU]; exact h.evU a p v hr
  · intro a x hx hsrc
    rw [lastBy_append, lastBy_initial s m0 hn]
    cases hm : PyDict.get? m0 a with
    | none => rw [hm] at hx; simpa using h.evI a x hx hsrc
    | some w =>
      rw [hm] at hx
      simp only [Option.some.injEq] at hx
      subst hx
      refine ⟨initialEvent s (a, w), by simp, ?_⟩
      rcases (happ w a).2 with ⟨x, h1, h2, h3, h4⟩ | ⟨h1, h2, h3⟩
      · exact absurd (h4 ▸ hsrc) h2
      · rw [h2]; rfl

/-- The event of an accepted report. -/
def updateEvent (b : A) (v : V) (m : Option I) (p : I) : SettingsEvent I A V :=
  { kind := .updated, address := b, value := v, session := m, process := some p }

theorem SetCore.update (h : SetCore st md rep es) (p : I) (b : A) (v : V) (m : Option I)
    (hm : ∀ s, m = some s ↔ ∃ m, md s = some m ∧ (PyDict.get? m b).isSome) :
    SetCore (fun a => if a = b then some { value := v, metadataSession := m, sourceProcess := some p } else st a)
      md (fun a => if b = a then some (p, v) else rep a)
      (es ++ [updateEvent b v m p]) := by
  constructor
  · exact h.uniq
  · intro a q w
    by_cases hab : a = b
    · subst hab; simp; exact and_comm
    · simp only [hab, Ne.symm hab, if_false]; exact h.reports a q w
  · intro a x s hx
    by_cases hab : a = b
    · subst hab; simp only [if_true, Option.some.injEq] at hx; subst hx; exact hm s
    · simp only [hab, if_false] at hx; exact h.ms a x s hx
  · intro a x hx hsrc
    by_cases hab : a = b
    · subst hab; simp only [if_true, Option.some.injEq] at hx; subst hx; cases hsrc
    · simp only [hab, if_false] at hx; exact h.init a x hx hsrc
  · intro s m' a h1 h2
    by_cases hab : a = b
    · exact ⟨_, by rw [if_pos hab]⟩
    · simp only [hab, if_false]; exact h.pres s m' a h1 h2
  · intro a q w hr
    rw [lastBy_append]
    by_cases hab : b = a
    · subst hab
      simp only [if_true, Option.some.injEq, Prod.mk.injEq] at hr
      obtain ⟨rfl, rfl⟩ := hr
      exact ⟨updateEvent b v m p, by simp [lastBy, updates, updateEvent], rfl, rfl⟩
    · simp only [hab, if_false] at hr
      have : lastBy (updates a) [updateEvent b v m p] = none := by
        apply lastBy_none; intro e he; simp at he; subst he; simp [updates, updateEvent, hab]
      rw [this, Option.none_or]
      exact h.evU a q w hr
  · intro a x hx hsrc
    by_cases hab : a = b
    · subst hab; simp only [if_true, Option.some.injEq] at hx; subst hx; cases hsrc
    · simp only [hab, if_false] at hx
      have : lastBy (about a) [updateEvent b v m p] = none := by
        apply lastBy_none; intro e he; simp at he; subst he; simp [about, updateEvent, Ne.symm hab]
      rw [lastBy_append, this, Option.none_or]
      exact h.evI a x hx hsrc

/-- The initial value of `a` in the metadata of the session the setting `x` belongs to. -/
def fallback (md : I → Option (PyDict A V)) (a : A) (x : SettingsState I V) : Option (I × V) :=
  match x.metadataSession with
  | none => none
  | some s => ((md s).bind (fun m => PyDict.get? m a)).map (fun v => (s, v))

theorem SetCore.gone (h : SetCore st md rep es) (p : I) (l : List A) (hl : l.Nodup)
    (hmem : ∀ a, a ∈ l ↔ ∃ x, st a = some x ∧ x.sourceProcess = some p) :
    SetCore (fun a => if a ∈ l then (st a).bind (fun x =>
        (fallback md a x).map (fun y => { x with value := y.2, sourceProcess := none })) else st a)
      md (fun a => (rep a).filter (fun x => decide (x.1 ≠ p)))
      (es ++ l.filterMap (fun a => ((st a).bind (fallback md a)).map (fun y =>
        { kind := .updated, address := a, value := y.2, session := some y.1, process := none }))) := by
  -- a restored setting
  have key : ∀ a y, a ∈ l → (st a).bind (fun x =>
      (fallback md a x).map (fun y => { x with value := y.2, sourceProcess := none })) = some y →
      ∃ x s m, st a = some x ∧ x.sourceProcess = some p ∧ x.metadataSession = some s ∧ md s = some m ∧
        PyDict.get? m a = some y.value ∧ y.metadataSession = some s ∧ y.sourceProcess = none := by
    intro a y ha hy
    obtain ⟨x, hx, hr⟩ := Option.bind_eq_some_iff.1 hy
    obtain ⟨⟨s, v⟩, hf, rfl⟩ := Option.map_eq_some_iff.1 hr
    obtain ⟨x', hx', hsrc⟩ := (hmem a).1 ha
    rw [hx] at hx'; cases hx'
    unfold fallback at hf
    split at hf
    · cases hf
    · rename_i s' hs'
      obtain ⟨v', hv', he⟩ := Option.map_eq_some_iff.1 hf
      cases he
      obtain ⟨m, hm, hg⟩ := Option.bind_eq_some_iff.1 hv'
      exact ⟨x, s, m, hx, hsrc, hs', hm, hg, hs', rfl⟩
  have hlast : ∀ a (q : A → SettingsEvent I A V → Bool) (_ : ∀ a e, q a e = true → e.address = a),
      lastBy (q a) (l.filterMap (fun a => ((st a).bind (fallback md a)).map (fun y =>
        { kind := .updated, address := a, value := y.2, session := some y.1, process := none }))) =
      if a ∈ l then (((st a).bind (fallback md a)).map (fun y =>
        { kind := .updated, address := a, value := y.2, session := some y.1, process := none })).filter (q a)
      else none := by
    intro a q hq
    refine lastBy_filterMap _ q ?_ hq l hl a
    intro b e hb
    obtain ⟨y, _, rfl⟩ := Option.map_eq_some_iff.1 hb
    rfl
  constructor
  · exact h.uniq
  · intro a q v
    rw [Option.filter_eq_some_iff, h.reports]
    simp only [decide_eq_true_eq]
    by_cases ha : a ∈ l
    · obtain ⟨x, hx, hsrc⟩ := (hmem a).1 ha
      constructor
      · rintro ⟨⟨x', h1, h2, h3⟩, h4⟩
        rw [hx] at h1; cases h1
        rw [hsrc] at h3; cases h3
        exact absurd rfl h4
      · rintro ⟨y, h1, h2, h3⟩
        rw [if_pos ha] at h1
        obtain ⟨_, _, _, _, _, _, _, _, _, h5⟩ := key a y ha h1
        rw [h5] at h3; cases h3
    · rw [if_neg ha]
      constructor
      · exact fun h => h.1
      · rintro ⟨x, h1, h2, h3⟩
        refine ⟨⟨x, h1, h2, h3⟩, ?_⟩
        rintro rfl
        exact ha ((hmem a).2 ⟨x, h1, h3⟩)
  · intro a y s hy
    by_cases ha : a ∈ l
    · rw [if_pos ha] at hy
      obtain ⟨x, s0, m, h1, _, h2, h3, h4, h5, _⟩ := key a y ha hy
      rw [h5, ← h2]
      exact h.ms a x s h1
    · rw [if_neg ha] at hy; exact h.ms a y s hy
  · intro a y hy hsrc
    by_cases ha : a ∈ l
    · rw [if_pos ha] at hy
      obtain ⟨x, s0, m, h1, _, h2, h3, h4, h5, _⟩ := key a y ha hy
      exact ⟨s0, m, h3, h4⟩
    · rw [if_neg ha] at hy; exact h.init a y hy hsrc
  · intro s m a h1 h2
    obtain ⟨x, hx⟩ := h.pres s m a h1 h2
    by_cases ha : a ∈ l
    · obtain ⟨v, hv⟩ := Option.isSome_iff_exists.1 h2
      have hms : x.metadataSession = some s := (h.ms a x s hx).2 ⟨m, h1, h2⟩
      have hf : fallback md a x = some (s, v) := by simp [fallback, hms, h1, hv]
      exact ⟨_, by rw [if_pos ha, hx, Option.bind_some, hf]; rfl⟩
    · exact ⟨x, by rw [if_neg ha]; exact hx⟩
  · intro a q v hr
    rw [Option.filter_eq_some_iff] at hr
    have ha : a ∉ l := by
      intro ha
      obtain ⟨x, hx, hsrc⟩ := (hmem a).1 ha
      obtain ⟨x', h1, _, h3⟩ := (h.reports a q v).1 hr.1
      rw [hx] at h1; cases h1
      rw [hsrc] at h3; cases h3
      simp at hr
    rw [lastBy_append, hlast a updates (by intro a e; simp [updates]; intro h _; exact h), if_neg ha,
      Option.none_or]
    exact h.evU a q v hr.1
  · intro a y hy hsrc
    rw [lastBy_append, hlast a about (by intro a e; simp [about])]
    by_cases ha : a ∈ l
    · rw [if_pos ha] at hy ⊢
      obtain ⟨x, s0, m, h1, _, h2, h3, h4, h5, _⟩ := key a y ha hy
      have hf : fallback md a x = some (s0, y.value) := by simp [fallback, h2, h3, h4]
      rw [h1, Option.bind_some, hf]
      exact ⟨_, by simp [about, Option.filter]; rfl, rfl⟩
    · rw [if_neg ha] at hy ⊢
      rw [Option.none_or]
      exact h.evI a y hy hsrc

/-! ## The invariant, for the server -/

theorem exec_hist {E : Type} (limit n : Int) (ops : List (LogOp I E)) (l : EventLog I E) :
    (ops.foldl (LogOp.exec limit n) l).hist = l.hist ++ occurred ops := by
  induction ops generalizing l with
  | nil => simp [occurred]
  | cons c ops ih =>
    rw [List.foldl_cons, ih]
    cases c <;> simp [LogOp.exec, occurred, LogOp.event, EventLog.append, EventLog.subscribe,
      EventLog.sendNext, EventLog.unsubscribe, List.filterMap_cons]

theorem occurred_append {E : Type} (es : List E) : occurred (es.map (LogOp.append (I := I))) = es := by
  unfold occurred
  induction es with
  | nil => rfl
  | cons e es ih => rw [List.map_cons, List.filterMap_cons]; simp only [LogOp.event]; rw [ih]

theorem occurred_slogOps (sv : Server T I A V) (act : Act T I A V) :
    occurred (slogOps sv act) = settingsEvents sv act := by
  cases act <;> first | rfl | exact occurred_append _

theorem occurred_tlogOps (sv : Server T I A V) (act : Act T I A V) :
    occurred (tlogOps sv act) = topologyEvents sv act := by
  cases act <;> first | rfl | exact occurred_append _

/-- Invariant of the settings. -/
structure SetInv (h : List (Act T I A V × Reply)) (sv : Server T I A V) : Prop where
  nodup : sv.settings.keys.Nodup
  mdEq : ∀ s, metadataOf h s = mdOf sv s
  owned : ∀ s a, a ∈ (sv.owned.get? s).getD [] ↔ ∃ m, mdOf sv s = some m ∧ (PyDict.get? m a).isSome
  core : SetCore (fun a => sv.settings.get? a) (mdOf sv) (reported h) sv.slog.hist

/-- Steps that concern settings. -/
def Act.concernsSettings : Act T I A V → Bool
  | .sessionRegister _ _ => true
  | .sessionClear _ => true
  | .sessionGone _ => true
  | .updateSettings _ _ _ => true
  | .processGone _ => true
  | _ => false

theorem SetInv.release_get? {h : List (Act T I A V × Reply)} {sv : Server T I A V} (hi : SetInv h sv)
    (s : I) (a : A) :
    (removeSessionSettings sv s).settings.get? a = (sv.settings.get? a).bind (released s) := by
  rw [removeSession_get?]
  split
  · rfl
  · rename_i hm
    cases hx : sv.settings.get? a with
    | none => rfl
    | some x =>
      rw [Option.bind_some, Eq.comm, released_eq_some]
      refine Or.inl ⟨?_, rfl⟩
      intro hms
      exact hm ((hi.owned s a).2 ((hi.core.ms a x s hx).1 hms))

theorem metadataOf_snoc (h : List (Act T I A V × Reply)) (c : Act T I A V × Reply) (s : I) :
    metadataOf (h ++ [c]) s = match c with
    | (.sessionRegister s' md, .complete) => if s' = s then some md else metadataOf h s
    | (.sessionClear s', _) => if s' = s then none else metadataOf h s
    | (.sessionGone s', _) => if s' = s then none else metadataOf h s
    | _ => metadataOf h s := by
  unfold metadataOf; rw [List.foldl_append]; rfl

theorem reported_snoc (h : List (Act T I A V × Reply)) (c : Act T I A V × Reply) (a : A) :
    reported (h ++ [c]) a = match c with
    | (.updateSettings p b v, .complete) => if b = a then some (p, v) else reported h a
    | (.processGone p, _) => (reported h a).filter (fun x => decide (x.1 ≠ p))
    | _ => reported h a := by
  unfold reported; rw [List.foldl_append]; rfl

theorem SetInv.step {cfg : Cfg} {h : List (Act T I A V × Reply)} {sv sv' : Server T I A V} {act : Act T I A V}
    {r : Reply} (hinv : EdgeInv sv) (hu : ∀ i c, sv.clients.get? i = some c → i ∈ sv.used)
    (hi : SetInv h sv) (hs : step cfg sv act = some (sv', r)) : SetInv (h ++ [(act, r)]) sv' := by
  obtain ⟨e1, e2, e3, _, e5⟩ := settings_step hinv hi.nodup hs
  have e6 := mdOf_step hinv hu hs
  have e7 : sv'.slog.hist = sv.slog.hist ++ settingsEvents sv act := by
    rw [e3, exec_hist, occurred_slogOps]
  have hst : (fun a => sv'.settings.get? a) = fun a => settingAfter sv a act := funext e1
  have hmd : mdOf sv' = fun s => mdAfter sv s act := funext e6
  by_cases hc : act.concernsSettings = false
  · have q1 : ∀ a, settingAfter sv a act = sv.settings.get? a := by
      cases act <;> first | (cases hc; done) | (intro a; rfl)
    have q2 : ∀ s, ownedAfter sv s act = sv.owned.get? s := by
      cases act <;> first | (cases hc; done) | (intro a; rfl)
    have q3 : ∀ s, mdAfter sv s act = mdOf sv s := by
      cases act <;> first | (cases hc; done) | (intro a; rfl)
    have q4 : settingsEvents sv act = [] := by
      cases act <;> first | (cases hc; done) | rfl
    have q5 : ∀ s, metadataOf (h ++ [(act, r)]) s = metadataOf h s := by
      intro s; rw [metadataOf_snoc]
      cases act <;> first | (cases hc; done) | rfl
    have q6 : reported (h ++ [(act, r)]) = reported h := by
      funext a; rw [reported_snoc]
      cases act <;> first | (cases hc; done) | rfl
    refine ⟨e5, ?_, ?_, ?_⟩
    · intro s; rw [q5, e6, q3]; exact hi.mdEq s
    · intro s a; rw [e2, q2, e6, q3]; exact hi.owned s a
    · rw [hst, hmd, q6, e7, q4, List.append_nil, funext q1, funext q3]
      exact hi.core
  · have clear : ∀ s, (∀ a, settingAfter sv a act = (removeSessionSettings sv s).settings.get? a) →
        (∀ s', ownedAfter sv s' act = if s' = s then none else sv.owned.get? s') →
        (∀ s', mdAfter sv s' act = if s = s' then none else mdOf sv s') → settingsEvents sv act = [] →
        (∀ s', metadataOf (h ++ [(act, r)]) s' = if s = s' then none else metadataOf h s') →
        reported (h ++ [(act, r)]) = reported h → SetInv (h ++ [(act, r)]) sv' := by
      intro s q1 q2 q3 q4 q5 q6
      refine ⟨e5, ?_, ?_, ?_⟩
      · intro s'; rw [q5, e6, q3, hi.mdEq]
      · intro s' a; rw [e2, q2, e6, q3]
        by_cases hss : s' = s
        · subst hss; simp
        · simp only [hss, Ne.symm hss, if_false]; exact hi.owned s' a
      · rw [hst, hmd, q6, e7, q4, List.append_nil, funext q3]
        have : (fun a => settingAfter sv a act) = fun a => (sv.settings.get? a).bind (released s) := by
          funext a; rw [q1, hi.release_get?]
        rw [this]
        exact hi.core.release s
    cases act with
    | sessionClear s =>
      exact clear s (fun _ => rfl) (fun _ => rfl) (fun _ => rfl) rfl (fun s' => by rw [metadataOf_snoc])
        (by funext a; rw [reported_snoc])
    | sessionGone s =>
      exact clear s (fun _ => rfl) (fun _ => rfl) (fun _ => rfl) rfl (fun s' => by rw [metadataOf_snoc])
        (by funext a; rw [reported_snoc])
    | sessionRegister s m0 =>
      simp only [Srv.step] at hs
      split at hs
      · rename_i x hx
        split at hs
        · rename_i hn0
          have hr : r = if collides sv s m0 then .error else .complete := by
            simp only [Option.some.injEq] at hs
            have := congrArg Prod.snd hs
            simp only [registerSession, hx] at this
            rw [← this]
            split <;> rfl
          have q6 : reported (h ++ [(Act.sessionRegister s m0, r)]) = reported h := by
            funext a; rw [reported_snoc]
          cases hcol : collides sv s m0 with
          | true =>
            rw [hcol] at hr
            simp only [if_true] at hr
            subst hr
            have q1 : ∀ a, settingAfter sv a (.sessionRegister s m0) = sv.settings.get? a := by
              intro a; simp [settingAfter, hcol]
            have q2 : ∀ s', ownedAfter sv s' (.sessionRegister s m0) = sv.owned.get? s' := by
              intro s'; simp [ownedAfter, hcol]
            have q3 : ∀ s', mdAfter sv s' (.sessionRegister s m0) = mdOf sv s' := by
              intro s'; simp [mdAfter, hcol]
            refine ⟨e5, ?_, ?_, ?_⟩
            · intro s'; rw [metadataOf_snoc, e6, q3]; exact hi.mdEq s'
            · intro s' a; rw [e2, q2, e6, q3]; exact hi.owned s' a
            · rw [hst, hmd, q6, e7, funext q1, funext q3]
              simp only [settingsEvents, hcol, if_true, List.append_nil]
              exact hi.core
          | false =>
            rw [hcol] at hr
            simp only [Bool.false_eq_true, if_false] at hr
            subst hr
            have q2 : ∀ s', ownedAfter sv s' (.sessionRegister s m0) =
                if s' = s then some (m0.foldl (fun acc c => PySet.add acc c.1) []) else sv.owned.get? s' := by
              intro s'; simp [ownedAfter, hcol]
            have q3 : ∀ s', mdAfter sv s' (.sessionRegister s m0) = if s = s' then some m0 else mdOf sv s' := by
              intro s'; simp [mdAfter, hcol]
            refine ⟨e5, ?_, ?_, ?_⟩
            · intro s'; rw [metadataOf_snoc, e6, q3]
              simp only
              rw [hi.mdEq s']
            · intro s' a; rw [e2, q2, e6, q3]
              by_cases hss : s' = s
              · subst hss
                simp [mem_addKeys]
              · simp only [hss, Ne.symm hss, if_false]; exact hi.owned s' a
            · rw [hst, hmd, q6, e7]
              have h1 := (hi.core.release s).apply s m0 hn0 (by simp) (by
                intro s' m a h1 h2
                split at h1
                · cases h1
                · rename_i hne
                  cases hg : PyDict.get? m0 a with
                  | none => rfl
                  | some v =>
                    exact absurd (collides_false hcol h1 h2 (by simp [hg])).symm hne)
              simp only [settingsEvents, hcol, Bool.false_eq_true, if_false]
              have q1 : (fun a => settingAfter sv a (.sessionRegister s m0)) =
                  fun a => match PyDict.get? m0 a with
                    | none => (sv.settings.get? a).bind (released s)
                    | some v => some (applied s v ((sv.settings.get? a).bind (released s))) := by
                funext a
                simp only [settingAfter, hcol, Bool.false_eq_true, if_false, hi.release_get?]
                rfl
              have q3' : (fun s' => mdAfter sv s' (.sessionRegister s m0)) =
                  fun s' => if s = s' then some m0 else if s = s' then none else mdOf sv s' := by
                funext s'; rw [q3]; split <;> simp_all
              rw [q1, q3']
              exact h1
        · cases hs
      · cases hs
    | updateSettings p b v =>
      simp only [Srv.step] at hs
      split at hs
      · rename_i us hx
        have hr : r = if b ∈ us then .complete else .error := by
          simp only [Option.some.injEq] at hs
          have := congrArg Prod.snd hs
          simp only [updateSettings, hx] at this
          rw [← this]
          by_cases hb : b ∈ us <;> simp [hb]
        by_cases hb : b ∈ us
        · rw [if_pos hb] at hr
          subst hr
          refine ⟨e5, ?_, ?_, ?_⟩
          · intro s'; rw [metadataOf_snoc, e6]; exact hi.mdEq s'
          · intro s' a; rw [e2, e6]; exact hi.owned s' a
          · rw [hst, hmd, e7]
            have q6 : reported (h ++ [(Act.updateSettings p b v, Reply.complete)]) =
                fun a => if b = a then some (p, v) else reported h a := by
              funext a; rw [reported_snoc]
            have h1 := hi.core.update p b v (match sessionOwner sv b with
                | some s => some s
                | none => match sv.settings.get? b with
                  | some x => x.metadataSession
                  | none => none) (by
              intro s
              cases ho : sessionOwner sv b with
              | some s' =>
                obtain ⟨m, hm, hg⟩ := sessionOwner_some hinv.nodup ho
                simp only [Option.some.injEq]
                constructor
                · rintro rfl; exact ⟨m, hm, hg⟩
                · rintro ⟨m', hm', hg'⟩; exact hi.core.uniq s' s m m' b hm hm' hg hg'
              | none =>
                have hno : ¬ ∃ m, mdOf sv s = some m ∧ (PyDict.get? m b).isSome := by
                  rintro ⟨m, hm, hg⟩
                  rw [sessionOwner_none ho s m hm] at hg; cases hg
                simp only [hno, iff_false]
                cases hx : sv.settings.get? b with
                | none => simp
                | some x =>
                  simp only
                  intro hms
                  exact hno ((hi.core.ms b x s hx).1 hms))
            rw [q6]
            have q1 : (fun a => settingAfter sv a (.updateSettings p b v)) = fun a =>
                if a = b then some { value := v
                                     metadataSession := match sessionOwner sv b with
                                      | some s => some s
                                      | none => match sv.settings.get? b with
                                        | some x => x.metadataSession
                                        | none => none
                                     sourceProcess := some p }
                else sv.settings.get? a := by
              funext a; simp [settingAfter, hx, hb]; rfl
            have q4 : settingsEvents sv (.updateSettings p b v) = [updateEvent b v (match sessionOwner sv b with
                | some s => some s
                | none => match sv.settings.get? b with
                  | some x => x.metadataSession
                  | none => none) p] := by
              simp only [settingsEvents, hx, hb, if_true]; rfl
            rw [q1, q4]
            exact h1
        · rw [if_neg hb] at hr
          subst hr
          refine ⟨e5, ?_, ?_, ?_⟩
          · intro s'; rw [metadataOf_snoc, e6]; exact hi.mdEq s'
          · intro s' a; rw [e2, e6]; exact hi.owned s' a
          · rw [hst, hmd, e7]
            have q6 : reported (h ++ [(Act.updateSettings p b v, Reply.error)]) = reported h := by
              funext a; rw [reported_snoc]
            have q1 : (fun a => settingAfter sv a (.updateSettings p b v)) = fun a => sv.settings.get? a := by
              funext a; simp [settingAfter, hx, hb]
            have q4 : settingsEvents sv (.updateSettings p b v) = [] := by
              simp [settingsEvents, hx, hb]
            rw [q6, q1, q4, List.append_nil]
            exact hi.core
      · cases hs
    | processGone p =>
      refine ⟨e5, ?_, ?_, ?_⟩
      · intro s'; rw [metadataOf_snoc, e6]; exact hi.mdEq s'
      · intro s' a; rw [e2, e6]; exact hi.owned s' a
      · rw [hst, hmd, e7]
        have q6 : reported (h ++ [(Act.processGone p, r)]) =
            fun a => (reported h a).filter (fun x => decide (x.1 ≠ p)) := by
          funext a; rw [reported_snoc]
        have hf : ∀ a x, restored sv a x = fallback (mdOf sv) a x := by
          intro a x
          unfold restored fallback
          cases x.metadataSession with
          | none => rfl
          | some s =>
            simp only
            congr 1
            unfold initialSettings mdOf sessionInfo
            cases sv.clients.get? s with
            | none => rfl
            | some c =>
              cases c with
              | session es m => cases m <;> rfl
              | _ => rfl
        have h1 := hi.core.gone p (reportedBy sv p) (reportedBy_nodup hi.nodup p) (mem_reportedBy hi.nodup p)
        rw [q6]
        have q1 : (fun a => settingAfter sv a (.processGone p)) = fun a =>
            if a ∈ reportedBy sv p then (sv.settings.get? a).bind (fun x =>
              (fallback (mdOf sv) a x).map (fun y => { x with value := y.2, sourceProcess := none }))
            else sv.settings.get? a := by
          funext a
          simp only [settingAfter]
          have : restoredState sv a = fun x =>
              (fallback (mdOf sv) a x).map (fun y => { x with value := y.2, sourceProcess := none }) := by
            funext x; unfold restoredState; rw [hf]
          rw [this]
        have q4 : settingsEvents sv (.processGone p) =
            (reportedBy sv p).filterMap (fun a => ((sv.settings.get? a).bind (fallback (mdOf sv) a)).map
              (fun y => { kind := .updated, address := a, value := y.2, session := some y.1, process := none })) := by
          simp only [settingsEvents]
          congr 1
          funext a
          unfold restoreEvent
          have : restored sv a = fallback (mdOf sv) a := funext (hf a)
          rw [this]
        rw [q1, q4]
        exact h1
    | _ => exact absurd rfl hc

theorem run_setInv {cfg : Cfg} {h : List (Act T I A V × Reply)} {sv : Server T I A V} (hr : Run cfg h sv) :
    SetInv h sv := by
  induction hr with
  | init =>
    refine ⟨by simp [init, PyDict.keys], fun s => rfl, ?_, ?_⟩
    · intro s a; simp [init, PyDict.get?, mdOf, mdClient]
    · constructor <;> intros <;> simp_all [init, PyDict.get?, mdOf, mdClient, reported]
  | step hr hs ih => exact ih.step (run_inv hr).1 (run_inv hr).2 hs

/-! ## C51 -/

/-- The settings snapshot, component by component. -/
theorem settingsSnapshot_get? (sv : Server T I A V) (a : A) :
    (settingsSnapshot sv).get? a = (sv.settings.get? a).map (·.value) := by
  unfold settingsSnapshot; exact PyDict.get?_mapVals sv.settings (·.value) a

/-- **C51.** The snapshot shows for each component the last value reported by a process that is still
there, if there is one; otherwise the initial value from the metadata of the session that registered the
component, if that session did not clear or end since. Nothing else is in the snapshot. -/
theorem C51_snapshot_characterised {cfg : Cfg} {h : List (Act T I A V × Reply)} {sv : Server T I A V}
    (hr : Run cfg h sv) (a : A) (v : V) :
    (settingsSnapshot sv).get? a = some v ↔
      (∃ p, reported h a = some (p, v)) ∨
      (reported h a = none ∧ ∃ s md, metadataOf h s = some md ∧ PyDict.get? md a = some v) := by
  have hi := run_setInv hr
  rw [settingsSnapshot_get?]
  simp only [hi.mdEq]
  constructor
  · intro hv
    obtain ⟨x, hx, rfl⟩ := Option.map_eq_some_iff.1 hv
    cases hp : x.sourceProcess with
    | some p => exact Or.inl ⟨p, (hi.core.reports a p x.value).2 ⟨x, hx, rfl, hp⟩⟩
    | none =>
      refine Or.inr ⟨?_, hi.core.init a x hx hp⟩
      cases hq : reported h a with
      | none => rfl
      | some y =>
        obtain ⟨x', hx', _, h3⟩ := (hi.core.reports a y.1 y.2).1 hq
        rw [hx] at hx'; cases hx'; rw [hp] at h3; cases h3
  · rintro (⟨p, hp⟩ | ⟨hn, s, md, hm, hg⟩)
    · obtain ⟨x, hx, rfl, _⟩ := (hi.core.reports a p v).1 hp
      rw [hx]; rfl
    · obtain ⟨x, hx⟩ := hi.core.pres s md a hm (by simp [hg])
      rw [hx]
      cases hp : x.sourceProcess with
      | some p => rw [(hi.core.reports a p x.value).2 ⟨x, hx, rfl, hp⟩] at hn; cases hn
      | none =>
        obtain ⟨s', m', hm', hg'⟩ := hi.core.init a x hx hp
        obtain rfl := hi.core.uniq s s' md m' a hm hm' (by simp [hg]) (by simp [hg'])
        rw [hm] at hm'; cases hm'
        rw [hg] at hg'; cases hg'; rfl

/-- No two sessions have registered the same component, so the initial value in C51 is unique. -/
theorem C51_one_session_per_component {cfg : Cfg} {h : List (Act T I A V × Reply)} {sv : Server T I A V}
    (hr : Run cfg h sv) {a : A} {s s' : I} {md md' : PyDict A V} (h1 : metadataOf h s = some md)
    (h2 : metadataOf h s' = some md') (h3 : (PyDict.get? md a).isSome) (h4 : (PyDict.get? md' a).isSome) :
    s = s' := by
  have hi := run_setInv hr
  rw [hi.mdEq] at h1 h2
  exact hi.core.uniq s s' md md' a h1 h2 h3 h4

/-! ## C32 -/

/-- Specification: the value of `a` for a reader who applies the events in order to an empty map. -/
def replayed (es : List (SettingsEvent I A V)) (a : A) : Option V :=
  es.foldl (fun m e => if e.address = a then some e.value else m) none

theorem replayed_eq (es : List (SettingsEvent I A V)) (a : A) :
    replayed es a = (lastBy (about a) es).map (·.value) := by
  induction es using list_snoc_induction with
  | h0 => rfl
  | hs es e ih =>
    rw [lastBy_append]
    unfold replayed at *
    rw [List.foldl_append, ih]
    by_cases he : e.address = a <;> simp [lastBy, about, he]

/-- All settings events so far, oldest first, are those the log retains when its limit is not reached. -/
theorem settings_events_retained {cfg : Cfg} {h : List (Act T I A V × Reply)} {sv : Server T I A V}
    (hr : Run cfg h sv) : ∃ ops, sv.slog = LogOp.execAll cfg.settingsLimit cfg.queueSize ops ∧
      occurred ops = sv.slog.hist := by
  have : ∃ ops, sv.slog = LogOp.execAll cfg.settingsLimit cfg.queueSize ops := by
    induction hr with
    | init => exact ⟨[], rfl⟩
    | @step h sv act sv' r hr hs ih =>
      obtain ⟨ops, ho⟩ := ih
      obtain ⟨_, _, e3, _, _⟩ := settings_step (run_inv hr).1 (run_setInv hr).nodup hs
      refine ⟨ops ++ slogOps sv act, ?_⟩
      rw [e3, ho]; unfold LogOp.execAll; rw [List.foldl_append]
  obtain ⟨ops, ho⟩ := this
  exact ⟨ops, ho, by rw [ho, (log_state _ _ ops).2.1]⟩

theorem topology_events_retained {cfg : Cfg} {h : List (Act T I A V × Reply)} {sv : Server T I A V}
    (hr : Run cfg h sv) : ∃ ops, sv.tlog = LogOp.execAll cfg.topologyLimit cfg.queueSize ops ∧
      occurred ops = sv.tlog.hist := by
  have : ∃ ops, sv.tlog = LogOp.execAll cfg.topologyLimit cfg.queueSize ops := by
    induction hr with
    | init => exact ⟨[], rfl⟩
    | @step h sv act sv' r hr hs ih =>
      obtain ⟨ops, ho⟩ := ih
      obtain ⟨_, _, _, e4, _⟩ := settings_step (run_inv hr).1 (run_setInv hr).nodup hs
      refine ⟨ops ++ tlogOps sv act, ?_⟩
      rw [e4, ho]; unfold LogOp.execAll; rw [List.foldl_append]
  obtain ⟨ops, ho⟩ := this
  exact ⟨ops, ho, by rw [ho, (log_state _ _ ops).2.1]⟩

/-- **C31 for the server.** In every run both logs of the server hold exactly the newest of their events,
numbered in order of occurrence; a request for the events after `n` gets exactly those with a larger
number. -/
theorem C31_server_logs {cfg : Cfg} {h : List (Act T I A V × Reply)} {sv : Server T I A V}
    (hr : Run cfg h sv) (n : Nat) :
    sv.slog.events = newest cfg.settingsLimit.toNat (numberedFrom 0 sv.slog.hist) ∧
    sv.slog.after n = (newest cfg.settingsLimit.toNat (numberedFrom 0 sv.slog.hist)).filter (fun x => n < x.1) ∧
    sv.tlog.events = newest cfg.topologyLimit.toNat (numberedFrom 0 sv.tlog.hist) ∧
    sv.tlog.after n = (newest cfg.topologyLimit.toNat (numberedFrom 0 sv.tlog.hist)).filter (fun x => n < x.1) := by
  obtain ⟨o1, h1, h2⟩ := settings_events_retained hr
  obtain ⟨o2, h3, h4⟩ := topology_events_retained hr
  have e1 := (log_state cfg.settingsLimit cfg.queueSize o1).2.2
  have e2 := (log_state cfg.topologyLimit cfg.queueSize o2).2.2
  rw [← h1, h2] at e1
  rw [← h3, h4] at e2
  exact ⟨e1, by unfold EventLog.after; rw [e1], e2, by unfold EventLog.after; rw [e2]⟩

/-- **C32 (what holds).** In every run every component of the snapshot has settings events. If no process
that is still there reported the component, the reader's value for it is the value of the snapshot. If a
process did, the last `SETTINGS_UPDATED` event about it has the value of the snapshot. Missing: the reader
keeps removed components, and lets a later `INITIAL_SETTINGS` event hide a reported value. -/
theorem C32_events_cover_snapshot_partial {cfg : Cfg} {h : List (Act T I A V × Reply)} {sv : Server T I A V}
    (hr : Run cfg h sv) {a : A} {v : V} (hv : (settingsSnapshot sv).get? a = some v) :
    (reported h a = none → replayed sv.slog.hist a = some v) ∧
    (∀ p w, reported h a = some (p, w) → w = v ∧
      ∃ e, lastBy (updates a) sv.slog.hist = some e ∧ e.value = v ∧ e.process = some p) := by
  have hi := run_setInv hr
  rw [settingsSnapshot_get?] at hv
  obtain ⟨x, hx, rfl⟩ := Option.map_eq_some_iff.1 hv
  constructor
  · intro hn
    cases hp : x.sourceProcess with
    | some p => rw [(hi.core.reports a p x.value).2 ⟨x, hx, rfl, hp⟩] at hn; cases hn
    | none =>
      obtain ⟨e, he, hev⟩ := hi.core.evI a x hx hp
      rw [replayed_eq, he, Option.map_some, hev]
  · intro p w hp
    obtain ⟨x', hx', hw, _⟩ := (hi.core.reports a p w).1 hp
    rw [hx] at hx'; cases hx'
    obtain ⟨e, he, h1, h2⟩ := hi.core.evU a p w hp
    exact ⟨hw.symm, e, he, h1.trans hw.symm, h2⟩

/-- Specification: in the history `h`, component `a` was never removed from the snapshot, and no session
registered it while a process had reported it. -/
def Undisturbed (a : A) (h : List (Act T I A V × Reply)) : Prop :=
  ∀ pre act r post, h = pre ++ (act, r) :: post →
    (∀ s md, act = .sessionRegister s md → r = .complete →
      if (PyDict.get? md a).isSome then reported pre a = none
      else (reported pre a).isSome ∨ ∀ m, metadataOf pre s = some m → PyDict.get? m a = none) ∧
    (∀ s, act = .sessionClear s ∨ act = .sessionGone s →
      (reported pre a).isSome ∨ ∀ m, metadataOf pre s = some m → PyDict.get? m a = none) ∧
    (∀ p v, act = .processGone p → reported pre a = some (p, v) →
      ∃ s m, metadataOf pre s = some m ∧ (PyDict.get? m a).isSome)

theorem SetInv.released_value {h : List (Act T I A V × Reply)} {sv : Server T I A V} (hi : SetInv h sv) {a : A}
    {s : I} (hk : (reported h a).isSome ∨ ∀ m, metadataOf h s = some m → PyDict.get? m a = none) :
    ((sv.settings.get? a).bind (released s)).map (·.value) = (sv.settings.get? a).map (·.value) := by
  cases hx : sv.settings.get? a with
  | none => rfl
  | some x =>
    by_cases hm : x.metadataSession = some s
    · rcases hk with hk | hk
      · obtain ⟨⟨p, v⟩, hp⟩ := Option.isSome_iff_exists.1 hk
        obtain ⟨x', hx', _, h3⟩ := (hi.core.reports a p v).1 hp
        rw [hx] at hx'; cases hx'
        simp [released, hm, h3]
      · obtain ⟨m, hm1, hm2⟩ := (hi.core.ms a x s hx).1 hm
        rw [hk m (by rw [hi.mdEq]; exact hm1)] at hm2; cases hm2
    · simp [released, hm]

/-- **C32 (exact where nothing disturbs it).** For every component that was never removed and never
registered over a reported value, applying all settings events in order to an empty map gives exactly the
snapshot. -/
theorem C32_exact_if_undisturbed_partial {cfg : Cfg} {h : List (Act T I A V × Reply)} {sv : Server T I A V}
    (hr : Run cfg h sv) {a : A} (hu : Undisturbed a h) :
    replayed sv.slog.hist a = (settingsSnapshot sv).get? a := by
  rw [replayed_eq, settingsSnapshot_get?]
  induction hr with
  | init => rfl
  | @step h sv act sv' r hr hs ih =>
    have hi := run_setInv hr
    have ih := ih (fun pre c d post he => hu pre c d (post ++ [(act, r)]) (by rw [he]; simp))
    obtain ⟨u1, u2, u3⟩ := hu h act r [] rfl
    have hi' := run_setInv (Run.step hr hs)
    obtain ⟨e1, _, e3, _, _⟩ := settings_step (run_inv hr).1 hi.nodup hs
    have e7 : sv'.slog.hist = sv.slog.hist ++ settingsEvents sv act := by
      rw [e3, exec_hist, occurred_slogOps]
    rw [e7, e1, lastBy_append]
    by_cases hc : act.concernsSettings = false
    · have q1 : settingAfter sv a act = sv.settings.get? a := by
        cases act <;> first | (cases hc; done) | rfl
      have q4 : settingsEvents sv act = [] := by
        cases act <;> first | (cases hc; done) | rfl
      rw [q1, q4]; exact ih
    · cases act with
      | sessionClear s =>
        simp only [settingAfter, settingsEvents, hi.release_get?, hi.released_value (u2 s (Or.inl rfl))]
        exact ih
      | sessionGone s =>
        simp only [settingAfter, settingsEvents, hi.release_get?, hi.released_value (u2 s (Or.inr rfl))]
        exact ih
      | sessionRegister s m0 =>
        simp only [Srv.step] at hs
        split at hs
        · rename_i x hx
          split at hs
          · rename_i hn0
            have hr : r = if collides sv s m0 then .error else .complete := by
              simp only [Option.some.injEq] at hs
              have := congrArg Prod.snd hs
              simp only [registerSession, hx] at this
              rw [← this]
              split <;> rfl
            cases hcol : collides sv s m0 with
            | true =>
              simp only [settingAfter, settingsEvents, hcol, if_true]
              exact ih
            | false =>
              simp only [hcol, Bool.false_eq_true, if_false] at hr
              have u1 := u1 s m0 rfl hr
              simp only [settingAfter, settingsEvents, hcol, Bool.false_eq_true, if_false,
                lastBy_initial s m0 hn0 a, hi.release_get?]
              cases hg : PyDict.get? m0 a with
              | none =>
                simp only [hg, Option.isSome_none, Bool.false_eq_true, if_false] at u1
                simp only [hi.released_value u1, Option.map_none, Option.none_or]
                exact ih
              | some v =>
                simp only [hg, Option.isSome_some, if_true] at u1
                simp only [Option.map_some, Option.some_or, initialEvent, Option.some.injEq]
                cases hy : (sv.settings.get? a).bind (released s) with
                | none => rfl
                | some y =>
                  obtain ⟨z, hz, hzr⟩ := Option.bind_eq_some_iff.1 hy
                  have hzp : z.sourceProcess = none := by
                    cases hp : z.sourceProcess with
                    | none => rfl
                    | some p => rw [(hi.core.reports a p z.value).2 ⟨z, hz, rfl, hp⟩] at u1; cases u1
                  have : y.sourceProcess = none := by
                    rcases released_eq_some.1 hzr with ⟨_, rfl⟩ | ⟨_, h2, _⟩
                    · exact hzp
                    · exact absurd hzp h2
                  simp [applied, this]
          · cases hs
        · cases hs
      | updateSettings p b v =>
        simp only [settingAfter, settingsEvents]
        cases processInfo sv p with
        | none => exact ih
        | some us =>
          simp only
          by_cases hb : b ∈ us
          · by_cases hab : a = b
            · subst hab; simp [hb, lastBy, about]
            · simp only [hb, hab, if_true, false_and, if_false]
              rw [lastBy_none (by simp [about, Ne.symm hab])]
              exact ih
          · simp only [hb, and_false, if_false]; exact ih
      | processGone p =>
        have hmem := mem_reportedBy hi.nodup p
        have hev : lastBy (about a) (settingsEvents sv (.processGone p)) =
            if a ∈ reportedBy sv p then (restoreEvent sv a).filter (about a) else none := by
          simp only [settingsEvents]
          exact lastBy_filterMap (restoreEvent sv) about (by
            intro b e he
            unfold restoreEvent at he
            obtain ⟨y, _, rfl⟩ := Option.map_eq_some_iff.1 he
            rfl) (by intro b e he; simpa [about] using he) _ (reportedBy_nodup hi.nodup p) a
        rw [hev]
        simp only [settingAfter]
        by_cases ha : a ∈ reportedBy sv p
        · obtain ⟨x, hx, hp⟩ := (hmem a).1 ha
          obtain ⟨s, m, hm, hg⟩ := u3 p x.value rfl ((hi.core.reports a p x.value).2 ⟨x, hx, rfl, hp⟩)
          rw [hi.mdEq] at hm
          have hms := (hi.core.ms a x s hx).2 ⟨m, hm, hg⟩
          obtain ⟨v, hv⟩ := Option.isSome_iff_exists.1 hg
          have hres : restored sv a x = some (s, v) := by
            unfold restored
            simp only [hms]
            have : initialSettings sv s a = some v := by
              unfold initialSettings sessionInfo
              unfold mdOf at hm
              cases hc : sv.clients.get? s with
              | none => rw [hc] at hm; cases hm
              | some c =>
                rw [hc] at hm
                cases c with
                | session es m' =>
                  simp only [mdClient] at hm
                  subst hm
                  simpa using hv
                | _ => cases hm
            rw [this]; rfl
          simp only [ha, if_true, hx, Option.bind_some, restoredState, restoreEvent, hres, Option.map_some]
          simp [about, Option.filter]
        · simp only [ha, if_false, Option.none_or]; exact ih
      | _ => exact absurd rfl hc

/-- **C32 fails when a component is removed.** Session 1 registers component 10 and ends: the snapshot is
empty, but no event says so and the reader still has the component. -/
theorem C32_removal_has_no_event :
    ∃ (h : List (Act Nat Nat Nat Nat × Reply)) (sv : Server Nat Nat Nat Nat),
      Run { settingsLimit := 10, topologyLimit := 10, queueSize := 4 } h sv ∧
      h.map (·.1) = [.openSession 1, .sessionRegister 1 [(10, 7)], .sessionGone 1] ∧
      (settingsSnapshot sv).get? 10 = none ∧ replayed sv.slog.hist 10 = some 7 := by
  have he : ((exec (T := Nat) (I := Nat) (A := Nat) (V := Nat)
      { settingsLimit := 10, topologyLimit := 10, queueSize := 4 }
      [.openSession 1, .sessionRegister 1 [(10, 7)], .sessionGone 1]).map (fun x => (x.1.map (·.1),
        (settingsSnapshot x.2).get? 10, replayed x.2.slog.hist 10))) =
      some ([.openSession 1, .sessionRegister 1 [(10, 7)], .sessionGone 1], none, some 7) := by
    srv_eval
    simp [replayed]
  obtain ⟨⟨h, sv⟩, h1, h2⟩ := Option.map_eq_some_iff.1 he
  simp only [Prod.mk.injEq] at h2
  exact ⟨h, sv, exec_run h1, h2.1, h2.2.1, h2.2.2⟩

/-- **C32 fails when a session registers a component a process has reported.** The snapshot keeps the
reported value 9, the last event carries the initial value 7. -/
theorem C32_registration_over_report :
    ∃ (h : List (Act Nat Nat Nat Nat × Reply)) (sv : Server Nat Nat Nat Nat),
      Run { settingsLimit := 10, topologyLimit := 10, queueSize := 4 } h sv ∧
      h.map (·.1) = [.openSession 1, .openProcess 2, .registerProcess 2 [10], .updateSettings 2 10 9,
        .sessionRegister 1 [(10, 7)]] ∧
      (settingsSnapshot sv).get? 10 = some 9 ∧ replayed sv.slog.hist 10 = some 7 := by
  have he : ((exec (T := Nat) (I := Nat) (A := Nat) (V := Nat)
      { settingsLimit := 10, topologyLimit := 10, queueSize := 4 }
      [.openSession 1, .openProcess 2, .registerProcess 2 [10], .updateSettings 2 10 9,
        .sessionRegister 1 [(10, 7)]]).map (fun x => (x.1.map (·.1),
        (settingsSnapshot x.2).get? 10, replayed x.2.slog.hist 10))) =
      some ([.openSession 1, .openProcess 2, .registerProcess 2 [10], .updateSettings 2 10 9,
        .sessionRegister 1 [(10, 7)]], some 9, some 7) := by
    srv_eval
    simp [replayed]
  obtain ⟨⟨h, sv⟩, h1, h2⟩ := Option.map_eq_some_iff.1 he
  simp only [Prod.mk.injEq] at h2
  exact ⟨h, sv, exec_run h1, h2.1, h2.2.1, h2.2.2⟩

/-- A session registers two components; a process reports one of them and leaves: the snapshot shows the
report while the process is there and the initial value afterwards, and the reader agrees throughout. -/
example :
    (exec (T := Nat) (I := Nat) (A := Nat) (V := Nat)
      { settingsLimit := 10, topologyLimit := 10, queueSize := 4 }
      [.openSession 1, .openProcess 2, .registerProcess 2 [10], .sessionRegister 1 [(10, 7), (11, 8)],
        .updateSettings 2 10 9]).map (fun x => (settingsSnapshot x.2, replayed x.2.slog.hist 10,
          replayed x.2.slog.hist 11)) = some ([(10, 9), (11, 8)], some 9, some 8) ∧
    (exec (T := Nat) (I := Nat) (A := Nat) (V := Nat)
      { settingsLimit := 10, topologyLimit := 10, queueSize := 4 }
      [.openSession 1, .openProcess 2, .registerProcess 2 [10], .sessionRegister 1 [(10, 7), (11, 8)],
        .updateSettings 2 10 9, .processGone 2]).map (fun x => (settingsSnapshot x.2, replayed x.2.slog.hist 10,
          replayed x.2.slog.hist 11)) = some ([(10, 7), (11, 8)], some 7, some 8) := by
  constructor
  · srv_eval
    simp [replayed]
  · srv_eval
    simp [replayed]

/-- The history of the example above is undisturbed for component 10. -/
example : Undisturbed (T := Nat) 10 [(.openSession 1, .complete), (.openProcess 2, .complete),
    (.registerProcess 2 [10], .complete), (.sessionRegister 1 [(10, 7)], .complete),
    (.updateSettings 2 10 9, .complete), (.processGone 2, .complete)] := by
  intro pre act r post h
  rcases pre with _ | ⟨c1, _ | ⟨c2, _ | ⟨c3, _ | ⟨c4, _ | ⟨c5, _ | ⟨c6, pre⟩⟩⟩⟩⟩⟩ <;>
    simp only [List.nil_append, List.cons_append, List.cons.injEq, Prod.mk.injEq] at h
  · obtain ⟨⟨rfl, rfl⟩, _⟩ := h; simp
  · obtain ⟨rfl, ⟨rfl, rfl⟩, _⟩ := h; simp
  · obtain ⟨rfl, rfl, ⟨rfl, rfl⟩, _⟩ := h; simp
  · obtain ⟨rfl, rfl, rfl, ⟨rfl, rfl⟩, _⟩ := h
    refine ⟨?_, by simp, by simp⟩
    intro s md hm _
    cases hm
    simp [PyDict.get?, reported]
  · obtain ⟨rfl, rfl, rfl, rfl, ⟨rfl, rfl⟩, _⟩ := h; simp
  · obtain ⟨rfl, rfl, rfl, rfl, rfl, ⟨rfl, rfl⟩, _⟩ := h
    refine ⟨by simp, by simp, ?_⟩
    intro p v _ _
    exact ⟨1, [(10, 7)], by simp [metadataOf], by simp [PyDict.get?]⟩
  · obtain ⟨_, _, _, _, _, _, h⟩ := h
    cases pre <;> cases h

/-! ## C33 for the server -/

theorem drop_numberedFrom {E : Type} (es : List E) (k m : Nat) :
    (numberedFrom k es).drop m = numberedFrom (k + m) (es.drop m) := by
  induction m generalizing k es with
  | zero => simp
  | succ m ih =>
    cases es with
    | nil => simp [numberedFrom]
    | cons e es =>
      simp only [numberedFrom, List.drop_succ_cons]
      rw [ih]; congr 1; omega

theorem filter_numberedFrom {E : Type} (es : List E) (k n : Nat) :
    (numberedFrom k es).filter (fun x => decide (n < x.1)) = (numberedFrom k es).drop (n - k) := by
  induction es generalizing k with
  | nil => simp [numberedFrom]
  | cons e es ih =>
    simp only [numberedFrom, List.filter_cons, ih]
    by_cases h : n < k + 1
    · have h0 : n - k = 0 := by omega
      have h1 : n - (k + 1) = 0 := by omega
      simp [h, h0, h1]
    · obtain ⟨d, hd⟩ : ∃ d, n - k = d + 1 := ⟨n - k - 1, by omega⟩
      have h1 : n - (k + 1) = d := by omega
      simp [h, hd, h1]

/-- What every subscriber of a log has. -/
theorem log_subs {E : Type} {limit n : Int} (hn : 0 < n) (h : List (LogOp I E)) (i : I) (s : StreamSub E)
    (hs : (LogOp.execAll limit n h).subs.get? i = some s) :
    s.Ok n ∧ s.offered <:+ numberedFrom 0 (occurred h) := by
  induction h using list_snoc_induction generalizing i s with
  | h0 => simp [LogOp.execAll, EventLog.init, PyDict.get?] at hs
  | hs h c ih =>
    have hex : LogOp.execAll limit n (h ++ [c]) = c.exec limit n (LogOp.execAll limit n h) := by
      simp [LogOp.execAll]
    obtain ⟨l1, l2, l3⟩ := log_state limit n h
    rw [hex] at hs
    cases c with
    | append e =>
      have hocc : occurred (h ++ [LogOp.append e]) = occurred h ++ [e] := by
        simp [occurred, List.filterMap_append, LogOp.event]
      simp only [LogOp.exec, EventLog.append] at hs
      rw [PyDict.get?_mapVals] at hs
      obtain ⟨s0, h0, rfl⟩ := Option.map_eq_some_iff.1 hs
      obtain ⟨o1, ⟨pre, hp⟩⟩ := ih i s0 h0
      refine ⟨o1.offer hn _, pre, ?_⟩
      rw [hocc, numberedFrom_append, ← hp, l1]
      simp [EventLog.offer, numberedFrom]
    | subscribe j m =>
      have hocc : occurred (h ++ [LogOp.subscribe j m]) = occurred h := by
        simp [occurred, List.filterMap_append, List.filterMap_cons, LogOp.event]
      rw [hocc]
      simp only [LogOp.exec, EventLog.subscribe, PyDict.get?_set] at hs
      split at hs
      · cases hs
        refine ⟨StreamSub.Ok.offerAll hn _ ⟨by simp; omega, by simp, by simp⟩, ?_⟩
        rw [(offerAll_offered _ _).1, List.nil_append, l3, newest, drop_numberedFrom, filter_numberedFrom,
          ← drop_numberedFrom, List.drop_drop]
        exact List.drop_suffix _ _
      · exact ih i s hs
    | send j =>
      have hocc : occurred (h ++ [LogOp.send j]) = occurred h := by
        simp [occurred, List.filterMap_append, List.filterMap_cons, LogOp.event]
      rw [hocc]
      simp only [LogOp.exec, EventLog.sendNext, PyDict.get?_modify] at hs
      split at hs
      · obtain ⟨s0, h0, rfl⟩ := Option.map_eq_some_iff.1 hs
        rename_i hij
        subst hij
        obtain ⟨o1, o2⟩ := ih _ s0 h0
        cases hq : s0.queue with
        | nil => simp only; exact ⟨o1, o2⟩
        | cons x q =>
          simp only
          refine ⟨⟨?_, ?_, ?_⟩, o2⟩
          · have := o1.bound; rw [hq] at this; simp only [List.length_cons] at this; simp only; omega
          · have := o1.suffix; rw [hq] at this
            exact (List.suffix_cons x q).trans this
          · have := o1.kept; rw [hq] at this; simpa using this
      · exact ih i s hs
    | unsubscribe j =>
      have hocc : occurred (h ++ [LogOp.unsubscribe j]) = occurred h := by
        simp [occurred, List.filterMap_append, List.filterMap_cons, LogOp.event]
      rw [hocc]
      simp only [LogOp.exec, EventLog.unsubscribe, PyDict.get?_pop] at hs
      split at hs
      · cases hs
      · exact ih i s hs

/-- **C33 for the server.** In every run the queue of every settings and topology subscriber is within its
bound and holds the newest events, in order; what was sent and what is queued are events with their
numbers, in order and without repetition. -/
theorem C33_server_streams {cfg : Cfg} {h : List (Act T I A V × Reply)} {sv : Server T I A V}
    (hr : Run cfg h sv) (hn : 0 < cfg.queueSize) (i : I) :
    (∀ s, sv.slog.subs.get? i = some s → (s.queue.length : Int) ≤ cfg.queueSize ∧
      s.queue = newest s.queue.length (numberedFrom 0 sv.slog.hist) ∧
      (s.sent ++ s.queue).Sublist (numberedFrom 0 sv.slog.hist)) ∧
    (∀ s, sv.tlog.subs.get? i = some s → (s.queue.length : Int) ≤ cfg.queueSize ∧
      s.queue = newest s.queue.length (numberedFrom 0 sv.tlog.hist) ∧
      (s.sent ++ s.queue).Sublist (numberedFrom 0 sv.tlog.hist)) := by
  have key : ∀ {E : Type} (limit : Int) (ops : List (LogOp I E)) (s : StreamSub E),
      (LogOp.execAll limit cfg.queueSize ops).subs.get? i = some s →
      (s.queue.length : Int) ≤ cfg.queueSize ∧ s.queue = newest s.queue.length (numberedFrom 0 (occurred ops)) ∧
      (s.sent ++ s.queue).Sublist (numberedFrom 0 (occurred ops)) := by
    intro E limit ops s hs
    obtain ⟨o1, o2⟩ := log_subs hn ops i s hs
    refine ⟨o1.bound, ?_, o1.kept.trans o2.sublist⟩
    obtain ⟨p, hp⟩ := o1.suffix.trans o2
    rw [newest, ← hp, List.length_append, Nat.add_sub_cancel, List.drop_left]
  obtain ⟨o1, h1, h2⟩ := settings_events_retained hr
  obtain ⟨o2, h3, h4⟩ := topology_events_retained hr
  constructor
  · intro s hs; rw [h1] at hs; rw [← h2]; exact key _ o1 s hs
  · intro s hs; rw [h3] at hs; rw [← h4]; exact key _ o2 s hs

end Srv
end Ez
