import Verif.Props.Snapshot
import Verif.Props.Departure

/-!
# C92: `update_settings` reaches the component it names

Specification: a component is registered by a session (`metadataOf`, from the history of requests); `dyn` gives the topic of its
settings input, if it has one.
-/

set_option linter.unusedSectionVars false
set_option linter.unusedSimpArgs false

namespace Ez
namespace Srv
variable {T I A V : Type} [DecidableEq T] [DecidableEq I] [DecidableEq A]

/-! ## Specification -/

/-- Session `s` has registered component `a` as `c`. -/
def RegisteredBy (h : List (Act T I A V × Reply)) (s : I) (a : A) (c : V) : Prop :=
  ∃ md, metadataOf h s = some md ∧ PyDict.get? md a = some c

/-! ## Lemmas -/

theorem registered_unique {cfg : Cfg} {h : List (Act T I A V × Reply)} {sv : Server T I A V} (hr : Run cfg h sv) {s s' : I} {a : A}
    {c c' : V} (h1 : RegisteredBy h s a c) (h2 : RegisteredBy h s' a c') : s = s' ∧ c = c' := by
  have hi := run_setInv hr
  obtain ⟨m, hm, hc⟩ := h1
  obtain ⟨m', hm', hc'⟩ := h2
  have e : s = s' := hi.core.uniq s s' m m' a ((hi.mdEq s).symm.trans hm) ((hi.mdEq s').symm.trans hm') (by simp [hc]) (by simp [hc'])
  subst e
  rw [hm] at hm'
  cases hm'
  rw [hc] at hc'
  cases hc'
  exact ⟨rfl, rfl⟩

/-- What one session contributes to `topics`. -/
def contributes (dyn : V → Option T) (a : A) (s : I × List (T × T) × Option (PyDict A V)) : Option T :=
  s.2.2.bind fun md => (PyDict.get? md a).bind dyn

theorem topics_eq (dyn : V → Option T) (a : A) (l : List (I × List (T × T) × Option (PyDict A V))) (ts : PySet T) :
    l.foldl (fun ts s => match s.2.2 with
      | none => ts
      | some md => match PyDict.get? md a with
        | none => ts
        | some c => match dyn c with
          | some t => PySet.add ts t
          | none => ts) ts = (l.filterMap (contributes dyn a)).foldl PySet.add ts := by
  induction l generalizing ts with
  | nil => rfl
  | cons s l ih =>
    rw [List.foldl_cons, ih, List.filterMap_cons]
    obtain ⟨i, es, md⟩ := s
    cases md with
    | none => rfl
    | some md =>
      cases hc : PyDict.get? md a with
      | none => simp [contributes, hc]
      | some c =>
        cases hd : dyn c with
        | none => simp [contributes, hc, hd]
        | some t => simp [contributes, hc, hd]

theorem filterMap_one {α β : Type} (f : α → Option β) : ∀ (l : List α), l.Nodup →
    (∀ x ∈ l, ∀ y ∈ l, (f x).isSome → (f y).isSome → x = y) →
    l.filterMap f = [] ∨ ∃ x ∈ l, ∃ b, f x = some b ∧ l.filterMap f = [b] := by
  intro l
  induction l with
  | nil => simp
  | cons x l ih =>
    intro hn hu
    simp only [List.nodup_cons] at hn
    rcases ih hn.2 (fun a ha b hb => hu a (by simp [ha]) b (by simp [hb])) with h | ⟨y, hy, b, hb, h⟩
    · cases hx : f x with
      | none => left; simp [List.filterMap_cons, hx, h]
      | some b => right; exact ⟨x, by simp, b, hx, by simp [List.filterMap_cons, hx, h]⟩
    · cases hx : f x with
      | none => right; exact ⟨y, by simp [hy], b, hb, by simp [List.filterMap_cons, hx, h]⟩
      | some b' =>
        exfalso
        have := hu x (by simp) y (by simp [hy]) (by simp [hx]) (by simp [hb])
        subst this
        exact hn.1 hy

theorem session_registered {cfg : Cfg} {h : List (Act T I A V × Reply)} {sv : Server T I A V} (hr : Run cfg h sv) (le : Orders T I A)
    (s : I) (md : PyDict A V) : (∃ es, (s, es, some md) ∈ (snapshot le sv).sessions) ↔ metadataOf h s = some md := by
  have hinv := (run_inv hr).1
  constructor
  · rintro ⟨es, he⟩
    exact ((C91_sessions hr le).2.1 s es _ he).2.symm
  · intro hm
    have hm' := hm
    rw [(run_setInv hr).mdEq s] at hm'
    unfold mdOf at hm'
    cases hc : sv.clients.get? s with
    | none => rw [hc] at hm'; cases hm'
    | some c =>
      rw [hc] at hm'
      cases c with
      | session es m =>
        simp only [mdClient] at hm'
        subst hm'
        exact ⟨_, mem_sessions.2 ⟨es, PyDict.mem_of_get? hc, rfl⟩⟩
      | _ => cases hm'

theorem topics_cases {cfg : Cfg} {h : List (Act T I A V × Reply)} {sv : Server T I A V} (hr : Run cfg h sv) (le : Orders T I A)
    (dyn : V → Option T) (a : A) :
    (topics dyn a (snapshot le sv) = [] ∧ ∀ s c, RegisteredBy h s a c → dyn c = none) ∨
    ∃ t s c, topics dyn a (snapshot le sv) = [t] ∧ RegisteredBy h s a c ∧ dyn c = some t := by
  have e : topics dyn a (snapshot le sv) = ((snapshot le sv).sessions.filterMap (contributes dyn a)).foldl PySet.add [] :=
    topics_eq dyn a _ _
  have hreg : ∀ x ∈ (snapshot le sv).sessions, ∀ t, contributes dyn a x = some t →
      ∃ c, RegisteredBy h x.1 a c ∧ dyn c = some t := by
    rintro ⟨s, es, md⟩ hx t ht
    cases md with
    | none => cases ht
    | some md =>
      have hm := (session_registered hr le s md).1 ⟨es, hx⟩
      simp only [contributes, Option.bind_some, Option.bind_eq_some_iff] at ht
      obtain ⟨c, h1, h2⟩ := ht
      exact ⟨c, ⟨md, hm, h1⟩, h2⟩
  have hnd : ((snapshot le sv).sessions).Nodup := by
    have := (C91_sessions hr le).2.2
    exact (List.pairwise_map.1 this).imp fun h e => h (by rw [e])
  have hkey := (C91_sessions hr le).2.2
  have huniq : ∀ x ∈ (snapshot le sv).sessions, ∀ y ∈ (snapshot le sv).sessions, (contributes dyn a x).isSome →
      (contributes dyn a y).isSome → x = y := by
    intro x hx y hy h1 h2
    obtain ⟨t1, h1⟩ := Option.isSome_iff_exists.1 h1
    obtain ⟨t2, h2⟩ := Option.isSome_iff_exists.1 h2
    obtain ⟨c1, r1, _⟩ := hreg x hx t1 h1
    obtain ⟨c2, r2, _⟩ := hreg y hy t2 h2
    have e := (registered_unique hr r1 r2).1
    obtain ⟨s, p⟩ := x
    obtain ⟨s', q⟩ := y
    simp only at e
    subst e
    have g1 := PyDict.get?_of_mem (d := (snapshot le sv).sessions) hkey hx
    have g2 := PyDict.get?_of_mem (d := (snapshot le sv).sessions) hkey hy
    rw [g1] at g2
    cases g2
    rfl
  rcases filterMap_one (contributes dyn a) _ hnd huniq with h0 | ⟨x, hx, t, ht, h1⟩
  · left
    refine ⟨by rw [e, h0]; rfl, ?_⟩
    rintro s c ⟨md, hm, hc⟩
    obtain ⟨es, hes⟩ := (session_registered hr le s md).2 hm
    cases hd : dyn c with
    | none => rfl
    | some t =>
      have : t ∈ (snapshot le sv).sessions.filterMap (contributes dyn a) :=
        List.mem_filterMap.2 ⟨_, hes, by simp [contributes, hc, hd]⟩
      rw [h0] at this
      cases this
  · right
    obtain ⟨c, r1, r2⟩ := hreg x hx t ht
    exact ⟨t, x.1, c, by rw [e, h1]; rfl, r1, r2⟩

/-! ## Theorems: the topic -/

/-- C92: `settings_input_topic` returns `t` exactly if the component is registered with the settings input `t`. -/
theorem C92_topic {cfg : Cfg} {h : List (Act T I A V × Reply)} {sv : Server T I A V} (hr : Run cfg h sv) (le : Orders T I A)
    (dyn : V → Option T) (a : A) (t : T) :
    settingsInputTopic le dyn a (snapshot le sv) = .topic t ↔ ∃ s c, RegisteredBy h s a c ∧ dyn c = some t := by
  rcases topics_cases hr le dyn a with ⟨h0, h1⟩ | ⟨t', s, c, h0, h1, h2⟩
  · simp only [settingsInputTopic, h0]
    constructor
    · intro h; cases h
    · rintro ⟨s, c, h2, h3⟩
      rw [h1 s c h2] at h3
      cases h3
  · simp only [settingsInputTopic, h0]
    constructor
    · intro h; cases h; exact ⟨s, c, h1, h2⟩
    · rintro ⟨s', c', h3, h4⟩
      obtain ⟨_, rfl⟩ := registered_unique hr h1 h3
      rw [h2] at h4
      cases h4
      rfl

/-- C92: otherwise it raises, and never because of conflicting topics: no two sessions register the same component. -/
theorem C92_missing {cfg : Cfg} {h : List (Act T I A V × Reply)} {sv : Server T I A V} (hr : Run cfg h sv) (le : Orders T I A)
    (dyn : V → Option T) (a : A) :
    (∀ ts, settingsInputTopic le dyn a (snapshot le sv) ≠ .conflict ts) ∧
    (settingsInputTopic le dyn a (snapshot le sv) = .missing ↔ ∀ s c, RegisteredBy h s a c → dyn c = none) := by
  rcases topics_cases hr le dyn a with ⟨h0, h1⟩ | ⟨t', s, c, h0, h1, h2⟩
  · simp only [settingsInputTopic, h0]
    exact ⟨(fun ts h => by cases h), fun _ => h1, fun _ => trivial⟩
  · simp only [settingsInputTopic, h0]
    refine ⟨(fun ts h => by cases h), (fun h => by cases h), fun h => ?_⟩
    rw [h s c h1] at h2
    cases h2

/-! ## Theorems: registering -/

theorem mem_foldl_padd {α : Type} [DecidableEq α] (l : List α) (x : α) : ∀ s : PySet α, x ∈ l.foldl PySet.add s ↔ x ∈ s ∨ x ∈ l := by
  induction l with
  | nil => simp
  | cons y l ih => intro s; rw [List.foldl_cons, ih, PySet.mem_add, List.mem_cons, or_assoc]

theorem mem_keys_get? {K W : Type} [DecidableEq K] {d : PyDict K W} {k : K} : k ∈ d.keys ↔ ∃ w, PyDict.get? d k = some w := by
  constructor
  · intro h
    cases hg : PyDict.get? d k with
    | some w => exact ⟨w, rfl⟩
    | none => exact absurd h (PyDict.get?_eq_none.1 hg)
  · rintro ⟨w, h⟩
    exact List.mem_map_of_mem (PyDict.mem_of_get? h)

/-- C92: a session whose metadata are refused is told exactly the components that other sessions have registered when the
snapshot is taken, if there are any; `h` is the history up to then. -/
theorem C92_collisions {cfg : Cfg} {h : List (Act T I A V × Reply)} {sv : Server T I A V} (hr : Run cfg h sv) (le : Orders T I A)
    (s : I) (md : PyDict A V) :
    (registerMetadata le (some s) md .error (some (snapshot le sv)) = .rejectedPlain ∧
      ¬ ∃ a ∈ md.keys, ∃ s' c, s' ≠ s ∧ RegisteredBy h s' a c) ∨
    ∃ cs, registerMetadata le (some s) md .error (some (snapshot le sv)) = .rejected cs ∧ cs ≠ [] ∧
      ∀ a, a ∈ cs ↔ a ∈ md.keys ∧ ∃ s' c, s' ≠ s ∧ RegisteredBy h s' a c := by
  have hm : ∀ a, a ∈ collisions (some s) md (snapshot le sv) ↔ a ∈ md.keys ∧ ∃ s' c, s' ≠ s ∧ RegisteredBy h s' a c := by
    intro a
    unfold collisions
    rw [mem_foldl_padd]
    simp only [List.not_mem_nil, false_or, List.mem_flatMap]
    constructor
    · rintro ⟨⟨s', es, m⟩, hs, ha⟩
      split at ha
      · cases ha
      · rename_i hne
        cases m with
        | none => cases ha
        | some m =>
          simp only [List.mem_filter, decide_eq_true_eq] at ha
          obtain ⟨c, hc⟩ := mem_keys_get?.1 ha.2
          exact ⟨ha.1, s', c, fun e => hne (by simp [e]), m, (session_registered hr le s' m).1 ⟨es, hs⟩, hc⟩
    · rintro ⟨ha, s', c, hne, m, h1, h2⟩
      obtain ⟨es, hes⟩ := (session_registered hr le s' m).2 h1
      refine ⟨_, hes, ?_⟩
      rw [if_neg (by simpa using Ne.symm hne)]
      simp only [List.mem_filter, decide_eq_true_eq]
      exact ⟨ha, mem_keys_get?.2 ⟨c, h2⟩⟩
  unfold registerMetadata
  simp only
  by_cases he : md.keys.isEmpty = true
  · left
    rw [List.isEmpty_iff] at he
    simp [he]
  · rw [if_neg he]
    by_cases hc : (collisions (some s) md (snapshot le sv)).isEmpty = true
    · left
      rw [if_pos hc]
      refine ⟨rfl, ?_⟩
      rintro ⟨a, h1, h2⟩
      have := (hm a).2 ⟨h1, h2⟩
      rw [List.isEmpty_iff.1 hc] at this
      cases this
    · right
      rw [if_neg hc]
      refine ⟨_, rfl, ?_, fun a => by rw [List.mem_mergeSort, hm a]⟩
      intro e
      apply hc
      have hl := List.length_mergeSort (le := le.unit) (collisions (some s) md (snapshot le sv))
      rw [e] at hl
      rw [List.isEmpty_iff]
      exact List.length_eq_zero_iff.1 hl.symm

/-- C92: if nothing happens between the refusal and the snapshot, the error names components. -/
theorem C92_rejected {cfg : Cfg} {h : List (Act T I A V × Reply)} {sv sv' : Server T I A V} (hr : Run cfg h sv) (le : Orders T I A)
    (s : I) (md : PyDict A V) (hs : step cfg sv (.sessionRegister s md) = some (sv', .error)) :
    ∃ cs, registerMetadata le (some s) md .error (some (snapshot le sv')) = .rejected cs ∧ cs ≠ [] ∧
      ∀ a, a ∈ cs ↔ a ∈ md.keys ∧ ∃ s' c, s' ≠ s ∧ RegisteredBy h s' a c := by
  obtain ⟨h1, h2⟩ := C51_registration_refused_iff hr hs
  obtain ⟨a, s', md', hne, h3, h4, h5⟩ := h2.1 rfl
  rcases h1 with h1 | ⟨_, rfl⟩
  · cases h1
  · rcases C92_collisions hr le s md with ⟨_, h6⟩ | h6
    · exfalso
      apply h6
      obtain ⟨c, hc⟩ := Option.isSome_iff_exists.1 h4
      exact ⟨a, mem_keys_get?.2 (Option.isSome_iff_exists.1 h5), s', c, hne, md', h3, hc⟩
    · exact h6

/-! ## Theorems: publishing the value -/

/-- The topic to publish on: the one given, or the one found. -/
def Target (found : Found T) (input : Option T) (t : T) : Prop := input = some t ∨ (input = none ∧ found = .topic t)

/-- C92: `update_settings` returns only after it has broadcast the value, once, on the topic of the component (or the one given),
and has closed and dropped the publisher it made for that. -/
theorem C92_returned {W : Type} {found : Found T} {input : Option T} {w : W} {p s c : Bool}
    (h : (updateSettingsCall found input w p s c).2 = .returned) :
    ∃ t, Target found input t ∧ (updateSettingsCall found input w p s c).1 = [.made t, .sent t w, .closed, .dropped] := by
  cases input with
  | some t =>
    refine ⟨t, .inl rfl, ?_⟩
    revert h
    cases p <;> cases s <;> cases c <;> intro h <;> first | rfl | cases h
  | none =>
    cases found with
    | topic t =>
      refine ⟨t, .inr ⟨rfl, rfl⟩, ?_⟩
      revert h
      cases p <;> cases s <;> cases c <;> intro h <;> first | rfl | cases h
    | conflict ts => cases h
    | missing => cases h

/-- C92: however it ends, it broadcasts nothing but the value, on no other topic, at most once; a publisher that was made is
closed; and if the component has no settings input nothing is done. -/
theorem C92_ended {W : Type} (found : Found T) (input : Option T) (w : W) (p s c : Bool) :
    (∀ t' w', .sent t' w' ∈ (updateSettingsCall found input w p s c).1 → Target found input t' ∧ w' = w) ∧
    ((updateSettingsCall found input w p s c).1 = [] ∨
      ∃ t, (updateSettingsCall found input w p s c).1 = [.made t, .closed] ∨
        (updateSettingsCall found input w p s c).1 = [.made t, .closed, .dropped] ∨
        (updateSettingsCall found input w p s c).1 = [.made t, .sent t w, .closed] ∨
        (updateSettingsCall found input w p s c).1 = [.made t, .sent t w, .closed, .dropped]) ∧
    ((¬ ∃ t, Target found input t) → (updateSettingsCall found input w p s c).1 = []) := by
  cases input with
  | some t =>
    refine ⟨?_, ?_, fun h => absurd ⟨t, .inl rfl⟩ h⟩
    · cases p <;> cases s <;> cases c <;> simp [updateSettingsCall, Target]
    · cases p <;> cases s <;> cases c <;> simp [updateSettingsCall]
  | none =>
    cases found with
    | topic t =>
      refine ⟨?_, ?_, fun h => absurd ⟨t, .inr ⟨rfl, rfl⟩⟩ h⟩
      · cases p <;> cases s <;> cases c <;> simp [updateSettingsCall, Target] <;> (rintro t' w' rfl rfl; exact ⟨rfl, rfl⟩)
      · cases p <;> cases s <;> cases c <;> simp [updateSettingsCall]
    | conflict ts => simp [updateSettingsCall]
    | missing => simp [updateSettingsCall]

/-- C92: it returns exactly if there is a topic and the publisher can be made, broadcasts and can be closed; otherwise it raises what
`settings_input_topic` or one of these raised. -/
theorem C92_returns_exactly {W : Type} (found : Found T) (input : Option T) (w : W) (p s c : Bool) :
    ((updateSettingsCall found input w p s c).2 = .returned ↔ (∃ t, Target found input t) ∧ p = true ∧ s = true ∧ c = true) ∧
    ((updateSettingsCall found input w p s c).2 = .noTopic found ↔ ¬ ∃ t, Target found input t) ∧
    (∀ f, (updateSettingsCall found input w p s c).2 = .noTopic f → f = found) := by
  cases input with
  | some t => cases p <;> cases s <;> cases c <;> simp [updateSettingsCall, Target]
  | none =>
    cases found with
    | topic t => cases p <;> cases s <;> cases c <;> simp [updateSettingsCall, Target]
    | conflict ts => simp [updateSettingsCall, Target]
    | missing => simp [updateSettingsCall, Target]

/-- C92: what it leaves: a broadcast was made exactly if there is a topic, a publisher could be made and broadcasts; a publisher which was
made is dropped exactly if closing it returned. -/
theorem C92_left {W : Type} (found : Found T) (input : Option T) (w : W) (p s c : Bool) :
    (∀ t, .made t ∈ (updateSettingsCall found input w p s c).1 ↔ Target found input t ∧ p = true) ∧
    (∀ t, .sent t w ∈ (updateSettingsCall found input w p s c).1 ↔ Target found input t ∧ p = true ∧ s = true) ∧
    (.dropped ∈ (updateSettingsCall found input w p s c).1 ↔ (∃ t, Target found input t) ∧ p = true ∧ c = true) := by
  cases input with
  | some t => cases p <;> cases s <;> cases c <;> simp [updateSettingsCall, Target, eq_comm]
  | none =>
    cases found with
    | topic t => cases p <;> cases s <;> cases c <;> simp [updateSettingsCall, Target, eq_comm]
    | conflict ts => simp [updateSettingsCall, Target]
    | missing => simp [updateSettingsCall, Target]

/-- The component's topic is 40; the publisher is made and broadcasts, and closing it raises. -/
example : (updateSettingsCall (.topic 40) none 'v' true true false) = ([.made 40, .sent 40 'v', .closed], .raised) := rfl

/-! ## Examples -/

/-- Non-vacuity: the topic of component 5 after `snapActs`; session 9 is told that it is registered already; and an update. -/
theorem update_example : ∃ (h : List (Act Nat Nat Nat Nat × Reply)) (sv : Server Nat Nat Nat Nat), Run ⟨100, 100, 10⟩ h sv ∧
    settingsInputTopic snapOrders (fun c => if c = 7 then some 40 else none) 5 (snapshot snapOrders sv) = .topic 40 ∧
    settingsInputTopic snapOrders (fun c => if c = 7 then some 40 else none) 6 (snapshot snapOrders sv) = .missing ∧
    registerMetadata snapOrders (some 9) [(4, 0), (5, 0)] .error (some (snapshot snapOrders sv)) = .rejected [5] ∧
    (updateSettingsCall (settingsInputTopic snapOrders (fun c => if c = 7 then some 40 else none) 5 (snapshot snapOrders sv)) none 'v' true true true).2 =
      .returned := by
  obtain ⟨h, sv, hr, _, _, hs, _⟩ := snap_example
  have e : settingsInputTopic snapOrders (fun c => if c = 7 then some 40 else none) 5 (snapshot snapOrders sv) = .topic 40 := by
    simp only [settingsInputTopic, topics, hs]; rfl
  refine ⟨h, sv, hr, e, by simp only [settingsInputTopic, topics, hs]; rfl, ?_, by rw [e]; rfl⟩
  simp only [registerMetadata, collisions, hs]
  decide +kernel

end Srv

/-! ## Theorems: receiving it -/

namespace Depart
open Sys
variable {P K S V : Type} [DecidableEq P] [DecidableEq K] [DecidableEq S] {cfg : Cfg P K S}

/-- C92, partial: the subscriber of the settings input, if it was connected to the new publisher before the broadcast, receives the value
or nothing yet. Missing: that it receives it (`C92_lost`); channels have to notice the end of the publisher in an orderly way. -/
theorem C92_received_partial (hwf : cfg.WF) {d : St P K S V} (h : Orderly cfg d) {s : S} {k : K} {w : V}
    (hs : cfg.maxq s = none) (hk : (d.sys.sub s).chans (cfg.pubOf k) = some k) (hb : bcasts (cfg.pubOf k) d.sys.log = [w])
    (hl : sentBeforeLink cfg s k d.sys.log = 0) :
    (recvd s k d.sys.log).map (·.2) = [] ∨ (recvd s k d.sys.log).map (·.2) = [w] := by
  obtain ⟨a, h1, _, h3⟩ := C62_received_prefix_partial hwf h hs hk
  rw [hl] at h1
  obtain rfl : a = 0 := by omega
  rw [hb, List.drop_zero] at h3
  obtain ⟨t, ht⟩ := h3
  cases hr : (recvd s k d.sys.log).map (·.2) with
  | nil => exact .inl rfl
  | cons x l =>
    rw [hr] at ht
    simp only [List.cons_append, List.cons.injEq, List.append_eq_nil_iff] at ht
    obtain ⟨rfl, rfl, _⟩ := ht
    exact .inr rfl

/-- C92 is violated: the value is lost, and `recv` of the unit raises, if the channel reads the value and the end of the connection, which follows
at once, before the subscriber runs. -/
theorem C92_lost : run Example.two (init Example.two)
    ([.sys (.connect 0), .sys (.link 0 0), .sys (.bcast 0 'a'), .sys (.send 0 true), .sys (.finish 0), .leave 0, .sys (.deliver 0),
      .hangup 0, .sys (.recv 0)] : List Example.A) = .raised .cacheMiss := Example.eq_raised (by decide +kernel)

/-- Non-vacuity of `C92_received_partial`: the value is received before the channel notices the end. -/
example : Orderly Example.two (Example.after Example.orderlyRun) ∧ Example.two.maxq 0 = none ∧
    ((Example.after Example.orderlyRun).sys.sub 0).chans (Example.two.pubOf 0) = some 0 ∧
    bcasts (Example.two.pubOf 0) (Example.after Example.orderlyRun).sys.log = ['a'] ∧
    sentBeforeLink Example.two 0 0 (Example.after Example.orderlyRun).sys.log = 0 := by
  refine ⟨?_, by decide +kernel⟩
  obtain ⟨d, h1, h2⟩ := Example.orderly_run Example.orderlyRun (d := init Example.two) .init (by decide +kernel)
  unfold Example.after
  rw [h1]
  exact h2.orderly

end Depart
end Ez
