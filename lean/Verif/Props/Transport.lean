import Verif.Model.Transport

/-!
# C26: every linked process gets each message exactly one way
-/

set_option linter.unusedSectionVars false
set_option linter.unusedSimpArgs false

namespace Ez.Transport
variable {C : Type} [DecidableEq C]

/-- One channel per process: ids and process ids do not repeat, and a channel in the publisher's own
process is the publisher's local channel (`ChannelManager`, property C38). -/
structure OnePerProcess (p : Pub) (localChannel : C) (chans : List (Chan C)) : Prop where
  ids : (chans.map (·.id)).Nodup
  own : ∀ c ∈ chans, c.pid = p.pid → c.id = localChannel

/-- The environment value reads, in any mix of upper and lower case, 1, true, yes or on. -/
def On (v : String) : Prop :=
  v.toList.map Char.toLower = "1".toList ∨ v.toList.map Char.toLower = "true".toList ∨
    v.toList.map Char.toLower = "yes".toList ∨ v.toList.map Char.toLower = "on".toList

theorem truthy_iff (v : String) : truthy v = true ↔ On v := by
  unfold truthy On
  simp

theorem id_inj {chans : List (Chan C)} (h : (chans.map (·.id)).Nodup) :
    ∀ c ∈ chans, ∀ d ∈ chans, c.id = d.id → c = d := by
  induction chans with
  | nil => intro c hc; cases hc
  | cons x xs ih =>
    simp only [List.map_cons, List.nodup_cons, List.mem_map, not_exists, not_and] at h
    intro c hc d hd e
    rcases List.mem_cons.1 hc with hc | hc
    · rcases List.mem_cons.1 hd with hd | hd
      · rw [hc, hd]
      · exact absurd (e.symm.trans (by rw [hc])) (h.1 d hd)
    · rcases List.mem_cons.1 hd with hd | hd
      · exact absurd (e.trans (by rw [hd])) (h.1 c hc)
      · exact ih h.2 c hc d hd e

theorem empty_not_truthy : ¬ On "" := by simp [On]

theorem handOvers_remote (p : Pub) (l : C) (chans : List (Chan C)) :
    handOvers p l chans = (if chans.any (canLocal p) then [(l, .local)] else []) ++
      chans.filterMap (fun c =>
        if canLocal p c then none
        else if canShm p c then some (c.id, .shm)
        else some (c.id, .tcp)) := by
  unfold handOvers
  by_cases h : chans.any (fun c => !canLocal p c)
  · rw [if_pos h]
  · rw [if_neg h]
    congr 1
    symm
    rw [List.filterMap_eq_nil_iff]
    intro c hc
    simp only [List.any_eq_true, not_exists, not_and] at h
    have := h c hc
    rw [if_pos (by simpa using this)]

/-- Each hand-over to a channel other than in-process. -/
theorem mem_handOvers {p : Pub} {l : C} {chans : List (Chan C)} {x : C × Sys.Mode} :
    x ∈ handOvers p l chans ↔
      (x = (l, .local) ∧ ∃ c ∈ chans, canLocal p c = true) ∨
      (∃ c ∈ chans, canLocal p c = false ∧ x = (c.id, if canShm p c then .shm else .tcp)) := by
  rw [handOvers_remote, List.mem_append, List.mem_filterMap]
  constructor
  · rintro (h | ⟨c, hc, h⟩)
    · split at h
      · rename_i ha
        rw [List.any_eq_true] at ha
        simp only [List.mem_singleton] at h
        exact Or.inl ⟨h, ha⟩
      · cases h
    · split at h
      · cases h
      · rename_i hl
        refine Or.inr ⟨c, hc, by simpa using hl, ?_⟩
        split at h
        · rename_i hs; rw [if_pos hs]; simpa using h.symm
        · rename_i hs; rw [if_neg hs]; simpa using h.symm
  · rintro (⟨rfl, h⟩ | ⟨c, hc, hl, rfl⟩)
    · left
      rw [if_pos (List.any_eq_true.2 h)]
      exact List.mem_singleton.2 rfl
    · right
      refine ⟨c, hc, ?_⟩
      rw [if_neg (by simp [hl])]
      split <;> rfl

/-- **C26.** With one channel per process, every connected channel is handed each message exactly once, and
nobody else is handed anything. -/
theorem C26_exactly_one_way {p : Pub} {l : C} {chans : List (Chan C)} (h : OnePerProcess p l chans) :
    (∀ c ∈ chans, ((handOvers p l chans).map (·.1)).count c.id = 1) ∧
    (∀ x ∈ handOvers p l chans, ∃ c ∈ chans, c.id = x.1) := by
  refine ⟨?_, ?_⟩
  · -- the remote part
    have key : ∀ cs : List (Chan C), (cs.map (·.id)).Nodup → ∀ c : C,
        ((cs.filterMap (fun c =>
          if canLocal p c then none
          else if canShm p c then some (c.id, Sys.Mode.shm)
          else some (c.id, .tcp))).map (·.1)).count c =
          if ∃ d ∈ cs, d.id = c ∧ canLocal p d = false then 1 else 0 := by
      intro cs
      induction cs with
      | nil => intro _ c; simp
      | cons d cs ih =>
        intro hn c
        simp only [List.map_cons, List.nodup_cons] at hn
        have ih := ih hn.2 c
        by_cases hl : canLocal p d = true
        · rw [List.filterMap_cons, if_pos hl]
          simp only
          rw [ih]
          congr 1
          apply propext
          constructor
          · rintro ⟨e, he, h1, h2⟩; exact ⟨e, List.mem_cons_of_mem _ he, h1, h2⟩
          · rintro ⟨e, he, h1, h2⟩
            rcases List.mem_cons.1 he with rfl | he
            · rw [hl] at h2; cases h2
            · exact ⟨e, he, h1, h2⟩
        · have hl' : canLocal p d = false := by simpa using hl
          have hx : ∃ md : Sys.Mode, (if canLocal p d then none else if canShm p d then some (d.id, Sys.Mode.shm)
              else some (d.id, .tcp)) = some (d.id, md) := by
            rw [if_neg hl]
            split
            · exact ⟨_, rfl⟩
            · exact ⟨_, rfl⟩
          obtain ⟨md, hx⟩ := hx
          rw [List.filterMap_cons, hx]
          simp only [List.map_cons]
          rw [List.count_cons, ih]
          by_cases hc : d.id = c
          · subst hc
            rw [if_neg, if_pos (by simp), if_pos ⟨d, List.mem_cons_self .., rfl, hl'⟩]
            rintro ⟨e, he, h1, _⟩
            exact hn.1 (List.mem_map.2 ⟨e, he, h1⟩)
          · have hb : (d.id == c) = false := by simpa using hc
            rw [hb]
            simp only [Bool.false_eq_true, if_false, Nat.add_zero]
            congr 1
            apply propext
            constructor
            · rintro ⟨e, he, h1, h2⟩; exact ⟨e, List.mem_cons_of_mem _ he, h1, h2⟩
            · rintro ⟨e, he, h1, h2⟩
              rcases List.mem_cons.1 he with rfl | he
              · exact absurd h1 hc
              · exact ⟨e, he, h1, h2⟩
    have own : ∀ c ∈ chans, canLocal p c = true → c.id = l := by
      intro c hc hl
      unfold canLocal at hl
      simp only [Bool.and_eq_true, beq_iff_eq] at hl
      exact h.own c hc hl.1.2.symm
    have uniq : ∀ c ∈ chans, ∀ d ∈ chans, c.id = d.id → c = d := id_inj h.ids
    intro c hc
    rw [handOvers_remote, List.map_append, List.count_append, key chans h.ids]
    by_cases hl : canLocal p c = true
    · rw [if_pos (List.any_eq_true.2 ⟨c, hc, hl⟩), if_neg]
      · simp [own c hc hl]
      · rintro ⟨d, hd, h1, h2⟩
        rw [uniq d hd c hc h1, hl] at h2
        cases h2
    · have hl' : canLocal p c = false := by simpa using hl
      rw [if_pos (c := ∃ d ∈ chans, d.id = c.id ∧ canLocal p d = false) ⟨c, hc, rfl, hl'⟩]
      split
      · rename_i ha
        obtain ⟨d, hd, h1⟩ := List.any_eq_true.1 ha
        have hne : l ≠ c.id := by
          intro e
          have := uniq d hd c hc ((own d hd h1).trans e)
          rw [this] at h1
          exact hl h1
        simp [hne]
      · simp
  · intro x hx
    rcases mem_handOvers.1 hx with ⟨rfl, c, hc, hl⟩ | ⟨c, hc, _, rfl⟩
    · unfold canLocal at hl
      simp only [Bool.and_eq_true, beq_iff_eq] at hl
      exact ⟨c, hc, h.own c hc hl.1.2.symm⟩
    · exact ⟨c, hc, rfl⟩

/-- **C26**, who gets it how: the hand-over to a channel is in-process iff local delivery is allowed, the
channel is in the publisher's process and attached the segment; otherwise shared memory iff it
attached the segment and `force_tcp` is off; otherwise TCP. -/
theorem C26_mode {p : Pub} {l : C} {chans : List (Chan C)} (h : OnePerProcess p l chans) {c : Chan C}
    (hc : c ∈ chans) {md : Sys.Mode} (hm : (c.id, md) ∈ handOvers p l chans)  :
    md = if p.allowLocal = true ∧ c.pid = p.pid ∧ c.shmOk = true then .local
      else if p.forceTcp = false ∧ c.shmOk = true then .shm else .tcp := by
  have uniq : ∀ d ∈ chans, d.id = c.id → d = c := fun d hd e => id_inj h.ids d hd c hc e
  rcases mem_handOvers.1 hm with ⟨e, d, hd, hl⟩ | ⟨d, hd, hl, e⟩
  · have hl0 := hl
    unfold canLocal at hl
    simp only [Bool.and_eq_true, beq_iff_eq] at hl
    simp only [Prod.mk.injEq] at e
    have := uniq d hd ((h.own d hd hl.1.2.symm).trans e.1.symm)
    subst this
    rw [if_pos ⟨hl.1.1, hl.1.2.symm, hl.2⟩]
    exact e.2
  · simp only [Prod.mk.injEq] at e
    have := uniq d hd e.1.symm
    subst this
    rw [e.2]
    have hn : ¬ (p.allowLocal = true ∧ d.pid = p.pid ∧ d.shmOk = true) := by
      rintro ⟨h1, h2, h3⟩
      unfold canLocal at hl
      simp [h1, h2, h3] at hl
    rw [if_neg hn]
    unfold canShm
    rw [hl]
    simp only [Bool.not_false, Bool.and_true, Bool.and_eq_true, Bool.not_eq_true']

/-- **C26**, `force_tcp`: whatever `allow_local` and the environment say, a publisher created with
`force_tcp` (explicitly, or by the environment if not given) uses TCP only. -/
theorem C26_force_tcp (pid : Nat) (envForce envAllow : String) (forceTcp allowLocal : Option Bool)
    (hf : forceTcp = some true ∨ (forceTcp = none ∧ On envForce)) (l : C)
    (chans : List (Chan C)) :
    ∀ x ∈ handOvers (Pub.create pid envForce envAllow forceTcp allowLocal) l chans, x.2 = .tcp := by
  have hft : (Pub.create pid envForce envAllow forceTcp allowLocal).forceTcp = true := by
    rcases hf with rfl | ⟨rfl, h⟩
    · rfl
    · simp only [Pub.create, resolveForceTcp, forceTcpDefault]
      split
      · rename_i e; subst e; exact absurd h empty_not_truthy
      · exact (truthy_iff _).2 h
  have hal : (Pub.create pid envForce envAllow forceTcp allowLocal).allowLocal = false := by
    have : resolveForceTcp envForce (some (resolveForceTcp envForce forceTcp)) = true := hft
    simp only [Pub.create, this, resolveAllowLocal, Bool.true_and]
    cases allowLocal with
    | some b => cases b <;> rfl
    | none => cases allowLocalDefault envAllow <;> rfl
  intro x hx
  rcases mem_handOvers.1 hx with ⟨_, c, _, hl⟩ | ⟨c, _, _, rfl⟩
  · unfold canLocal at hl
    rw [hal] at hl
    cases hl
  · simp only [canShm, hft]
    rfl

/-- **C26**, defaults: an argument given explicitly is used whatever the environment; without one, the
environment decides, and an unset variable means `allow_local` on and `force_tcp` off. -/
theorem C26_defaults (pid : Nat) (envForce envAllow : String) (f a : Option Bool) :
    ((Pub.create pid envForce envAllow f a).forceTcp = true ↔
      f = some true ∨ (f = none ∧ On envForce)) ∧
    ((Pub.create pid envForce envAllow f a).allowLocal = true ↔
      (Pub.create pid envForce envAllow f a).forceTcp = false ∧
      (a = some true ∨ (a = none ∧ (envAllow = "" ∨ On envAllow)))) := by
  refine ⟨?_, ?_⟩
  · cases f with
    | some b => simp [Pub.create, resolveForceTcp]
    | none =>
      simp only [Pub.create, resolveForceTcp, forceTcpDefault]
      split
      · rename_i e; subst e; simp only [Bool.false_eq_true, false_iff]
        rintro (h | ⟨_, h⟩)
        · cases h
        · exact empty_not_truthy h
      · simp [truthy_iff]
  · generalize hp : Pub.create pid envForce envAllow f a = p
    have h1 : p.allowLocal = resolveAllowLocal envAllow p.forceTcp a := by rw [← hp]; rfl
    rw [h1]
    unfold resolveAllowLocal
    cases a with
    | some b => cases p.forceTcp <;> cases b <;> simp
    | none =>
      have ha : allowLocalDefault envAllow = true ↔ envAllow = "" ∨ On envAllow := by
        unfold allowLocalDefault
        split
        · rename_i e; simp [e]
        · rename_i e; rw [truthy_iff]; simp [e]
      simp only [reduceCtorEq, false_or, true_and]
      rw [← ha]
      cases p.forceTcp <;> cases allowLocalDefault envAllow <;> simp

/-- **C26**, safety of the fast transports: in-process and shared memory hand-overs go only to channels that
attached the segment, in-process ones only to a channel in the publisher's process. -/
theorem C26_fast_paths_attached {p : Pub} {l : C} {chans : List (Chan C)} (h : OnePerProcess p l chans)
    {x : C × Sys.Mode} (hx : x ∈ handOvers p l chans) (hm : x.2 ≠ .tcp) :
    ∃ c ∈ chans, c.id = x.1 ∧ c.shmOk = true ∧ (x.2 = .local → c.pid = p.pid) := by
  rcases mem_handOvers.1 hx with ⟨rfl, c, hc, hl⟩ | ⟨c, hc, hl, rfl⟩
  · unfold canLocal at hl
    simp only [Bool.and_eq_true, beq_iff_eq] at hl
    exact ⟨c, hc, h.own c hc hl.1.2.symm, hl.2, fun _ => hl.1.2.symm⟩
  · refine ⟨c, hc, rfl, ?_, ?_⟩
    · cases hs : canShm p c with
      | false => simp [hs] at hm
      | true =>
        unfold canShm at hs
        simp only [Bool.and_eq_true] at hs
        exact hs.1.2
    · intro e
      simp only at e
      split at e <;> cases e

/-- A publisher in process 7 with four channels: its own, one attached, one that could not attach, and one
in another process that did attach. -/
def demoChans : List (Chan Char) :=
  [⟨'a', 7, true⟩, ⟨'b', 8, true⟩, ⟨'c', 9, false⟩, ⟨'d', 10, true⟩]

example : OnePerProcess (Pub.create 7 "" "" none none) 'a' demoChans :=
  ⟨by decide, by intro c hc h; simp [demoChans] at hc; rcases hc with rfl | rfl | rfl | rfl <;> simp_all [Pub.create]⟩

example : handOvers (Pub.create 7 "" "" (some false) none) 'a' demoChans =
    [('a', .local), ('b', .shm), ('c', .tcp), ('d', .shm)] := by decide

example : handOvers (Pub.create 7 "" "" (some true) (some true)) 'a' demoChans =
    [('a', .tcp), ('b', .tcp), ('c', .tcp), ('d', .tcp)] := by decide

/-- The assumption of one channel per process is needed: a second channel in the publisher's own process
(possible, see C38) is handed nothing. -/
theorem C26_second_local_channel_skipped (p : Pub) (l : C) (c : Chan C) (hp : p.allowLocal = true)
    (h1 : c.pid = p.pid) (h2 : c.shmOk = true) (h3 : c.id ≠ l) :
    ∀ x ∈ handOvers p l [⟨l, p.pid, true⟩, c], x.1 ≠ c.id := by
  intro x hx
  have hc : canLocal p c = true := by simp [canLocal, hp, h1, h2]
  rcases mem_handOvers.1 hx with ⟨rfl, _⟩ | ⟨d, hd, hl, rfl⟩
  · exact fun e => h3 e.symm
  · rcases List.mem_cons.1 hd with rfl | hd
    · exact fun e => h3 e.symm
    · rw [List.mem_singleton] at hd
      subst hd
      rw [hc] at hl
      cases hl

end Ez.Transport
