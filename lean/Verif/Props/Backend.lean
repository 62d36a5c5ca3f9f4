import Verif.Model.Backend
import Verif.Lemmas.Py
import Verif.Spec.Path

/-!
# C34, C35: processes and relays
-/

set_option linter.unusedSectionVars false
set_option linter.unusedSimpArgs false

namespace Ez
namespace Backend
variable {K : Type} [DecidableEq K]

mutual
/-- Specification: all units of a component, in order. -/
def Comp.units : Comp K → List K
  | .unit i _ => [i]
  | .coll _ cs _ => unitsAll cs
/-- All units of some components. -/
def unitsAll : List (Comp K) → List K
  | [] => []
  | c :: cs => c.units ++ unitsAll cs
end

mutual
/-- Specification: the identities of all components of a tree. -/
def Comp.ids : Comp K → List K
  | .unit i _ => [i]
  | .coll i cs _ => i :: idsAll cs
def idsAll : List (Comp K) → List K
  | [] => []
  | c :: cs => c.ids ++ idsAll cs
end

mutual
/-- Specification: every unit with the component that puts it into a process of its own: the nearest component on
the way up, starting with the unit, that its parent lists as process component (or a unit marked so itself);
`r` if there is none. -/
def Comp.placed (procs : List K) (r : Option K) : Comp K → List (K × Option K)
  | .unit i own => [(i, if i ∈ procs ∨ own then some i else r)]
  | .coll i cs ps => placedAll ps (if i ∈ procs then some i else r) cs
def placedAll (procs : List K) (r : Option K) : List (Comp K) → List (K × Option K)
  | [] => []
  | c :: cs => c.placed procs r ++ placedAll procs r cs
end

/-- The units placed by `r`, in order. -/
def group (l : List (K × Option K)) (r : Option K) : List K := (l.filter (fun x => decide (x.2 = r))).map (·.1)

theorem group_append (l m : List (K × Option K)) (r : Option K) : group (l ++ m) r = group l r ++ group m r := by
  simp [group]

mutual
theorem placed_units (procs : List K) (r : Option K) : ∀ c : Comp K, (c.placed procs r).map (·.1) = c.units
  | .unit i own => by simp [Comp.placed, Comp.units]
  | .coll i cs ps => by simp only [Comp.placed, Comp.units]; exact placedAll_units ps _ cs
theorem placedAll_units (procs : List K) (r : Option K) :
    ∀ cs : List (Comp K), (placedAll procs r cs).map (·.1) = unitsAll cs
  | [] => rfl
  | c :: cs => by
    simp only [placedAll, unitsAll, List.map_append, placed_units procs r c, placedAll_units procs r cs]
end

mutual
theorem placed_orElse (procs : List K) (r : Option K) : ∀ c : Comp K,
    c.placed procs r = (c.placed procs none).map (fun x => (x.1, x.2.or r))
  | .unit i own => by
    simp only [Comp.placed, List.map_cons, List.map_nil]
    split <;> simp
  | .coll i cs ps => by
    simp only [Comp.placed]
    split
    · rw [placedAll_orElse ps (some i) cs, List.map_map]
      congr 1
      funext x
      cases h : x.2 <;> simp [h]
    · exact placedAll_orElse ps r cs
theorem placedAll_orElse (procs : List K) (r : Option K) : ∀ cs : List (Comp K),
    placedAll procs r cs = (placedAll procs none cs).map (fun x => (x.1, x.2.or r))
  | [] => rfl
  | c :: cs => by
    simp only [placedAll, List.map_append, ← placed_orElse procs r c, ← placedAll_orElse procs r cs]
end

mutual
theorem placed_ids (procs : List K) : ∀ c : Comp K, ∀ u k, (u, some k) ∈ c.placed procs none → k ∈ c.ids
  | .unit i own => by
    intro u k h
    simp only [Comp.placed, List.mem_singleton, Prod.mk.injEq] at h
    simp only [Comp.ids, List.mem_singleton]
    obtain ⟨_, h⟩ := h
    split at h
    · cases h; rfl
    · cases h
  | .coll i cs ps => by
    intro u k h
    simp only [Comp.ids, List.mem_cons]
    simp only [Comp.placed] at h
    rw [placedAll_orElse] at h
    obtain ⟨⟨u', r⟩, h1, h2⟩ := List.mem_map.1 h
    simp only [Prod.mk.injEq] at h2
    obtain ⟨rfl, h2⟩ := h2
    cases r with
    | some k' =>
      simp at h2; subst h2
      exact Or.inr (placedAll_ids ps cs u' _ h1)
    | none =>
      simp only [Option.none_or] at h2
      split at h2
      · cases h2; exact Or.inl rfl
      · cases h2
theorem placedAll_ids (procs : List K) : ∀ cs : List (Comp K), ∀ u k,
    (u, some k) ∈ placedAll procs none cs → k ∈ idsAll cs
  | [] => by intro u k h; cases h
  | c :: cs => by
    intro u k h
    simp only [placedAll, List.mem_append, idsAll] at h ⊢
    rcases h with h | h
    · exact Or.inl (placed_ids procs c u k h)
    · exact Or.inr (placedAll_ids procs cs u k h)
end

/-- What the loop of `_collect_processes` has gathered for the units `l`: the groups of the placing components
`L`, and the units not placed. -/
structure Gathered (l : List (K × Option K)) (L : List K) (acc : Acc K) : Prop where
  nodup : L.Nodup
  groups : acc.1 = L.map (fun k => group l (some k))
  rest : acc.2 = group l none
  nonempty : ∀ k ∈ L, group l (some k) ≠ []
  all : ∀ u k, (u, some k) ∈ l → k ∈ L

theorem group_nil_of {l : List (K × Option K)} {r : Option K} (h : ∀ u, (u, r) ∉ l) : group l r = [] := by
  unfold group
  rw [List.map_eq_nil_iff, List.filter_eq_nil_iff]
  rintro ⟨u, r'⟩ hm hc
  simp only [decide_eq_true_eq] at hc
  subst hc
  exact h u hm

theorem mem_group {l : List (K × Option K)} {r : Option K} {u : K} : u ∈ group l r ↔ (u, r) ∈ l := by
  unfold group
  simp only [List.mem_map, List.mem_filter, decide_eq_true_eq]
  constructor
  · rintro ⟨⟨u', r'⟩, ⟨h1, rfl⟩, rfl⟩; exact h1
  · intro h; exact ⟨(u, r), ⟨h, rfl⟩, rfl⟩

theorem Gathered.append {l m : List (K × Option K)} {L M : List K} {a b : Acc K} (h : Gathered l L a)
    (h' : Gathered m M b) (hd : ∀ k ∈ L, k ∉ M) : Gathered (l ++ m) (L ++ M) (a.1 ++ b.1, a.2 ++ b.2) := by
  have hLm : ∀ k ∈ L, group m (some k) = [] := fun k hk => group_nil_of (fun u hu => hd k hk (h'.all u k hu))
  have hMl : ∀ k ∈ M, group l (some k) = [] := fun k hk => group_nil_of (fun u hu => hd k (h.all u k hu) hk)
  refine ⟨?_, ?_, ?_, ?_, ?_⟩
  · rw [List.nodup_append]
    exact ⟨h.nodup, h'.nodup, fun a ha b hb e => hd a ha (e ▸ hb)⟩
  · simp only [h.groups, h'.groups, List.map_append]
    congr 1
    · apply List.map_congr_left
      intro k hk; rw [group_append, hLm k hk, List.append_nil]
    · apply List.map_congr_left
      intro k hk; rw [group_append, hMl k hk, List.nil_append]
  · simp only [h.rest, h'.rest, group_append]
  · intro k hk
    rw [group_append]
    rcases List.mem_append.1 hk with hk | hk
    · rw [hLm k hk, List.append_nil]; exact h.nonempty k hk
    · rw [hMl k hk, List.nil_append]; exact h'.nonempty k hk
  · intro u k hk
    rcases List.mem_append.1 hk with hk | hk
    · exact List.mem_append_left _ (h.all u k hk)
    · exact List.mem_append_right _ (h'.all u k hk)

mutual
theorem collectOne_acc (procs : List K) : ∀ (c : Comp K) (acc : Acc K), collectOne procs c acc =
    (acc.1 ++ (collectOne procs c ([], [])).1, acc.2 ++ (collectOne procs c ([], [])).2)
  | .coll i cs ps => by
    rintro ⟨pu, us⟩
    simp only [collectOne]
    split <;> split <;> simp
  | .unit i own => by
    rintro ⟨pu, us⟩
    simp only [collectOne]
    split
    · simp
    · split <;> simp
theorem collectAll_acc (procs : List K) : ∀ (cs : List (Comp K)) (acc : Acc K), collectAll procs cs acc =
    (acc.1 ++ (collectAll procs cs ([], [])).1, acc.2 ++ (collectAll procs cs ([], [])).2)
  | [] => by simp [collectAll]
  | c :: cs => by
    intro acc
    simp only [collectAll]
    rw [collectAll_acc procs cs (collectOne procs c acc), collectAll_acc procs cs (collectOne procs c ([], [])),
      collectOne_acc procs c acc]
    simp
end

theorem nodup_left {a b : List K} (h : (a ++ b).Nodup) : a.Nodup := (List.nodup_append.1 h).1
theorem nodup_right {a b : List K} (h : (a ++ b).Nodup) : b.Nodup := (List.nodup_append.1 h).2.1

mutual
theorem collectOne_gathered (procs : List K) : ∀ c : Comp K, c.ids.Nodup →
    ∃ L, (∀ k ∈ L, k ∈ c.ids) ∧ Gathered (c.placed procs none) L (collectOne procs c ([], []))
  | .unit i own => by
    intro _
    by_cases h : i ∈ procs ∨ own = true
    · refine ⟨[i], by simp [Comp.ids], ?_⟩
      have : collectOne procs (.unit i own) ([], []) = ([[i]], []) := by
        simp only [collectOne]
        rcases h with h | h
        · simp [h]
        · split <;> simp [h]
      rw [this]
      simp only [Comp.placed, if_pos h]
      exact ⟨by simp, by simp [group], by simp [group], by simp [group], by simp⟩
    · refine ⟨[], by simp, ?_⟩
      have : collectOne procs (.unit i own) ([], []) = ([], [i]) := by
        simp only [not_or] at h
        simp [collectOne, h.1, h.2]
      rw [this]
      simp only [Comp.placed, if_neg h]
      exact ⟨by simp, by simp, by simp [group], by simp, by simp⟩
  | .coll i cs ps => by
    intro hn
    simp only [Comp.ids, List.nodup_cons] at hn
    obtain ⟨L, hL, g⟩ := collectAll_gathered ps cs hn.2
    simp only [Comp.placed, Comp.ids, collectOne]
    have hi : i ∉ L := fun h => hn.1 (hL i h)
    by_cases hp : i ∈ procs
    · have hsome : ∀ k, k ≠ i → group ((placedAll ps none cs).map (fun x => (x.1, x.2.or (some i)))) (some k) =
          group (placedAll ps none cs) (some k) := by
        intro k hk
        unfold group
        rw [List.filter_map, List.map_map]
        congr 1
        apply List.filter_congr
        rintro ⟨u, r⟩ _
        cases r <;> simp [Ne.symm hk]
      have hself : group ((placedAll ps none cs).map (fun x => (x.1, x.2.or (some i)))) (some i) =
          group (placedAll ps none cs) none := by
        unfold group
        rw [List.filter_map, List.map_map]
        congr 1
        apply List.filter_congr
        rintro ⟨u, r⟩ hm
        cases r with
        | none => simp
        | some k =>
          have : k ≠ i := fun e => hi (e ▸ g.all u k hm)
          simp [this]
      have hnone : group ((placedAll ps none cs).map (fun x => (x.1, x.2.or (some i)))) none = [] := by
        apply group_nil_of
        intro u hu
        obtain ⟨⟨u', r⟩, _, h2⟩ := List.mem_map.1 hu
        simp only [Prod.mk.injEq] at h2
        cases r <;> simp at h2
      simp only [hp, if_true]
      rw [placedAll_orElse]
      by_cases he : 0 < (collectAll ps cs ([], [])).2.length
      · rw [if_pos he]
        refine ⟨L ++ [i], ?_, ?_, ?_, ?_, ?_, ?_⟩
        · intro k hk
          rcases List.mem_append.1 hk with hk | hk
          · exact List.mem_cons_of_mem _ (hL k hk)
          · simp at hk; simp [hk]
        · rw [List.nodup_append]
          exact ⟨g.nodup, by simp, by intro a ha b hb e; simp at hb; subst hb; subst e; exact hi ha⟩
        · simp only [List.nil_append, g.groups, g.rest, List.map_append, List.map_cons, List.map_nil, hself]
          congr 1
          apply List.map_congr_left
          intro k hk
          rw [hsome k (fun e => hi (e ▸ hk))]
        · rw [hnone]
        · intro k hk
          rcases List.mem_append.1 hk with hk | hk
          · rw [hsome k (fun e => hi (e ▸ hk))]; exact g.nonempty k hk
          · simp at hk; subst hk
            rw [hself, ← g.rest]
            exact List.ne_nil_of_length_pos he
        · intro u k hk
          obtain ⟨⟨u', r⟩, h1, h2⟩ := List.mem_map.1 hk
          simp only [Prod.mk.injEq] at h2
          obtain ⟨rfl, h2⟩ := h2
          cases r with
          | none => simp at h2; simp [h2]
          | some k' => simp at h2; subst h2; exact List.mem_append_left _ (g.all u' _ h1)
      · rw [if_neg he]
        have hr : (collectAll ps cs ([], [])).2 = [] := by
          apply List.eq_nil_of_length_eq_zero; omega
        rw [g.rest] at hr
        refine ⟨L, fun k hk => List.mem_cons_of_mem _ (hL k hk), g.nodup, ?_, ?_, ?_, ?_⟩
        · simp only [List.nil_append, g.groups]
          apply List.map_congr_left
          intro k hk
          rw [hsome k (fun e => hi (e ▸ hk))]
        · rw [hnone]
        · intro k hk
          rw [hsome k (fun e => hi (e ▸ hk))]; exact g.nonempty k hk
        · intro u k hk
          obtain ⟨⟨u', r⟩, h1, h2⟩ := List.mem_map.1 hk
          simp only [Prod.mk.injEq] at h2
          obtain ⟨rfl, h2⟩ := h2
          cases r with
          | none =>
            have := mem_group.2 h1
            rw [hr] at this; cases this
          | some k' => simp at h2; subst h2; exact g.all u' _ h1
    · simp only [hp, if_false]
      refine ⟨L, fun k hk => List.mem_cons_of_mem _ (hL k hk), ?_⟩
      have : (if 0 < (collectAll ps cs ([], [])).2.length then
          ([] ++ (collectAll ps cs ([], [])).1, [] ++ (collectAll ps cs ([], [])).2)
          else ([] ++ (collectAll ps cs ([], [])).1, [])) = collectAll ps cs ([], []) := by
        split
        · simp
        · rename_i h
          have : (collectAll ps cs ([], [])).2 = [] := by
            apply List.eq_nil_of_length_eq_zero; omega
          apply Prod.ext <;> simp [this]
      rw [this]
      exact g
theorem collectAll_gathered (procs : List K) : ∀ cs : List (Comp K), (idsAll cs).Nodup →
    ∃ L, (∀ k ∈ L, k ∈ idsAll cs) ∧ Gathered (placedAll procs none cs) L (collectAll procs cs ([], []))
  | [] => by
    intro _
    exact ⟨[], by simp, by simp, by simp [collectAll], by simp [collectAll, placedAll, group], by simp,
      by simp [placedAll]⟩
  | c :: cs => by
    intro hn
    simp only [idsAll] at hn
    obtain ⟨L, hL, g⟩ := collectOne_gathered procs c (nodup_left hn)
    obtain ⟨M, hM, g'⟩ := collectAll_gathered procs cs (nodup_right hn)
    refine ⟨L ++ M, ?_, ?_⟩
    · intro k hk
      simp only [idsAll, List.mem_append] at hk ⊢
      exact hk.imp (hL k) (hM k)
    · simp only [placedAll, collectAll]
      rw [collectAll_acc]
      exact g.append g' (fun k hk hk' => (List.nodup_append.1 hn).2.2 k (hL k hk) k (hM k hk') rfl)
end

mutual
theorem units_sublist : ∀ c : Comp K, c.units.Sublist c.ids
  | .unit i _ => by simp [Comp.units, Comp.ids]
  | .coll i cs _ => by
    simp only [Comp.units, Comp.ids]
    exact (unitsAll_sublist cs).trans (List.sublist_cons_self _ _)
theorem unitsAll_sublist : ∀ cs : List (Comp K), (unitsAll cs).Sublist (idsAll cs)
  | [] => by simp [unitsAll, idsAll]
  | c :: cs => by
    simp only [unitsAll, idsAll]
    exact (units_sublist c).append (unitsAll_sublist cs)
end

theorem perm_groups (L : List (Option K)) (l : List (K × Option K)) (hn : L.Nodup)
    (hall : ∀ u r, (u, r) ∈ l → r ∈ L) : (L.map (group l)).flatten.Perm (l.map (·.1)) := by
  induction L generalizing l with
  | nil =>
    cases l with
    | nil => simp
    | cons x l => exact absurd (hall x.1 x.2 (by simp)) (by simp)
  | cons r L ih =>
    rw [List.nodup_cons] at hn
    have h := ih (l.filter (fun x => !decide (x.2 = r))) hn.2 (by
      intro u q hq
      simp only [List.mem_filter, Bool.not_eq_true', decide_eq_false_iff_not] at hq
      rcases List.mem_cons.1 (hall u q hq.1) with e | e
      · exact absurd e hq.2
      · exact e)
    have he : L.map (group (l.filter (fun x => !decide (x.2 = r)))) = L.map (group l) := by
      apply List.map_congr_left
      intro q hq
      unfold group
      rw [List.filter_filter]
      congr 1
      apply List.filter_congr
      rintro ⟨u, r'⟩ _
      by_cases h1 : r' = q
      · have : r' ≠ r := fun e => hn.1 (e ▸ h1 ▸ hq)
        simp [h1]
        exact fun e => this (h1.trans e)
      · simp [h1]
    rw [he] at h
    rw [List.map_cons, List.flatten_cons]
    refine (h.append_left _).trans ?_
    unfold group
    rw [← List.map_append]
    exact (List.filter_append_perm _ l).map _

/-- The process lists, exactly: one for each placing component and one for the units not placed. -/
theorem collectProcesses_eq (comps : List (Comp K)) (procs : List K) (hn : (idsAll comps).Nodup) :
    ∃ L : List (Option K), L.Nodup ∧ collectProcesses comps procs = L.map (group (placedAll procs none comps)) ∧
      (∀ r ∈ L, group (placedAll procs none comps) r ≠ []) ∧
      ∀ u r, (u, r) ∈ placedAll procs none comps → r ∈ L := by
  obtain ⟨L, _, g⟩ := collectAll_gathered procs comps hn
  have hnd : (L.map some).Nodup := by
    rw [List.Nodup, List.pairwise_map]
    exact List.Pairwise.imp (fun h e => h (Option.some.inj e)) g.nodup
  unfold collectProcesses
  by_cases he : 0 < (collectAll procs comps ([], [])).2.length
  · refine ⟨none :: L.map some, ?_, ?_, ?_, ?_⟩
    · rw [List.nodup_cons]; exact ⟨by simp, hnd⟩
    · rw [if_pos he, g.groups, g.rest, List.map_cons, List.map_map]
      rfl
    · intro r hr
      rcases List.mem_cons.1 hr with rfl | hr
      · rw [← g.rest]; exact List.ne_nil_of_length_pos he
      · obtain ⟨k, hk, rfl⟩ := List.mem_map.1 hr
        exact g.nonempty k hk
    · intro u r h
      cases r with
      | none => simp
      | some k => simp [g.all u k h]
  · have hr : group (placedAll procs none comps) none = [] := by
      rw [← g.rest]; apply List.eq_nil_of_length_eq_zero; omega
    refine ⟨L.map some, hnd, ?_, ?_, ?_⟩
    · simp only [if_neg he, g.groups, List.map_map]; rfl
    · intro r hr
      obtain ⟨k, hk, rfl⟩ := List.mem_map.1 hr
      exact g.nonempty k hk
    · intro u r h
      cases r with
      | none => have := mem_group.2 h; rw [hr] at this; cases this
      | some k => simp [g.all u k h]

/-- **C34.** For every tree of components without repetition and every choice of process components: every unit
is in exactly one process, no process is empty, the units of a process keep their order, and two units share a
process exactly when the same component placed them (or none placed either). -/
theorem C34_partition (comps : List (Comp K)) (procs : List K) (hn : (idsAll comps).Nodup) :
    (collectProcesses comps procs).flatten.Perm (unitsAll comps) ∧
    (∀ g ∈ collectProcesses comps procs, g ≠ [] ∧ g.Sublist (unitsAll comps)) ∧
    (∀ u r v q, (u, r) ∈ placedAll procs none comps → (v, q) ∈ placedAll procs none comps →
      ((∃ g ∈ collectProcesses comps procs, u ∈ g ∧ v ∈ g) ↔ r = q)) := by
  obtain ⟨L, hL, he, hne, hall⟩ := collectProcesses_eq comps procs hn
  have hu := placedAll_units procs none comps
  have hun : (unitsAll comps).Nodup := by
    exact (unitsAll_sublist comps).nodup hn
  rw [he]
  refine ⟨?_, ?_, ?_⟩
  · rw [← hu]; exact perm_groups L _ hL hall
  · intro g hg
    obtain ⟨r, hr, rfl⟩ := List.mem_map.1 hg
    refine ⟨hne r hr, ?_⟩
    rw [← hu]
    exact List.filter_sublist.map _
  · intro u r v q h1 h2
    constructor
    · rintro ⟨g, hg, h3, h4⟩
      obtain ⟨t, _, rfl⟩ := List.mem_map.1 hg
      have h3 := mem_group.1 h3
      have h4 := mem_group.1 h4
      have uniq : ∀ x a b, (x, a) ∈ placedAll procs none comps → (x, b) ∈ placedAll procs none comps → a = b := by
        rw [← hu] at hun
        intro x a b ha hb
        have := PyDict.get?_of_mem (d := placedAll procs none comps) hun ha
        rw [PyDict.get?_of_mem (d := placedAll procs none comps) hun hb] at this
        exact (Option.some.inj this).symm
      rw [uniq u r t h1 h3, uniq v q t h2 h4]
    · rintro rfl
      exact ⟨_, List.mem_map.2 ⟨r, hall u r h1, rfl⟩, mem_group.2 h1, mem_group.2 h2⟩

/-- **C34 (one process).** With `force_single_process` there is exactly one process, and it contains every unit
once; without it `setup` returns nothing only if there is no unit. -/
theorem C34_force_single_process (comps : List (Comp K)) (procs : List K) (hn : (idsAll comps).Nodup) :
    (∃ g, setupProcesses comps procs true = some [g] ∧ g.Perm (unitsAll comps)) ∧
    (setupProcesses comps procs false = none ↔ unitsAll comps = []) ∧
    (∀ ps, setupProcesses comps procs false = some ps → ps = collectProcesses comps procs) := by
  obtain ⟨h1, h2, _⟩ := C34_partition comps procs hn
  refine ⟨⟨_, rfl, h1⟩, ?_, ?_⟩
  · simp only [setupProcesses, Bool.false_eq_true, if_false]
    constructor
    · intro h
      split at h
      · rename_i he
        rw [List.isEmpty_iff] at he
        rw [he] at h1
        exact (List.nil_perm.1 h1)
      · cases h
    · intro h
      rw [h] at h1
      have : collectProcesses comps procs = [] := by
        cases hc : collectProcesses comps procs with
        | nil => rfl
        | cons g gs =>
          rw [hc] at h1 h2
          have := List.perm_nil.1 h1
          rw [List.flatten_cons, List.append_eq_nil_iff] at this
          exact absurd this.1 (h2 g (by simp)).1
      simp [this]
  · intro ps h
    simp only [setupProcesses, Bool.false_eq_true, if_false] at h
    split at h
    · cases h
    · cases h; rfl

/-- Collection 1 holds unit 2, unit 3 (a process of its own) and collection 4 with units 5, 6; collection 1 names
collection 4. At the top, unit 7 and collection 1 are not named. -/
example : collectProcesses [.unit 7 false, .coll 1 [.unit 2 false, .unit 3 true, .coll 4 [.unit 5 false,
      .unit 6 false] []] [4]] [] = [[7, 2], [3], [5, 6]] ∧
    placedAll [] none [.unit 7 false, .coll 1 [.unit 2 false, .unit 3 true, .coll 4 [.unit 5 false,
      .unit 6 false] []] [4]] = [(7, none), (2, none), (3, some 3), (5, some 4), (6, some 4)] := by decide

/-! ## C35 -/
variable {T : Type} [DecidableEq T]

/-- Specification: a topic of some relay unit. -/
def RelayTopic (bs : PyDict T (Binding T)) (t : T) : Prop := ∃ e b, (e, b) ∈ bs ∧ (t = b.relayIn ∨ t = b.relayOut)

/-- Specification: the relay units have their own topics: all different, and different from all endpoints and all
topics of the declared network. -/
structure Fresh (bs : PyDict T (Binding T)) (conns : List (T × T)) : Prop where
  keys : (PyDict.keys bs).Nodup
  distinct : ∀ e b e' b', (e, b) ∈ bs → (e', b') ∈ bs →
    b.relayIn ≠ b'.relayOut ∧ (b.relayIn = b'.relayIn → e = e') ∧ (b.relayOut = b'.relayOut → e = e')
  endpoints : ∀ e b, (e, b) ∈ bs → ¬ RelayTopic bs e
  network : ∀ c ∈ conns, ¬ RelayTopic bs c.1 ∧ ¬ RelayTopic bs c.2

/-- Specification: a message goes from `a` to `b` in the declared network. -/
def Declared (conns : List (T × T)) (a b : T) : Prop := (a, b) ∈ conns

/-- Specification: a message goes from `a` to `b` in the running system: by a connection, or because a relay unit
publishes what it receives. -/
def Running (bs : PyDict T (Binding T)) (conns : List (T × T)) (a b : T) : Prop :=
  (a, b) ∈ rewrite bs conns ∨ ∃ e r, (e, r) ∈ bs ∧ a = r.relayIn ∧ b = r.relayOut

section
variable {bs : PyDict T (Binding T)} {conns : List (T × T)}

/-- The declared topic a topic stands for, with its place on the way through the relay. -/
inductive Stands (bs : PyDict T (Binding T)) : T → T → Nat → Prop where
  | relayIn {e r} (h : (e, r) ∈ bs) (k) (hk : k = if r.isInput then 1 else 0) : Stands bs r.relayIn e k
  | relayOut {e r} (h : (e, r) ∈ bs) (k) (hk : k = if r.isInput then 2 else 1) : Stands bs r.relayOut e k
  | endpoint {e r} (h : (e, r) ∈ bs) (k) (hk : k = if r.isInput then 0 else 2) : Stands bs e e k
  | other {t} (h : ¬ RelayTopic bs t) (h' : t ∉ PyDict.keys bs) : Stands bs t t 0

theorem Fresh.same (hf : Fresh bs conns) {e : T} {r r' : Binding T} (h : (e, r) ∈ bs) (h' : (e, r') ∈ bs) :
    r = r' := by
  have := PyDict.get?_of_mem hf.keys h
  rw [PyDict.get?_of_mem hf.keys h'] at this
  exact (Option.some.inj this).symm

theorem stands_unique (hf : Fresh bs conns) {t a b : T} {i j : Nat} (h : Stands bs t a i) (h' : Stands bs t b j) :
    a = b ∧ i = j := by
  have hk : ∀ {e r}, (e, r) ∈ bs → e ∈ PyDict.keys bs := fun h => List.mem_map.2 ⟨_, h, rfl⟩
  generalize ht : t = s at h'
  cases h with
  | relayIn h1 k e1 =>
    cases h' with
    | relayIn h2 k' e2 =>
      obtain rfl := (hf.distinct _ _ _ _ h1 h2).2.1 ht
      obtain rfl := hf.same h1 h2
      exact ⟨rfl, e1.trans e2.symm⟩
    | relayOut h2 k' e2 => exact absurd ht (hf.distinct _ _ _ _ h1 h2).1
    | endpoint h2 k' e2 => exact absurd ⟨_, _, h1, Or.inl ht.symm⟩ (hf.endpoints _ _ h2)
    | other h2 => exact absurd ⟨_, _, h1, Or.inl ht.symm⟩ h2
  | relayOut h1 k e1 =>
    cases h' with
    | relayIn h2 k' e2 => exact absurd ht.symm (hf.distinct _ _ _ _ h2 h1).1
    | relayOut h2 k' e2 =>
      obtain rfl := (hf.distinct _ _ _ _ h1 h2).2.2 ht
      obtain rfl := hf.same h1 h2
      exact ⟨rfl, e1.trans e2.symm⟩
    | endpoint h2 k' e2 => exact absurd ⟨_, _, h1, Or.inr ht.symm⟩ (hf.endpoints _ _ h2)
    | other h2 => exact absurd ⟨_, _, h1, Or.inr ht.symm⟩ h2
  | endpoint h1 k e1 =>
    cases h' with
    | relayIn h2 k' e2 => exact absurd ⟨_, _, h2, Or.inl ht⟩ (hf.endpoints _ _ h1)
    | relayOut h2 k' e2 => exact absurd ⟨_, _, h2, Or.inr ht⟩ (hf.endpoints _ _ h1)
    | endpoint h2 k' e2 =>
      subst ht
      obtain rfl := hf.same h1 h2
      exact ⟨rfl, e1.trans e2.symm⟩
    | other h2 h3 => subst ht; exact absurd (hk h1) h3
  | other h1 h3 =>
    cases h' with
    | relayIn h2 k' e2 => exact absurd ⟨_, _, h2, Or.inl ht⟩ h1
    | relayOut h2 k' e2 => exact absurd ⟨_, _, h2, Or.inr ht⟩ h1
    | endpoint h2 k' e2 => subst ht; exact absurd (hk h2) h3
    | other h2 => exact ⟨ht, rfl⟩

theorem stands_self {t : T} (ht : ¬ RelayTopic bs t) : ∃ k, Stands bs t t k := by
  by_cases h : t ∈ PyDict.keys bs
  · obtain ⟨⟨e, r⟩, h1, rfl⟩ := List.mem_map.1 h
    exact ⟨_, .endpoint h1 _ rfl⟩
  · exact ⟨0, .other ht h⟩

/-- The two ends of a rewritten connection stand for the ends of the declared one, the first at the end of its
relay, the second at the start. -/
theorem rewriteOne_stands (hf : Fresh bs conns) {c : T × T} (hc : c ∈ conns) :
    (∃ i, Stands bs (rewriteOne bs c).1 c.1 i) ∧ ∃ j, Stands bs (rewriteOne bs c).2 c.2 j := by
  obtain ⟨n1, n2⟩ := hf.network c hc
  constructor
  · simp only [rewriteOne]
    cases hb : bs.get? c.1 with
    | none => exact stands_self n1
    | some r =>
      simp only
      split
      · exact ⟨_, .relayOut (PyDict.mem_of_get? hb) _ rfl⟩
      · exact stands_self n1
  · simp only [rewriteOne]
    cases hb : bs.get? c.2 with
    | none => exact stands_self n2
    | some r =>
      simp only
      split
      · exact stands_self n2
      · exact ⟨_, .relayIn (PyDict.mem_of_get? hb) _ rfl⟩

theorem running_step (hf : Fresh bs conns) {x y : T} (h : Running bs conns x y) :
    ∃ a b i j, Stands bs x a i ∧ Stands bs y b j ∧ (Declared conns a b ∨ (a = b ∧ i < j)) := by
  rcases h with h | ⟨e, r, h1, rfl, rfl⟩
  · unfold rewrite at h
    split at h
    · rename_i he
      rw [List.isEmpty_iff] at he
      have hn : ∀ t, ¬ RelayTopic bs t := by rintro t ⟨e, b, hb, _⟩; rw [he] at hb; cases hb
      have hk : ∀ t, t ∉ PyDict.keys bs := by intro t; rw [he]; simp [PyDict.keys]
      exact ⟨x, y, 0, 0, .other (hn x) (hk x), .other (hn y) (hk y), Or.inl h⟩
    · rcases List.mem_append.1 h with h | h
      · obtain ⟨c, hc, he⟩ := List.mem_map.1 h
        obtain ⟨⟨i, h1⟩, j, h2⟩ := rewriteOne_stands hf hc
        rw [he] at h1 h2
        exact ⟨c.1, c.2, i, j, h1, h2, Or.inl hc⟩
      · obtain ⟨⟨e, r⟩, hb, he⟩ := List.mem_map.1 h
        simp only [boundary] at he
        split at he
        · rename_i hi
          cases he
          exact ⟨_, _, _, _, .endpoint hb _ rfl, .relayIn hb _ rfl, Or.inr ⟨rfl, by simp [hi]⟩⟩
        · rename_i hi
          cases he
          exact ⟨_, _, _, _, .relayOut hb _ rfl, .endpoint hb _ rfl, Or.inr ⟨rfl, by simp [hi]⟩⟩
  · refine ⟨e, e, _, _, .relayIn h1 _ rfl, .relayOut h1 _ rfl, Or.inr ⟨rfl, ?_⟩⟩
    split <;> omega

theorem running_path (hf : Fresh bs conns) {x y : T} (p : Path (Running bs conns) x y) :
    ∃ a b i j, Stands bs x a i ∧ Stands bs y b j ∧ (Path (Declared conns) a b ∨ (a = b ∧ i < j)) := by
  induction p with
  | single h =>
    obtain ⟨a, b, i, j, h1, h2, h3⟩ := running_step hf h
    exact ⟨a, b, i, j, h1, h2, h3.imp .single id⟩
  | cons h _ ih =>
    obtain ⟨a, b, i, j, h1, h2, h3⟩ := running_step hf h
    obtain ⟨b', c, j', k, h4, h5, h6⟩ := ih
    obtain ⟨rfl, rfl⟩ := stands_unique hf h2 h4
    refine ⟨a, c, i, k, h1, h5, ?_⟩
    rcases h3 with h3 | ⟨rfl, h3⟩
    · rcases h6 with h6 | ⟨rfl, h6⟩
      · exact Or.inl (.cons h3 h6)
      · exact Or.inl (.single h3)
    · rcases h6 with h6 | ⟨rfl, h6⟩
      · exact Or.inl h6
      · exact Or.inr ⟨rfl, Nat.lt_trans h3 h6⟩

theorem declared_step {a b : T} (h : Declared conns a b) :
    Path (Running bs conns) a b := by
  by_cases he : bs.isEmpty = true
  · exact .single (Or.inl (by unfold rewrite; rw [if_pos he]; exact h))
  · have hm : rewriteOne bs (a, b) ∈ rewrite bs conns := by
      unfold rewrite; rw [if_neg he]; exact List.mem_append_left _ (List.mem_map.2 ⟨_, h, rfl⟩)
    have hb : ∀ x ∈ bs, boundary x ∈ rewrite bs conns := by
      intro x hx
      unfold rewrite; rw [if_neg he]; exact List.mem_append_right _ (List.mem_map.2 ⟨_, hx, rfl⟩)
    have h1 : Reaches (Running bs conns) a (rewriteOne bs (a, b)).1 := by
      simp only [rewriteOne]
      cases hg : bs.get? a with
      | none => exact Or.inl rfl
      | some r =>
        simp only
        split
        · rename_i hi
          have hr := PyDict.mem_of_get? hg
          refine Or.inr (.cons (Or.inl ?_) (.single (Or.inr ⟨a, r, hr, rfl, rfl⟩)))
          have := hb _ hr
          simpa [boundary, hi] using this
        · exact Or.inl rfl
    have h2 : Reaches (Running bs conns) (rewriteOne bs (a, b)).2 b := by
      simp only [rewriteOne]
      cases hg : bs.get? b with
      | none => exact Or.inl rfl
      | some r =>
        simp only
        split
        · exact Or.inl rfl
        · rename_i hi
          have hr := PyDict.mem_of_get? hg
          refine Or.inr (.cons (Or.inr ⟨b, r, hr, rfl, rfl⟩) (.single (Or.inl ?_)))
          have := hb _ hr
          simpa [boundary, hi] using this
    have h3 : Path (Running bs conns) (rewriteOne bs (a, b)).1 (rewriteOne bs (a, b)).2 := .single (Or.inl hm)
    rcases h1 with h1 | h1
    · rcases h2 with h2 | h2
      · rw [← h1, h2] at h3; exact h3
      · rw [← h1] at h3; exact h3.trans h2
    · rcases h2 with h2 | h2
      · rw [h2] at h3; exact h1.trans h3
      · exact h1.trans (h3.trans h2)

/-- **C35.** Between any two topics that are not topics of relay units there is a way for messages in the running
system, through the rewritten connections and the relays, exactly when there is one in the declared network. -/
theorem C35_relays_transparent (hf : Fresh bs conns) {a b : T} (ha : ¬ RelayTopic bs a) (hb : ¬ RelayTopic bs b) :
    (Path (Running bs conns) a b ↔ Path (Declared conns) a b) ∧
    (Reaches (Running bs conns) a b ↔ Reaches (Declared conns) a b) := by
  have key : Path (Running bs conns) a b ↔ Path (Declared conns) a b := by
    constructor
    · intro p
      obtain ⟨a', b', i, j, h1, h2, h3⟩ := running_path hf p
      obtain ⟨k, hk⟩ := stands_self ha
      obtain ⟨l, hl⟩ := stands_self hb
      obtain ⟨rfl, rfl⟩ := stands_unique hf h1 hk
      obtain ⟨rfl, rfl⟩ := stands_unique hf h2 hl
      rcases h3 with h3 | ⟨rfl, h3⟩
      · exact h3
      · rw [(stands_unique hf h1 h2).2] at h3
        exact absurd h3 (Nat.lt_irrefl _)
    · intro p
      induction p with
      | single h => exact declared_step h
      | @cons a c b h p ih =>
        have hc : ¬ RelayTopic bs c := (hf.network _ h).2
        obtain ⟨k, hk⟩ := stands_self hc
        exact (declared_step h).trans (ih hc hb)
  exact ⟨key, by unfold Reaches; rw [key]⟩

/-- **C35 (nothing passes beside a relay).** What arrives at an input endpoint goes to its relay and nowhere else, and what
arrives at an output endpoint comes from its relay and from nowhere else. -/
theorem C35_through (hf : Fresh bs conns) {e : T} {r : Binding T} (h : (e, r) ∈ bs) :
    (r.isInput = true → ∀ b, Running bs conns e b ↔ b = r.relayIn) ∧
    (r.isInput = false → ∀ a, Running bs conns a e ↔ a = r.relayOut) := by
  have hg := PyDict.get?_of_mem hf.keys h
  have hne : bs.isEmpty = false := by cases bs with | nil => cases h | cons => rfl
  have he := hf.endpoints e r h
  have hmem : ∀ {t b}, PyDict.get? bs t = some b → (t, b) ∈ bs := fun h => (PyDict.mem_iff_get? hf.keys).2 h
  constructor
  · intro hi b
    constructor
    · rintro (hr | ⟨e', r', h', rfl, _⟩)
      · simp only [rewrite, hne, Bool.false_eq_true, if_false, List.mem_append, List.mem_map] at hr
        rcases hr with ⟨c, hc, hr⟩ | ⟨⟨e', r'⟩, h', hr⟩
        · have h1 : (rewriteOne bs c).1 = e := by rw [hr]
          simp only [rewriteOne] at h1
          split at h1
          · rename_i b' hb'
            split at h1
            · exact absurd ⟨_, _, hmem hb', .inr h1.symm⟩ he
            · rename_i hnot
              rw [h1, hg] at hb'; cases hb'; exact absurd hi hnot
          · rename_i hn
            rw [h1, hg] at hn; cases hn
        · simp only [boundary] at hr
          split at hr
          · simp only [Prod.mk.injEq] at hr
            obtain ⟨rfl, rfl⟩ := hr
            rw [hf.same h h']
          · simp only [Prod.mk.injEq] at hr
            exact absurd ⟨_, _, h', .inr hr.1.symm⟩ he
      · exact absurd ⟨_, _, h', .inl rfl⟩ he
    · rintro rfl
      refine .inl ?_
      simp only [rewrite, hne, Bool.false_eq_true, if_false, List.mem_append, List.mem_map]
      exact .inr ⟨_, h, by simp [boundary, hi]⟩
  · intro hi a
    constructor
    · rintro (hr | ⟨e', r', h', _, rfl⟩)
      · simp only [rewrite, hne, Bool.false_eq_true, if_false, List.mem_append, List.mem_map] at hr
        rcases hr with ⟨c, hc, hr⟩ | ⟨⟨e', r'⟩, h', hr⟩
        · have h1 : (rewriteOne bs c).2 = e := by rw [hr]
          simp only [rewriteOne] at h1
          split at h1
          · rename_i b' hb'
            split at h1
            · rename_i hyes
              rw [h1, hg] at hb'; cases hb'; rw [hi] at hyes; cases hyes
            · exact absurd ⟨_, _, hmem hb', .inl h1.symm⟩ he
          · rename_i hn
            rw [h1, hg] at hn; cases hn
        · simp only [boundary] at hr
          split at hr
          · simp only [Prod.mk.injEq] at hr
            exact absurd ⟨_, _, h', .inl hr.2.symm⟩ he
          · simp only [Prod.mk.injEq] at hr
            obtain ⟨rfl, rfl⟩ := hr
            rw [hf.same h h']
      · exact absurd ⟨_, _, h', .inr rfl⟩ he
    · rintro rfl
      refine .inl ?_
      simp only [rewrite, hne, Bool.false_eq_true, if_false, List.mem_append, List.mem_map]
      exact .inr ⟨_, h, by simp [boundary, hi]⟩

end

/-- A network with an input relay `E` and an output relay `F`. -/
def demoBindings : PyDict String (Binding String) :=
  [("E", ⟨true, "E.in", "E.out"⟩), ("F", ⟨false, "F.in", "F.out"⟩)]

/-- Its rewritten connections: `X → E → E.in`, `E.out → Y`, `Y → F.in`, `F.out → F → Z`. -/
example : rewrite demoBindings [("X", "E"), ("E", "Y"), ("Y", "F"), ("F", "Z")] =
    [("X", "E"), ("E.out", "Y"), ("Y", "F.in"), ("F", "Z"), ("E", "E.in"), ("F.out", "F")] := by decide

/-- The hypotheses of C35 hold for it. -/
example : Fresh demoBindings [("X", "E"), ("E", "Y"), ("Y", "F"), ("F", "Z")] := by
  refine ⟨by decide, ?_, ?_, ?_⟩
  · intro e b e' b' h h'
    simp only [demoBindings, List.mem_cons, Prod.mk.injEq, List.not_mem_nil, or_false] at h h'
    rcases h with ⟨rfl, rfl⟩ | ⟨rfl, rfl⟩ <;> rcases h' with ⟨rfl, rfl⟩ | ⟨rfl, rfl⟩ <;> decide
  · rintro e b h ⟨e', b', h', hr⟩
    simp only [demoBindings, List.mem_cons, Prod.mk.injEq, List.not_mem_nil, or_false] at h h'
    rcases h with ⟨rfl, rfl⟩ | ⟨rfl, rfl⟩ <;> rcases h' with ⟨rfl, rfl⟩ | ⟨rfl, rfl⟩ <;> revert hr <;> decide
  · intro c hc
    constructor <;> rintro ⟨e', b', h', hr⟩ <;>
    · simp only [demoBindings, List.mem_cons, Prod.mk.injEq, List.not_mem_nil, or_false] at hc h'
      rcases hc with rfl | rfl | rfl | rfl <;> rcases h' with ⟨rfl, rfl⟩ | ⟨rfl, rfl⟩ <;> revert hr <;> decide

/-- **C35, a second copy.** Relays keep who hears whom, but not how often: if `Y` is connected to `X` both through
the relay `E` and directly, then it is connected to the publisher `X` and to the publisher `E.out`, which repeats
the messages of `X`; in the declared network it hears the one publisher `X` once. -/
theorem C35_second_copy :
    (∀ a b, (a, b) ∈ rewrite demoBindings [("X", "E"), ("E", "Y"), ("X", "Y")] → a ≠ "E.in") ∧
    Path (fun a b => (a, b) ∈ rewrite demoBindings [("X", "E"), ("E", "Y"), ("X", "Y")]) "X" "Y" ∧
    Path (fun a b => (a, b) ∈ rewrite demoBindings [("X", "E"), ("E", "Y"), ("X", "Y")]) "X" "E.in" ∧
    Path (fun a b => (a, b) ∈ rewrite demoBindings [("X", "E"), ("E", "Y"), ("X", "Y")]) "E.out" "Y" := by
  have h : rewrite demoBindings [("X", "E"), ("E", "Y"), ("X", "Y")] =
    [("X", "E"), ("E.out", "Y"), ("X", "Y"), ("E", "E.in"), ("F.out", "F")] := by decide
  rw [h]
  refine ⟨?_, .single (by decide), .cons (b := "E") (by decide) (.single (by decide)), .single (by decide)⟩
  intro a b hm
  simp only [List.mem_cons, Prod.mk.injEq, List.not_mem_nil, or_false] at hm
  rcases hm with ⟨rfl, _⟩ | ⟨rfl, _⟩ | ⟨rfl, _⟩ | ⟨rfl, _⟩ | ⟨rfl, _⟩ <;> decide

end Backend
end Ez
