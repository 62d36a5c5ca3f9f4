import Verif.Model.Configure

/-!
# C106: the settings of a component are those its collections give it

Specification: `settingsOf`, by recursion over the collections above a component, nearest first: the nearest one that applies settings to the
component decides, and what it applies depends on its own settings, found in the same way.
-/

set_option linter.unusedSimpArgs false
set_option linter.unusedSectionVars false

namespace Ez
namespace Configure

variable {K S N P : Type} [DecidableEq K]

/-- `Path c above d`: `d` is in the tree of `c`; `above` are the components on the way, `c` first, without `d`. -/
inductive Path : Comp K S N P → List (Comp K S N P) → Comp K S N P → Prop where
  | here (c) : Path c [] c
  | down {c d e l} : d ∈ c.children → Path d l e → Path c (c :: l) e

/-- The last settings that a list of applications gives to `k`. -/
def lastFor (k : K) : List (K × S) → Option S
  | [] => none
  | (j, s) :: xs =>
    match lastFor k xs with
    | some t => some t
    | none => if k = j then some s else none

/-- The settings of `k`, from those at first (`σ`) and the collections above, nearest first. -/
def settingsOf (σ : K → S) : List (Comp K S N P) → K → S
  | [], k => σ k
  | a :: above, k =>
    match lastFor k (a.configure (settingsOf σ above a.id)) with
    | some s => s
    | none => settingsOf σ above k

/-- `c` is in one of the trees. -/
def Below (roots : List (Comp K S N P)) (above : List (Comp K S N P)) (c : Comp K S N P) : Prop :=
  ∃ r ∈ roots, Path r above c

mutual
/-- The components of a tree (in some order). -/
def nodes : Comp K S N P → List (Comp K S N P)
  | .mk i b f g h cs => .mk i b f g h cs :: inner cs
/-- The components of a list of trees. -/
def inner : List (Comp K S N P) → List (Comp K S N P)
  | [] => []
  | c :: cs => inner cs ++ nodes c
end

/-- What is assumed of the components: no two have the same identity, only collections have components, and `configure` applies
settings to components inside the collection only. -/
structure WF (roots : List (Comp K S N P)) : Prop where
  nodup : ((inner roots).map (·.id)).Nodup
  units : ∀ c ∈ inner roots, c.coll = false → c.children = []
  inside : ∀ c ∈ inner roots, ∀ s, ∀ x ∈ c.configure s, x.1 ∈ (inner c.children).map (·.id)

theorem nodes_eq (c : Comp K S N P) : nodes c = c :: inner c.children := by
  cases c with
  | mk i b f g h cs => simp only [nodes, Comp.children]

theorem inner_append (a b : List (Comp K S N P)) : inner (a ++ b) = inner b ++ inner a := by
  induction a with
  | nil => simp [inner]
  | cons x a ih => simp only [List.cons_append, inner, ih, List.append_assoc]

/-- The search visits the trees from the top down, the last one of several first. -/
theorem crawl_eq (l : List (Comp K S N P)) : crawl l = inner l.reverse := by
  induction l using crawl.induct with
  | case1 => simp [crawl, inner]
  | case2 c search ih =>
    rw [crawl, ih]
    simp only [List.reverse_append, List.reverse_reverse, List.reverse_cons, inner_append, inner, List.nil_append, nodes_eq c,
      List.cons_append]

theorem mem_inner {l : List (Comp K S N P)} {d : Comp K S N P} : d ∈ inner l ↔ ∃ c ∈ l, d ∈ nodes c := by
  induction l with
  | nil => simp [inner]
  | cons x l ih =>
    simp only [inner, List.mem_append, ih, List.mem_cons]
    constructor
    · rintro (⟨c, hc, hd⟩ | hd)
      · exact ⟨c, Or.inr hc, hd⟩
      · exact ⟨x, Or.inl rfl, hd⟩
    · rintro ⟨c, rfl | hc, hd⟩
      · exact Or.inr hd
      · exact Or.inl ⟨c, hc, hd⟩

theorem Path.mem {c d : Comp K S N P} {l : List (Comp K S N P)} (h : Path c l d) : d ∈ nodes c := by
  induction h with
  | here c => rw [nodes_eq]; simp
  | down hd _ ih =>
    rw [nodes_eq]
    exact List.mem_cons_of_mem _ (mem_inner.2 ⟨_, hd, ih⟩)

mutual
theorem path_of_mem : (c : Comp K S N P) → {d : Comp K S N P} → d ∈ nodes c → ∃ l, Path c l d
  | .mk i b f g h cs, d, hd => by
    rw [nodes] at hd
    rcases List.mem_cons.1 hd with rfl | hd
    · exact ⟨[], .here _⟩
    · obtain ⟨c, hc, l, hl⟩ := path_of_mem' cs hd
      exact ⟨_, .down (by simpa [Comp.children] using hc) hl⟩
theorem path_of_mem' : (cs : List (Comp K S N P)) → {d : Comp K S N P} → d ∈ inner cs → ∃ c ∈ cs, ∃ l, Path c l d
  | [], d, hd => by simp [inner] at hd
  | c :: cs, d, hd => by
    rw [inner] at hd
    rcases List.mem_append.1 hd with hd | hd
    · obtain ⟨e, he, l, hl⟩ := path_of_mem' cs hd
      exact ⟨e, List.mem_cons_of_mem _ he, l, hl⟩
    · obtain ⟨l, hl⟩ := path_of_mem c hd
      exact ⟨c, List.mem_cons_self .., l, hl⟩
end

/-! ## Applying settings -/

theorem foldl_apply (xs : List (K × S)) (σ : K → S) (k : K) :
    xs.foldl apply σ k = match lastFor k xs with | some s => s | none => σ k := by
  induction xs generalizing σ with
  | nil => rfl
  | cons x xs ih =>
    rw [List.foldl_cons, ih]
    simp only [lastFor]
    cases lastFor k xs with
    | some t => rfl
    | none =>
      simp only [apply]
      by_cases h : k = x.1 <;> simp [h]

theorem lastFor_none {k : K} {xs : List (K × S)} (h : k ∉ xs.map (·.1)) : lastFor k xs = none := by
  induction xs with
  | nil => rfl
  | cons x xs ih =>
    simp only [List.map_cons, List.mem_cons, not_or] at h
    simp only [lastFor, ih h.2, h.1, if_false]

/-- `configure` of `c` leaves everything alone that is not in `inner c.children`. -/
theorem one_frame {c : Comp K S N P} (hc : ∀ s, ∀ x ∈ c.configure s, x.1 ∈ (inner c.children).map (·.id)) (σ : K → S) {k : K}
    (hk : k ∉ (inner c.children).map (·.id)) : configureOne σ c k = σ k := by
  simp only [configureOne]
  split
  · rw [foldl_apply, lastFor_none]
    intro hm
    obtain ⟨x, hx, e⟩ := List.mem_map.1 hm
    exact hk (e ▸ hc _ x hx)
  · rfl

/-- A list of components leaves everything alone that is not inside one of them. -/
theorem fold_frame {l : List (Comp K S N P)} (hc : ∀ c ∈ l, ∀ s, ∀ x ∈ c.configure s, x.1 ∈ (inner c.children).map (·.id)) (σ : K → S)
    {k : K} (hk : ∀ c ∈ l, k ∉ (inner c.children).map (·.id)) : l.foldl configureOne σ k = σ k := by
  induction l generalizing σ with
  | nil => rfl
  | cons c l ih =>
    rw [List.foldl_cons, ih (fun d hd => hc d (List.mem_cons_of_mem _ hd)) _ fun d hd => hk d (List.mem_cons_of_mem _ hd)]
    exact one_frame (hc c (List.mem_cons_self ..)) σ (hk c (List.mem_cons_self ..))

/-- Only the settings of the components themselves matter. -/
theorem fold_agree {l : List (Comp K S N P)} {A : K → Prop} (hl : ∀ c ∈ l, A c.id) {σ τ : K → S} (h : ∀ k, A k → σ k = τ k) :
    ∀ k, A k → l.foldl configureOne σ k = l.foldl configureOne τ k := by
  induction l generalizing σ τ with
  | nil => exact h
  | cons c l ih =>
    refine ih (fun d hd => hl d (List.mem_cons_of_mem _ hd)) fun k hk => ?_
    simp only [configureOne]
    split
    · rw [foldl_apply, foldl_apply, h _ (hl c (List.mem_cons_self ..)), h k hk]
    · exact h k hk

/-- Every component inside one of `cs` is one of `inner cs`. -/
theorem inner_children {cs : List (Comp K S N P)} {c d : Comp K S N P} (hc : c ∈ inner cs) (hd : d ∈ inner c.children) : d ∈ inner cs := by
  obtain ⟨r, hr, l, hl⟩ := path_of_mem' cs hc
  refine mem_inner.2 ⟨r, hr, ?_⟩
  clear hr hc
  induction hl with
  | here c => rw [nodes_eq]; exact List.mem_cons_of_mem _ hd
  | down he _ ih =>
    rw [nodes_eq]
    exact List.mem_cons_of_mem _ (mem_inner.2 ⟨_, he, ih hd⟩)

theorem ids_children {cs : List (Comp K S N P)} {c : Comp K S N P} (hc : c ∈ inner cs) {k : K} (hk : k ∈ (inner c.children).map (·.id)) :
    k ∈ (inner cs).map (·.id) := by
  obtain ⟨d, hd, rfl⟩ := List.mem_map.1 hk
  exact List.mem_map.2 ⟨d, inner_children hc hd, rfl⟩

theorem ids_children' {r c : Comp K S N P} (hc : c ∈ nodes r) {k : K} (hk : k ∈ (inner c.children).map (·.id)) :
    k ∈ (nodes r).map (·.id) := by
  have : inner [r] = nodes r := by simp [inner]
  rw [← this] at hc ⊢
  exact ids_children hc hk

theorem Path.above_mem {r c : Comp K S N P} {above : List (Comp K S N P)} (h : Path r above c) : ∀ d ∈ above, d ∈ nodes r := by
  induction h with
  | here c => simp
  | @down c d e l hd hp ih =>
    intro x hx
    rw [nodes_eq]
    rcases List.mem_cons.1 hx with rfl | hx
    · exact List.mem_cons_self ..
    · exact List.mem_cons_of_mem _ (mem_inner.2 ⟨d, hd, ih x hx⟩)

/-- What the components of a tree do, along the path to one of them. -/
theorem fold_path {r c : Comp K S N P} {above : List (Comp K S N P)} (h : Path r above c) (hn : ((nodes r).map (·.id)).Nodup)
    (hi : ∀ c ∈ nodes r, ∀ s, ∀ x ∈ c.configure s, x.1 ∈ (inner c.children).map (·.id)) (σ : K → S) :
    (nodes r).foldl configureOne σ c.id = above.foldl configureOne σ c.id := by
  induction h generalizing σ with
  | here c =>
    refine fold_frame hi σ fun d hd hk => ?_
    rw [nodes_eq, List.map_cons, List.nodup_cons] at hn
    rw [nodes_eq] at hd
    rcases List.mem_cons.1 hd with rfl | hd
    · exact hn.1 hk
    · exact hn.1 (ids_children hd hk)
  | @down c d e l hd hp ih =>
    obtain ⟨A, B, hAB⟩ := List.append_of_mem hd
    have e0 : nodes c = c :: ((inner B ++ nodes d) ++ inner A) := by
      rw [nodes_eq, hAB, inner_append]
      simp only [inner]
    rw [e0] at hn hi
    simp only [List.map_cons, List.map_append, List.nodup_cons, List.nodup_append] at hn
    obtain ⟨_, ⟨_, hnd, hBd⟩, _, hA⟩ := hn
    have hi' : ∀ x, x ∈ inner B ∨ x ∈ nodes d ∨ x ∈ inner A → ∀ s, ∀ y ∈ x.configure s, y.1 ∈ (inner x.children).map (·.id) := by
      intro x hx
      refine hi x (List.mem_cons_of_mem _ ?_)
      simp only [List.mem_append]
      rcases hx with hx | hx | hx
      · exact Or.inl (Or.inl hx)
      · exact Or.inl (Or.inr hx)
      · exact Or.inr hx
    have hem : e.id ∈ (nodes d).map (·.id) := List.mem_map.2 ⟨e, hp.mem, rfl⟩
    rw [e0, List.foldl_cons, List.foldl_append, List.foldl_append]
    rw [fold_frame (fun x hx => hi' x (Or.inr (Or.inr hx))) _ fun x hx hk =>
      hA e.id (List.mem_append_right _ hem) e.id (ids_children hx hk) rfl]
    rw [ih hnd (fun x hx => hi' x (Or.inr (Or.inl hx)))]
    rw [List.foldl_cons]
    refine fold_agree (A := fun k => k ∈ (nodes d).map (·.id)) (fun x hx => List.mem_map.2 ⟨x, hp.above_mem x hx, rfl⟩) ?_ _ hem
    intro k hk
    exact fold_frame (fun x hx => hi' x (Or.inl hx)) _ fun x hx hk' => hBd k (ids_children hx hk') k hk rfl

/-! ## All trees -/

theorem inner_flat (l : List (Comp K S N P)) : inner l = l.reverse.flatMap nodes := by
  induction l with
  | nil => rfl
  | cons c l ih => simp [inner, ih]

/-- The components that are visited. -/
theorem visited_eq (roots : List (Comp K S N P)) : visited roots = (roots.filter (·.coll)).flatMap nodes := by
  simp only [visited]
  induction roots.filter (·.coll) with
  | nil => rfl
  | cons c cs ih =>
    rw [List.flatMap_cons, ih, crawl_eq, List.flatMap_cons]
    simp [inner]

theorem inner_perm (roots : List (Comp K S N P)) : (inner roots).Perm (roots.flatMap nodes) := by
  rw [inner_flat]
  exact (List.reverse_perm roots).flatMap_right _

theorem flat_sublist {l l' : List (Comp K S N P)} (h : l.Sublist l') : (l.flatMap nodes).Sublist (l'.flatMap nodes) := by
  induction h with
  | slnil => exact List.Sublist.refl _
  | cons a _ ih =>
    rw [List.flatMap_cons]
    exact ih.trans (List.sublist_append_right _ _)
  | cons_cons a _ ih =>
    rw [List.flatMap_cons, List.flatMap_cons]
    exact (List.Sublist.refl _).append ih

theorem WF.flat {roots : List (Comp K S N P)} (h : WF roots) : ((roots.flatMap nodes).map (·.id)).Nodup :=
  ((inner_perm roots).map _).nodup_iff.1 h.nodup

theorem WF.mem {roots : List (Comp K S N P)} {r c : Comp K S N P} (hr : r ∈ roots) (hc : c ∈ nodes r) : c ∈ inner roots :=
  mem_inner.2 ⟨r, hr, hc⟩

mutual
/-- No component is visited before one that it is inside of. -/
theorem order_nodes : (c : Comp K S N P) → ((nodes c).map (·.id)).Nodup →
    (nodes c).Pairwise fun x y => x.id ∉ (inner y.children).map (·.id)
  | .mk i b f g h cs, hn => by
    rw [nodes, List.map_cons, List.nodup_cons] at hn
    rw [nodes, List.pairwise_cons]
    exact ⟨fun y hy hk => hn.1 (ids_children hy hk), order_inner cs hn.2⟩
theorem order_inner : (cs : List (Comp K S N P)) → ((inner cs).map (·.id)).Nodup →
    (inner cs).Pairwise fun x y => x.id ∉ (inner y.children).map (·.id)
  | [], _ => by simp [inner]
  | c :: cs, hn => by
    rw [inner, List.map_append, List.nodup_append] at hn
    rw [inner, List.pairwise_append]
    refine ⟨order_inner cs hn.1, order_nodes c hn.2.1, fun x hx y hy hk => ?_⟩
    exact hn.2.2 x.id (List.mem_map.2 ⟨x, hx, rfl⟩) x.id (ids_children' hy hk) rfl
end

theorem configureAll_final (l : List (Comp K S N P)) (σ : K → S) : (configureAll l σ).2 = l.foldl configureOne σ := by
  induction l generalizing σ with
  | nil => rfl
  | cons c l ih => simp only [configureAll, List.foldl_cons, ih]

theorem configureAll_ids (l : List (Comp K S N P)) (σ : K → S) :
    (configureAll l σ).1.map (·.1) = (l.filter (·.coll)).map (·.id) := by
  induction l generalizing σ with
  | nil => rfl
  | cons c l ih =>
    simp only [configureAll, List.filter_cons]
    split <;> simp [ih]

/-- A call of `configure` sees what the components visited before have left. -/
theorem configureAll_calls {l : List (Comp K S N P)} {σ : K → S} {k : K} {s : S} (h : (k, s) ∈ (configureAll l σ).1) :
    ∃ a c b, l = a ++ c :: b ∧ c.coll = true ∧ c.id = k ∧ s = a.foldl configureOne σ k := by
  induction l generalizing σ with
  | nil => simp [configureAll] at h
  | cons c l ih =>
    have go : (k, s) ∈ (configureAll l (configureOne σ c)).1 →
        ∃ a d b, c :: l = a ++ d :: b ∧ d.coll = true ∧ d.id = k ∧ s = a.foldl configureOne σ k := by
      intro h
      obtain ⟨a, d, b, e, h1, h2, h3⟩ := ih h
      exact ⟨c :: a, d, b, by rw [e]; rfl, h1, h2, h3⟩
    simp only [configureAll] at h
    split at h
    · rename_i hc
      rcases List.mem_cons.1 h with h | h
      · simp only [Prod.mk.injEq] at h
        exact ⟨[], c, l, rfl, hc, h.1.symm, by rw [h.2, h.1]; rfl⟩
      · exact go h
    · exact go h

theorem visited_sub {roots : List (Comp K S N P)} : (visited roots).Sublist (roots.flatMap nodes) := by
  rw [visited_eq]
  exact flat_sublist List.filter_sublist

theorem visited_mem {roots : List (Comp K S N P)} {c : Comp K S N P} (h : c ∈ visited roots) : c ∈ inner roots :=
  (inner_perm roots).mem_iff.2 (visited_sub.subset h)

theorem visited_order {roots : List (Comp K S N P)} (h : WF roots) :
    (visited roots).Pairwise fun x y => x.id ∉ (inner y.children).map (·.id) := by
  have e : visited roots = inner (roots.filter (·.coll)).reverse := by rw [inner_flat, List.reverse_reverse, visited_eq]
  have hn : ((visited roots).map (·.id)).Nodup := (visited_sub.map _).nodup h.flat
  rw [e] at hn ⊢
  exact order_inner _ hn

/-- The settings after all calls of `configure`, for a component in one of the trees. -/
theorem final_fold {roots above : List (Comp K S N P)} {c : Comp K S N P} (h : WF roots) (hb : Below roots above c) (σ : K → S) :
    (visited roots).foldl configureOne σ c.id = above.foldl configureOne σ c.id := by
  obtain ⟨r, hr, hp⟩ := hb
  have hins : ∀ x ∈ visited roots, ∀ s, ∀ y ∈ x.configure s, y.1 ∈ (inner x.children).map (·.id) := fun x hx =>
    h.inside x (visited_mem hx)
  have hflat := h.flat
  cases hc : r.coll with
  | true =>
    have hr' : r ∈ roots.filter (·.coll) := List.mem_filter.2 ⟨hr, hc⟩
    obtain ⟨A, B, hAB⟩ := List.append_of_mem hr'
    have hn : ((visited roots).map (·.id)).Nodup := (visited_sub.map _).nodup hflat
    have e : visited roots = A.flatMap nodes ++ (nodes r ++ B.flatMap nodes) := by
      rw [visited_eq, hAB, List.flatMap_append, List.flatMap_cons]
    rw [e] at hn hins ⊢
    simp only [List.map_append, List.nodup_append] at hn
    obtain ⟨_, ⟨hnr, _, hB⟩, hA⟩ := hn
    have sub : ∀ {l : List (Comp K S N P)} {x : Comp K S N P} {k : K}, x ∈ l.flatMap nodes → k ∈ (inner x.children).map (·.id) →
        k ∈ (l.flatMap nodes).map (·.id) := by
      intro l x k hx hk
      have e : inner l.reverse = l.flatMap nodes := by rw [inner_flat, List.reverse_reverse]
      rw [← e] at hx ⊢
      exact ids_children hx hk
    have hcm : c.id ∈ (nodes r).map (·.id) := List.mem_map.2 ⟨c, hp.mem, rfl⟩
    rw [List.foldl_append, List.foldl_append]
    rw [fold_frame (fun x hx => hins x (List.mem_append_right _ (List.mem_append_right _ hx))) _ fun x hx hk =>
      hB c.id hcm c.id (sub hx hk) rfl]
    rw [fold_path hp hnr fun x hx => hins x (List.mem_append_right _ (List.mem_append_left _ hx))]
    refine fold_agree (A := fun k => k ∈ (nodes r).map (·.id)) (fun x hx => List.mem_map.2 ⟨x, hp.above_mem x hx, rfl⟩) ?_ _ hcm
    intro k hk
    exact fold_frame (fun x hx => hins x (List.mem_append_left _ hx)) _ fun x hx hk' =>
      hA k (sub hx hk') k (List.mem_append_left _ hk) rfl
  | false =>
    have hch := h.units r (WF.mem hr (by rw [nodes_eq]; simp)) hc
    cases hp with
    | down hd _ => rw [hch] at hd; simp at hd
    | here =>
      refine fold_frame hins σ fun x hx hk => ?_
      rw [visited_eq] at hx
      obtain ⟨r', hr', hx'⟩ := List.mem_flatMap.1 hx
      have hk' := ids_children' hx' hk
      have hne : r' ≠ c := by
        intro e
        rw [e, List.mem_filter, hc] at hr'
        simp at hr'
      obtain ⟨d, hd, hdid⟩ := List.mem_map.1 hk'
      have hr'' := (List.mem_filter.1 hr').1
      obtain ⟨A, B, hAB⟩ := List.append_of_mem hr
      rw [hAB, List.flatMap_append, List.flatMap_cons] at hflat
      simp only [List.map_append, List.nodup_append] at hflat
      have hrm : c.id ∈ (nodes c).map (·.id) := List.mem_map.2 ⟨c, by rw [nodes_eq]; simp, rfl⟩
      rw [hAB] at hr''
      rcases List.mem_append.1 hr'' with m | m
      · exact hflat.2.2 c.id (List.mem_map.2 ⟨d, List.mem_flatMap.2 ⟨r', m, hd⟩, hdid⟩) c.id (List.mem_append_left _ hrm) rfl
      · rcases List.mem_cons.1 m with m | m
        · exact hne m
        · exact hflat.2.1.2.2 c.id hrm c.id (List.mem_map.2 ⟨d, List.mem_flatMap.2 ⟨r', m, hd⟩, hdid⟩) rfl

/-- The collections above, one after the other, are the specification. -/
theorem fold_spec (above : List (Comp K S N P)) (hc : ∀ a ∈ above, a.coll = true) (σ : K → S) (k : K) :
    above.foldl configureOne σ k = settingsOf σ above.reverse k := by
  generalize e : above.reverse = ab
  induction ab generalizing above k with
  | nil =>
    rw [List.reverse_eq_nil_iff.1 e]
    rfl
  | cons a ab ih =>
    have ea : above = ab.reverse ++ [a] := by
      rw [← List.reverse_reverse above, e, List.reverse_cons]
    subst ea
    have hc' : ∀ x ∈ ab.reverse, x.coll = true := fun x hx => hc x (List.mem_append_left _ hx)
    rw [List.foldl_append, List.foldl_cons, List.foldl_nil]
    simp only [configureOne, hc a (List.mem_append_right _ (by simp)), if_true, settingsOf]
    rw [foldl_apply, ih _ hc' _ (by simp), ih _ hc' _ (by simp)]

theorem Below.colls {roots above : List (Comp K S N P)} {c : Comp K S N P} (h : WF roots) (hb : Below roots above c) :
    ∀ a ∈ above, a.coll = true := by
  obtain ⟨r, hr, hp⟩ := hb
  intro a ha
  have hm := WF.mem hr (hp.above_mem a ha)
  have hne : a.children ≠ [] := by
    clear hm hr
    induction hp with
    | here => simp at ha
    | down hd _ ih =>
      rcases List.mem_cons.1 ha with rfl | ha
      · intro e
        rw [e] at hd
        simp at hd
      · exact ih ha
  cases hc : a.coll with
  | true => rfl
  | false => exact absurd (h.units a hm hc) hne

theorem Path.sub {r c : Comp K S N P} {l : List (Comp K S N P)} (h : Path r l c) : (nodes c).Sublist (nodes r) := by
  induction h with
  | here c => exact List.Sublist.refl _
  | @down c d e l hd _ ih =>
    obtain ⟨A, B, hAB⟩ := List.append_of_mem hd
    rw [nodes_eq c, hAB, inner_append]
    simp only [inner]
    exact ih.trans (((List.sublist_append_right _ _).trans (List.sublist_append_left _ _)).trans (List.sublist_cons_self _ _))

theorem nodes_sub {roots : List (Comp K S N P)} {r : Comp K S N P} (h : r ∈ roots) : (nodes r).Sublist (inner roots) := by
  obtain ⟨A, B, hAB⟩ := List.append_of_mem h
  rw [hAB, inner_append]
  simp only [inner]
  exact (List.sublist_append_right _ _).trans (List.sublist_append_left _ _)

theorem Below.visited {roots above : List (Comp K S N P)} {c : Comp K S N P} (h : WF roots) (hb : Below roots above c)
    (hc : c.coll = true) : c ∈ visited roots := by
  have hcs := hb.colls h
  obtain ⟨r, hr, hp⟩ := hb
  rw [visited_eq]
  refine List.mem_flatMap.2 ⟨r, List.mem_filter.2 ⟨hr, ?_⟩, hp.mem⟩
  cases hp with
  | here => exact hc
  | down _ _ => exact hcs r (List.mem_cons_self ..)

/-- **C106, settings.** After `setup` every component has the settings that the nearest collection above applies to it in
`configure`, that collection having its own settings by then, or else the ones it was made with. -/
theorem C106_settings {roots above : List (Comp K S N P)} {c : Comp K S N P} (h : WF roots) (hb : Below roots above c) (σ : K → S) :
    (setup roots σ).final c.id = settingsOf σ above.reverse c.id := by
  simp only [setup]
  rw [configureAll_final, final_fold h hb, fold_spec _ (hb.colls h)]

/-- **C106, configure.** `configure` is called once for every collection, and the settings it sees are those that the collection has
in the end. -/
theorem C106_configure {roots : List (Comp K S N P)} (h : WF roots) (σ : K → S) :
    ((setup roots σ).calls.map (·.1)).Nodup ∧
      ∀ k s, (k, s) ∈ (setup roots σ).calls ↔
        (∃ above c, Below roots above c ∧ c.coll = true ∧ c.id = k) ∧ s = (setup roots σ).final k := by
  have hids : (setup roots σ).calls.map (·.1) = ((visited roots).filter (·.coll)).map (·.id) := configureAll_ids _ _
  have fwd : ∀ k s, (k, s) ∈ (setup roots σ).calls →
      (∃ above c, Below roots above c ∧ c.coll = true ∧ c.id = k) ∧ s = (setup roots σ).final k := by
    intro k s hm
    obtain ⟨a, c, b, e, hc, hk, hs⟩ := configureAll_calls hm
    have hcv : c ∈ visited roots := by rw [e]; simp
    obtain ⟨r, hr, l, hp⟩ := path_of_mem' roots (visited_mem hcv)
    refine ⟨⟨l, c, ⟨r, hr, hp⟩, hc, hk⟩, ?_⟩
    have ho := visited_order h
    rw [e, List.pairwise_append, List.pairwise_cons] at ho
    simp only [setup]
    rw [configureAll_final, e, List.foldl_append, hs, ← hk]
    refine (fold_frame (fun x hx => h.inside x (visited_mem (by rw [e]; exact List.mem_append_right _ hx))) _ fun x hx => ?_).symm
    rcases List.mem_cons.1 hx with rfl | hx
    · have hn : ((nodes x).map (·.id)).Nodup :=
        ((hp.sub.trans (nodes_sub hr)).map _).nodup h.nodup
      rw [nodes_eq, List.map_cons, List.nodup_cons] at hn
      exact hn.1
    · exact ho.2.1.1 x hx
  refine ⟨?_, fun k s => ⟨fwd k s, ?_⟩⟩
  · rw [hids]
    exact ((List.filter_sublist.trans visited_sub).map _).nodup h.flat
  · rintro ⟨⟨above, c, hb, hc, rfl⟩, rfl⟩
    have : c.id ∈ (setup roots σ).calls.map (·.1) := by
      rw [hids]
      exact List.mem_map.2 ⟨c, List.mem_filter.2 ⟨hb.visited h hc, hc⟩, rfl⟩
    obtain ⟨⟨k, s⟩, hm, e⟩ := List.mem_map.1 this
    simp only at e
    subst e
    rw [← (fwd _ _ hm).2]
    exact hm

/-- **C106, networks and processes.** `network` and `process_components` are called with the settings that the collection has in the end
if no collection above applies settings to it; so for the collections given to `run`. -/
theorem C106_network_partial {roots above : List (Comp K S N P)} {c : Comp K S N P} (h : WF roots) (hb : Below roots above c)
    (hc : c.coll = true) (ha : ∀ a ∈ above, ∀ s, c.id ∉ (a.configure s).map (·.1)) (σ : K → S) :
    (c.id, c.network ((setup roots σ).final c.id)) ∈ (setup roots σ).networks ∧
      (c.id, c.procs ((setup roots σ).final c.id)) ∈ (setup roots σ).procs := by
  have hf : (setup roots σ).final c.id = σ c.id := by
    rw [C106_settings h hb]
    have ha' : ∀ a ∈ above.reverse, ∀ s, c.id ∉ (a.configure s).map (·.1) := fun a h => ha a (List.mem_reverse.1 h)
    generalize above.reverse = ab at ha'
    induction ab with
    | nil => rfl
    | cons a ab ih =>
      simp only [settingsOf]
      rw [lastFor_none (ha' a (List.mem_cons_self ..) _)]
      exact ih fun x hx => ha' x (List.mem_cons_of_mem _ hx)
  rw [hf]
  have hm := List.mem_filter.2 ⟨hb.visited h hc, hc⟩
  exact ⟨List.mem_map.2 ⟨c, hm, rfl⟩, List.mem_map.2 ⟨c, hm, rfl⟩⟩

/-- A collection `0` with a collection `1` in it, which has the units `2` and `3`. `configure` of the outer collection gives
its own settings to the inner one, which gives them to its units; the inner network has as many connections as its settings say. -/
def nested : Comp Nat Nat Nat Nat :=
  .mk 0 true (fun s => [(1, s)]) (fun _ => 0) (fun _ => 0)
    [.mk 1 true (fun s => [(2, s), (3, s + 1)]) (fun s => s) (fun s => s)
      [.mk 2 false (fun _ => []) (fun _ => 0) (fun _ => 0) [], .mk 3 false (fun _ => []) (fun _ => 0) (fun _ => 0) []]]

/-- **C106, negation.** The outer collection is run with the settings 5; in the end the inner collection has the settings 5, too, its
`configure` saw them and its units have them; but its `network` and `process_components` saw the settings it was made with, 0. -/
theorem C106_negation :
    WF [nested] ∧ (let r := setup [nested] fun k => if k = 0 then 5 else 0
      r.final 1 = 5 ∧ r.final 2 = 5 ∧ r.final 3 = 6 ∧ (1, 5) ∈ r.calls ∧ r.networks = [(0, 0), (1, 0)] ∧ r.procs = [(0, 0), (1, 0)]) := by
  refine ⟨⟨?_, ?_, ?_⟩, ?_⟩
  · decide +kernel
  · intro c hc hb
    simp only [inner, nodes, nested, List.nil_append, List.append_nil, List.mem_cons, List.mem_append, List.not_mem_nil, or_false,
      List.cons_append] at hc
    rcases hc with rfl | rfl | rfl | rfl <;> simp_all [Comp.coll, Comp.children]
  · intro c hc s x hx
    simp only [inner, nodes, nested, List.nil_append, List.append_nil, List.mem_cons, List.mem_append, List.not_mem_nil, or_false,
      List.cons_append] at hc
    rcases hc with rfl | rfl | rfl | rfl <;>
      simp only [Comp.configure, Comp.children, List.mem_cons, List.not_mem_nil, or_false] at hx ⊢
    · subst hx
      simp [inner, nodes, Comp.id]
    · rcases hx with rfl | rfl <;> simp [inner, nodes, Comp.id]
  · decide +kernel

/-- The hypotheses of `C106_settings` for a unit two levels down, and what the specification says of it. -/
example : ∃ above c, Below [nested] above c ∧ c.id = 3 ∧ c.coll = false ∧ above.length = 2 ∧
    settingsOf (fun k => if k = 0 then 5 else 0) above.reverse 3 = 6 :=
  ⟨[nested, _], _, ⟨nested, by simp, .down (by simp only [nested, Comp.children]; exact List.mem_cons_self ..)
    (.down (by simp only [Comp.children]; exact List.mem_cons_of_mem _ (List.mem_cons_self ..)) (.here _))⟩, rfl, rfl, rfl,
    by decide +kernel⟩

end Configure
end Ez
