import Verif.Model.Dag
import Verif.Lemmas.Py
import Verif.Spec.Path

/-! # Lemmas about `DAG` -/

set_option linter.unusedSectionVars false
set_option linter.unusedSimpArgs false

namespace Ez
open PyDict

namespace Graph
variable {T : Type} [DecidableEq T]

/-- Edge relation of a graph dictionary. -/
def E (g : Graph T) (a b : T) : Prop := b ∈ succs g a

theorem E_iff_get? {g : Graph T} {a b : T} : E g a b ↔ ∃ s, get? g a = some s ∧ b ∈ s := by
  unfold E succs
  cases h : get? g a with
  | none => simp
  | some s => simp

theorem E_touch {g : Graph T} {k a b : T} : E (touch g k) a b ↔ E g a b := by
  rw [E_iff_get?, E_iff_get?]
  unfold touch
  rw [get?_setdefault]
  by_cases h : a = k
  · subst h
    cases hg : get? g a <;> simp
  · simp [h]

theorem E_addTo {g : Graph T} {k x a b : T} :
    E (addTo g k x) a b ↔ E g a b ∨ (a = k ∧ b = x) := by
  rw [E_iff_get?, E_iff_get?]
  unfold addTo touch
  rw [get?_modify, get?_setdefault]
  by_cases h : a = k
  · subst h
    cases hg : get? g a <;> simp
  · simp [h]

theorem mem_keys_touch {g : Graph T} {k x : T} : x ∈ keys (touch g k) ↔ x ∈ keys g ∨ x = k := by
  rw [PyDict.mem_keys, PyDict.mem_keys]
  unfold touch
  rw [get?_setdefault]
  by_cases h : x = k <;> simp [h]

theorem mem_keys_addTo {g : Graph T} {k t x : T} :
    x ∈ keys (addTo g k t) ↔ x ∈ keys g ∨ x = k := by
  unfold addTo
  rw [keys_modify, mem_keys_touch]

theorem nodup_touch {g : Graph T} {k : T} (h : (keys g).Nodup) : (keys (touch g k)).Nodup :=
  nodup_setdefault h

theorem nodup_addTo {g : Graph T} {k t : T} (h : (keys g).Nodup) : (keys (addTo g k t)).Nodup := by
  unfold addTo
  rw [keys_modify]; exact nodup_touch h

theorem invInner_spec (f : T) (ts : List T) (acc : Graph T) (hn : (keys acc).Nodup) :
    (keys (ts.foldl (fun acc t => addTo acc t f) acc)).Nodup ∧
    (∀ x, x ∈ keys (ts.foldl (fun acc t => addTo acc t f) acc) ↔ x ∈ keys acc ∨ x ∈ ts) ∧
    ∀ a b, E (ts.foldl (fun acc t => addTo acc t f) acc) a b ↔ E acc a b ∨ (a ∈ ts ∧ b = f) := by
  induction ts generalizing acc with
  | nil => simp [hn]
  | cons t ts ih =>
    obtain ⟨h1, h2, h3⟩ := ih (addTo acc t f) (nodup_addTo hn)
    refine ⟨h1, ?_, ?_⟩
    · intro x
      rw [List.foldl_cons, h2, mem_keys_addTo, List.mem_cons]
      grind
    · intro a b
      rw [List.foldl_cons, h3, E_addTo, List.mem_cons]
      grind

theorem invStep_spec (inv : Graph T) (p : T × PySet T) (hn : (keys inv).Nodup) :
    (keys (invStep inv p)).Nodup ∧
    (∀ x, x ∈ keys (invStep inv p) ↔ x ∈ keys inv ∨ x = p.1 ∨ x ∈ p.2) ∧
    ∀ a b, E (invStep inv p) a b ↔ E inv a b ∨ (a ∈ p.2 ∧ b = p.1) := by
  obtain ⟨h1, h2, h3⟩ := invInner_spec p.1 p.2 (touch inv p.1) (nodup_touch hn)
  refine ⟨h1, ?_, ?_⟩
  · intro x
    unfold invStep
    rw [h2, mem_keys_touch]
    grind
  · intro a b
    unfold invStep
    rw [h3, E_touch]

theorem invFold_spec (g : List (T × PySet T)) (acc : Graph T) (hn : (keys acc).Nodup) :
    (keys (g.foldl invStep acc)).Nodup ∧
    (∀ x, x ∈ keys (g.foldl invStep acc) ↔ x ∈ keys acc ∨ ∃ p ∈ g, x = p.1 ∨ x ∈ p.2) ∧
    ∀ a b, E (g.foldl invStep acc) a b ↔ E acc a b ∨ ∃ p ∈ g, a ∈ p.2 ∧ b = p.1 := by
  induction g generalizing acc with
  | nil => simp [hn]
  | cons p g ih =>
    obtain ⟨s1, s2, s3⟩ := invStep_spec acc p hn
    obtain ⟨h1, h2, h3⟩ := ih (invStep acc p) s1
    refine ⟨h1, ?_, ?_⟩
    · intro x
      rw [List.foldl_cons, h2, s2]
      simp only [List.mem_cons, exists_eq_or_imp]
      grind
    · intro a b
      rw [List.foldl_cons, h3, s3]
      simp only [List.mem_cons, exists_eq_or_imp]
      grind

theorem inv_nodup (g : Graph T) : (keys (inv g)).Nodup :=
  (invFold_spec g [] (by simp [keys])).1

theorem E_inv {g : Graph T} (hn : (keys g).Nodup) {a b : T} : E (inv g) a b ↔ E g b a := by
  unfold inv
  rw [(invFold_spec g [] (by simp [keys])).2.2, E_iff_get? (a := b)]
  constructor
  · rintro (h | ⟨p, hp, h1, rfl⟩)
    · simp [E, succs, get?] at h
    · exact ⟨p.2, get?_of_mem hn hp, h1⟩
  · rintro ⟨s, hs, ha⟩
    exact Or.inr ⟨(b, s), mem_of_get? hs, ha, rfl⟩

theorem mem_keys_inv {g : Graph T} {x : T} :
    x ∈ keys (inv g) ↔ x ∈ keys g ∨ ∃ p ∈ g, x ∈ p.2 := by
  unfold inv
  rw [(invFold_spec g [] (by simp [keys])).2.1]
  simp only [keys, List.map_nil, List.not_mem_nil, false_or, List.mem_map]
  grind

theorem mem_leaves {g : Graph T} (hn : (keys g).Nodup) {x : T} :
    x ∈ leaves g ↔ x ∈ keys g ∧ ∀ b, ¬ E g x b := by
  unfold leaves
  simp only [List.mem_map, List.mem_filter]
  constructor
  · rintro ⟨p, ⟨hp, he⟩, rfl⟩
    refine ⟨List.mem_map.2 ⟨p, hp, rfl⟩, ?_⟩
    intro b hb
    rw [E_iff_get?, get?_of_mem hn hp] at hb
    obtain ⟨s, hs, hb⟩ := hb
    cases hs
    rw [List.isEmpty_iff] at he
    rw [he] at hb
    simp at hb
  · rintro ⟨hk, hb⟩
    rw [PyDict.mem_keys] at hk
    obtain ⟨s, hs⟩ := Option.isSome_iff_exists.1 hk
    refine ⟨(x, s), ⟨mem_of_get? hs, ?_⟩, rfl⟩
    rw [List.isEmpty_iff]
    cases s with
    | nil => rfl
    | cons c s => exact absurd (E_iff_get?.2 ⟨_, hs, by simp⟩) (hb c)

theorem foldl_pop_get? (l : List T) (g : Graph T) (x : T) :
    get? (l.foldl PyDict.pop g) x = if x ∈ l then none else get? g x := by
  induction l generalizing g with
  | nil => simp
  | cons a l ih =>
    rw [List.foldl_cons, ih, get?_pop]
    by_cases h1 : x ∈ l
    · simp [h1]
    · by_cases h2 : x = a <;> simp [h1, h2]

theorem foldl_pop_nodup (l : List T) (g : Graph T) (h : (keys g).Nodup) :
    (keys (l.foldl PyDict.pop g)).Nodup := by
  induction l generalizing g with
  | nil => exact h
  | cons a l ih => exact ih _ (nodup_pop h)

theorem updateAll_nodup {c : PySet T} {q : List T} (h : c.Nodup) : (updateAll c q).Nodup := by
  unfold updateAll
  induction q generalizing c with
  | nil => exact h
  | cons a q ih => exact ih (PySet.nodup_add h)

theorem bfsLoop_spec (g : Graph T) (n : T) (queue : List T) (c : PySet T)
    (h1 : ∀ x ∈ c, Path (E g) n x) 
    (h2 : ∀ m rest, queue = m :: rest → Reaches (E g) n m ∧ ∀ q ∈ rest, Path (E g) n q)
    (h3 : ∀ x, (x = n ∨ x ∈ c) → x ∈ queue ∨ ∀ t, E g x t → t ∈ c) (h4 : c.Nodup) :
    (∀ x, x ∈ bfsLoop g queue c ↔ Path (E g) n x) ∧ (bfsLoop g queue c).Nodup := by
  fun_induction bfsLoop g queue c with
  | case1 c =>
    refine ⟨?_, h4⟩
    intro x
    refine ⟨h1 x, ?_⟩
    have hcl : ∀ x, (x = n ∨ x ∈ c) → ∀ t, E g x t → t ∈ c := by
      intro x hx
      rcases h3 x hx with h | h
      · simp at h
      · exact h
    intro p
    have : ∀ a b, Path (E g) a b → (a = n ∨ a ∈ c) → b ∈ c := by
      intro a b p
      induction p with
      | single e => exact fun ha => hcl _ ha _ e
      | cons e _ ih => exact fun ha => ih (Or.inr (hcl _ ha _ e))
    exact this n x p (Or.inl rfl)
  | case2 c m rest ih =>
    have hnew : ∀ t, t ∈ (succs g m).filter (fun t => decide (t ∉ c)) ↔ E g m t ∧ t ∉ c := by
      intro t; simp [E]
    obtain ⟨hmn, hrest⟩ := h2 m rest rfl
    have hall : ∀ x ∈ rest ++ (succs g m).filter (fun t => decide (t ∉ c)), Path (E g) n x := by
      intro x hx
      rcases List.mem_append.1 hx with hx | hx
      · exact hrest x hx
      · have := (hnew x).1 hx
        rcases hmn with rfl | hp
        · exact .single this.1
        · exact hp.snoc this.1
    apply ih
    · intro x hx
      rw [mem_updateAll] at hx
      rcases hx with hx | hx
      · exact h1 x hx
      · exact hall x hx
    · intro q rest' hq
      refine ⟨Or.inr (hall q (by rw [hq]; simp)), ?_⟩
      intro x hx
      exact hall x (by rw [hq]; simp [hx])
    · intro x hx
      by_cases hxq : x ∈ rest ++ (succs g m).filter (fun t => decide (t ∉ c))
      · exact Or.inl hxq
      · right
        intro t ht
        rw [mem_updateAll]
        have hx' : x = n ∨ x ∈ c := by
          rcases hx with hx | hx
          · exact Or.inl hx
          · rcases mem_updateAll.1 hx with hx | hx
            · exact Or.inr hx
            · exact absurd hx hxq
        rcases h3 x hx' with hq | hq
        · rcases List.mem_cons.1 hq with rfl | hq
          · by_cases htc : t ∈ c
            · exact Or.inl htc
            · exact Or.inr (List.mem_append_right _ ((hnew t).2 ⟨ht, htc⟩))
          · exact absurd (List.mem_append_left _ hq) hxq
        · exact Or.inl (hq t ht)
    · exact updateAll_nodup h4

theorem mem_bfs (g : Graph T) (n x : T) : x ∈ bfs g n ↔ Path (E g) n x := by
  refine (bfsLoop_spec g n [n] [] (by simp) ?_ ?_ List.nodup_nil).1 x
  · intro m rest h
    cases h
    exact ⟨Or.inl rfl, by simp⟩
  · intro x hx
    rcases hx with rfl | hx
    · simp
    · simp at hx

theorem nodup_bfs (g : Graph T) (n : T) : (bfs g n).Nodup := by
  refine (bfsLoop_spec g n [n] [] (by simp) ?_ ?_ List.nodup_nil).2
  · intro m rest h
    cases h
    exact ⟨Or.inl rfl, by simp⟩
  · intro x hx
    rcases hx with rfl | hx
    · simp
    · simp at hx

end Graph

namespace DAG
variable {T O : Type} [DecidableEq T] [DecidableEq O]

/-- Owner `o` is recorded for edge `(a, b)`. -/
def Owns (d : DAG T O) (a b : T) (o : O) : Prop := ∃ s, d.owners.get? (a, b) = some s ∧ o ∈ s

/-- Representation invariant. -/
structure Inv (d : DAG T O) : Prop where
  gnodup : (keys d.graph).Nodup
  onodup : (keys d.owners).Nodup
  nonempty : ∀ e s, d.owners.get? e = some s → s ≠ []
  edge : ∀ a b, Graph.E d.graph a b ↔ (d.owners.get? (a, b)).isSome
  closed : ∀ a b, Graph.E d.graph a b → b ∈ keys d.graph
  used : ∀ x, x ∈ keys d.graph → (∃ b, Graph.E d.graph x b) ∨ ∃ a, Graph.E d.graph a x
  acyclic : ∀ x, ¬ Path (Graph.E d.graph) x x

theorem inv_init : Inv (init : DAG T O) := by
  refine ⟨by simp [init, keys], by simp [init, keys], ?_, ?_, ?_, ?_, ?_⟩
  · intro e s h; simp [init, get?] at h
  · intro a b; simp [init, get?, Graph.E, Graph.succs]
  · intro a b h; simp [init, get?, Graph.E, Graph.succs] at h
  · intro x h; simp [init, keys] at h
  · intro x h
    cases h with
    | single h => simp [init, get?, Graph.E, Graph.succs] at h
    | cons h _ => simp [init, get?, Graph.E, Graph.succs] at h

theorem edge_iff_owned {d : DAG T O} (h : Inv d) (a b : T) :
    Graph.E d.graph a b ↔ ∃ o, Owns d a b o := by
  rw [h.edge]
  unfold Owns
  cases hg : d.owners.get? (a, b) with
  | none => simp
  | some s =>
    have := h.nonempty _ _ hg
    simp
    exact List.exists_mem_of_ne_nil s this

/-- What `add_edge` does in a state satisfying the invariant. -/
theorem addEdge_spec {d : DAG T O} (h : Inv d) (a b : T) (o : O) :
    Inv (d.addEdge a b o).1 ∧
    ((d.addEdge a b o).2 = .cyclic ↔ a = b ∨ Path (Graph.E d.graph) b a) ∧
    ((d.addEdge a b o).2 = .cyclic → (d.addEdge a b o).1 = d) ∧
    ((d.addEdge a b o).2 ≠ .cyclic →
      (∀ x y p, Owns (d.addEdge a b o).1 x y p ↔ Owns d x y p ∨ (x = a ∧ y = b ∧ p = o)) ∧
      (d.addEdge a b o).2 = .returned (!(d.owners.get? (a, b)).isSome)) := by
  unfold addEdge
  by_cases hab : a = b
  · simp only [hab, if_true]
    exact ⟨h, by simp, by simp, by simp⟩
  · simp only [hab, if_false, false_or]
    cases hos : d.owners.get? (a, b) with
    | some s =>
      rw [setdefault_of_some hos]
      simp only [hos]
      have hsne := h.nonempty _ _ hos
      have hE : Graph.E d.graph a b := (h.edge a b).2 (by simp [hos])
      have hnp : ¬ Path (Graph.E d.graph) b a := fun p => h.acyclic a (.cons hE p)
      by_cases ho : o ∈ s
      · simp only [ho, if_true]
        refine ⟨h, by simp [hnp], by simp, ?_⟩
        intro _
        refine ⟨?_, by simp⟩
        intro x y p
        constructor
        · exact Or.inl
        · rintro (hh | ⟨rfl, rfl, rfl⟩)
          · exact hh
          · exact ⟨s, hos, ho⟩
      · have hse : s.isEmpty = false := by
          cases s with
          | nil => exact absurd rfl hsne
          | cons => rfl
        simp only [ho, if_false, hse, Bool.false_eq_true]
        refine ⟨⟨h.gnodup, ?_, ?_, ?_, h.closed, h.used, h.acyclic⟩, by simp [hnp], by simp, ?_⟩
        · rw [keys_modify]; exact h.onodup
        · intro e t ht
          simp only [get?_modify] at ht
          split at ht
          · rename_i he
            subst he
            rw [hos] at ht
            simp at ht
            rw [← ht]
            intro hnil
            have : o ∈ s.add o := by simp
            rw [hnil] at this
            simp at this
          · exact h.nonempty e t ht
        · intro x y
          rw [h.edge]
          simp only [get?_modify]
          split <;> simp
        · intro _
          refine ⟨?_, by simp⟩
          intro x y p
          unfold Owns
          simp only [get?_modify]
          by_cases he : (x, y) = (a, b)
          · cases he
            simp [hos]
          · simp only [he, if_false]
            constructor
            · exact Or.inl
            · rintro (hh | ⟨rfl, rfl, rfl⟩)
              · exact hh
              · exact absurd rfl he
    | none =>
      have hsd : d.owners.setdefault (a, b) [] = d.owners ++ [((a, b), [])] := by
        simp [setdefault, hos]
      have hget : ∀ e, get? (d.owners ++ [((a, b), [])]) e =
          if e = (a, b) then some [] else d.owners.get? e := by
        intro e
        have := get?_setdefault d.owners (a, b) e []
        rw [hsd, hos] at this
        simpa using this
      have hnE : ¬ Graph.E d.graph a b := by
        intro hE
        have := (h.edge a b).1 hE
        simp [hos] at this
      rw [hsd]
      simp only [hget, if_true, List.not_mem_nil, if_false, List.isEmpty_nil]
      have htest : ∀ x y, Graph.E ((d.graph.addTo a b).touch b) x y ↔
          Graph.E d.graph x y ∨ (x = a ∧ y = b) := by
        intro x y
        rw [Graph.E_touch, Graph.E_addTo]
      have hcyc : a ∈ ((d.graph.addTo a b).touch b).bfs a ↔ Path (Graph.E d.graph) b a := by
        rw [Graph.mem_bfs, Path.congr htest]
        constructor
        · intro p
          rcases p.of_insert with p | ⟨_, hr⟩
          · exact absurd p (h.acyclic a)
          · rcases hr with rfl | p
            · exact absurd rfl hab
            · exact p
        · intro p
          exact .cons (Or.inr ⟨rfl, rfl⟩) (p.mono (fun _ _ => Or.inl))
      by_cases hp : Path (Graph.E d.graph) b a
      · rw [if_pos (hcyc.2 hp)]
        have : (d.owners ++ [((a, b), ([] : PySet O))]).pop (a, b) = d.owners := pop_snoc hos
        simp only [this]
        refine ⟨h, by simp [hp], by simp, by simp⟩
      · rw [if_neg (fun hh => hp (hcyc.1 hh))]
        refine ⟨⟨?_, ?_, ?_, ?_, ?_, ?_, ?_⟩, by simp [hp], by simp, ?_⟩
        · exact Graph.nodup_touch (Graph.nodup_addTo h.gnodup)
        · simp only [keys_modify]
          exact nodup_snoc h.onodup (by simp [hos])
        · intro e t ht
          simp only [get?_modify, hget] at ht
          split at ht
          · simp at ht
            rw [← ht]
            intro hnil
            have : o ∈ (PySet.add ([] : PySet O) o) := by simp
            rw [hnil] at this
            simp at this
          · exact h.nonempty e t ht
        · intro x y
          simp only
          rw [htest, h.edge]
          simp only [get?_modify, hget]
          by_cases he : (x, y) = (a, b)
          · cases he; simp
          · simp only [he, if_false]
            constructor
            · rintro (hh | ⟨rfl, rfl⟩)
              · exact hh
              · exact absurd rfl he
            · exact Or.inl
        · intro x y hxy
          simp only at hxy ⊢
          rw [htest] at hxy
          rw [Graph.mem_keys_touch, Graph.mem_keys_addTo]
          rcases hxy with hxy | ⟨_, rfl⟩
          · exact Or.inl (Or.inl (h.closed x y hxy))
          · exact Or.inr rfl
        · intro x hx
          simp only at hx ⊢
          rw [Graph.mem_keys_touch, Graph.mem_keys_addTo] at hx
          rcases hx with (hx | rfl) | rfl
          · rcases h.used x hx with ⟨y, hy⟩ | ⟨y, hy⟩
            · exact Or.inl ⟨y, (htest _ _).2 (Or.inl hy)⟩
            · exact Or.inr ⟨y, (htest _ _).2 (Or.inl hy)⟩
          · exact Or.inl ⟨b, (htest _ _).2 (Or.inr ⟨rfl, rfl⟩)⟩
          · exact Or.inr ⟨a, (htest _ _).2 (Or.inr ⟨rfl, rfl⟩)⟩
        · intro x p
          simp only at p
          rw [Path.congr htest] at p
          rcases p.of_insert with p | ⟨h1, h2⟩
          · exact h.acyclic x p
          · have : Reaches (Graph.E d.graph) b a := h2.trans h1
            rcases this with rfl | p
            · exact hab rfl
            · exact hp p
        · intro _
          refine ⟨?_, by simp⟩
          intro x y p
          unfold Owns
          simp only [get?_modify, hget]
          by_cases he : (x, y) = (a, b)
          · cases he
            simp [hos]
          · simp only [he, if_false]
            constructor
            · exact Or.inl
            · rintro (hh | ⟨rfl, rfl, rfl⟩)
              · exact hh
              · exact absurd rfl he

/-- What `_prune` does. -/
theorem prune_spec {d : DAG T O} (hn : (keys d.graph).Nodup) :
    d.prune.owners = d.owners ∧ (keys d.prune.graph).Nodup ∧
    (∀ a b, Graph.E d.prune.graph a b ↔ Graph.E d.graph a b) ∧
    ∀ x, x ∈ keys d.prune.graph ↔ x ∈ keys d.graph ∧
      ((∃ b, Graph.E d.graph x b) ∨ ∃ a, Graph.E d.graph a x) := by
  have hlv : ∀ x, x ∈ d.graph.leaves.filter (fun n => decide (n ∈ d.graph.inv.leaves)) ↔
      x ∈ keys d.graph ∧ (∀ b, ¬ Graph.E d.graph x b) ∧ ∀ a, ¬ Graph.E d.graph a x := by
    intro x
    rw [List.mem_filter, Graph.mem_leaves hn, decide_eq_true_iff,
      Graph.mem_leaves (Graph.inv_nodup _), Graph.mem_keys_inv]
    simp only [Graph.E_inv hn]
    grind
  refine ⟨rfl, Graph.foldl_pop_nodup _ _ hn, ?_, ?_⟩
  · intro a b
    unfold prune
    simp only
    rw [Graph.E_iff_get?, Graph.foldl_pop_get?, Graph.E_iff_get?]
    split
    · rename_i hm
      rw [hlv] at hm
      constructor
      · rintro ⟨s, hs, _⟩; simp at hs
      · intro hh
        exact absurd (Graph.E_iff_get?.2 hh) (hm.2.1 b)
    · exact Iff.rfl
  · intro x
    unfold prune
    simp only
    rw [PyDict.mem_keys, Graph.foldl_pop_get?]
    split
    · rename_i hm
      rw [hlv] at hm
      simp only [Option.isSome_none, Bool.false_eq_true, false_iff]
      rintro ⟨_, ⟨b, hb⟩ | ⟨a, ha⟩⟩
      · exact hm.2.1 b hb
      · exact hm.2.2 a ha
    · rename_i hm
      rw [hlv] at hm
      rw [← PyDict.mem_keys]
      constructor
      · intro hk
        refine ⟨hk, ?_⟩
        apply Classical.byContradiction
        intro hno
        exact hm ⟨hk, fun b hb => hno (Or.inl ⟨b, hb⟩), fun a ha => hno (Or.inr ⟨a, ha⟩)⟩
      · exact fun hk => hk.1

/-- What `remove_edge` does in a state satisfying the invariant. -/
theorem removeEdge_spec {d : DAG T O} (h : Inv d) (a b : T) (o : O) :
    Inv (d.removeEdge a b o).1 ∧
    (∀ x y p, Owns (d.removeEdge a b o).1 x y p ↔ Owns d x y p ∧ ¬ (x = a ∧ y = b ∧ p = o)) ∧
    ((d.removeEdge a b o).2 = true ↔ Owns d a b o ∧ ∀ p, Owns d a b p → p = o) ∧
    (Owns d a b o ∨ (d.removeEdge a b o).1 = d) := by
  unfold removeEdge
  cases hos : d.owners.get? (a, b) with
  | none =>
    refine ⟨h, ?_, ?_, Or.inr rfl⟩
    · intro x y p
      refine ⟨fun hh => ⟨hh, ?_⟩, fun hh => hh.1⟩
      rintro ⟨rfl, rfl, rfl⟩
      obtain ⟨s, hs, _⟩ := hh
      rw [hos] at hs; cases hs
    · simp only [Bool.false_eq_true, false_iff]
      rintro ⟨⟨s, hs, _⟩, _⟩
      rw [hos] at hs; cases hs
  | some s =>
    simp only
    have hown : ∀ p, Owns d a b p ↔ p ∈ s := by
      intro p
      unfold Owns
      rw [hos]
      simp
    by_cases ho : o ∈ s
    · simp only [ho, not_true_eq_false, if_false]
      by_cases hempty : (PySet.discard s o).isEmpty = true
      · rw [if_pos hempty]
        have honly : ∀ p ∈ s, p = o := by
          intro p hp
          apply Classical.byContradiction
          intro hne
          have : p ∈ PySet.discard s o := by simp [hp, hne]
          rw [List.isEmpty_iff] at hempty
          rw [hempty] at this
          simp at this
        -- the graph with the edge removed
        have hE2 : ∀ x y, Graph.E (PyDict.modify d.graph a (fun s => s.discard b)) x y ↔
            Graph.E d.graph x y ∧ ¬ (x = a ∧ y = b) := by
          intro x y
          rw [Graph.E_iff_get?, Graph.E_iff_get?, get?_modify]
          by_cases hx : x = a
          · subst hx
            cases hg : get? d.graph x <;> simp
          · simp [hx]
        have hk2 : keys (PyDict.modify d.graph a (fun s => s.discard b)) = keys d.graph :=
          keys_modify _ _ _
        have hpop : ∀ e, get? (pop (modify d.owners (a, b) (fun s => s.discard o)) (a, b)) e =
            if e = (a, b) then none else d.owners.get? e := by
          intro e
          rw [get?_pop, get?_modify]
          by_cases he : e = (a, b) <;> simp [he]
        obtain ⟨p1, p2, p3, p4⟩ := prune_spec
          (d := { graph := PyDict.modify d.graph a (fun s => s.discard b),
                  owners := pop (modify d.owners (a, b) (fun s => s.discard o)) (a, b) })
          (by simp only [hk2]; exact h.gnodup)
        simp only at p1 p2 p3 p4
        simp only
        refine ⟨⟨p2, ?_, ?_, ?_, ?_, ?_, ?_⟩, ?_, ?_, Or.inl ((hown o).2 ho)⟩
        · rw [p1]
          apply nodup_pop
          rw [keys_modify]; exact h.onodup
        · intro e t ht
          rw [p1, hpop] at ht
          split at ht
          · cases ht
          · exact h.nonempty e t ht
        · intro x y
          rw [p3, hE2, p1, hpop, h.edge]
          by_cases he : (x, y) = (a, b)
          · cases he; simp
          · have : ¬ (x = a ∧ y = b) := by rintro ⟨rfl, rfl⟩; exact he rfl
            simp [this]
        · intro x y hxy
          rw [p4]
          have hxy' := (p3 x y).1 hxy
          refine ⟨?_, Or.inr ⟨x, hxy'⟩⟩
          rw [hk2]
          exact h.closed x y ((hE2 x y).1 hxy').1
        · intro x hx
          rw [p4] at hx
          rcases hx.2 with ⟨y, hy⟩ | ⟨y, hy⟩
          · exact Or.inl ⟨y, (p3 _ _).2 hy⟩
          · exact Or.inr ⟨y, (p3 _ _).2 hy⟩
        · intro x p
          exact h.acyclic x (p.mono (fun u v huv => ((hE2 u v).1 ((p3 u v).1 huv)).1))
        · intro x y p
          unfold Owns
          rw [p1, hpop]
          by_cases he : (x, y) = (a, b)
          · cases he
            simp only [if_true, reduceCtorEq, false_and, exists_false, true_and, false_iff]
            rintro ⟨⟨t, ht, hpt⟩, hne⟩
            rw [hos] at ht
            cases ht
            exact hne (honly p hpt)
          · have : ¬ (x = a ∧ y = b ∧ p = o) := by rintro ⟨rfl, rfl, _⟩; exact he rfl
            simp [he, this]
        · simp only [true_iff]
          exact ⟨(hown o).2 ho, fun p hp => honly p ((hown p).1 hp)⟩
      · rw [if_neg hempty]
        have hmod : ∀ e, get? (modify d.owners (a, b) (fun s => s.discard o)) e =
            if e = (a, b) then some (s.discard o) else d.owners.get? e := by
          intro e
          rw [get?_modify]
          by_cases he : e = (a, b) <;> simp [he, hos]
        refine ⟨⟨h.gnodup, ?_, ?_, ?_, h.closed, h.used, h.acyclic⟩, ?_, ?_,
          Or.inl ((hown o).2 ho)⟩
        · simp only [keys_modify]; exact h.onodup
        · intro e t ht
          simp only [hmod] at ht
          split at ht
          · cases ht
            intro hnil
            rw [hnil] at hempty
            simp at hempty
          · exact h.nonempty e t ht
        · intro x y
          simp only [hmod]
          rw [h.edge]
          by_cases he : (x, y) = (a, b)
          · cases he; simp [hos]
          · simp [he]
        · intro x y p
          unfold Owns
          simp only [hmod]
          by_cases he : (x, y) = (a, b)
          · cases he
            simp [hos]
          · have : ¬ (x = a ∧ y = b ∧ p = o) := by rintro ⟨rfl, rfl, _⟩; exact he rfl
            simp [he, this]
        · simp only [Bool.false_eq_true, false_iff]
          rintro ⟨_, hall⟩
          apply hempty
          rw [List.isEmpty_iff, List.eq_nil_iff_forall_not_mem]
          intro p hp
          simp at hp
          exact hp.2 (hall p ((hown p).2 hp.1))
    · simp only [ho, not_false_eq_true, if_true]
      refine ⟨h, ?_, ?_, Or.inr trivial⟩
      · intro x y p
        refine ⟨fun hh => ⟨hh, ?_⟩, fun hh => hh.1⟩
        rintro ⟨rfl, rfl, rfl⟩
        exact ho ((hown p).1 hh)
      · simp only [Bool.false_eq_true, false_iff]
        rintro ⟨hh, _⟩
        exact ho ((hown o).1 hh)

theorem removeOwnerLoop_spec (o : O) (es : List (T × T)) (d : DAG T O) (acc : PySet (T × T))
    (h : Inv d) :
    Inv (removeOwnerLoop o es d acc).1 ∧
    (∀ x y p, Owns (removeOwnerLoop o es d acc).1 x y p ↔
      Owns d x y p ∧ ¬ ((x, y) ∈ es ∧ p = o)) ∧
    (∀ e, e ∈ (removeOwnerLoop o es d acc).2 ↔ e ∈ acc ∨
      (e ∈ es ∧ Owns d e.1 e.2 o ∧ ∀ p, Owns d e.1 e.2 p → p = o)) := by
  induction es generalizing d acc with
  | nil =>
    simp [removeOwnerLoop, h]
  | cons e es ih =>
    obtain ⟨r1, r2, r3, r4⟩ := removeEdge_spec h e.1 e.2 o
    unfold removeOwnerLoop
    cases hos : d.owners.get? e with
    | none =>
      simp only
      have hno : ∀ p, ¬ Owns d e.1 e.2 p := by
        rintro p ⟨s, hs, _⟩
        rw [hos] at hs; cases hs
      obtain ⟨i1, i2, i3⟩ := ih d acc h
      refine ⟨i1, ?_, ?_⟩
      · intro x y p
        rw [i2, List.mem_cons]
        constructor
        · rintro ⟨h1, h2⟩
          refine ⟨h1, ?_⟩
          rintro ⟨rfl | hm, rfl⟩
          · exact hno _ h1
          · exact h2 ⟨hm, rfl⟩
        · rintro ⟨h1, h2⟩
          exact ⟨h1, fun hh => h2 ⟨Or.inr hh.1, hh.2⟩⟩
      · intro e'
        rw [i3, List.mem_cons]
        constructor
        · rintro (h1 | ⟨h1, h2⟩)
          · exact Or.inl h1
          · exact Or.inr ⟨Or.inr h1, h2⟩
        · rintro (h1 | ⟨rfl | h1, h2⟩)
          · exact Or.inl h1
          · exact absurd h2.1 (hno o)
          · exact Or.inr ⟨h1, h2⟩
    | some s =>
      simp only
      have hown : ∀ p, Owns d e.1 e.2 p ↔ p ∈ s := by
        intro p
        unfold Owns
        rw [hos]; simp
      by_cases ho : o ∈ s
      · rw [if_pos ho]
        obtain ⟨i1, i2, i3⟩ := ih (d.removeEdge e.1 e.2 o).1
          (if (d.removeEdge e.1 e.2 o).2 = true then acc.add e else acc) r1
        refine ⟨i1, ?_, ?_⟩
        · intro x y p
          rw [i2, r2, List.mem_cons]
          constructor
          · rintro ⟨⟨h1, h2⟩, h3⟩
            refine ⟨h1, ?_⟩
            rintro ⟨h4 | h4, rfl⟩
            · exact h2 ⟨by rw [← h4], by rw [← h4], rfl⟩
            · exact h3 ⟨h4, rfl⟩
          · rintro ⟨h1, h2⟩
            refine ⟨⟨h1, ?_⟩, fun hh => h2 ⟨Or.inr hh.1, hh.2⟩⟩
            rintro ⟨rfl, rfl, rfl⟩
            exact h2 ⟨Or.inl rfl, rfl⟩
        · intro e'
          rw [i3, List.mem_cons]
          have hacc : e' ∈ (if (d.removeEdge e.1 e.2 o).2 = true then acc.add e else acc) ↔
              e' ∈ acc ∨ (e' = e ∧ Owns d e.1 e.2 o ∧ ∀ p, Owns d e.1 e.2 p → p = o) := by
            by_cases hr : (d.removeEdge e.1 e.2 o).2 = true
            · rw [if_pos hr]
              have := r3.1 hr
              simp only [PySet.mem_add]
              grind
            · rw [if_neg hr]
              have : ¬ (Owns d e.1 e.2 o ∧ ∀ p, Owns d e.1 e.2 p → p = o) := fun hh => hr (r3.2 hh)
              grind
          rw [hacc]
          by_cases hee : e' = e
          · subst hee
            constructor
            · rintro ((h1 | ⟨_, h1⟩) | ⟨h1, h2, h3⟩)
              · exact Or.inl h1
              · exact Or.inr ⟨Or.inl rfl, h1⟩
              · rw [r2] at h2
                exact absurd ⟨rfl, rfl, rfl⟩ h2.2
            · rintro (h1 | ⟨_, h1⟩)
              · exact Or.inl (Or.inl h1)
              · exact Or.inl (Or.inr ⟨rfl, h1⟩)
          · have hne : ∀ p, ¬ (e'.1 = e.1 ∧ e'.2 = e.2 ∧ p = o) := by
              rintro p ⟨h1, h2, _⟩
              exact hee (Prod.ext h1 h2)
            have heq : ∀ p, Owns (d.removeEdge e.1 e.2 o).1 e'.1 e'.2 p ↔ Owns d e'.1 e'.2 p := by
              intro p
              rw [r2]
              exact ⟨fun hh => hh.1, fun hh => ⟨hh, hne p⟩⟩
            simp only [heq, hee, false_and, or_false, false_or]
      · rw [if_neg ho]
        obtain ⟨i1, i2, i3⟩ := ih d acc h
        have hno : ¬ Owns d e.1 e.2 o := fun hh => ho ((hown o).1 hh)
        refine ⟨i1, ?_, ?_⟩
        · intro x y p
          rw [i2, List.mem_cons]
          constructor
          · rintro ⟨h1, h2⟩
            refine ⟨h1, ?_⟩
            rintro ⟨rfl | hm, rfl⟩
            · exact hno h1
            · exact h2 ⟨hm, rfl⟩
          · rintro ⟨h1, h2⟩
            exact ⟨h1, fun hh => h2 ⟨Or.inr hh.1, hh.2⟩⟩
        · intro e'
          rw [i3, List.mem_cons]
          constructor
          · rintro (h1 | ⟨h1, h2⟩)
            · exact Or.inl h1
            · exact Or.inr ⟨Or.inr h1, h2⟩
          · rintro (h1 | ⟨rfl | h1, h2⟩)
            · exact Or.inl h1
            · exact absurd h2.1 hno
            · exact Or.inr ⟨h1, h2⟩

theorem removeOwner_spec {d : DAG T O} (h : Inv d) (o : O) :
    Inv (d.removeOwner o).1 ∧
    (∀ x y p, Owns (d.removeOwner o).1 x y p ↔ Owns d x y p ∧ p ≠ o) ∧
    (∀ a b, (a, b) ∈ (d.removeOwner o).2 ↔ Owns d a b o ∧ ∀ p, Owns d a b p → p = o) := by
  obtain ⟨i1, i2, i3⟩ := removeOwnerLoop_spec o d.owners.keys d [] h
  have hk : ∀ x y p, Owns d x y p → (x, y) ∈ d.owners.keys := by
    rintro x y p ⟨s, hs, _⟩
    rw [PyDict.mem_keys, hs]; rfl
  refine ⟨i1, ?_, ?_⟩
  · intro x y p
    unfold removeOwner
    rw [i2]
    constructor
    · rintro ⟨h1, h2⟩
      exact ⟨h1, fun hp => h2 ⟨hk x y p h1, hp⟩⟩
    · rintro ⟨h1, h2⟩
      exact ⟨h1, fun hh => h2 hh.2⟩
  · intro a b
    unfold removeOwner
    rw [i3]
    simp only [List.not_mem_nil, false_or]
    exact ⟨fun hh => hh.2, fun hh => ⟨hk _ _ _ hh.1, hh⟩⟩

end DAG
end Ez
