import Verif.Model.GraphUtil
import Verif.Lemmas.Dag

/-!
# C36: pruning proxy topics
-/

set_option linter.unusedSectionVars false
set_option linter.unusedSimpArgs false

namespace Ez
namespace GraphUtil
variable {T : Type} [DecidableEq T]

/-- Specification: the dictionary lists `b` among the targets of `a`. -/
def HasEdge (g : Graph T) (a b : T) : Prop := ∃ s, (a, s) ∈ g ∧ b ∈ s

/-- Specification: a topic that is both a source and a target. -/
def IsProxy (g : Graph T) (t : T) : Prop := (∃ a, HasEdge g a t) ∧ ∃ b, HasEdge g t b

theorem mem_sourceNodes {g : Graph T} {t : T} : t ∈ sourceNodes g ↔ ∃ b, HasEdge g t b := by
  unfold sourceNodes HasEdge
  simp only [List.mem_map, List.mem_filter, decide_eq_true_eq]
  constructor
  · rintro ⟨⟨k, s⟩, ⟨h1, h2⟩, rfl⟩
    obtain ⟨b, hb⟩ := List.exists_mem_of_length_pos h2
    exact ⟨b, s, h1, hb⟩
  · rintro ⟨b, s, h1, h2⟩
    exact ⟨(t, s), ⟨h1, List.length_pos_of_mem h2⟩, rfl⟩

theorem addProxies_spec (src : List T) (conns : PySet T) (acc : List T) (hn : acc.Nodup) :
    (addProxies src acc conns).Nodup ∧
    ∀ t, t ∈ addProxies src acc conns ↔ t ∈ acc ∨ (t ∈ conns ∧ t ∈ src) := by
  unfold addProxies
  induction conns generalizing acc with
  | nil => simp [hn]
  | cons c cs ih =>
    rw [List.foldl_cons]
    split
    · rename_i hc
      obtain ⟨h1, h2⟩ := ih (acc ++ [c]) (by rw [List.nodup_append]; simp [hn]; grind)
      exact ⟨h1, fun t => by rw [h2]; grind⟩
    · rename_i hc
      obtain ⟨h1, h2⟩ := ih acc hn
      exact ⟨h1, fun t => by rw [h2]; grind⟩

theorem proxyTopics_spec (g : Graph T) :
    (proxyTopics g).Nodup ∧ ∀ t, t ∈ proxyTopics g ↔ IsProxy g t := by
  have key : ∀ (l : Graph T) (acc : List T), acc.Nodup →
      (l.foldl (fun acc p => addProxies (sourceNodes g) acc p.2) acc).Nodup ∧
      ∀ t, t ∈ l.foldl (fun acc p => addProxies (sourceNodes g) acc p.2) acc ↔
        t ∈ acc ∨ ((∃ a s, (a, s) ∈ l ∧ t ∈ s) ∧ t ∈ sourceNodes g) := by
    intro l
    induction l with
    | nil => intro acc hn; simp [hn]
    | cons p l ih =>
      intro acc hn
      rw [List.foldl_cons]
      obtain ⟨h1, h2⟩ := addProxies_spec (sourceNodes g) p.2 acc hn
      obtain ⟨h3, h4⟩ := ih _ h1
      refine ⟨h3, fun t => ?_⟩
      rw [h4, h2]
      obtain ⟨k, s⟩ := p
      simp only [List.mem_cons, Prod.mk.injEq]
      grind
  obtain ⟨h1, h2⟩ := key g [] List.nodup_nil
  refine ⟨h1, fun t => ?_⟩
  unfold proxyTopics
  rw [h2, mem_sourceNodes]
  simp [IsProxy, HasEdge]

theorem mem_foldl_add (ds s : PySet T) (x : T) : x ∈ ds.foldl PySet.add s ↔ x ∈ s ∨ x ∈ ds := by
  induction ds generalizing s with
  | nil => simp
  | cons d ds ih =>
    rw [List.foldl_cons, ih]
    unfold PySet.add
    split <;> grind

theorem mem_replaceProxy {p : T} {ds conns : PySet T} {x : T} : x ∈ replaceProxy p ds conns ↔
    (x ∈ conns ∧ x ≠ p) ∨ (p ∈ conns ∧ x ∈ ds) := by
  unfold replaceProxy
  split
  · rw [mem_foldl_add]; simp [PySet.discard]; grind
  · grind

theorem removeProxy_spec {g : Graph T} {p : T} (hn : (PyDict.keys g).Nodup) (hp : p ∈ PyDict.keys g) :
    ∃ g', removeProxy g p = some g' ∧ PyDict.keys g' = (PyDict.keys g).filter (fun k => decide (k ≠ p)) ∧
      ∀ a b, HasEdge g' a b ↔ a ≠ p ∧ ((HasEdge g a b ∧ b ≠ p) ∨ (HasEdge g a p ∧ HasEdge g p b)) := by
  obtain ⟨ds, hds⟩ := Option.isSome_iff_exists.1 (PyDict.mem_keys.1 hp)
  refine ⟨(PyDict.pop g p).map (fun n => (n.1, replaceProxy p ds n.2)), by simp only [removeProxy, hds], ?_, ?_⟩
  · unfold PyDict.keys PyDict.pop
    rw [List.map_map, List.filter_map]
    rfl
  · intro a b
    have hd : ∀ x, HasEdge g p x ↔ x ∈ ds := by
      intro x
      constructor
      · rintro ⟨s, h1, h2⟩
        have := PyDict.get?_of_mem hn h1
        rw [hds] at this; cases this; exact h2
      · intro h; exact ⟨ds, PyDict.mem_of_get? hds, h⟩
    unfold HasEdge PyDict.pop
    simp only [List.mem_map, List.mem_filter, decide_eq_true_eq, Prod.mk.injEq]
    constructor
    · rintro ⟨s, ⟨⟨k, c⟩, ⟨h1, h2⟩, rfl, rfl⟩, h3⟩
      refine ⟨h2, ?_⟩
      rcases mem_replaceProxy.1 h3 with ⟨h4, h5⟩ | ⟨h4, h5⟩
      · exact Or.inl ⟨⟨c, h1, h4⟩, h5⟩
      · exact Or.inr ⟨⟨c, h1, h4⟩, (hd b).2 h5⟩
    · rintro ⟨h1, ⟨⟨s, h2, h3⟩, h4⟩ | ⟨⟨s, h2, h3⟩, h4⟩⟩
      · exact ⟨_, ⟨(a, s), ⟨h2, h1⟩, rfl, rfl⟩, mem_replaceProxy.2 (Or.inl ⟨h3, h4⟩)⟩
      · exact ⟨_, ⟨(a, s), ⟨h2, h1⟩, rfl, rfl⟩, mem_replaceProxy.2 (Or.inr ⟨h3, (hd b).1 h4⟩)⟩

/-- A path whose inner nodes are all in `C`. -/
inductive Via (E : T → T → Prop) (C : T → Prop) : T → T → Prop where
  | single {a b : T} : E a b → Via E C a b
  | cons {a b c : T} : E a b → C b → Via E C b c → Via E C a c

theorem Via.mono {E : T → T → Prop} {C D : T → Prop} (h : ∀ x, C x → D x) {a b : T} (v : Via E C a b) :
    Via E D a b := by
  induction v with
  | single e => exact .single e
  | cons e hc _ ih => exact .cons e (h _ hc) ih

theorem Via.trans {E : T → T → Prop} {C : T → Prop} {a b c : T} (v : Via E C a b) (hb : C b)
    (w : Via E C b c) : Via E C a c := by
  induction v with
  | single e => exact .cons e hb w
  | cons e hc _ ih => exact .cons e hc (ih hb w)

theorem Via.path {E : T → T → Prop} {C : T → Prop} {a b : T} (v : Via E C a b) : Path E a b := by
  induction v with
  | single e => exact .single e
  | cons e _ _ ih => exact .cons e ih

theorem Via.split {E : T → T → Prop} {C : T → Prop} {p a b : T} (v : Via E (fun x => C x ∨ x = p) a b) :
    Via E C a b ∨ (Via E C a p ∧ Via E C p b) := by
  induction v with
  | single e => exact Or.inl (.single e)
  | cons e hc _ ih =>
    rcases hc with hc | rfl
    · rcases ih with h | ⟨h1, h2⟩
      · exact Or.inl (.cons e hc h)
      · exact Or.inr ⟨.cons e hc h1, h2⟩
    · rcases ih with h | ⟨_, h2⟩
      · exact Or.inr ⟨.single e, h⟩
      · exact Or.inr ⟨.single e, h2⟩

theorem removeProxies_spec {E : T → T → Prop} (ps : List T) (g : Graph T) (C : T → Prop)
    (hn : (PyDict.keys g).Nodup) (hps : ps.Nodup) (hk : ∀ p ∈ ps, p ∈ PyDict.keys g) (hC : ∀ p ∈ ps, ¬ C p)
    (h1 : ∀ a b, ¬ C b → (HasEdge g a b ↔ ¬ C a ∧ Via E C a b))
    (h2 : (∀ x, ¬ Path E x x) → ∀ a b, HasEdge g a b → ¬ C b) :
    ∃ g', removeProxies ps g = some g' ∧
      PyDict.keys g' = (PyDict.keys g).filter (fun k => decide (k ∉ ps)) ∧
      (∀ a b, ¬ (C b ∨ b ∈ ps) → (HasEdge g' a b ↔ ¬ (C a ∨ a ∈ ps) ∧ Via E (fun x => C x ∨ x ∈ ps) a b)) ∧
      ((∀ x, ¬ Path E x x) → ∀ a b, HasEdge g' a b → ¬ (C b ∨ b ∈ ps)) := by
  induction ps generalizing g C with
  | nil =>
    refine ⟨g, rfl, (List.filter_eq_self.2 (by simp)).symm, ?_, ?_⟩
    · intro a b hb
      simp only [List.not_mem_nil, or_false] at hb ⊢
      exact h1 a b hb
    · intro ha a b h
      simp only [List.not_mem_nil, or_false]
      exact h2 ha a b h
  | cons p ps ih =>
    obtain ⟨g1, e1, k1, s1⟩ := removeProxy_spec hn (hk p (by simp))
    rw [List.nodup_cons] at hps
    have hp : ¬ C p := hC p (by simp)
    obtain ⟨g', e2, k2, s2, s3⟩ := ih g1 (fun x => C x ∨ x = p)
      (by rw [k1]; exact hn.filter _) hps.2
      (by intro q hq; rw [k1]; simp [hk q (by simp [hq])]; rintro rfl; exact hps.1 hq)
      (by
        intro q hq h
        rcases h with h | rfl
        · exact hC q (by simp [hq]) h
        · exact hps.1 hq)
      (by
        intro a b hb
        have hb1 : ¬ C b := fun h => hb (Or.inl h)
        have hb2 : b ≠ p := fun h => hb (Or.inr h)
        rw [s1, h1 a b hb1, h1 a p hp, h1 p b hb1]
        constructor
        · rintro ⟨q1, ⟨⟨q2, q3⟩, _⟩ | ⟨⟨q2, q3⟩, _, q4⟩⟩
          · exact ⟨fun h => h.elim q2 q1, q3.mono (fun x => Or.inl)⟩
          · exact ⟨fun h => h.elim q2 q1, (q3.mono (fun x => Or.inl)).trans (Or.inr rfl)
              (q4.mono (fun x => Or.inl))⟩
        · rintro ⟨q1, q2⟩
          have qa : ¬ C a := fun h => q1 (Or.inl h)
          refine ⟨fun h => q1 (Or.inr h), ?_⟩
          rcases q2.split with h | ⟨h, h'⟩
          · exact Or.inl ⟨⟨qa, h⟩, hb2⟩
          · exact Or.inr ⟨⟨qa, h⟩, hp, h'⟩)
      (by
        intro hac a b h
        rw [s1] at h
        rcases h with ⟨_, ⟨h, hne⟩ | ⟨_, h⟩⟩
        · rintro (hc | rfl)
          · exact h2 hac a b h hc
          · exact hne rfl
        · rintro (hc | rfl)
          · exact h2 hac p b h hc
          · exact hac b ((h1 b b hp).1 h).2.path)
    have hor : ∀ x, ((C x ∨ x = p) ∨ x ∈ ps) ↔ (C x ∨ x ∈ p :: ps) := by
      intro x; rw [List.mem_cons, or_assoc]
    refine ⟨g', by simp only [removeProxies, e1, Option.bind_some, e2], ?_, ?_, ?_⟩
    · rw [k2, k1, List.filter_filter]
      congr 1
      funext k
      simp only [List.mem_cons, not_or, ← Bool.decide_and]
      congr 1
      exact propext ⟨fun h => ⟨h.2, h.1⟩, fun h => ⟨h.2, h.1⟩⟩
    · intro a b hb
      simp only [hor] at s2
      exact s2 a b hb
    · intro hac a b h
      have := s3 hac a b h
      rwa [hor] at this

/-- **C36.** Pruning succeeds for every graph dictionary. The topics reported are exactly those that were
both source and target, each once; exactly their entries are gone. Between the remaining topics there is a
path in the pruned graph exactly when there was one before. If the graph has no cycle, no edge of the pruned
graph mentions a reported topic. -/
theorem C36_prune_keeps_connectivity (g : Graph T) (hn : (PyDict.keys g).Nodup) :
    ∃ g' ps, pruneGraphConnections g = some (g', ps) ∧
      ps.Nodup ∧ (∀ t, t ∈ ps ↔ IsProxy g t) ∧
      PyDict.keys g' = (PyDict.keys g).filter (fun k => decide (k ∉ ps)) ∧
      (∀ u v, u ∉ ps → v ∉ ps → (Path (HasEdge g') u v ↔ Path (HasEdge g) u v)) ∧
      ((∀ x, ¬ Path (HasEdge g) x x) → ∀ u v, HasEdge g' u v → u ∉ ps ∧ v ∉ ps) := by
  obtain ⟨hps, hmem⟩ := proxyTopics_spec g
  obtain ⟨g', e, k, s1, s2⟩ := removeProxies_spec (E := HasEdge g) (proxyTopics g) g (fun _ => False) hn hps
    (by
      intro p hp
      obtain ⟨_, b, s, h, _⟩ := (hmem p).1 hp
      exact List.mem_map.2 ⟨(p, s), h, rfl⟩)
    (by simp)
    (by
      intro a b _
      constructor
      · intro h; exact ⟨id, .single h⟩
      · rintro ⟨_, v⟩
        cases v with
        | single e => exact e
        | cons _ h _ => exact h.elim)
    (by simp)
  simp only [false_or] at s1 s2
  have via_of_path : ∀ {u v}, Path (HasEdge g) u v → Via (HasEdge g) (fun x => x ∈ proxyTopics g) u v := by
    intro u v p
    induction p with
    | single e => exact .single e
    | @cons a b c e p ih =>
      refine .cons e ((hmem b).2 ⟨⟨a, e⟩, ?_⟩) ih
      rcases p.first with h | ⟨x, h, _⟩
      · exact ⟨_, h⟩
      · exact ⟨x, h⟩
  refine ⟨g', proxyTopics g, by simp [pruneGraphConnections, e], hps, hmem, k, ?_, ?_⟩
  · intro u v hu hv
    constructor
    · intro p
      induction p with
      | single e => exact ((s1 _ _ hv).1 e).2.path
      | @cons a b c e p ih =>
        by_cases hb : b ∈ proxyTopics g
        · -- a reported topic has no entry any more
          exfalso
          have : b ∈ PyDict.keys g' := by
            rcases p.first with ⟨s, h, _⟩ | ⟨x, ⟨s, h, _⟩, _⟩ <;> exact List.mem_map.2 ⟨(b, s), h, rfl⟩
          rw [k] at this
          simp [hb] at this
        · exact ((s1 _ _ hb).1 e).2.path.trans (ih hb hv)
    · intro p
      exact .single ((s1 u v hv).2 ⟨hu, via_of_path p⟩)
  · intro hac u v h
    have hv := s2 hac u v h
    exact ⟨((s1 u v hv).1 h).1, hv⟩

/-- `a → x → y → b`, `c → y`: the proxies `x`, `y` disappear, both sources reach `b`. -/
example : pruneGraphConnections [("a", ["x"]), ("x", ["y"]), ("y", ["b"]), ("c", ["y"]), ("b", [])] =
    some ([("a", ["b"]), ("c", ["b"]), ("b", [])], ["x", "y"]) := by decide

/-- **C36, cyclic graphs.** With a cycle a reported topic can stay behind as a target (the graph server's
graph has no cycles, C05). -/
theorem C36_negation_cycle : pruneGraphConnections [("s", ["a"]), ("a", ["b"]), ("b", ["a"])] =
    some ([("s", ["b"])], ["a", "b"]) := by decide

end GraphUtil
end Ez
