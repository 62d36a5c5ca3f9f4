import Verif.Model.Address
import Verif.Lemmas.Py

/-!
# C82: addresses of components and streams
-/

set_option linter.unusedSectionVars false
set_option linter.unusedSimpArgs false

namespace Ez
namespace Address
variable {K : Type} [DecidableEq K]

/-! ## Specification -/

/-- Specification: names separated by slashes. -/
def slashed (p : List Name) : List Char := List.intercalate ['/'] p

mutual
/-- Specification: all objects of a component whose parent is at `loc`, with the names on the way to them. -/
def Comp.objs (loc : List Name) : Comp K → List (K × List Name)
  | .mk n i _ ss cs => (i, loc ++ [n]) :: (objsAll (loc ++ [n]) cs ++ ss.map fun s => (s.id, loc ++ [n] ++ [s.name]))
def objsAll (loc : List Name) : List (Comp K) → List (K × List Name)
  | [] => []
  | c :: cs => c.objs loc ++ objsAll loc cs
end

mutual
/-- Specification: the ways to all streams of a component. -/
def Comp.strms (loc : List Name) : Comp K → List (List Name)
  | .mk n _ _ ss cs => (ss.map fun s => loc ++ [n] ++ [s.name]) ++ strmsAll (loc ++ [n]) cs
def strmsAll (loc : List Name) : List (Comp K) → List (List Name)
  | [] => []
  | c :: cs => c.strms loc ++ strmsAll loc cs
end

mutual
/-- Specification: the ways to all components of a component, itself included. -/
def Comp.comps (loc : List Name) : Comp K → List (List Name)
  | .mk n _ _ _ cs => (loc ++ [n]) :: compsAll (loc ++ [n]) cs
def compsAll (loc : List Name) : List (Comp K) → List (List Name)
  | [] => []
  | c :: cs => c.comps loc ++ compsAll loc cs
end

/-- Specification: components that have not been set up, made up of different objects, whose members carry the
names under which they are held. -/
structure Ready (root : Option Name) (st : St K) (cs : List (Comp K)) : Prop where
  distinct : ((objsAll root.toList cs).map (·.1)).Nodup
  unnamed : ∀ c ∈ cs, st.names c.id = none
  named : ∀ c ∈ cs, ∀ x ∈ (c.objs root.toList).tail, st.names x.1 = x.2.getLast?
  unplaced : ∀ x ∈ objsAll root.toList cs, st.locs x.1 = none

/-! ## Placing components -/

theorem setLoc1_names (k : K) (l : List Name) (st : St K) : (setLoc1 k l st).1.names = st.names := by
  simp only [setLoc1]; split <;> rfl

theorem setStreams_names (k : K) : ∀ (ss : List (Strm K)) (st : St K), (setStreams k ss st).1.names = st.names
  | [], st => rfl
  | s :: ss, st => by
    simp only [setStreams]
    split
    · rfl
    · split
      · rw [setStreams_names k ss, setLoc1_names]
      · exact setLoc1_names _ _ _

mutual
theorem setLoc_names : ∀ (c : Comp K) (loc : List Name) (st : St K), (setLoc loc c st).1.names = st.names
  | .mk n i b ss cs, loc, st => by
    simp only [setLoc]
    split
    · split
      · rw [setStreams_names, setComps_names, setLoc1_names]
      · rw [setComps_names, setLoc1_names]
    · exact setLoc1_names _ _ _
theorem setComps_names : ∀ (cs : List (Comp K)) (k : K) (st : St K), (setComps k cs st).1.names = st.names
  | [], k, st => rfl
  | c :: cs, k, st => by
    simp only [setComps]
    split
    · rfl
    · split
      · rw [setComps_names cs, setLoc_names c]
      · exact setLoc_names _ _ _
end

theorem setLoc1_mono (k x : K) (l : List Name) (st : St K) (h : (st.locs x).isSome) :
    (setLoc1 k l st).1.locs x = st.locs x := by
  simp only [setLoc1]
  split
  · rfl
  · rename_i h1
    simp only [upd]
    split
    · rename_i e; subst e; exact absurd h h1
    · rfl

theorem setStreams_mono (k x : K) : ∀ (ss : List (Strm K)) (st : St K), (st.locs x).isSome →
    (setStreams k ss st).1.locs x = st.locs x
  | [], st, h => rfl
  | s :: ss, st, h => by
    simp only [setStreams]
    split
    · rfl
    · rename_i p _
      have h1 := setLoc1_mono s.id x p st h
      split
      · rw [setStreams_mono k x ss _ (by rw [h1]; exact h), h1]
      · exact h1

mutual
theorem setLoc_mono (x : K) : ∀ (c : Comp K) (loc : List Name) (st : St K), (st.locs x).isSome →
    (setLoc loc c st).1.locs x = st.locs x
  | .mk n i b ss cs, loc, st, h => by
    have h1 := setLoc1_mono i x loc st h
    have h2 := setComps_mono x cs i (setLoc1 i loc st).1 (by rw [h1]; exact h)
    simp only [setLoc]
    split
    · split
      · rw [setStreams_mono i x ss _ (by rw [h2, h1]; exact h), h2, h1]
      · rw [h2, h1]
    · exact h1
theorem setComps_mono (x : K) : ∀ (cs : List (Comp K)) (k : K) (st : St K), (st.locs x).isSome →
    (setComps k cs st).1.locs x = st.locs x
  | [], k, st, h => rfl
  | c :: cs, k, st, h => by
    simp only [setComps]
    split
    · rfl
    · rename_i p _
      have h1 := setLoc_mono x c p st h
      split
      · rw [setComps_mono x cs k _ (by rw [h1]; exact h), h1]
      · exact h1
end

/-- What a successful placing shows about the state before and after. -/
structure Placed (ids : List K) (st st' : St K) : Prop where
  before : ∀ k ∈ ids, st.locs k = none
  nodup : ids.Nodup
  after : ∀ k ∈ ids, (st'.locs k).isSome

theorem Placed.nil (st : St K) : Placed [] st st := ⟨by simp, by simp, by simp⟩

theorem Placed.trans {a b : List K} {s t u : St K} (h1 : Placed a s t) (h2 : Placed b t u)
    (m1 : ∀ x, (s.locs x).isSome → t.locs x = s.locs x) (m2 : ∀ x, (t.locs x).isSome → u.locs x = t.locs x) :
    Placed (a ++ b) s u := by
  obtain ⟨b1, n1, a1⟩ := h1
  obtain ⟨b2, n2, a2⟩ := h2
  have bn : ∀ k ∈ b, s.locs k = none := by
    intro k hk
    cases e : s.locs k with
    | none => rfl
    | some v => have := m1 k (by simp [e]); rw [b2 k hk, e] at this; cases this
  refine ⟨fun k hk => (List.mem_append.1 hk).elim (b1 k) (bn k), ?_, fun k hk => (List.mem_append.1 hk).elim ?_ (a2 k)⟩
  · refine List.nodup_append.2 ⟨n1, n2, ?_⟩
    rintro k h1 _ h2 rfl
    have := a1 k h1
    rw [b2 k h2] at this; cases this
  · intro h; rw [m2 k (a1 k h)]; exact a1 k h

theorem setLoc1_placed (k : K) (l : List Name) (st : St K) (h : (setLoc1 k l st).2 = true) :
    Placed [k] st (setLoc1 k l st).1 := by
  simp only [setLoc1] at h ⊢
  split at h
  · cases h
  · rename_i h1
    rw [if_neg h1]
    refine ⟨?_, by simp, ?_⟩
    · simpa using h1
    · simp [upd]

theorem setStreams_placed (k : K) : ∀ (ss : List (Strm K)) (st : St K), (setStreams k ss st).2 = true →
    Placed (ss.map (·.id)) st (setStreams k ss st).1
  | [], st, h => Placed.nil st
  | s :: ss, st, h => by
    simp only [setStreams] at h ⊢
    split at h
    · cases h
    · rename_i p _
      split at h
      · rename_i h1
        rw [if_pos h1]
        exact (setLoc1_placed s.id p st h1).trans (setStreams_placed k ss _ h) (fun x => setLoc1_mono s.id x p st)
          (fun x => setStreams_mono k x ss _)
      · rename_i h1; exact absurd h h1

mutual
theorem setLoc_placed : ∀ (c : Comp K) (loc l : List Name) (st : St K), (setLoc loc c st).2 = true →
    Placed ((c.objs l).map (·.1)) st (setLoc loc c st).1
  | .mk n i b ss cs, loc, l, st, h => by
    simp only [setLoc] at h ⊢
    split at h
    · rename_i h1
      rw [if_pos h1]
      split at h
      · rename_i h2
        rw [if_pos h2]
        have := (setLoc1_placed i loc st h1).trans
          ((setComps_placed cs i (l ++ [n]) _ h2).trans (setStreams_placed i ss _ h) (fun x => setComps_mono x cs i _)
            (fun x => setStreams_mono i x ss _)) (fun x => setLoc1_mono i x loc st)
          (fun x hx => by
            have e := setComps_mono x cs i _ hx
            rw [setStreams_mono i x ss _ (by rw [e]; exact hx), e])
        simpa [Comp.objs, Function.comp_def] using this
      · rename_i h2; exact absurd h h2
    · rename_i h1; exact absurd h h1
theorem setComps_placed : ∀ (cs : List (Comp K)) (k : K) (l : List Name) (st : St K), (setComps k cs st).2 = true →
    Placed ((objsAll l cs).map (·.1)) st (setComps k cs st).1
  | [], k, l, st, h => Placed.nil st
  | c :: cs, k, l, st, h => by
    simp only [setComps] at h ⊢
    split at h
    · cases h
    · rename_i p _
      split at h
      · rename_i h1
        rw [if_pos h1]
        have := (setLoc_placed c p l st h1).trans (setComps_placed cs k l _ h) (fun x => setLoc_mono x c p st)
          (fun x => setComps_mono x cs k _)
        simpa [objsAll] using this
      · rename_i h1; exact absurd h h1
end

/-! ### Where objects end up -/

/-- Locating objects `xs` (which carry their names) succeeded and put each where it belongs. -/
structure Good (xs : List (K × List Name)) (st : St K) (r : St K × Bool) : Prop where
  ok : r.2 = true
  names : r.1.names = st.names
  at_ : ∀ x ∈ xs, r.1.locs x.1 = some x.2.dropLast
  rest : ∀ k, k ∉ xs.map (·.1) → r.1.locs k = st.locs k

theorem setLoc1_good {k : K} {l : List Name} {n : Name} {st : St K} (h : st.locs k = none) :
    Good [(k, l ++ [n])] st (setLoc1 k l st) := by
  simp only [setLoc1, h, Option.isSome_none, Bool.false_eq_true, if_false]
  refine ⟨rfl, rfl, ?_, ?_⟩
  · simp [upd]
  · intro x hx
    simp only [List.map_cons, List.map_nil, List.mem_singleton] at hx
    simp [upd, hx]

theorem Good.trans {xs ys : List (K × List Name)} {st : St K} {r r' : St K × Bool} (h1 : Good xs st r)
    (h2 : Good ys r.1 r') (hd : ∀ k ∈ xs.map (·.1), k ∉ ys.map (·.1)) : Good (xs ++ ys) st r' := by
  refine ⟨h2.ok, h2.names.trans h1.names, fun x hx => (List.mem_append.1 hx).elim (fun h => ?_) (h2.at_ x), fun k hk => ?_⟩
  · rw [h2.rest x.1 (hd x.1 (List.mem_map_of_mem h))]; exact h1.at_ x h
  · rw [List.map_append, List.mem_append, not_or] at hk
    rw [h2.rest k hk.2, h1.rest k hk.1]

theorem path_eq {st : St K} {k : K} {l : List Name} {n : Name} (h1 : st.locs k = some l) (h2 : st.names k = some n) :
    st.path k = some (l ++ [n]) := by simp [St.path, h1, h2]

theorem setStreams_good {k : K} {p : List Name} : ∀ (ss : List (Strm K)) (st : St K),
    st.path k = some p → k ∉ ss.map (·.id) → (ss.map (·.id)).Nodup → (∀ s ∈ ss, st.locs s.id = none) →
    Good (ss.map fun s => (s.id, p ++ [s.name])) st (setStreams k ss st)
  | [], st, _, _, _, _ => ⟨rfl, rfl, by simp, by simp [setStreams]⟩
  | s :: ss, st, hp, hk, hn, hl => by
    simp only [List.map_cons, List.nodup_cons, List.mem_cons, not_or] at hk hn
    have g := setLoc1_good (n := s.name) (l := p) (hl s (by simp))
    have hp' : (setLoc1 s.id p st).1.path k = some p := by
      rw [St.path, g.names, g.rest k (by simpa using hk.1)]; exact hp
    have := setStreams_good ss (setLoc1 s.id p st).1 hp' hk.2 hn.2 (fun t ht => by
      rw [g.rest t.id (by simp; rintro h; exact hn.1 (h ▸ List.mem_map_of_mem ht))]
      exact hl t (by simp [ht]))
    simp only [setStreams, hp, g.ok, if_true]
    exact g.trans this (by simpa using hn.1)

mutual
theorem setLoc_good : ∀ (c : Comp K) (loc : List Name) (st : St K),
    ((c.objs loc).map (·.1)).Nodup → (∀ x ∈ c.objs loc, st.names x.1 = x.2.getLast?) →
    (∀ x ∈ c.objs loc, st.locs x.1 = none) → Good (c.objs loc) st (setLoc loc c st)
  | .mk n i b ss cs, loc, st, hn, hm, hl => by
    simp only [Comp.objs] at hn hm hl ⊢
    simp only [List.map_cons, List.nodup_cons, List.map_append, List.nodup_append, List.map_map, Function.comp_def,
      List.mem_append, not_or] at hn
    obtain ⟨⟨n1, n2⟩, n3, n4, n5⟩ := hn
    have g1 := setLoc1_good (n := n) (l := loc) (st := st) (k := i) (hl (i, loc ++ [n]) (by simp))
    have hp : (setLoc1 i loc st).1.path i = some (loc ++ [n]) := by
      refine path_eq (by simpa using g1.at_ (i, loc ++ [n]) (by simp)) ?_
      rw [g1.names]; simpa using hm (i, loc ++ [n]) (by simp)
    have g2 := setComps_good (k := i) (p := loc ++ [n]) cs (setLoc1 i loc st).1 hp n1 n3
      (fun x hx => by rw [g1.names]; exact hm x (by simp [hx]))
      (fun x hx => by
        rw [g1.rest x.1 (by simp; rintro rfl; exact n1 (List.mem_map_of_mem hx))]
        exact hl x (by simp [hx]))
    have hp2 : (setComps i cs (setLoc1 i loc st).1).1.path i = some (loc ++ [n]) := by
      rw [St.path, g2.names, g2.rest i n1]; exact hp
    have g3 := setStreams_good (k := i) (p := loc ++ [n]) ss _ hp2 n2 n4 (fun s hs => by
      have h1 : s.id ∉ (objsAll (loc ++ [n]) cs).map (·.1) := fun h => n5 _ h _ (List.mem_map_of_mem hs) rfl
      rw [g2.rest s.id h1, g1.rest s.id (by simp; intro h; exact n2 (h ▸ List.mem_map_of_mem hs))]
      exact hl (s.id, loc ++ [n] ++ [s.name]) (by simp only [List.mem_cons, List.mem_append, List.mem_map]; exact Or.inr (Or.inr ⟨s, hs, rfl⟩)))
    have g23 := g2.trans g3 (fun k hk h => n5 k hk k (by simpa [Function.comp_def] using h) rfl)
    have g := g1.trans g23 (by
      simp only [List.map_cons, List.map_nil, List.mem_singleton, forall_eq, List.map_append, List.map_map,
        Function.comp_def, List.mem_append, not_or]
      exact ⟨n1, n2⟩)
    simp only [setLoc, g1.ok, g2.ok, if_true]
    exact g
theorem setComps_good {k : K} {p : List Name} : ∀ (cs : List (Comp K)) (st : St K),
    st.path k = some p → k ∉ (objsAll p cs).map (·.1) → ((objsAll p cs).map (·.1)).Nodup →
    (∀ x ∈ objsAll p cs, st.names x.1 = x.2.getLast?) →
    (∀ x ∈ objsAll p cs, st.locs x.1 = none) → Good (objsAll p cs) st (setComps k cs st)
  | [], st, _, _, _, _, _ => ⟨rfl, rfl, by simp [objsAll], by simp [setComps]⟩
  | c :: cs, st, hp, hk, hn, hm, hl => by
    simp only [objsAll, List.map_append, List.mem_append, not_or, List.nodup_append] at hk hn hm hl ⊢
    have g1 := setLoc_good c p st hn.1 (fun x hx => hm x (Or.inl hx)) (fun x hx => hl x (Or.inl hx))
    have hp' : (setLoc p c st).1.path k = some p := by
      rw [St.path, g1.names, g1.rest k hk.1]; exact hp
    have g2 := setComps_good cs (setLoc p c st).1 hp' hk.2 hn.2.1
      (fun x hx => by rw [g1.names]; exact hm x (Or.inr hx))
      (fun x hx => by
        rw [g1.rest x.1 (fun h => hn.2.2 _ h _ (List.mem_map_of_mem hx) rfl)]
        exact hl x (Or.inr hx))
    simp only [setComps, hp, g1.ok, if_true]
    exact g1.trans g2 (fun k h1 h2 => hn.2.2 k h1 k h2 rfl)
end

theorem objs_eq (loc : List Name) (c : Comp K) : c.objs loc = (c.id, loc ++ [c.name]) :: (c.objs loc).tail := by
  cases c; rfl

theorem setName_names (k : K) (n : Name) (st : St K) : ((setName k n st).1.names k).isSome := by
  simp only [setName]; split
  · assumption
  · simp [upd]

theorem setName_mono (k x : K) (n : Name) (st : St K) (h : (st.names x).isSome) :
    ((setName k n st).1.names x).isSome := by
  simp only [setName]; split
  · exact h
  · simp only [upd]; split
    · rfl
    · exact h

theorem setName_locs (k : K) (n : Name) (st : St K) : (setName k n st).1.locs = st.locs := by
  simp only [setName]; split <;> rfl

theorem place_names_mono (root : Option Name) (x : K) : ∀ (cs : List (Comp K)) (st : St K), (st.names x).isSome →
    ((place root cs st).1.names x).isSome
  | [], st, h => h
  | c :: cs, st, h => by
    have h1 := setName_mono c.id x c.name st h
    have h2 : (((setLoc root.toList c (setName c.id c.name st).1).1).names x).isSome := by rw [setLoc_names]; exact h1
    simp only [place]
    split
    · split
      · exact place_names_mono root x cs _ h2
      · exact h2
    · exact h1

theorem place_locs_mono (root : Option Name) (x : K) : ∀ (cs : List (Comp K)) (st : St K), (st.locs x).isSome →
    (place root cs st).1.locs x = st.locs x
  | [], st, h => rfl
  | c :: cs, st, h => by
    have h1 : (setName c.id c.name st).1.locs x = st.locs x := by rw [setName_locs]
    have h2 := setLoc_mono x c root.toList (setName c.id c.name st).1 (by rw [h1]; exact h)
    simp only [place]
    split
    · split
      · rw [place_locs_mono root x cs _ (by rw [h2, h1]; exact h), h2, h1]
      · rw [h2, h1]
    · exact h1

theorem mem_objsAll {loc : List Name} {x : K × List Name} : ∀ {cs : List (Comp K)},
    x ∈ objsAll loc cs ↔ ∃ c ∈ cs, x ∈ c.objs loc
  | [] => by simp [objsAll]
  | c :: cs => by simp [objsAll, mem_objsAll (cs := cs)]

mutual
theorem objs_ne : ∀ (c : Comp K) (loc : List Name) (x : K × List Name), x ∈ c.objs loc → x.2 ≠ []
  | .mk n i b ss cs, loc, x, h => by
    simp only [Comp.objs, List.mem_cons, List.mem_append, List.mem_map] at h
    rcases h with rfl | h | ⟨s, _, rfl⟩
    · simp
    · exact objsAll_ne cs _ x h
    · simp
theorem objsAll_ne : ∀ (cs : List (Comp K)) (loc : List Name) (x : K × List Name), x ∈ objsAll loc cs → x.2 ≠ []
  | [], loc, x, h => by simp [objsAll] at h
  | c :: cs, loc, x, h => by
    simp only [objsAll, List.mem_append] at h
    exact h.elim (objs_ne c loc x) (objsAll_ne cs loc x)
end

theorem slashed_cons (a b : Name) (p : List Name) : slashed (a :: b :: p) = a ++ '/' :: slashed (b :: p) := by
  simp [slashed, List.intercalate, List.intersperse]

theorem join_eq : ∀ p : List Name, join p = slashed p
  | [] => by simp [join, slashed, List.intercalate, List.intersperse]
  | [a] => by simp [join, slashed, List.intercalate, List.intersperse]
  | a :: b :: p => by rw [slashed_cons, join, join_eq (b :: p)]; rfl

/-- C82: setting up components that have not been used succeeds, and afterwards the address of every component and
stream is made of the root name (if any) and the names on the way to it, separated by slashes. -/
theorem C82_placed (root : Option Name) : ∀ (cs : List (Comp K)) (st : St K), Ready root st cs →
    (place root cs st).2 = true ∧
      ∀ x ∈ objsAll root.toList cs, (place root cs st).1.address x.1 = some (slashed x.2) := by
  have aux : ∀ (cs : List (Comp K)) (st : St K), Ready root st cs →
      (place root cs st).2 = true ∧
        (∀ x ∈ objsAll root.toList cs, (place root cs st).1.locs x.1 = some x.2.dropLast ∧
          (place root cs st).1.names x.1 = x.2.getLast?) ∧
        ∀ k, k ∉ (objsAll root.toList cs).map (·.1) → (place root cs st).1.locs k = st.locs k ∧
          (place root cs st).1.names k = st.names k := by
    intro cs
    induction cs with
    | nil => intro st _; simp [place, objsAll]
    | cons c cs ih =>
      intro st h
      have hd := h.distinct
      simp only [objsAll, List.map_append, List.nodup_append] at hd
      obtain ⟨d1, d2, d3⟩ := hd
      have hc : st.names c.id = none := h.unnamed c (by simp)
      have hid : c.id ∈ (c.objs root.toList).map (·.1) := by rw [objs_eq]; simp
      have e1 : setName c.id c.name st = ({ st with names := upd st.names c.id c.name }, true) := by
        simp [setName, hc]
      have g := setLoc_good c root.toList { st with names := upd st.names c.id c.name } d1
        (by
          intro x hx
          rw [objs_eq] at hx
          rcases List.mem_cons.1 hx with rfl | hx
          · simp [upd]
          · have : x.1 ≠ c.id := by
              intro e
              rw [objs_eq] at d1
              simp only [List.map_cons, List.nodup_cons] at d1
              exact d1.1 (e ▸ List.mem_map_of_mem hx)
            simp only [upd, this, if_false]
            exact h.named c (by simp) x hx)
        (fun x hx => h.unplaced x (by simp [objsAll, hx]))
      have r' : Ready root (setLoc root.toList c { st with names := upd st.names c.id c.name }).1 cs := by
        refine ⟨d2, ?_, ?_, ?_⟩
        · intro c' hc'
          rw [g.names]
          have : c'.id ≠ c.id := by
            intro e
            refine d3 _ hid c'.id (List.mem_map.2 ⟨(c'.id, root.toList ++ [c'.name]), mem_objsAll.2 ⟨c', hc', ?_⟩, rfl⟩) e.symm
            rw [objs_eq]; simp
          simp only [upd, this, if_false]
          exact h.unnamed c' (by simp [hc'])
        · intro c' hc' x hx
          rw [g.names]
          have hx' : x ∈ objsAll root.toList cs := mem_objsAll.2 ⟨c', hc', by rw [objs_eq]; simp [hx]⟩
          have : x.1 ≠ c.id := fun e => d3 _ hid x.1 (List.mem_map_of_mem hx') e.symm
          simp only [upd, this, if_false]
          exact h.named c' (by simp [hc']) x hx
        · intro x hx
          rw [g.rest x.1 (fun h => d3 _ h _ (List.mem_map_of_mem hx) rfl)]
          exact h.unplaced x (by simp [objsAll, hx])
      obtain ⟨i1, i2, i3⟩ := ih _ r'
      have e2 : place root (c :: cs) st = place root cs (setLoc root.toList c { st with names := upd st.names c.id c.name }).1 := by
        simp only [place, e1, if_true, g.ok]
      rw [e2]
      refine ⟨i1, ?_, ?_⟩
      · intro x hx
        simp only [objsAll, List.mem_append] at hx
        rcases hx with hx | hx
        · have hn : x.1 ∉ (objsAll root.toList cs).map (·.1) := fun h' => d3 _ (List.mem_map_of_mem hx) _ h' rfl
          rw [(i3 x.1 hn).1, (i3 x.1 hn).2, g.names]
          refine ⟨g.at_ x hx, ?_⟩
          have hx0 := hx
          rw [objs_eq] at hx
          rcases List.mem_cons.1 hx with rfl | hx
          · simp [upd]
          · have : x.1 ≠ c.id := by
              intro e
              rw [objs_eq] at d1
              simp only [List.map_cons, List.nodup_cons] at d1
              exact d1.1 (e ▸ List.mem_map_of_mem hx)
            simp only [upd, this, if_false]
            exact h.named c (by simp) x hx
        · exact i2 x hx
      · intro k hk
        simp only [objsAll, List.map_append, List.mem_append, not_or] at hk
        rw [(i3 k hk.2).1, (i3 k hk.2).2, g.rest k hk.1, g.names]
        refine ⟨rfl, ?_⟩
        have : k ≠ c.id := fun e => hk.1 (e ▸ hid)
        simp [upd, this]
  intro cs st h
  obtain ⟨h1, h2, _⟩ := aux cs st h
  refine ⟨h1, fun x hx => ?_⟩
  obtain ⟨h3, h4⟩ := h2 x hx
  have hne : x.2 ≠ [] := by
    obtain ⟨c, _, hc⟩ := mem_objsAll.1 hx
    exact objs_ne c _ x hc
  have e : x.2.getLast? = some (x.2.getLast hne) := List.getLast?_eq_some_getLast hne
  rw [St.address, path_eq h3 (h4.trans e), List.dropLast_concat_getLast, Option.map_some, join_eq]

theorem place_placed (root : Option Name) : ∀ (cs : List (Comp K)) (st : St K), (place root cs st).2 = true →
    Placed ((objsAll root.toList cs).map (·.1)) st (place root cs st).1 ∧ (∀ c ∈ cs, st.names c.id = none) ∧
      ∀ c ∈ cs, ((place root cs st).1.names c.id).isSome
  | [], st, h => ⟨Placed.nil st, by simp, by simp⟩
  | c :: cs, st, h => by
    simp only [place] at h ⊢
    split at h
    · rename_i h1
      rw [if_pos h1]
      split at h
      · rename_i h2
        rw [if_pos h2]
        obtain ⟨i1, i2, i3⟩ := place_placed root cs _ h
        have hl := setName_locs c.id c.name st
        refine ⟨?_, ?_, ?_⟩
        · have p := (setLoc_placed c root.toList root.toList _ h2).trans i1 (fun x => setLoc_mono x c _ _)
            (fun x => place_locs_mono root x cs _)
          rw [objsAll, List.map_append]
          exact ⟨fun k hk => by rw [← hl]; exact p.before k hk, p.nodup, p.after⟩
        · intro c' hc'
          rcases List.mem_cons.1 hc' with rfl | hc'
          · simp only [setName] at h1
            split at h1
            · cases h1
            · rename_i hn; simpa using hn
          · have := i2 c' hc'
            rw [setLoc_names] at this
            cases e : st.names c'.id with
            | none => rfl
            | some v =>
              have hs := setName_mono c.id c'.id c.name st (by simp [e])
              rw [this] at hs; cases hs
        · intro c' hc'
          rcases List.mem_cons.1 hc' with rfl | hc'
          · refine place_names_mono root c'.id cs _ ?_
            rw [setLoc_names]
            exact setName_names _ _ _
          · exact i3 c' hc'
      · rename_i h2; exact absurd h h2
    · rename_i h1; exact absurd h h1

/-- C82: `setup` raises an error unless none of the given components has a name and no object in them has been
placed before or occurs twice. -/
theorem C82_fresh (root : Option Name) (cs : List (Comp K)) (st : St K) (h : (place root cs st).2 = true) :
    (∀ c ∈ cs, st.names c.id = none) ∧ (∀ x ∈ objsAll root.toList cs, st.locs x.1 = none) ∧
      ((objsAll root.toList cs).map (·.1)).Nodup :=
  have p := place_placed root cs st h
  ⟨p.2.1, fun x hx => p.1.before x.1 (List.mem_map_of_mem hx), p.1.nodup⟩

/-- C82: components that have been set up cannot be set up again, neither as they are nor as part of others. -/
theorem C82_once (root root' : Option Name) (cs cs' : List (Comp K)) (st : St K) (h : (place root cs st).2 = true)
    (x y : K × List Name) (hx : x ∈ objsAll root.toList cs) (hy : y ∈ objsAll root'.toList cs') (e : x.1 = y.1) :
    (place root' cs' (place root cs st).1).2 = false := by
  cases h' : (place root' cs' (place root cs st).1).2 with
  | false => rfl
  | true =>
    have h1 := (place_placed root cs st h).1.after x.1 (List.mem_map_of_mem hx)
    rw [e, (place_placed root' cs' _ h').1.before y.1 (List.mem_map_of_mem hy)] at h1
    cases h1

/-- C82: the first component given to a `setup` that failed cannot be set up either. -/
theorem C82_failed (root root' : Option Name) (c : Comp K) (cs cs' : List (Comp K)) (st : St K) (c' : Comp K)
    (hc : c' ∈ cs') (e : c'.id = c.id) : (place root' cs' (place root (c :: cs) st).1).2 = false := by
  cases h' : (place root' cs' (place root (c :: cs) st).1).2 with
  | false => rfl
  | true =>
    have h1 := (place_placed root' cs' _ h').2.1 c' hc
    have h2 : ((place root (c :: cs) st).1.names c.id).isSome := by
      have n1 := setName_names c.id c.name st
      have n2 : ((setLoc root.toList c (setName c.id c.name st).1).1.names c.id).isSome := by
        rw [setLoc_names]; exact n1
      simp only [place]
      split
      · split
        · exact place_names_mono root c.id cs _ n2
        · exact n2
      · exact n1
    rw [← e, h1] at h2; cases h2

/-! ## Addresses are different -/

mutual
/-- Specification: the dictionaries of a component have different keys, none of which contains a slash. -/
def Comp.WF : Comp K → Prop
  | .mk n _ _ ss cs => '/' ∉ n ∧ (ss.map (·.name)).Nodup ∧ (∀ s ∈ ss, '/' ∉ s.name) ∧ WFAll cs
/-- The same for all components of a dictionary. -/
def WFAll : List (Comp K) → Prop
  | [] => True
  | c :: cs => c.WF ∧ c.name ∉ cs.map Comp.name ∧ WFAll cs
end

theorem append_sep_inj : ∀ {a b x y : List Char}, '/' ∉ a → '/' ∉ b → a ++ '/' :: x = b ++ '/' :: y → a = b ∧ x = y
  | [], [], x, y, _, _, h => ⟨rfl, by simpa using h⟩
  | [], c :: b, x, y, _, hb, h => by
    simp only [List.nil_append, List.cons_append, List.cons.injEq] at h
    exact absurd (by simp [← h.1]) hb
  | c :: a, [], x, y, ha, _, h => by
    simp only [List.nil_append, List.cons_append, List.cons.injEq] at h
    exact absurd (by simp [h.1]) ha
  | c :: a, d :: b, x, y, ha, hb, h => by
    simp only [List.cons_append, List.cons.injEq] at h
    simp only [List.mem_cons, not_or] at ha hb
    obtain ⟨e1, e2⟩ := append_sep_inj ha.2 hb.2 h.2
    exact ⟨by rw [h.1, e1], e2⟩

/-- Paths without slashes in their names can be read off the address. -/
theorem join_inj : ∀ {p q : List Name}, p ≠ [] → q ≠ [] → (∀ n ∈ p, '/' ∉ n) → (∀ n ∈ q, '/' ∉ n) → slashed p = slashed q → p = q
  | [], _, h, _, _, _, _ => absurd rfl h
  | _, [], _, h, _, _, _ => absurd rfl h
  | [a], [b], _, _, _, _, h => by simpa [slashed, List.intercalate] using h
  | [a], b :: c :: q, _, _, ha, _, h => by
    simp only [slashed_cons] at h
    exact absurd (by rw [show a = _ from (by simpa [slashed, List.intercalate] using h : a = b ++ '/' :: slashed (c :: q))]; simp) (ha a (by simp))
  | a :: c :: p, [b], _, _, _, hb, h => by
    simp only [slashed_cons] at h
    exact absurd (by rw [show b = _ from (by simpa [slashed, List.intercalate] using h.symm : b = a ++ '/' :: slashed (c :: p))]; simp) (hb b (by simp))
  | a :: a' :: p, b :: b' :: q, _, _, ha, hb, h => by
    simp only [slashed_cons] at h
    obtain ⟨e1, e2⟩ := append_sep_inj (ha a (by simp)) (hb b (by simp)) h
    rw [e1, join_inj (by simp) (by simp) (fun n hn => ha n (List.mem_cons_of_mem _ hn))
      (fun n hn => hb n (List.mem_cons_of_mem _ hn)) e2]

theorem join_root_inj {root : Option Name} {p q : List Name} (hp : p ≠ []) (hq : q ≠ []) (h1 : ∀ n ∈ p, '/' ∉ n)
    (h2 : ∀ n ∈ q, '/' ∉ n) (h : slashed (root.toList ++ p) = slashed (root.toList ++ q)) : p = q := by
  cases root with
  | none => exact join_inj hp hq h1 h2 (by simpa using h)
  | some r =>
    cases p with
    | nil => exact absurd rfl hp
    | cons a p =>
      cases q with
      | nil => exact absurd rfl hq
      | cons b q =>
        simp only [Option.toList_some, List.singleton_append, slashed_cons] at h
        have := List.append_cancel_left h
        simp only [List.cons.injEq, true_and] at this
        exact join_inj hp hq h1 h2 this

mutual
theorem mem_strms {loc p : List Name} : ∀ {c : Comp K}, c.WF → p ∈ c.strms loc →
    ∃ q, q ≠ [] ∧ p = loc ++ c.name :: q ∧ '/' ∉ c.name ∧ ∀ n ∈ q, '/' ∉ n
  | .mk n i b ss cs, hw, h => by
    simp only [Comp.WF] at hw
    simp only [Comp.strms, List.mem_append, List.mem_map] at h
    rcases h with ⟨s, hs, rfl⟩ | h
    · exact ⟨[s.name], by simp, by simp [Comp.name], hw.1, by simpa using hw.2.2.1 s hs⟩
    · obtain ⟨c, _, q, hq, rfl, h1, h2⟩ := mem_strmsAll hw.2.2.2 h
      refine ⟨c.name :: q, by simp, by simp [Comp.name], hw.1, ?_⟩
      intro m hm
      rcases List.mem_cons.1 hm with rfl | hm
      · exact h1
      · exact h2 m hm
theorem mem_strmsAll {loc p : List Name} : ∀ {cs : List (Comp K)}, WFAll cs → p ∈ strmsAll loc cs →
    ∃ c ∈ cs, ∃ q, q ≠ [] ∧ p = loc ++ c.name :: q ∧ '/' ∉ c.name ∧ ∀ n ∈ q, '/' ∉ n
  | [], _, h => by simp [strmsAll] at h
  | c :: cs, hw, h => by
    simp only [WFAll] at hw
    simp only [strmsAll, List.mem_append] at h
    rcases h with h | h
    · exact ⟨c, by simp, mem_strms hw.1 h⟩
    · obtain ⟨c', hc, r⟩ := mem_strmsAll hw.2.2 h
      exact ⟨c', by simp [hc], r⟩
end

mutual
theorem mem_comps {loc p : List Name} : ∀ {c : Comp K}, c.WF → p ∈ c.comps loc →
    ∃ q, p = loc ++ c.name :: q ∧ '/' ∉ c.name ∧ ∀ n ∈ q, '/' ∉ n
  | .mk n i b ss cs, hw, h => by
    simp only [Comp.WF] at hw
    simp only [Comp.comps, List.mem_cons] at h
    rcases h with rfl | h
    · exact ⟨[], by simp [Comp.name], hw.1, by simp⟩
    · obtain ⟨c, _, q, rfl, h1, h2⟩ := mem_compsAll hw.2.2.2 h
      refine ⟨c.name :: q, by simp [Comp.name], hw.1, ?_⟩
      intro m hm
      rcases List.mem_cons.1 hm with rfl | hm
      · exact h1
      · exact h2 m hm
theorem mem_compsAll {loc p : List Name} : ∀ {cs : List (Comp K)}, WFAll cs → p ∈ compsAll loc cs →
    ∃ c ∈ cs, ∃ q, p = loc ++ c.name :: q ∧ '/' ∉ c.name ∧ ∀ n ∈ q, '/' ∉ n
  | [], _, h => by simp [compsAll] at h
  | c :: cs, hw, h => by
    simp only [WFAll] at hw
    simp only [compsAll, List.mem_append] at h
    rcases h with h | h
    · exact ⟨c, by simp, mem_comps hw.1 h⟩
    · obtain ⟨c', hc, r⟩ := mem_compsAll hw.2.2 h
      exact ⟨c', by simp [hc], r⟩
end

theorem nodup_map_inj {α β : Type} {f : α → β} : ∀ {l : List α}, l.Nodup → (∀ x ∈ l, ∀ y ∈ l, f x = f y → x = y) →
    (l.map f).Nodup
  | [], _, _ => by simp
  | a :: l, h, hf => by
    simp only [List.nodup_cons, List.map_cons, List.mem_map, not_exists, not_and] at h ⊢
    refine ⟨fun x hx e => h.1 ?_, nodup_map_inj h.2 (fun x hx y hy => hf x (by simp [hx]) y (by simp [hy]))⟩
    rw [← hf x (by simp [hx]) a (by simp) e]; exact hx

mutual
theorem strms_nodup : ∀ (c : Comp K) (loc : List Name), c.WF → (c.strms loc).Nodup
  | .mk n i b ss cs, loc, hw => by
    simp only [Comp.WF] at hw
    simp only [Comp.strms]
    refine List.nodup_append.2 ⟨?_, strmsAll_nodup cs _ hw.2.2.2, ?_⟩
    · have := nodup_map_inj (f := fun m => loc ++ [n] ++ [m]) hw.2.1 (by intro x _ y _ h; simpa using h)
      simpa [Function.comp_def] using this
    · rintro p h1 _ h2 rfl
      obtain ⟨s, _, rfl⟩ := List.mem_map.1 h1
      obtain ⟨c, _, q, hq, e, _⟩ := mem_strmsAll hw.2.2.2 h2
      simp at e
      exact hq e.2
theorem strmsAll_nodup : ∀ (cs : List (Comp K)) (loc : List Name), WFAll cs → (strmsAll loc cs).Nodup
  | [], loc, _ => by simp [strmsAll]
  | c :: cs, loc, hw => by
    simp only [WFAll] at hw
    simp only [strmsAll]
    refine List.nodup_append.2 ⟨strms_nodup c loc hw.1, strmsAll_nodup cs loc hw.2.2, ?_⟩
    rintro p h1 _ h2 rfl
    obtain ⟨q, _, e1, _⟩ := mem_strms hw.1 h1
    obtain ⟨c', hc', q', _, e2, _⟩ := mem_strmsAll hw.2.2 h2
    rw [e1] at e2
    simp only [List.append_cancel_left_eq, List.cons.injEq] at e2
    exact hw.2.1 (e2.1 ▸ List.mem_map_of_mem hc')
end

mutual
theorem comps_nodup : ∀ (c : Comp K) (loc : List Name), c.WF → (c.comps loc).Nodup
  | .mk n i b ss cs, loc, hw => by
    simp only [Comp.WF] at hw
    simp only [Comp.comps, List.nodup_cons]
    refine ⟨fun h => ?_, compsAll_nodup cs _ hw.2.2.2⟩
    obtain ⟨c, _, q, e, _⟩ := mem_compsAll hw.2.2.2 h
    simp at e
theorem compsAll_nodup : ∀ (cs : List (Comp K)) (loc : List Name), WFAll cs → (compsAll loc cs).Nodup
  | [], loc, _ => by simp [compsAll]
  | c :: cs, loc, hw => by
    simp only [WFAll] at hw
    simp only [compsAll]
    refine List.nodup_append.2 ⟨comps_nodup c loc hw.1, compsAll_nodup cs loc hw.2.2, ?_⟩
    rintro p h1 _ h2 rfl
    obtain ⟨q, e1, _⟩ := mem_comps hw.1 h1
    obtain ⟨c', hc', q', e2, _⟩ := mem_compsAll hw.2.2 h2
    rw [e1] at e2
    simp only [List.append_cancel_left_eq, List.cons.injEq] at e2
    exact hw.2.1 (e2.1 ▸ List.mem_map_of_mem hc')
end

theorem addresses_nodup {cs : List (Comp K)} (root : Option Name) (hw : WFAll cs) :
    ((strmsAll root.toList cs).map slashed).Nodup ∧ ((compsAll root.toList cs).map slashed).Nodup := by
  constructor
  · refine nodup_map_inj (strmsAll_nodup cs _ hw) ?_
    intro x hx y hy e
    obtain ⟨c, _, q, _, rfl, a1, a2⟩ := mem_strmsAll hw hx
    obtain ⟨c', _, q', _, rfl, b1, b2⟩ := mem_strmsAll hw hy
    rw [join_root_inj (by simp) (by simp) (by simpa using ⟨a1, a2⟩) (by simpa using ⟨b1, b2⟩) e]
  · refine nodup_map_inj (compsAll_nodup cs _ hw) ?_
    intro x hx y hy e
    obtain ⟨c, _, q, rfl, a1, a2⟩ := mem_compsAll hw hx
    obtain ⟨c', _, q', rfl, b1, b2⟩ := mem_compsAll hw hy
    rw [join_root_inj (by simp) (by simp) (by simpa using ⟨a1, a2⟩) (by simpa using ⟨b1, b2⟩) e]

/-! ## Adding relay units -/

/-- Specification: the relay endpoints among streams. -/
def relaysOf (ss : List (Strm K)) : List (Strm K) := ss.filter fun s => decide (s.kind ≠ .other)

mutual
/-- Specification: all relay endpoints of collections, with the way to the collection. -/
def Comp.ends (loc : List Name) : Comp K → List (List Name × Strm K)
  | .mk n _ coll ss cs =>
    (if coll then (relaysOf ss).map fun s => (loc ++ [n], s) else []) ++ endsAll (loc ++ [n]) cs
def endsAll (loc : List Name) : List (Comp K) → List (List Name × Strm K)
  | [] => []
  | c :: cs => c.ends loc ++ endsAll loc cs
end

mutual
/-- Specification: some collection already has a component with the name of the unit for one of its relays. -/
def Comp.Clash : Comp K → Prop
  | .mk _ _ coll ss cs => (coll = true ∧ ∃ s ∈ relaysOf ss, relayName s ∈ cs.map Comp.name) ∨ ClashAll cs
def ClashAll : List (Comp K) → Prop
  | [] => False
  | c :: cs => c.Clash ∨ ClashAll cs
end

/-- Recording the relay endpoints `es`. -/
def record (es : List (List Name × Strm K)) (bs : Bindings) : Bindings :=
  es.foldl (fun d e => d.set (binding e.1 e.2).endpoint (binding e.1 e.2)) bs

theorem relayName_inj {s t : Strm K} (hs : s.kind ≠ .other) (ht : t.kind ≠ .other) (h : relayName s = relayName t) :
    s.kind = t.kind ∧ s.name = t.name := by
  simp only [relayName] at h
  cases h1 : s.kind <;> cases h2 : t.kind <;> simp_all

theorem sep_relayName {s : Strm K} (h : '/' ∉ s.name) : '/' ∉ relayName s := by
  simp only [relayName]
  split <;> simpa using h

theorem addUnits_some (path : List Name) : ∀ (ss : List (Strm K)) (names : List Name) (bs : Bindings)
    (us : List (Comp (Obj K))) (bs' : Bindings), addUnits path ss names bs = some (us, bs') →
    us = (relaysOf ss).map relayUnit ∧ bs' = record ((relaysOf ss).map fun s => (path, s)) bs ∧
      ((relaysOf ss).map relayName).Nodup ∧ ∀ s ∈ relaysOf ss, relayName s ∉ names
  | [], names, bs, us, bs', h => by
    simp only [addUnits, Option.some.injEq, Prod.mk.injEq] at h
    simp [relaysOf, record, h.1.symm, h.2.symm]
  | s :: ss, names, bs, us, bs', h => by
    simp only [addUnits] at h
    split at h
    · rename_i hk
      have e : relaysOf (s :: ss) = relaysOf ss := by simp [relaysOf, hk]
      rw [e]; exact addUnits_some path ss names bs us bs' h
    · rename_i hk
      have e : relaysOf (s :: ss) = s :: relaysOf ss := by simp [relaysOf, hk]
      rw [e]
      split at h
      · cases h
      · rename_i hn
        split at h
        · cases h
        · rename_i us1 bs1 h1
          simp only [Option.some.injEq, Prod.mk.injEq] at h
          obtain ⟨rfl, rfl⟩ := h
          obtain ⟨i1, i2, i3, i4⟩ := addUnits_some path ss _ _ _ _ h1
          refine ⟨by rw [i1]; rfl, by rw [i2]; rfl, ?_, ?_⟩
          · simp only [List.map_cons, List.nodup_cons]
            refine ⟨?_, i3⟩
            intro hm
            obtain ⟨t, ht, et⟩ := List.mem_map.1 hm
            exact i4 t ht (by simp [et])
          · intro t ht
            rcases List.mem_cons.1 ht with rfl | ht
            · exact hn
            · exact fun hm => i4 t ht (by simp [hm])

theorem addUnits_none (path : List Name) : ∀ (ss : List (Strm K)) (names : List Name) (bs : Bindings),
    (ss.map (·.name)).Nodup → addUnits path ss names bs = none → ∃ s ∈ relaysOf ss, relayName s ∈ names
  | [], names, bs, _, h => by simp [addUnits] at h
  | s :: ss, names, bs, hn, h => by
    simp only [List.map_cons, List.nodup_cons] at hn
    simp only [addUnits] at h
    split at h
    · rename_i hk
      have e : relaysOf (s :: ss) = relaysOf ss := by simp [relaysOf, hk]
      rw [e]; exact addUnits_none path ss names bs hn.2 h
    · rename_i hk
      have e : relaysOf (s :: ss) = s :: relaysOf ss := by simp [relaysOf, hk]
      rw [e]
      split at h
      · rename_i hm; exact ⟨s, by simp, hm⟩
      · split at h
        · rename_i h1
          obtain ⟨t, ht, hm⟩ := addUnits_none path ss _ _ hn.2 h1
          have ht' := List.mem_filter.1 ht
          rcases List.mem_append.1 hm with hm | hm
          · exact ⟨t, by simp [ht], hm⟩
          · simp only [List.mem_singleton] at hm
            obtain ⟨_, en⟩ := relayName_inj (by simpa using ht'.2) hk hm
            exact absurd (en ▸ List.mem_map_of_mem (f := (·.name)) ht'.1) hn.1
        · cases h

theorem record_append (a b : List (List Name × Strm K)) (bs : Bindings) :
    record (a ++ b) bs = record b (record a bs) := by simp [record]

mutual
theorem addRelays_some : ∀ (c : Comp K) (loc : List Name) (bs : Bindings) (c' : Comp (Obj K)) (bs' : Bindings),
    addRelays loc c bs = some (c', bs') → bs' = record (c.ends loc) bs ∧ ¬ c.Clash ∧ c'.name = c.name
  | .mk n i coll ss cs, loc, bs, c', bs', h => by
    simp only [addRelays] at h
    split at h
    · cases h
    · rename_i us bs1 h1
      split at h
      · cases h
      · rename_i cs1 bs2 h2
        simp only [Option.some.injEq, Prod.mk.injEq] at h
        obtain ⟨rfl, rfl⟩ := h
        obtain ⟨i1, i2, _⟩ := addRelaysAll_some cs _ _ _ _ h2
        simp only [Comp.ends, Comp.Clash, Comp.name]
        rw [record_append, i1]
        cases coll with
        | false =>
          simp at h1
          obtain ⟨rfl, rfl⟩ := h1
          simp [record, i2]
        | true =>
          simp only [if_true] at h1
          obtain ⟨_, j2, _, j4⟩ := addUnits_some _ _ _ _ _ _ h1
          simp only [if_true]
          refine ⟨by rw [j2], ?_, trivial⟩
          rintro (⟨_, s, hs, hm⟩ | hc)
          · exact j4 s hs hm
          · exact i2 hc
theorem addRelaysAll_some : ∀ (cs : List (Comp K)) (loc : List Name) (bs : Bindings) (cs' : List (Comp (Obj K)))
    (bs' : Bindings), addRelaysAll loc cs bs = some (cs', bs') →
    bs' = record (endsAll loc cs) bs ∧ ¬ ClashAll cs ∧ cs'.map Comp.name = cs.map Comp.name
  | [], loc, bs, cs', bs', h => by
    simp only [addRelaysAll, Option.some.injEq, Prod.mk.injEq] at h
    obtain ⟨rfl, rfl⟩ := h
    simp [endsAll, record, ClashAll]
  | c :: cs, loc, bs, cs', bs', h => by
    simp only [addRelaysAll] at h
    split at h
    · cases h
    · rename_i c1 bs1 h1
      split at h
      · cases h
      · rename_i cs1 bs2 h2
        simp only [Option.some.injEq, Prod.mk.injEq] at h
        obtain ⟨rfl, rfl⟩ := h
        obtain ⟨a1, a2, a3⟩ := addRelays_some c _ _ _ _ h1
        obtain ⟨b1, b2, b3⟩ := addRelaysAll_some cs _ _ _ _ h2
        simp only [endsAll, ClashAll, List.map_cons, a3, b3, record_append, b1, a1, a2, b2, or_self, not_false_iff, and_self]
end

mutual
theorem addRelays_none : ∀ (c : Comp K) (loc : List Name) (bs : Bindings), c.WF → addRelays loc c bs = none → c.Clash
  | .mk n i coll ss cs, loc, bs, hw, h => by
    simp only [Comp.WF] at hw
    simp only [addRelays] at h
    simp only [Comp.Clash]
    split at h
    · rename_i h1
      cases coll with
      | false => simp at h1
      | true => exact Or.inl ⟨rfl, addUnits_none _ _ _ _ hw.2.1 (by simpa using h1)⟩
    · split at h
      · rename_i h2; exact Or.inr (addRelaysAll_none cs _ _ hw.2.2.2 h2)
      · cases h
theorem addRelaysAll_none : ∀ (cs : List (Comp K)) (loc : List Name) (bs : Bindings), WFAll cs →
    addRelaysAll loc cs bs = none → ClashAll cs
  | [], loc, bs, hw, h => by simp [addRelaysAll] at h
  | c :: cs, loc, bs, hw, h => by
    simp only [WFAll] at hw
    simp only [addRelaysAll] at h
    simp only [ClashAll]
    split at h
    · rename_i h1; exact Or.inl (addRelays_none c _ _ hw.1 h1)
    · split at h
      · rename_i h2; exact Or.inr (addRelaysAll_none cs _ _ hw.2.2 h2)
      · cases h
end

theorem wfAll_append : ∀ {a b : List (Comp K)}, WFAll (a ++ b) ↔
    WFAll a ∧ WFAll b ∧ ∀ c ∈ a, c.name ∉ b.map Comp.name
  | [], b => by simp [WFAll]
  | c :: a, b => by
    simp only [List.cons_append, WFAll, wfAll_append (a := a), List.map_append, List.mem_append, not_or,
      List.mem_cons, forall_eq_or_imp]
    constructor
    · rintro ⟨h1, ⟨h2, h3⟩, h4, h5, h6⟩; exact ⟨⟨h1, h2, h4⟩, h5, h3, h6⟩
    · rintro ⟨⟨h1, h2, h4⟩, h5, h3, h6⟩; exact ⟨h1, ⟨h2, h3⟩, h4, h5, h6⟩

theorem relayUnit_wf {s : Strm K} (h : '/' ∉ s.name) : (relayUnit s).WF := by
  refine ⟨sep_relayName h, ?_, ?_, trivial⟩
  · simp [inputName, outputName]
  · simp [inputName, outputName]

theorem relayUnits_wf : ∀ {l : List (Strm K)}, (∀ s ∈ l, '/' ∉ s.name) → (l.map relayName).Nodup →
    WFAll (l.map relayUnit)
  | [], _, _ => trivial
  | s :: l, h, hn => by
    simp only [List.map_cons, List.nodup_cons] at hn
    refine ⟨relayUnit_wf (h s (by simp)), ?_, relayUnits_wf (fun t ht => h t (by simp [ht])) hn.2⟩
    intro hm
    simp only [List.map_map, List.mem_map] at hm
    obtain ⟨t, ht, e⟩ := hm
    exact hn.1 (List.mem_map.2 ⟨t, ht, e⟩)

mutual
theorem addRelays_wf : ∀ (c : Comp K) (loc : List Name) (bs : Bindings) (c' : Comp (Obj K)) (bs' : Bindings),
    c.WF → addRelays loc c bs = some (c', bs') → c'.WF
  | .mk n i coll ss cs, loc, bs, c', bs', hw, h => by
    simp only [Comp.WF] at hw
    simp only [addRelays] at h
    split at h
    · cases h
    · rename_i us bs1 h1
      split at h
      · cases h
      · rename_i cs1 bs2 h2
        simp only [Option.some.injEq, Prod.mk.injEq] at h
        obtain ⟨rfl, rfl⟩ := h
        have w := addRelaysAll_wf cs _ _ _ _ hw.2.2.2 h2
        have e := (addRelaysAll_some cs _ _ _ _ h2).2.2
        simp only [Comp.WF]
        refine ⟨hw.1, by simpa [Function.comp_def] using hw.2.1, ?_, wfAll_append.2 ⟨w, ?_⟩⟩
        · intro s hs
          obtain ⟨t, ht, rfl⟩ := List.mem_map.1 hs
          exact hw.2.2.1 t ht
        · cases coll with
          | false =>
            simp at h1
            obtain ⟨rfl, rfl⟩ := h1
            simp [WFAll]
          | true =>
            simp only [if_true] at h1
            obtain ⟨rfl, _, j3, j4⟩ := addUnits_some _ _ _ _ _ _ h1
            refine ⟨relayUnits_wf (fun s hs => hw.2.2.1 s (List.mem_filter.1 hs).1) j3, ?_⟩
            intro d hd hm
            simp only [List.map_map, List.mem_map] at hm
            obtain ⟨s, hs, es⟩ := hm
            refine j4 s hs ?_
            rw [← e]
            exact List.mem_map.2 ⟨d, hd, es.symm⟩
theorem addRelaysAll_wf : ∀ (cs : List (Comp K)) (loc : List Name) (bs : Bindings) (cs' : List (Comp (Obj K)))
    (bs' : Bindings), WFAll cs → addRelaysAll loc cs bs = some (cs', bs') → WFAll cs'
  | [], loc, bs, cs', bs', _, h => by
    simp only [addRelaysAll, Option.some.injEq, Prod.mk.injEq] at h
    obtain ⟨rfl, rfl⟩ := h
    trivial
  | c :: cs, loc, bs, cs', bs', hw, h => by
    simp only [WFAll] at hw
    simp only [addRelaysAll] at h
    split at h
    · cases h
    · rename_i c1 bs1 h1
      split at h
      · cases h
      · rename_i cs1 bs2 h2
        simp only [Option.some.injEq, Prod.mk.injEq] at h
        obtain ⟨rfl, rfl⟩ := h
        refine ⟨addRelays_wf c _ _ _ _ hw.1 h1, ?_, addRelaysAll_wf cs _ _ _ _ hw.2.2 h2⟩
        rw [(addRelays_some c _ _ _ _ h1).2.2, (addRelaysAll_some cs _ _ _ _ h2).2.2]
        exact hw.2.1
end

/-- C82, for names without slashes: once the relay units have been added, no two streams have the same address, and
no two components have the same address. -/
theorem C82_distinct_partial (root : Option Name) (cs : List (Comp K)) (hw : WFAll cs) (cs' : List (Comp (Obj K)))
    (bs : Bindings) (h : addRelaysAll root.toList cs [] = some (cs', bs)) :
    ((strmsAll root.toList cs').map slashed).Nodup ∧ ((compsAll root.toList cs').map slashed).Nodup :=
  addresses_nodup root (addRelaysAll_wf cs _ _ _ _ hw h)

/-- C82: adding the relay units fails exactly if a collection already has a component with the name of one of them. -/
theorem C82_relays_added (root : Option Name) (cs : List (Comp K)) (hw : WFAll cs) :
    addRelaysAll root.toList cs [] = none ↔ ClashAll cs := by
  constructor
  · exact addRelaysAll_none cs _ _ hw
  · intro hc
    cases h : addRelaysAll root.toList cs [] with
    | none => rfl
    | some r => exact absurd hc (addRelaysAll_some cs _ _ r.1 r.2 h).2.1

mutual
theorem ends_sublist : ∀ (c : Comp K) (loc : List Name),
    ((c.ends loc).map fun e => e.1 ++ [e.2.name]).Sublist (c.strms loc)
  | .mk n i coll ss cs, loc => by
    simp only [Comp.ends, Comp.strms, List.map_append]
    refine List.Sublist.append ?_ (endsAll_sublist cs _)
    cases coll with
    | false => simp
    | true =>
      simp only [if_true, List.map_map]
      exact (List.filter_sublist).map (fun s : Strm K => loc ++ [n] ++ [s.name])
theorem endsAll_sublist : ∀ (cs : List (Comp K)) (loc : List Name),
    ((endsAll loc cs).map fun e => e.1 ++ [e.2.name]).Sublist (strmsAll loc cs)
  | [], loc => by simp [endsAll, strmsAll]
  | c :: cs, loc => by
    simp only [endsAll, strmsAll, List.map_append]
    exact (ends_sublist c loc).append (endsAll_sublist cs loc)
end

theorem get?_record_other {k : List Char} : ∀ (es : List (List Name × Strm K)) (bs : Bindings),
    k ∉ es.map (fun e => slashed (e.1 ++ [e.2.name])) → (record es bs).get? k = bs.get? k
  | [], bs, _ => rfl
  | e :: es, bs, h => by
    simp only [List.map_cons, List.mem_cons, not_or] at h
    show (record es (bs.set (binding e.1 e.2).endpoint (binding e.1 e.2))).get? k = _
    rw [get?_record_other es _ h.2, PyDict.get?_set]
    exact if_neg (by simpa only [binding, join_eq] using h.1)

theorem get?_record {e : List Name × Strm K} : ∀ (es : List (List Name × Strm K)) (bs : Bindings),
    (es.map (fun e => slashed (e.1 ++ [e.2.name]))).Nodup → e ∈ es →
    (record es bs).get? (slashed (e.1 ++ [e.2.name])) = some (binding e.1 e.2)
  | [], bs, _, h => by simp at h
  | d :: es, bs, hn, h => by
    simp only [List.map_cons, List.nodup_cons] at hn
    show (record es (bs.set (binding d.1 d.2).endpoint (binding d.1 d.2))).get? _ = _
    rcases List.mem_cons.1 h with rfl | h
    · rw [get?_record_other es _ hn.1, PyDict.get?_set]
      exact if_pos (by simp only [binding, join_eq])
    · exact get?_record es _ hn.2 h

theorem strmsAll_append (loc : List Name) : ∀ (a b : List (Comp K)), strmsAll loc (a ++ b) = strmsAll loc a ++ strmsAll loc b
  | [], b => by simp [strmsAll]
  | c :: a, b => by simp [strmsAll, strmsAll_append loc a b]

theorem mem_relayUnits {path : List Name} {s : Strm K} : ∀ {l : List (Strm K)}, s ∈ l →
    path ++ [relayName s, inputName] ∈ strmsAll path (l.map relayUnit) ∧
      path ++ [relayName s, outputName] ∈ strmsAll path (l.map relayUnit)
  | [], h => by simp at h
  | t :: l, h => by
    simp only [List.map_cons, strmsAll, List.mem_append]
    rcases List.mem_cons.1 h with rfl | h
    · constructor <;> left <;> simp [relayUnit, Comp.strms, strmsAll]
    · exact ⟨Or.inr (mem_relayUnits h).1, Or.inr (mem_relayUnits h).2⟩

mutual
theorem ends_units : ∀ (c : Comp K) (loc : List Name) (bs : Bindings) (c' : Comp (Obj K)) (bs' : Bindings),
    addRelays loc c bs = some (c', bs') → ∀ e ∈ c.ends loc,
    e.1 ++ [relayName e.2, inputName] ∈ c'.strms loc ∧ e.1 ++ [relayName e.2, outputName] ∈ c'.strms loc
  | .mk n i coll ss cs, loc, bs, c', bs', h, e, he => by
    simp only [addRelays] at h
    split at h
    · cases h
    · rename_i us bs1 h1
      split at h
      · cases h
      · rename_i cs1 bs2 h2
        simp only [Option.some.injEq, Prod.mk.injEq] at h
        obtain ⟨rfl, rfl⟩ := h
        simp only [Comp.ends, List.mem_append] at he
        simp only [Comp.strms, strmsAll_append, List.mem_append]
        rcases he with he | he
        · cases coll with
          | false => simp at he
          | true =>
            simp only [if_true] at h1 he
            obtain ⟨rfl, _⟩ := addUnits_some _ _ _ _ _ _ h1
            obtain ⟨s, hs, rfl⟩ := List.mem_map.1 he
            have := mem_relayUnits (path := loc ++ [n]) hs
            exact ⟨Or.inr (Or.inr this.1), Or.inr (Or.inr this.2)⟩
        · have := endsAll_units cs _ _ _ _ h2 e he
          exact ⟨Or.inr (Or.inl this.1), Or.inr (Or.inl this.2)⟩
theorem endsAll_units : ∀ (cs : List (Comp K)) (loc : List Name) (bs : Bindings) (cs' : List (Comp (Obj K)))
    (bs' : Bindings), addRelaysAll loc cs bs = some (cs', bs') → ∀ e ∈ endsAll loc cs,
    e.1 ++ [relayName e.2, inputName] ∈ strmsAll loc cs' ∧ e.1 ++ [relayName e.2, outputName] ∈ strmsAll loc cs'
  | [], loc, bs, cs', bs', h, e, he => by simp [endsAll] at he
  | c :: cs, loc, bs, cs', bs', h, e, he => by
    simp only [addRelaysAll] at h
    split at h
    · cases h
    · rename_i c1 bs1 h1
      split at h
      · cases h
      · rename_i cs1 bs2 h2
        simp only [Option.some.injEq, Prod.mk.injEq] at h
        obtain ⟨rfl, rfl⟩ := h
        simp only [endsAll, List.mem_append] at he
        simp only [strmsAll, List.mem_append]
        rcases he with he | he
        · have := ends_units c _ _ _ _ h1 e he
          exact ⟨Or.inl this.1, Or.inl this.2⟩
        · have := endsAll_units cs _ _ _ _ h2 e he
          exact ⟨Or.inr this.1, Or.inr this.2⟩
end

mutual
theorem ends_kind1 : ∀ (c : Comp K) (loc : List Name) (e : List Name × Strm K), e ∈ c.ends loc → e.2.kind ≠ .other
  | .mk n i coll ss cs, loc, e, h => by
    simp only [Comp.ends, List.mem_append] at h
    rcases h with h | h
    · cases coll with
      | false => simp at h
      | true =>
        simp only [if_true, List.mem_map] at h
        obtain ⟨s, hs, rfl⟩ := h
        simpa using (List.mem_filter.1 hs).2
    · exact ends_kind cs _ e h
theorem ends_kind : ∀ (cs : List (Comp K)) (loc : List Name) (e : List Name × Strm K), e ∈ endsAll loc cs →
    e.2.kind ≠ .other
  | [], loc, e, h => by simp [endsAll] at h
  | c :: cs, loc, e, h => by
    simp only [endsAll, List.mem_append] at h
    exact h.elim (ends_kind1 c loc e) (ends_kind cs loc e)
end

/-- C82, for names without slashes: every relay endpoint of every collection gets a unit of its own, whose two
streams are streams of the graph, and its entry says which addresses they have. -/
theorem C82_relay_units_partial (root : Option Name) (cs : List (Comp K)) (hw : WFAll cs) (cs' : List (Comp (Obj K)))
    (bs : Bindings) (h : addRelaysAll root.toList cs [] = some (cs', bs)) (path : List Name) (s : Strm K)
    (he : (path, s) ∈ endsAll root.toList cs) :
    ∃ unit b, bs.get? (slashed (path ++ [s.name])) = some b ∧ (b.isInput = true ↔ s.kind = .inputRelay) ∧
      b.relayIn = slashed (path ++ [unit, inputName]) ∧ path ++ [unit, inputName] ∈ strmsAll root.toList cs' ∧
      b.relayOut = slashed (path ++ [unit, outputName]) ∧ path ++ [unit, outputName] ∈ strmsAll root.toList cs' ∧
      ∀ path' s' b', (path', s') ∈ endsAll root.toList cs → bs.get? (slashed (path' ++ [s'.name])) = some b' →
        b'.relayIn = b.relayIn → path' = path ∧ s'.name = s.name := by
  have hu := endsAll_units cs _ _ _ _ h
  have hs := addresses_nodup root hw
  have hrec := (addRelaysAll_some cs _ _ _ _ h).1
  have hn : ((endsAll root.toList cs).map (fun e => slashed (e.1 ++ [e.2.name]))).Nodup := by
    have := (endsAll_sublist cs root.toList).map slashed
    simp only [List.map_map] at this
    exact List.Nodup.sublist this hs.1
  have hb : ∀ e ∈ endsAll root.toList cs, bs.get? (slashed (e.1 ++ [e.2.name])) = some (binding e.1 e.2) := by
    intro e he
    rw [hrec]; exact get?_record _ _ hn he
  refine ⟨relayName s, binding path s, hb (path, s) he, by simp [binding], by simp [binding, join_eq], (hu _ he).1,
    by simp [binding, join_eq], (hu _ he).2, ?_⟩
  intro path' s' b' he' hg hr
  rw [hb (path', s') he'] at hg
  simp only [Option.some.injEq] at hg
  subst hg
  have w' := addRelaysAll_wf cs _ _ _ _ hw h
  have hd := (addresses_nodup root w').1
  have hr' : slashed (path' ++ [relayName s', inputName]) = slashed (path ++ [relayName s, inputName]) := by
    simpa [binding, join_eq] using hr
  have ep : path' ++ [relayName s', inputName] = path ++ [relayName s, inputName] := by
    obtain ⟨c, _, q, _, e1, a1, a2⟩ := mem_strmsAll w' (hu _ he').1
    obtain ⟨c', _, q', _, e2, b1, b2⟩ := mem_strmsAll w' (hu _ he).1
    dsimp only at e1 e2
    rw [e1, e2] at hr' ⊢
    rw [join_root_inj (by simp) (by simp) (by simpa using ⟨a1, a2⟩) (by simpa using ⟨b1, b2⟩) hr']
  obtain ⟨e1, e2⟩ := List.append_inj' ep (by simp)
  simp only [List.cons.injEq, and_true] at e2
  have k1 := ends_kind cs _ _ he'
  have k2 := ends_kind cs _ _ he
  exact ⟨e1, (relayName_inj k1 k2 e2).2⟩

/-! ## Names with slashes -/

/-- A collection under the name `a` with an input relay and a unit `B`, and a unit under the name `b`. -/
def pair (a b : Name) : List (Comp Nat) :=
  [.mk a 0 true [⟨"IN".toList, .inputRelay, 5⟩] [.mk "B".toList 1 false [⟨"INPUT".toList, .other, 2⟩] []],
   .mk b 3 false [⟨"INPUT".toList, .other, 4⟩] []]

/-- The members of `pair` have their names. -/
def pairNames : St Nat where
  names k := if k = 1 then some "B".toList else if k = 2 ∨ k = 4 then some "INPUT".toList
    else if k = 5 then some "IN".toList else none
  locs _ := none

theorem pair_ready (root : Option Name) (a b : Name) : Ready root pairNames (pair a b) := by
  refine ⟨?_, ?_, ?_, ?_⟩
  · simp [pair, objsAll, Comp.objs]
  · simp [pair, Comp.id, pairNames]
  · intro c hc x hx
    simp only [pair, List.mem_cons, List.not_mem_nil, or_false] at hc
    rcases hc with rfl | rfl
    · simp [Comp.objs, objsAll] at hx
      rcases hx with rfl | rfl | rfl <;> simp [pairNames]
    · simp [Comp.objs, objsAll] at hx
      subst hx
      simp [pairNames]
  · intro x _; rfl

/-- C82 fails for names with slashes: given a collection `A` with a unit `B` and a unit `A/B`, which are different
names, `setup` succeeds, and the streams of the two units have the same address. -/
theorem C82_slash_fails :
    let cs := pair "A".toList "A/B".toList
    let st := (place none cs pairNames).1
    (cs.map Comp.name).Nodup ∧ (place none cs pairNames).2 = true ∧ (addRelaysAll [] cs []).isSome ∧
      st.address 2 = some "A/B/INPUT".toList ∧ st.address 4 = some "A/B/INPUT".toList := by
  refine ⟨by decide, ?_, by decide +kernel, ?_, ?_⟩
  · exact (C82_placed none _ _ (pair_ready none _ _)).1
  · exact (C82_placed none _ _ (pair_ready none "A".toList "A/B".toList)).2
      (2, ["A".toList, "B".toList, "INPUT".toList]) (by decide +kernel)
  · exact (C82_placed none _ _ (pair_ready none "A".toList "A/B".toList)).2
      (4, ["A/B".toList, "INPUT".toList]) (by decide +kernel)

/-- Two collections, the first within another, with one relay each. -/
def relayPair : List (Comp Nat) :=
  [.mk "A".toList 0 true [] [.mk "B".toList 1 true [⟨"IN".toList, .inputRelay, 2⟩] []],
   .mk "A/B".toList 3 true [⟨"IN".toList, .inputRelay, 4⟩] []]

/-- C82 fails for names with slashes: of two relays at the same address only one is recorded. -/
theorem C82_slash_relay_lost :
    (endsAll [] relayPair).length = 2 ∧ ((addRelaysAll [] relayPair []).map (·.2.length)) = some 1 := by
  decide +kernel

/-! ## Examples -/

example : WFAll (pair "A".toList "C".toList) := by
  simp [pair, WFAll, Comp.WF, Comp.name]

example : addRelaysAll [] (pair "A".toList "C".toList) [] ≠ none := by decide +kernel

example : (addRelaysAll ["ROOT".toList] (pair "A".toList "C".toList) []).map (fun r => (strmsAll ["ROOT".toList] r.1).map (String.ofList ∘ slashed)) =
    some ["ROOT/A/IN", "ROOT/A/B/INPUT", "ROOT/A/__relay_in_IN/INPUT", "ROOT/A/__relay_in_IN/OUTPUT", "ROOT/C/INPUT"] := by
  decide +kernel

example : ((place (some "ROOT".toList) (pair "A".toList "C".toList) pairNames).1.address 2).map String.ofList = some "ROOT/A/B/INPUT" := by
  decide +kernel

/-- `C82_once`: the same unit under two names. -/
example : (place none [Comp.mk "X".toList 0 false [] [], Comp.mk "Y".toList 0 false [] []] (⟨fun _ => none, fun _ => none⟩ : St Nat)).2 = false := by
  decide +kernel

/-- `C82_failed`: after that attempt the unit cannot be used at all. -/
example : (place none [Comp.mk "Z".toList 0 false [] []]
    (place none [Comp.mk "X".toList 0 false [] [], Comp.mk "Y".toList 0 false [] []] (⟨fun _ => none, fun _ => none⟩ : St Nat)).1).2 = false := by
  decide +kernel

/-- `C82_relays_added`: a collection that has a component with the name of a relay unit. -/
example : ClashAll [Comp.mk "A".toList 0 true [⟨"IN".toList, .inputRelay, 1⟩] [.mk "__relay_in_IN".toList 2 false [] []]] := by
  simp [ClashAll, Comp.Clash, relaysOf, relayName, Comp.name]

end Address
end Ez
