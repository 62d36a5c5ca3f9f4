import Verif.Lemmas.Profiling

/-!
# Lemmas on trace batches: merging the queues of the endpoints
-/

set_option linter.unusedSectionVars false
set_option linter.unusedSimpArgs false

namespace Ez
namespace Prof

variable {I T L : Type} [DecidableEq I] [DecidableEq T]

open PyDict

/-- `out` was taken from the fronts of the queues `qs`, always an oldest front, leaving `qs'`. -/
inductive Mrg : List (List (Sample I T L)) → List (Sample I T L) → List (List (Sample I T L)) → Prop where
  | nil (qs) : Mrg qs [] qs
  | cons {qs qs' out} (i : Nat) (s : Sample I T L) (q) (h : qs[i]? = some (s :: q))
      (hmin : ∀ (j : Nat) (s' : Sample I T L) (q' : List (Sample I T L)), qs[j]? = some (s' :: q') → s.ts ≤ s'.ts)
      (m : Mrg (qs.set i q) out qs') :
      Mrg qs (s :: out) qs'

theorem Mrg.length {qs qs' : List (List (Sample I T L))} {out} (m : Mrg qs out qs') : qs'.length = qs.length := by
  induction m with
  | nil => rfl
  | cons i s q h hmin m ih => simpa using ih

def total (qs : List (List (Sample I T L))) : Nat := (qs.map List.length).sum

theorem total_set {s : Sample I T L} {q} : ∀ {qs : List (List (Sample I T L))} {i : Nat}, qs[i]? = some (s :: q) →
    total (qs.set i q) + 1 = total qs
  | [], i, h => by simp at h
  | x :: qs, 0, h => by
    simp at h; subst h
    simp [total]; omega
  | x :: qs, i + 1, h => by
    have := total_set (qs := qs) (i := i) (by simpa using h)
    simp [total] at this ⊢; omega

theorem Mrg.total {qs qs' : List (List (Sample I T L))} {out} (m : Mrg qs out qs') :
    out.length + total qs' = total qs := by
  induction m with
  | nil => simp
  | cons i s q h hmin m ih =>
    have := total_set h
    simp; omega

theorem total_zero {qs : List (List (Sample I T L))} (h : total qs = 0) {q} (hq : q ∈ qs) : q = [] := by
  induction qs with
  | nil => simp at hq
  | cons x qs ih =>
    simp [Prof.total] at h ih
    rcases List.mem_cons.1 hq with rfl | hq
    · exact h.1
    · exact ih h.2 hq

/-- Samples of one queue leave it in order, exactly once. -/
theorem Mrg.filter {qs qs' : List (List (Sample I T L))} {out} (m : Mrg qs out qs') {k : Nat} {p : Sample I T L → Bool} :
    ∀ {q}, qs[k]? = some q → (∀ s ∈ q, p s = true) → (∀ j x, j ≠ k → qs[j]? = some x → ∀ s ∈ x, p s = false) →
    ∃ q', qs'[k]? = some q' ∧ out.filter p ++ q' = q := by
  induction m with
  | nil qs => intro q hq _ _; exact ⟨q, hq, by simp⟩
  | @cons qs qs' out i s r h hmin m ih =>
    intro q hq h1 h2
    have hi : i < qs.length := by
      rcases Nat.lt_or_ge i qs.length with h' | h'
      · exact h'
      · rw [List.getElem?_eq_none h'] at h; simp at h
    by_cases hik : i = k
    · subst hik
      have e : q = s :: r := by rw [hq] at h; exact Option.some.inj h
      subst e
      obtain ⟨q', h3, h4⟩ := ih (q := r) (by simp [List.getElem?_set, hi]) (fun x hx => h1 x (List.mem_cons_of_mem _ hx))
        (by
          intro j x hj hx
          rw [List.getElem?_set_ne (fun e => hj e.symm)] at hx
          exact h2 j x hj hx)
      refine ⟨q', h3, ?_⟩
      rw [List.filter_cons_of_pos (h1 s (List.mem_cons_self ..)), List.cons_append, h4]
    · obtain ⟨q', h3, h4⟩ := ih (q := q) (by rw [List.getElem?_set_ne hik]; exact hq) h1
        (by
          intro j x hj hx
          by_cases hij : i = j
          · subst hij
            simp [List.getElem?_set, hi] at hx
            subst hx
            intro y hy
            exact h2 i _ hj h y (List.mem_cons_of_mem _ hy)
          · rw [List.getElem?_set_ne hij] at hx
            exact h2 j x hj hx)
      refine ⟨q', h3, ?_⟩
      have := h2 i _ hik h s (List.mem_cons_self ..)
      rw [List.filter_cons_of_neg (by simp [this]), h4]

/-- Samples by age. -/
def Sorted (l : List (Sample I T L)) : Prop := l.Pairwise (fun a b => a.ts ≤ b.ts)

theorem mem_set {α : Type} {qs : List (List α)} {i : Nat} {q x : List α} (hx : x ∈ qs.set i q) : x = q ∨ x ∈ qs := by
  rcases List.mem_or_eq_of_mem_set hx with h | h
  · exact .inr h
  · exact .inl h

theorem mem_of_mem_set {α : Type} {qs : List (List α)} {i : Nat} {q x : List α} {s y : α} (h : qs[i]? = some (s :: q))
    (hx : x ∈ qs.set i q) (hy : y ∈ x) : ∃ z ∈ qs, y ∈ z := by
  rcases mem_set hx with rfl | hx
  · exact ⟨_, List.mem_of_getElem? h, List.mem_cons_of_mem _ hy⟩
  · exact ⟨x, hx, hy⟩

theorem Mrg.mem {qs qs' : List (List (Sample I T L))} {out} (m : Mrg qs out qs') :
    (∀ s ∈ out, ∃ q ∈ qs, s ∈ q) ∧ (∀ q ∈ qs', ∀ s ∈ q, ∃ q ∈ qs, s ∈ q) := by
  induction m with
  | nil qs => exact ⟨by simp, fun q hq s hs => ⟨q, hq, hs⟩⟩
  | @cons qs qs' out i s r h hmin m ih =>
    refine ⟨?_, ?_⟩
    · intro x hx
      rcases List.mem_cons.1 hx with rfl | hx
      · exact ⟨_, List.mem_of_getElem? h, List.mem_cons_self ..⟩
      · obtain ⟨q, hq, hs⟩ := ih.1 x hx
        exact mem_of_mem_set h hq hs
    · intro q hq x hx
      obtain ⟨q, hq, hs⟩ := ih.2 q hq x hx
      exact mem_of_mem_set h hq hs

/-- From sorted queues the samples come sorted, and nothing left is older than anything taken. -/
theorem Mrg.sorted {qs qs' : List (List (Sample I T L))} {out} (m : Mrg qs out qs') :
    (∀ q ∈ qs, Sorted q) → Sorted out ∧ (∀ q ∈ qs', Sorted q) ∧ ∀ s ∈ out, ∀ q ∈ qs', ∀ x ∈ q, s.ts ≤ x.ts := by
  induction m with
  | nil qs => intro h; exact ⟨List.Pairwise.nil, h, by simp⟩
  | @cons qs qs' out i s r h hmin m ih =>
    intro hs
    have h0 : Sorted (s :: r) := hs _ (List.mem_of_getElem? h)
    have hs' : ∀ q ∈ qs.set i r, Sorted q := by
      intro q hq
      rcases mem_set hq with rfl | hq
      · exact (List.pairwise_cons.1 h0).2
      · exact hs q hq
    obtain ⟨i1, i2, i3⟩ := ih hs'
    have least : ∀ q ∈ qs, ∀ x ∈ q, s.ts ≤ x.ts := by
      intro q hq x hx
      obtain ⟨j, hj⟩ := List.mem_iff_getElem?.1 hq
      cases q with
      | nil => simp at hx
      | cons y q =>
        have h1 := hmin j y q hj
        rcases List.mem_cons.1 hx with rfl | hx
        · exact h1
        · exact Nat.le_trans h1 ((List.pairwise_cons.1 (hs _ hq)).1 x hx)
    refine ⟨List.pairwise_cons.2 ⟨?_, i1⟩, i2, ?_⟩
    · intro x hx
      obtain ⟨q, hq, hx⟩ := m.mem.1 x hx
      obtain ⟨q, hq, hx⟩ := mem_of_mem_set h hq hx
      exact least q hq x hx
    · intro x hx q hq y hy
      rcases List.mem_cons.1 hx with rfl | hx
      · obtain ⟨q, hq, hy⟩ := m.mem.2 q hq y hy
        obtain ⟨q, hq, hy⟩ := mem_of_mem_set h hq hy
        exact least q hq y hy
      · exact i3 x hx q hq y hy

/-! ## The heap -/

theorem keyLt_irrefl_le {a b : Nat × Int × Nat} (h : keyLt a b = false) : b.1 ≤ a.1 := by
  simp [keyLt] at h; omega

theorem keyLt_le {a b : Nat × Int × Nat} (h : keyLt a b = true) : a.1 ≤ b.1 := by
  simp [keyLt] at h; omega

theorem popMin_none {h : List (Nat × Int × Nat)} (e : popMin h = none) : h = [] := by
  cases h with
  | nil => rfl
  | cons x xs =>
    simp only [popMin] at e
    split at e
    · simp at e
    · split at e <;> simp at e

theorem popMin_spec : ∀ {h : List (Nat × Int × Nat)} {e h'}, popMin h = some (e, h') →
    h.Perm (e :: h') ∧ ∀ x ∈ h, e.1 ≤ x.1
  | [], e, h', hp => by simp [popMin] at hp
  | x :: xs, e, h', hp => by
    simp only [popMin] at hp
    split at hp
    · rename_i hn
      simp at hp
      obtain ⟨rfl, rfl⟩ := hp
      rw [popMin_none hn]
      exact ⟨List.Perm.refl _, by simp⟩
    · rename_i y ys hy
      obtain ⟨p, hm⟩ := popMin_spec hy
      split at hp
      · rename_i hlt
        simp at hp
        obtain ⟨rfl, rfl⟩ := hp
        refine ⟨(p.cons x).trans (List.Perm.swap ..), ?_⟩
        intro z hz
        rcases List.mem_cons.1 hz with rfl | hz
        · exact keyLt_le hlt
        · exact hm z hz
      · rename_i hlt
        simp at hp hlt
        obtain ⟨rfl, rfl⟩ := hp
        refine ⟨List.Perm.refl _, ?_⟩
        intro z hz
        rcases List.mem_cons.1 hz with rfl | hz
        · exact Nat.le_refl _
        · exact Nat.le_trans (keyLt_irrefl_le hlt) (hm z hz)

/-- The heap holds the front of every non-empty queue, once. -/
structure HeapOk (heap : List (Nat × Int × Nat)) (qs : List (List (Sample I T L))) : Prop where
  sound : ∀ e ∈ heap, ∃ s q, qs[e.2.2]? = some (s :: q) ∧ e = key s e.2.2
  complete : ∀ (i : Nat) s q, qs[i]? = some (s :: q) → key s i ∈ heap
  nodup : (heap.map (·.2.2)).Nodup

theorem HeapOk.next {heap heap' : List (Nat × Int × Nat)} {qs : List (List (Sample I T L))} {e} (ok : HeapOk heap qs)
    (hp : heap.Perm (e :: heap')) {s q} (h : qs[e.2.2]? = some (s :: q)) :
    HeapOk (repush heap' e.2.2 q) (qs.set e.2.2 q) := by
  have hi : e.2.2 < qs.length := by
    rcases Nat.lt_or_ge e.2.2 qs.length with h' | h'
    · exact h'
    · rw [List.getElem?_eq_none h'] at h; simp at h
  have nd := (hp.map (·.2.2)).nodup_iff.1 ok.nodup
  rw [List.map_cons, List.nodup_cons] at nd
  have ne : ∀ x ∈ heap', x.2.2 ≠ e.2.2 := fun x hx he => nd.1 (List.mem_map.2 ⟨x, hx, he⟩)
  have old : ∀ x ∈ heap', ∃ s' q', (qs.set e.2.2 q)[x.2.2]? = some (s' :: q') ∧ x = key s' x.2.2 := by
    intro x hx
    obtain ⟨s', q', h1, h2⟩ := ok.sound x (hp.mem_iff.2 (List.mem_cons_of_mem _ hx))
    exact ⟨s', q', by rw [List.getElem?_set_ne (fun he => ne x hx he.symm)]; exact h1, h2⟩
  have oldc : ∀ (i : Nat) s' q', i ≠ e.2.2 → (qs.set e.2.2 q)[i]? = some (s' :: q') → key s' i ∈ heap' := by
    intro i s' q' hne hq
    rw [List.getElem?_set_ne (fun he => hne he.symm)] at hq
    have := hp.mem_iff.1 (ok.complete i s' q' hq)
    rcases List.mem_cons.1 this with he | he
    · exact absurd (by rw [← he]; rfl) hne
    · exact he
  cases q with
  | nil =>
    refine ⟨old, ?_, nd.2⟩
    intro i s' q' hq
    by_cases hne : i = e.2.2
    · subst hne; simp [List.getElem?_set, hi] at hq
    · exact oldc i s' q' hne hq
  | cons n q =>
    refine ⟨?_, ?_, ?_⟩
    · intro x hx
      rcases List.mem_append.1 hx with hx | hx
      · exact old x hx
      · rw [List.mem_singleton.1 hx]
        exact ⟨n, q, by simp [key, List.getElem?_set, hi], rfl⟩
    · intro i s' q' hq
      by_cases hne : i = e.2.2
      · subst hne
        simp [List.getElem?_set, hi] at hq
        rw [← hq.1]; simp [repush]
      · exact List.mem_append_left _ (oldc i s' q' hne hq)
    · show ((heap' ++ [key n e.2.2]).map (·.2.2)).Nodup
      rw [List.map_append, List.nodup_append]
      refine ⟨nd.2, by simp, ?_⟩
      intro a ha b hb
      simp [key] at hb
      subst hb
      intro hab; subst hab
      exact nd.1 ha

theorem mergeLoop_spec (limit : Nat) : ∀ (fuel : Nat) (heap : List (Nat × Int × Nat)) (qs : List (List (Sample I T L)))
    (out : List (Sample I T L)), HeapOk heap qs → total qs < fuel → out.length ≤ limit →
    ∃ new qs', mergeLoop fuel limit heap qs out = (out ++ new, qs') ∧ Mrg qs new qs' ∧ (out ++ new).length ≤ limit ∧
      ((out ++ new).length = limit ∨ total qs' = 0)
  | 0, heap, qs, out, ok, hf, hl => by omega
  | fuel + 1, heap, qs, out, ok, hf, hl => by
    unfold mergeLoop
    by_cases hlim : limit ≤ out.length
    · rw [if_pos hlim]
      exact ⟨[], qs, by simp, .nil qs, by simpa using hl, .inl (by simp; omega)⟩
    · rw [if_neg hlim]
      cases hp : popMin heap with
      | none =>
        refine ⟨[], qs, by simp, .nil qs, by simpa using hl, .inr ?_⟩
        have hh := popMin_none hp
        subst hh
        have he : ∀ q ∈ qs, q = [] := by
          intro q hq
          obtain ⟨j, hj⟩ := List.mem_iff_getElem?.1 hq
          cases q with
          | nil => rfl
          | cons s q => exact absurd (ok.complete j s q hj) (by simp)
        clear ok hf
        induction qs with
        | nil => rfl
        | cons x qs ih =>
          have h1 := ih (fun q hq => he q (List.mem_cons_of_mem _ hq))
          have h2 := he x (List.mem_cons_self ..)
          subst h2
          simpa [total] using h1
      | some p =>
        obtain ⟨e, heap'⟩ := p
        obtain ⟨perm, hmin⟩ := popMin_spec hp
        obtain ⟨s, q, hq, hk⟩ := ok.sound e (perm.mem_iff.2 (List.mem_cons_self ..))
        have hd : qs.getD e.2.2 [] = s :: q := by simp [List.getD, hq]
        simp only [hd]
        have ht := total_set hq
        obtain ⟨new, qs', h1, h2, h3, h4⟩ := mergeLoop_spec limit fuel _ (qs.set e.2.2 q) (out ++ [s]) (ok.next perm hq)
          (by omega) (by simp; omega)
        refine ⟨s :: new, qs', by rw [h1]; simp, .cons _ s q hq ?_ h2, by simpa using h3, by simpa using h4⟩
        intro j s' q' hj
        have := hmin _ (ok.complete j s' q' hj)
        rw [hk] at this
        exact this

theorem heapOk_init (qs : List (List (Sample I T L))) :
    HeapOk (qs.zipIdx.filterMap (fun (q, i) => q.head?.map (fun s => key s i))) qs := by
  refine ⟨?_, ?_, ?_⟩
  · intro e he
    obtain ⟨⟨q, i⟩, hm, hs⟩ := List.mem_filterMap.1 he
    cases q with
    | nil => simp at hs
    | cons s q =>
      simp at hs
      subst hs
      exact ⟨s, q, List.mem_zipIdx_iff_getElem?.1 hm, rfl⟩
  · intro i s q hq
    exact List.mem_filterMap.2 ⟨(s :: q, i), List.mem_zipIdx_iff_getElem?.2 hq, rfl⟩
  · have aux : ∀ (qs : List (List (Sample I T L))) (k : Nat),
        (((qs.zipIdx k).filterMap (fun (q, i) => q.head?.map (fun s => key s i))).map (·.2.2)).Nodup ∧
        ∀ x ∈ ((qs.zipIdx k).filterMap (fun (q, i) => q.head?.map (fun s => key s i))).map (·.2.2), k ≤ x := by
      intro qs
      induction qs with
      | nil => intro k; simp
      | cons q qs ih =>
        intro k
        obtain ⟨h1, h2⟩ := ih (k + 1)
        rw [List.zipIdx_cons]
        cases q with
        | nil =>
          simp only [List.filterMap_cons, List.head?_nil, Option.map_none]
          exact ⟨h1, fun x hx => by have := h2 x hx; omega⟩
        | cons s q =>
          simp only [List.filterMap_cons, List.head?_cons, Option.map_some, List.map_cons, List.nodup_cons]
          refine ⟨⟨?_, h1⟩, ?_⟩
          · intro hx
            have := h2 _ hx
            simp [key] at this; omega
          · intro x hx
            rcases List.mem_cons.1 hx with rfl | hx
            · simp [key]
            · have := h2 x hx; omega
    exact (aux qs 0).1

theorem mrg_single (q : List (Sample I T L)) : ∀ n, Mrg [q] (q.take n) [q.drop n] := by
  induction q with
  | nil => intro n; simp; exact .nil _
  | cons s q ih =>
    intro n
    cases n with
    | zero => exact .nil _
    | succ n =>
      refine .cons 0 s q rfl ?_ (ih n)
      intro j s' q' hj
      cases j with
      | zero => simp at hj; rw [hj.1]; exact Nat.le_refl _
      | succ j => simp at hj

theorem merge_spec (limit : Nat) (qs : List (List (Sample I T L))) :
    Mrg qs (merge limit qs).1 (merge limit qs).2 ∧ (merge limit qs).1.length ≤ limit ∧
      ((merge limit qs).1.length = limit ∨ total (merge limit qs).2 = 0) := by
  unfold merge
  split
  · rename_i q
    refine ⟨mrg_single q limit, by simp; omega, ?_⟩
    simp [total]
    omega
  · rename_i hq
    obtain ⟨new, qs', h1, h2, h3, h4⟩ := mergeLoop_spec limit (total qs + 1) _ qs [] (heapOk_init qs) (by omega)
      (by simp)
    have h1 : mergeLoop ((qs.map List.length).sum + 1) limit _ qs [] = _ := h1
    rw [h1]
    exact ⟨h2, h3, h4⟩

/-! ## Putting the queues back -/

theorem refill_self {α : Type} : ∀ (qs : List (List α)), refill qs (qs.filter (fun q => !q.isEmpty)) = qs
  | [] => rfl
  | [] :: qs => by simp [refill, refill_self qs]
  | (x :: q) :: qs => by simp [refill, refill_self qs]

theorem refill_index {α : Type} : ∀ (qs : List (List α)) (i : Nat), i < (qs.filter (fun q => !q.isEmpty)).length →
    ∃ j : Nat, ∀ fs : List (List α), fs.length = (qs.filter (fun q => !q.isEmpty)).length →
      (refill qs fs)[j]? = fs[i]? ∧ ∀ q, refill qs (fs.set i q) = (refill qs fs).set j q
  | [], i, hi => by simp at hi
  | [] :: qs, i, hi => by
    obtain ⟨j, hj⟩ := refill_index qs i (by simpa using hi)
    refine ⟨j + 1, ?_⟩
    intro fs hf
    obtain ⟨h1, h2⟩ := hj fs (by simpa using hf)
    exact ⟨by simpa [refill] using h1, fun q => by simp [refill, h2 q]⟩
  | (x :: r) :: qs, 0, hi => by
    refine ⟨0, ?_⟩
    intro fs hf
    cases fs with
    | nil => simp at hf
    | cons f fs => exact ⟨by simp [refill], fun q => by simp [refill]⟩
  | (x :: r) :: qs, i + 1, hi => by
    obtain ⟨j, hj⟩ := refill_index qs i (by simpa using hi)
    refine ⟨j + 1, ?_⟩
    intro fs hf
    cases fs with
    | nil => simp at hf
    | cons f fs =>
      obtain ⟨h1, h2⟩ := hj fs (by simpa using hf)
      exact ⟨by simpa [refill] using h1, fun q => by simp [refill, h2 q]⟩

theorem mem_refill {α : Type} : ∀ (qs fs : List (List α)), fs.length = (qs.filter (fun q => !q.isEmpty)).length →
    ∀ q ∈ refill qs fs, q = [] ∨ q ∈ fs
  | [], _, _, q, h => by simp [refill] at h
  | [] :: qs, fs, hf, q, h => by
    simp [refill] at h
    rcases h with rfl | h
    · exact .inl rfl
    · exact mem_refill qs fs (by simpa using hf) q h
  | (_ :: _) :: qs, [], hf, q, h => by simp at hf
  | (_ :: _) :: qs, f :: fs, hf, q, h => by
    simp [refill] at h
    rcases h with rfl | h
    · exact .inr (List.mem_cons_self ..)
    · rcases mem_refill qs fs (by simpa using hf) q h with h | h
      · exact .inl h
      · exact .inr (List.mem_cons_of_mem _ h)

theorem total_refill : ∀ (qs fs : List (List (Sample I T L))), fs.length = (qs.filter (fun q => !q.isEmpty)).length →
    total (refill qs fs) = total fs
  | [], fs, hf => by
    have : fs = [] := by simpa using hf
    subst this; rfl
  | [] :: qs, fs, hf => by
    have := total_refill qs fs (by simpa using hf)
    simpa [refill, total] using this
  | (_ :: _) :: qs, [], hf => by simp at hf
  | (_ :: _) :: qs, f :: fs, hf => by
    have := total_refill qs fs (by simpa using hf)
    simp [refill, total] at this ⊢; omega

theorem Mrg.refill {fs fs' : List (List (Sample I T L))} {out} (m : Mrg fs out fs') (qs : List (List (Sample I T L))) :
    fs.length = (qs.filter (fun q => !q.isEmpty)).length → Mrg (Prof.refill qs fs) out (Prof.refill qs fs') := by
  induction m with
  | nil fs => intro _; exact .nil _
  | @cons fs fs' out i s q h hmin m ih =>
    intro hf
    have hi : i < fs.length := by
      rcases Nat.lt_or_ge i fs.length with h' | h'
      · exact h'
      · rw [List.getElem?_eq_none h'] at h; simp at h
    obtain ⟨j, hj⟩ := refill_index qs i (by omega)
    obtain ⟨h1, h2⟩ := hj fs hf
    refine .cons j s q (by rw [h1]; exact h) ?_ (by rw [← h2]; exact ih (by simpa using hf))
    intro k s' q' hk
    rcases mem_refill qs fs hf _ (List.mem_of_getElem? hk) with h' | h'
    · simp at h'
    · obtain ⟨l, hl⟩ := List.mem_iff_getElem?.1 h'
      exact hmin l s' q' hl

/-- What a batch is, and what stays. -/
theorem batch_spec (r : Reg I T L) (now : Nat) (k : Int) :
    Mrg (queues (expire r now)) (batch r now k).2 (rest (expire r now) k) ∧
    ((batch r now k).2.length : Int) ≤ max 1 k ∧
    (((batch r now k).2.length : Int) = max 1 k ∨ total (rest (expire r now) k) = 0) := by
  have h := merge_spec (max 1 k).toNat ((queues (expire r now)).filter (fun q => !q.isEmpty))
  have e : (batch r now k).2 = (merge (max 1 k).toNat ((queues (expire r now)).filter (fun q => !q.isEmpty))).1 := rfl
  have hm := h.1.refill (queues (expire r now)) rfl
  rw [refill_self] at hm
  refine ⟨by rw [e]; exact hm, by rw [e]; omega, ?_⟩
  rcases h.2.2 with h2 | h2
  · left; rw [e, h2]; omega
  · right; rw [rest, total_refill _ _ h.1.length]; exact h2

end Prof
end Ez
