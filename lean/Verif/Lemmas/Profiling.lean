import Verif.Model.Profiling
import Verif.Lemmas.Py

/-!
# Lemmas on the profiling registry: what one call does to the metric of one publisher or subscriber
-/

set_option linter.unusedSectionVars false
set_option linter.unusedSimpArgs false

namespace Ez

namespace PyDict
variable {K V W : Type} [DecidableEq K]

theorem get?_map (d : PyDict K V) (f : K → V → W) (k : K) :
    get? (d.map (fun p => (p.1, f p.1 p.2))) k = (get? d k).map (f k) := by
  induction d with
  | nil => rfl
  | cons p d ih =>
    rw [List.map_cons, get?_cons, get?_cons]
    by_cases h : p.1 = k
    · simp [h]
    · simp only [h, if_false]; exact ih

theorem keys_map (d : PyDict K V) (f : K → V → W) : keys (d.map (fun p => (p.1, f p.1 p.2))) = keys d := by
  simp [keys]

theorem keys_set_mem {d : PyDict K V} {k x : K} {v : V} : x ∈ keys (set d k v) ↔ x ∈ keys d ∨ x = k := by
  rw [mem_keys, get?_set, mem_keys]
  by_cases h : x = k <;> simp [h]

/-- Values replaced from a list of the same length. -/
theorem get?_zip {U : Type} (f : V → U → V) (k : K) : ∀ (d : PyDict K V) (l : List U), l.length = d.length →
    ∀ v, get? d k = some v →
      ∃ (i : Nat) (u : U), d[i]? = some (k, v) ∧ l[i]? = some u ∧
        get? ((d.zip l).map (fun x => (x.1.1, f x.1.2 x.2))) k = some (f v u)
  | [], _, _, v, h => by simp [get?] at h
  | p :: d, [], hl, _, _ => by simp at hl
  | p :: d, u :: l, hl, v, h => by
    rw [get?_cons] at h
    by_cases hp : p.1 = k
    · simp only [hp, if_true, Option.some.injEq] at h
      exact ⟨0, u, by simp [← hp, ← h], by simp, by simp [get?_cons, hp, h]⟩
    · simp only [hp, if_false] at h
      obtain ⟨i, u', h1, h2, h3⟩ := get?_zip f k d l (by simpa using hl) v h
      exact ⟨i + 1, u', by simpa using h1, by simpa using h2, by simpa [get?_cons, hp] using h3⟩

theorem keys_zip {U : Type} (f : V → U → V) : ∀ (d : PyDict K V) (l : List U), d.length ≤ l.length →
    keys ((d.zip l).map (fun x => (x.1.1, f x.1.2 x.2))) = keys d
  | [], _, _ => rfl
  | p :: d, [], hl => by simp at hl
  | p :: d, u :: l, hl => by
    have := keys_zip f d l (by simpa using hl)
    simpa [keys] using this

end PyDict

namespace Prof

variable {I T L : Type} [DecidableEq I] [DecidableEq T]

open PyDict

theorem length_refill {α : Type} : ∀ (qs rs : List (List α)), (refill qs rs).length = qs.length
  | [], _ => rfl
  | [] :: qs, rs => by simp [refill, length_refill qs rs]
  | (_ :: _) :: qs, r :: rs => by simp [refill, length_refill qs rs]
  | (_ :: _) :: qs, [] => by simp [refill]

/-- Run a list of calls. -/
def run (cap : Nat) (r : Reg I T L) (h : List (Act I T L)) : Reg I T L := h.foldl (fun r a => (step cap r a).1) r

theorem run_append (cap : Nat) (r : Reg I T L) (h h' : List (Act I T L)) :
    run cap r (h ++ h') = run cap (run cap r h) h' := by simp [run]

theorem run_cons (cap : Nat) (r : Reg I T L) (a : Act I T L) (h : List (Act I T L)) :
    run cap r (a :: h) = run cap (step cap r a).1 h := rfl

@[simp] theorem setControl_lastTs (r : Reg I T L) (now : Nat) (c : Control I T) : (setControl r now c).lastTs = r.lastTs := rfl

@[simp] theorem expire_lastTs (r : Reg I T L) (now : Nat) : (expire r now).lastTs = r.lastTs := by
  unfold expire; split
  · rfl
  · split <;> rfl

@[simp] theorem batch_lastTs (r : Reg I T L) (now : Nat) (k : Int) : (batch r now k).1.lastTs = r.lastTs := by
  simp [batch]

theorem setControl_pub (r : Reg I T L) (now : Nat) (c : Control I T) (id : I) :
    (setControl r now c).pubs.get? id = (r.pubs.get? id).map (fun m => applyPub c id { m with samples := [] }) :=
  get?_map r.pubs (fun k m => applyPub c k { m with samples := [] }) id

theorem setControl_sub (r : Reg I T L) (now : Nat) (c : Control I T) (id : I) :
    (setControl r now c).subs.get? id = (r.subs.get? id).map (fun m => applySub c id { m with samples := [] }) :=
  get?_map r.subs (fun k m => applySub c k { m with samples := [] }) id

/-- Two metrics of the same publisher agree on what a snapshot shows. -/
def PubM.Same (m m' : PubM I T L) : Prop :=
  m'.topic = m.topic ∧ m'.nb = m.nb ∧ m'.total = m.total ∧ m'.last = m.last ∧ m'.inflight = m.inflight

def SubM.Same (m m' : SubM I T L) : Prop :=
  m'.topic = m.topic ∧ m'.total = m.total ∧ m'.last = m.last

theorem PubM.Same.rfl (m : PubM I T L) : m.Same m := ⟨Eq.refl _, Eq.refl _, Eq.refl _, Eq.refl _, Eq.refl _⟩
theorem SubM.Same.rfl (m : SubM I T L) : m.Same m := ⟨Eq.refl _, Eq.refl _, Eq.refl _⟩

theorem setControl_same (r : Reg I T L) (now : Nat) (c : Control I T) {id : I} {m : PubM I T L}
    (h : r.pubs.get? id = some m) : ∃ m', (setControl r now c).pubs.get? id = some m' ∧ m.Same m' :=
  ⟨_, by rw [setControl_pub, h]; exact Eq.refl _, by simp [PubM.Same, applyPub]⟩

theorem setControl_sameS (r : Reg I T L) (now : Nat) (c : Control I T) {id : I} {m : SubM I T L}
    (h : r.subs.get? id = some m) : ∃ m', (setControl r now c).subs.get? id = some m' ∧ m.Same m' :=
  ⟨_, by rw [setControl_sub, h]; exact Eq.refl _, by simp [SubM.Same, applySub]⟩

theorem expire_same (r : Reg I T L) (now : Nat) {id : I} {m : PubM I T L}
    (h : r.pubs.get? id = some m) : ∃ m', (expire r now).pubs.get? id = some m' ∧ m.Same m' := by
  unfold expire; split
  · exact ⟨m, h, .rfl m⟩
  · split
    · exact ⟨m, h, .rfl m⟩
    · exact setControl_same r now _ h

theorem expire_sameS (r : Reg I T L) (now : Nat) {id : I} {m : SubM I T L}
    (h : r.subs.get? id = some m) : ∃ m', (expire r now).subs.get? id = some m' ∧ m.Same m' := by
  unfold expire; split
  · exact ⟨m, h, .rfl m⟩
  · split
    · exact ⟨m, h, .rfl m⟩
    · exact setControl_sameS r now _ h

/-- The queues a batch is taken from. -/
def queues (r : Reg I T L) : List (List (Sample I T L)) := r.pubs.map (·.2.samples) ++ r.subs.map (·.2.samples)

/-- What is left in them. -/
def rest (r : Reg I T L) (k : Int) : List (List (Sample I T L)) :=
  refill (queues r) (merge (max 1 k).toNat ((queues r).filter (fun q => !q.isEmpty))).2

theorem length_rest (r : Reg I T L) (k : Int) : (rest r k).length = r.pubs.length + r.subs.length := by
  simp [rest, length_refill, queues]

theorem batch_pubs (r : Reg I T L) (now : Nat) (k : Int) :
    (batch r now k).1.pubs = ((expire r now).pubs.zip ((rest (expire r now) k).take (expire r now).pubs.length)).map
      (fun x => (x.1.1, { x.1.2 with samples := x.2 })) := by
  show ((expire r now).pubs.zip (rest (expire r now) k)).map _ = _
  congr 1
  generalize (expire r now).pubs = d
  generalize rest (expire r now) k = l
  induction d generalizing l with
  | nil => rfl
  | cons p d ih => cases l with
    | nil => rfl
    | cons u l => simp [ih l]

theorem batch_subs (r : Reg I T L) (now : Nat) (k : Int) :
    (batch r now k).1.subs = ((expire r now).subs.zip ((rest (expire r now) k).drop (expire r now).pubs.length)).map
      (fun x => (x.1.1, { x.1.2 with samples := x.2 })) := rfl

theorem batch_same (r : Reg I T L) (now : Nat) (k : Int) {id : I} {m : PubM I T L}
    (h : r.pubs.get? id = some m) : ∃ m', (batch r now k).1.pubs.get? id = some m' ∧ m.Same m' := by
  obtain ⟨m1, h1, hs⟩ := expire_same r now h
  obtain ⟨i, u, _, _, h3⟩ := get?_zip (fun (m : PubM I T L) q => { m with samples := q }) id _
    ((rest (expire r now) k).take (expire r now).pubs.length) (by simp [length_rest]) m1 h1
  exact ⟨{ m1 with samples := u }, by rw [batch_pubs]; exact h3, hs⟩

theorem batch_sameS (r : Reg I T L) (now : Nat) (k : Int) {id : I} {m : SubM I T L}
    (h : r.subs.get? id = some m) : ∃ m', (batch r now k).1.subs.get? id = some m' ∧ m.Same m' := by
  obtain ⟨m1, h1, hs⟩ := expire_sameS r now h
  obtain ⟨i, u, _, _, h3⟩ := get?_zip (fun (m : SubM I T L) q => { m with samples := q }) id _
    ((rest (expire r now) k).drop (expire r now).pubs.length) (by simp [length_rest]) m1 h1
  exact ⟨{ m1 with samples := u }, by rw [batch_subs]; exact h3, hs⟩

end Prof
end Ez
