import Verif.Model.TraceStream
import Verif.Lemmas.Py

/-!
# C68: followers of the profiling stream get each sample once, in order, losing only the oldest
-/

set_option linter.unusedSectionVars false
set_option linter.unusedSimpArgs false

namespace Ez.TStream
open PyDict
variable {F Q A : Type} [DecidableEq F] [DecidableEq Q]

/-! ## Specification -/

/-- What follower `f` gets of process `q` in each of its rounds. -/
def received (limit : Nat) (f : F) (q : Q) : St F Q A → List (Act F Q A) → List (List A)
  | _, [] => []
  | st, a :: h =>
    let r := step limit st a
    let rest := received limit f q r.1 h
    match a with
    | .poll g => if g = f then ((r.2.get? q).map (·.samples)).getD [] :: rest else rest
    | _ => rest

/-- The samples process `q` pushed, in order. -/
def pushed (q : Q) : List (Act F Q A) → List A
  | [] => []
  | .push q' _ _ xs :: h => if q' = q then xs ++ pushed q h else pushed q h
  | _ :: h => pushed q h

/-- What a follower is to get: `xs` are the samples pushed so far, `n` is the number of those that the follower has got
or lost. A round gives the oldest samples that it has not got and that are among the newest `limit`, at most `mx`. -/
def account (limit mx : Nat) (f : F) (q : Q) (xs : List A) (n : Nat) : List (Act F Q A) → List (List A)
  | [] => []
  | .push q' _ _ ys :: h => account limit mx f q (if q' = q then xs ++ ys else xs) n h
  | .poll g :: h =>
    if g = f then
      let lo := max n (xs.length - limit)
      let out := (xs.drop lo).take mx
      out :: account limit mx f q xs (lo + out.length) h
    else account limit mx f q xs n h
  | _ :: h => account limit mx f q xs n h

/-- `f` neither starts nor ends in this step. -/
def Stays (f : F) : Act F Q A → Prop
  | .follow g _ => g ≠ f
  | .unfollow g => g ≠ f
  | _ => True

def isLeave (q : Q) : Act F Q A → Bool
  | .leave q' => decide (q' = q)
  | _ => false

def isPush (q : Q) : Act F Q A → Bool
  | .push q' _ _ _ => decide (q' = q)
  | _ => false

/-- A process pushes only after it has connected. -/
def Proper (q : Q) (h : List (Act F Q A)) : Prop :=
  ∀ a b x, h = a ++ x :: b → isPush q x = true → .connect q ∈ a

/-- The control lets `q` through. -/
def Wants (c : Control Q) (q : Q) : Prop := ∀ ids, c.only = some ids → q ∈ ids

/-! ## Numbered buffers -/

/-- `xs` numbered from `lo + 1`. -/
def num (lo : Nat) : List A → List (Nat × A)
  | [] => []
  | x :: xs => (lo + 1, x) :: num (lo + 1) xs

@[simp] theorem num_length (lo : Nat) (xs : List A) : (num lo xs).length = xs.length := by
  induction xs generalizing lo with
  | nil => rfl
  | cons x xs ih => simp [num, ih]

theorem num_append (lo : Nat) (xs ys : List A) : num lo (xs ++ ys) = num lo xs ++ num (lo + xs.length) ys := by
  induction xs generalizing lo with
  | nil => simp [num]
  | cons x xs ih => simp [num, ih, Nat.add_comm, Nat.add_left_comm]

theorem num_drop (lo k : Nat) (xs : List A) : (num lo xs).drop k = num (lo + k) (xs.drop k) := by
  induction k generalizing lo xs with
  | zero => simp
  | succ k ih =>
    cases xs with
    | nil => simp [num]
    | cons x xs => simp [num, ih, Nat.add_comm, Nat.add_left_comm]

/-- The buffer of a process that pushed `xs`. -/
def kept (limit : Nat) (xs : List A) : List (Nat × A) := num (xs.length - limit) (xs.drop (xs.length - limit))

theorem push_kept (limit : Nat) (xs : List A) (x : A) :
    Prof.push limit (kept limit xs) (xs.length + 1, x) = kept limit (xs ++ [x]) := by
  unfold Prof.push kept
  have e : num (xs.length - limit) (xs.drop (xs.length - limit)) ++ [(xs.length + 1, x)] =
      num (xs.length - limit) (xs.drop (xs.length - limit) ++ [x]) := by
    rw [num_append]
    simp only [List.length_drop, num]
    congr 3
    have : xs.length - limit ≤ xs.length := Nat.sub_le _ _
    congr 1
    omega
  rw [e, num_drop, num_length, List.length_drop, List.length_append, List.length_singleton]
  have h1 : xs.drop (xs.length - limit) ++ [x] = (xs ++ [x]).drop (xs.length - limit) := by
    rw [List.drop_append_of_le_length (Nat.sub_le _ _)]
  rw [h1, List.drop_drop]
  have h2 : xs.length - limit + (xs.length - (xs.length - limit) + 1 - limit) = xs.length + 1 - limit := by omega
  rw [h2]

theorem append_kept (limit : Nat) (ys : List A) : ∀ xs : List A,
    append limit ys (kept limit xs) xs.length = (kept limit (xs ++ ys), (xs ++ ys).length) := by
  induction ys with
  | nil => intro xs; simp [append]
  | cons y ys ih =>
    intro xs
    have h := ih (xs ++ [y])
    simp only [append, push_kept]
    simp only [List.append_assoc, List.length_append, List.length_singleton, List.singleton_append] at h
    rw [h]
    simp

theorem scan_num (mx : Nat) : ∀ (xs : List A) (lo last : Nat) (out : List A), lo ≤ last → out.length < mx →
    scan mx (num lo xs) last out =
      (last + ((xs.drop (last - lo)).take (mx - out.length)).length,
       out ++ (xs.drop (last - lo)).take (mx - out.length))
  | [], lo, last, out, h, h' => by simp [num, scan]
  | x :: xs, lo, last, out, h, h' => by
    simp only [num, scan]
    split
    · rename_i hl
      rw [scan_num mx xs (lo + 1) last out hl h']
      have : last - lo = (last - (lo + 1)) + 1 := by omega
      rw [this, List.drop_succ_cons]
    · rename_i hl
      have he : last = lo := by omega
      subst he
      rw [Nat.sub_self, List.drop_zero]
      split
      · rename_i hm
        have : mx - out.length = 1 := by omega
        rw [this]; simp
      · rename_i hm
        rw [scan_num mx xs (last + 1) (last + 1) (out ++ [x]) (Nat.le_refl _) (by simp; omega)]
        rw [Nat.sub_self, List.drop_zero]
        have : mx - out.length = (mx - (out ++ [x]).length) + 1 := by simp; omega
        rw [this, List.take_succ_cons]
        simp
        omega

/-- One round for one process. -/
theorem collectOne_kept {st : St F Q A} {mx limit : Nat} {last : PyDict Q Nat} {q : Q} {xs : List A} {n : Nat}
    (hm : 1 ≤ mx) (hb : (st.buffers.get? q).getD [] = kept limit xs)
    (hn : max ((last.get? q).getD 0) (xs.length - limit) = max n (xs.length - limit)) :
    (collectOne st mx last q).2 = (xs.drop (max n (xs.length - limit))).take mx ∧
    max (((collectOne st mx last q).1).getD ((last.get? q).getD 0)) (xs.length - limit) =
      max n (xs.length - limit) + ((xs.drop (max n (xs.length - limit))).take mx).length := by
  have hkl : (kept limit xs).length = xs.length - (xs.length - limit) := by simp [kept]
  unfold collectOne
  split
  · rename_i b bs he
    rw [he] at hb
    simp only [Option.getD_some] at hb
    have hb1 : b.1 = xs.length - limit + 1 := by
      unfold kept at hb
      cases hd : xs.drop (xs.length - limit) with
      | nil => rw [hd] at hb; simp [num] at hb
      | cons y ys => rw [hd] at hb; simp only [num, List.cons.injEq] at hb; rw [hb.1]
    simp only
    have hl : (if (last.get? q).getD 0 < b.1 - 1 then b.1 - 1 else (last.get? q).getD 0) =
        max n (xs.length - limit) := by
      rw [hb1, ← hn]; split <;> omega
    rw [hl, hb]
    unfold kept
    rw [scan_num mx _ _ _ _ (Nat.le_max_right _ _) (by simp; omega)]
    have e : (xs.drop (xs.length - limit)).drop (max n (xs.length - limit) - (xs.length - limit)) =
        xs.drop (max n (xs.length - limit)) := by
      rw [List.drop_drop]; congr 1; omega
    rw [e]
    simp only [List.length_nil, Nat.sub_zero, List.nil_append, Option.getD_some, true_and]
    omega
  · rename_i hne
    have h0 : kept limit xs = [] := by
      cases hg : st.buffers.get? q with
      | none => rw [hg] at hb; exact hb.symm
      | some l =>
        rw [hg] at hb
        cases l with
        | nil => exact hb.symm
        | cons b bs => exact absurd hg (by simpa using hne b bs)
    rw [h0] at hkl
    simp only [List.length_nil] at hkl
    have : xs.drop (max n (xs.length - limit)) = [] := by
      rw [List.drop_eq_nil_iff]; omega
    rw [this]
    simp only [List.take_nil, List.length_nil, Nat.add_zero, Option.getD_none, true_and]
    omega

theorem scan_length (mx : Nat) : ∀ (b : List (Nat × A)) (last : Nat) (out : List A), out.length < mx →
    (scan mx b last out).2.length ≤ mx
  | [], last, out, h => by simp only [scan]; omega
  | (s, x) :: b, last, out, h => by
    simp only [scan]
    split
    · exact scan_length mx b last out h
    · split
      · simp; omega
      · exact scan_length mx b s (out ++ [x]) (by simp; omega)

theorem collectOne_length (st : St F Q A) (mx : Nat) (last : PyDict Q Nat) (q : Q) (hm : 1 ≤ mx) :
    (collectOne st mx last q).2.length ≤ mx := by
  unfold collectOne
  split
  · exact scan_length mx _ _ _ (by simp; omega)
  · simp

/-! ## The loop over the processes -/

theorem collectOne_congr {st : St F Q A} {mx : Nat} {last last' : PyDict Q Nat} {q : Q}
    (h : last.get? q = last'.get? q) : collectOne st mx last q = collectOne st mx last' q := by
  unfold collectOne; rw [h]

theorem setLast_same (last : PyDict Q Nat) (q : Q) (r : Option Nat) :
    (setLast last q r).get? q = r.orElse (fun _ => last.get? q) := by
  cases r with
  | none => rfl
  | some l => simp only [setLast]; rw [get?_set, if_pos rfl]; rfl

theorem setLast_other (last : PyDict Q Nat) {q x : Q} (h : q ≠ x) (r : Option Nat) :
    (setLast last x r).get? q = last.get? q := by
  cases r with
  | none => rfl
  | some l => simp only [setLast]; rw [get?_set, if_neg h]

theorem collectLoop_other {st : St F Q A} {c : Control Q} {q : Q} : ∀ (ids : List Q) (last : PyDict Q Nat)
    (out : PyDict Q (Batch A)), q ∉ ids →
    (collectLoop st c ids last out).1.get? q = last.get? q ∧ (collectLoop st c ids last out).2.get? q = out.get? q
  | [], last, out, _ => ⟨rfl, rfl⟩
  | x :: ids, last, out, h => by
    simp only [List.mem_cons, not_or] at h
    simp only [collectLoop]
    split
    · rw [← setLast_other last h.1 (collectOne st (max 1 c.maxSamples).toNat last x).1]
      exact collectLoop_other ids _ _ h.2
    · rw [← setLast_other last h.1 (collectOne st (max 1 c.maxSamples).toNat last x).1]
      obtain ⟨h1, h2⟩ := collectLoop_other (st := st) (c := c) ids
        (setLast last x (collectOne st (max 1 c.maxSamples).toNat last x).1) (out.set x
          { pid := (identity st x).1, host := (identity st x).2,
            samples := (collectOne st (max 1 c.maxSamples).toNat last x).2 }) h.2
      rw [get?_set, if_neg h.1] at h2
      exact ⟨h1, h2⟩

/-- The batch for a process, or nothing. -/
def entry (st : St F Q A) (c : Control Q) (last : PyDict Q Nat) (q : Q) : Option (Batch A) :=
  let r := collectOne st (max 1 c.maxSamples).toNat last q
  if r.2.isEmpty && !c.includeEmpty then none
  else some { pid := (identity st q).1, host := (identity st q).2, samples := r.2 }

theorem collectLoop_at {st : St F Q A} {c : Control Q} {q : Q} : ∀ (ids : List Q) (last : PyDict Q Nat)
    (out : PyDict Q (Batch A)), ids.Nodup → q ∈ ids → out.get? q = none →
    (collectLoop st c ids last out).1.get? q =
        ((collectOne st (max 1 c.maxSamples).toNat last q).1.orElse (fun _ => last.get? q)) ∧
      (collectLoop st c ids last out).2.get? q = entry st c last q
  | x :: ids, last, out, hn, hm, ho => by
    have hnd := List.nodup_cons.1 hn
    by_cases hx : q = x
    · subst hx
      simp only [collectLoop]
      split
      · rename_i he
        obtain ⟨h1, h2⟩ := collectLoop_other (st := st) (c := c) ids
          (setLast last q (collectOne st (max 1 c.maxSamples).toNat last q).1) out hnd.1
        refine ⟨h1.trans (setLast_same _ _ _), ?_⟩
        rw [h2, ho]; unfold entry; simp only [he, if_true]
      · rename_i he
        obtain ⟨h1, h2⟩ := collectLoop_other (st := st) (c := c) ids
          (setLast last q (collectOne st (max 1 c.maxSamples).toNat last q).1) (out.set q
          { pid := (identity st q).1, host := (identity st q).2,
            samples := (collectOne st (max 1 c.maxSamples).toNat last q).2 }) hnd.1
        refine ⟨h1.trans (setLast_same _ _ _), ?_⟩
        rw [h2, get?_set, if_pos rfl]; unfold entry; simp only [if_neg he]
    · have hm' : q ∈ ids := by simpa [hx] using hm
      have hl := setLast_other last hx (collectOne st (max 1 c.maxSamples).toNat last x).1
      have hent : ∀ l' : PyDict Q Nat, l'.get? q = last.get? q → entry st c l' q = entry st c last q := by
        intro l' h; unfold entry; rw [collectOne_congr h]
      simp only [collectLoop]
      split
      · obtain ⟨h1, h2⟩ := collectLoop_at (st := st) (c := c) ids
          (setLast last x (collectOne st (max 1 c.maxSamples).toNat last x).1) out hnd.2 hm' ho
        rw [collectOne_congr hl, hl] at h1
        rw [hent _ hl] at h2
        exact ⟨h1, h2⟩
      · obtain ⟨h1, h2⟩ := collectLoop_at (st := st) (c := c) ids
          (setLast last x (collectOne st (max 1 c.maxSamples).toNat last x).1) (out.set x
          { pid := (identity st x).1, host := (identity st x).2,
            samples := (collectOne st (max 1 c.maxSamples).toNat last x).2 }) hnd.2 hm'
          (by rw [get?_set, if_neg hx]; exact ho)
        rw [collectOne_congr hl, hl] at h1
        rw [hent _ hl] at h2
        exact ⟨h1, h2⟩

/-! ## Runs -/

theorem nodup_foldl_add (ids : List Q) : ∀ s : PySet Q, s.Nodup → (ids.foldl PySet.add s).Nodup := by
  induction ids with
  | nil => exact fun _ h => h
  | cons x ids ih => exact fun s h => ih _ (PySet.nodup_add h)

theorem mem_foldl_add (ids : List Q) (q : Q) : ∀ s : PySet Q, q ∈ ids.foldl PySet.add s ↔ q ∈ s ∨ q ∈ ids := by
  induction ids with
  | nil => simp
  | cons x ids ih =>
    intro s
    simp only [List.foldl_cons, ih, PySet.mem_add, List.mem_cons]
    constructor
    · rintro ((h | h) | h) <;> simp [h]
    · rintro (h | h | h) <;> simp [h]

theorem selected_nodup {st : St F Q A} (h : st.procs.keys.Nodup) (c : Control Q) : (selected st c).Nodup := by
  unfold selected
  split
  · exact nodup_foldl_add _ _ List.nodup_nil
  · exact h

theorem mem_selected {st : St F Q A} {c : Control Q} {q : Q} :
    q ∈ selected st c ↔ Wants c q ∧ (c.only = none → q ∈ st.procs.keys) := by
  unfold selected Wants
  split
  · rename_i ids h
    rw [mem_foldl_add, h]; simp
  · rename_i h
    rw [h]; simp

theorem procs_nodup (limit : Nat) (h : List (Act F Q A)) : (run limit {} h).procs.keys.Nodup := by
  suffices ∀ (h : List (Act F Q A)) (st : St F Q A), st.procs.keys.Nodup → (run limit st h).procs.keys.Nodup from
    this h {} List.nodup_nil
  intro h
  induction h with
  | nil => exact fun _ h => h
  | cons a h ih =>
    intro st hs
    refine ih _ ?_
    cases a with
    | connect q => exact nodup_set hs
    | register q pid host => simp only [step]; rw [keys_modify]; exact hs
    | push => exact hs
    | leave q => exact nodup_pop hs
    | follow => exact hs
    | unfollow => exact hs
    | poll f => simp only [step]; split <;> exact hs


/-- State of the server about process `q`, which has pushed `xs`. -/
structure Holding (limit : Nat) (q : Q) (st : St F Q A) (xs : List A) : Prop where
  nodup : st.procs.keys.Nodup
  buf : (st.buffers.get? q).getD [] = kept limit xs
  seq : (st.seq.get? q).getD 0 = xs.length
  proc : xs ≠ [] → q ∈ st.procs.keys

/-- Follower `f` has got or lost `n` samples of `q`. -/
def Behind (limit : Nat) (f : F) (c : Control Q) (q : Q) (st : St F Q A) (xs : List A) (n : Nat) : Prop :=
  ∃ last, st.followers.get? f = some (c, last) ∧
    max ((last.get? q).getD 0) (xs.length - limit) = max n (xs.length - limit)

/-- The samples pushed in one step. -/
def pushed1 (q : Q) : Act F Q A → List A
  | .push q' _ _ ys => if q' = q then ys else []
  | _ => []

theorem pushed_cons (q : Q) (a : Act F Q A) (h : List (Act F Q A)) : pushed q (a :: h) = pushed1 q a ++ pushed q h := by
  cases a <;> simp only [pushed, pushed1, List.nil_append]
  split <;> simp

theorem pushed_append (q : Q) (h h' : List (Act F Q A)) : pushed q (h ++ h') = pushed q h ++ pushed q h' := by
  induction h with
  | nil => rfl
  | cons a h ih => simp only [List.cons_append, pushed_cons, ih, List.append_assoc]

theorem Holding.step {limit : Nat} {q : Q} {st : St F Q A} {xs : List A} {a : Act F Q A} (h : Holding limit q st xs)
    (hl : isLeave q a = false) (hp : isPush q a = true → q ∈ st.procs.keys) :
    Holding limit q (step limit st a).1 (xs ++ pushed1 q a) := by
  have h0 : ∀ {l : List A}, l ++ [] = l := fun {l} => List.append_nil l
  cases a with
  | connect q' =>
    refine ⟨nodup_set h.nodup, by simp only [pushed1, h0]; exact h.buf, by simp only [pushed1, h0]; exact h.seq, ?_⟩
    simp only [pushed1, h0]
    intro hx
    have := h.proc hx
    simp only [TStream.step]
    rw [mem_keys] at this ⊢
    rw [get?_set]
    split
    · rfl
    · exact this
  | register q' pid host =>
    simp only [pushed1, h0]
    refine ⟨?_, h.buf, h.seq, ?_⟩ <;> simp only [TStream.step, keys_modify]
    · exact h.nodup
    · exact h.proc
  | push q' pid host ys =>
    by_cases hq : q' = q
    · subst hq
      simp only [TStream.step, pushed1, if_true]
      rw [h.buf, h.seq, append_kept]
      refine ⟨h.nodup, ?_, ?_, fun _ => hp (by simp [isPush])⟩
      · simp only [get?_set, if_true, Option.getD_some]
      · simp only [get?_set, if_true, Option.getD_some]
    · simp only [TStream.step, pushed1, if_neg hq, h0]
      refine ⟨h.nodup, ?_, ?_, h.proc⟩
      · simp only [get?_set, if_neg (Ne.symm hq)]; exact h.buf
      · simp only [get?_set, if_neg (Ne.symm hq)]; exact h.seq
  | leave q' =>
    have hq : q ≠ q' := by rintro rfl; simp [isLeave] at hl
    simp only [TStream.step, pushed1, h0]
    refine ⟨nodup_pop h.nodup, ?_, ?_, fun hx => ?_⟩
    · simp only [get?_pop, if_neg hq]; exact h.buf
    · simp only [get?_pop, if_neg hq]; exact h.seq
    · have := h.proc hx
      rw [mem_keys] at this ⊢
      simp only [get?_pop, if_neg hq]; exact this
  | follow f c => simp only [pushed1, h0]; exact ⟨h.nodup, h.buf, h.seq, h.proc⟩
  | unfollow f => simp only [pushed1, h0]; exact ⟨h.nodup, h.buf, h.seq, h.proc⟩
  | poll f =>
    simp only [pushed1, h0, TStream.step]
    split <;> exact ⟨h.nodup, h.buf, h.seq, h.proc⟩

theorem mem_procs_step {limit : Nat} {q : Q} {st : St F Q A} {a : Act F Q A} (hl : isLeave q a = false)
    (h : a = .connect q ∨ q ∈ st.procs.keys) : q ∈ (step limit st a).1.procs.keys := by
  cases a with
  | connect q' =>
    simp only [step, mem_keys, get?_set]
    split
    · rfl
    · rename_i hq
      rcases h with h | h
      · simp only [Act.connect.injEq] at h; exact absurd h.symm hq
      · rw [mem_keys] at h; exact h
  | register q' pid host =>
    simp only [step, keys_modify]
    exact h.resolve_left (by simp)
  | leave q' =>
    have hq : q ≠ q' := by rintro rfl; simp [isLeave] at hl
    have h := h.resolve_left (by simp)
    simp only [step, mem_keys, get?_pop, if_neg hq]
    rw [mem_keys] at h; exact h
  | push q' pid host ys => exact h.resolve_left (by simp)
  | follow f c => exact h.resolve_left (by simp)
  | unfollow f => exact h.resolve_left (by simp)
  | poll f =>
    simp only [step]
    split <;> exact h.resolve_left (by simp)

theorem holding_run {limit : Nat} {q : Q} (b : List (Act F Q A)) : ∀ (pre : List (Act F Q A)) (st : St F Q A) (xs : List A),
    Holding limit q st xs → (.connect q ∈ pre → q ∈ st.procs.keys) → Proper q (pre ++ b) →
    (∀ x ∈ b, isLeave q x = false) →
    Holding limit q (run limit st b) (xs ++ pushed q b) ∧ (.connect q ∈ pre ++ b → q ∈ (run limit st b).procs.keys) := by
  induction b with
  | nil => intro pre st xs h hc hp hl; simpa [run, pushed] using ⟨h, hc⟩
  | cons a b ih =>
    intro pre st xs h hc hp hl
    have ha := hl a List.mem_cons_self
    have h1 := h.step ha (fun hx => hc (hp pre b a rfl hx))
    have := ih (pre ++ [a]) (step limit st a).1 (xs ++ pushed1 q a) h1 (by
      intro hm
      refine mem_procs_step ha ?_
      rcases List.mem_append.1 hm with hm | hm
      · exact .inr (hc hm)
      · exact .inl (by simpa [eq_comm] using hm)) (by simpa using hp) (fun x hx => hl x (List.mem_cons_of_mem _ hx))
    rw [pushed_cons]
    simpa [run] using this

theorem collected_at {limit : Nat} {c : Control Q} {q : Q} {st : St F Q A} {xs : List A} {n : Nat}
    {last : PyDict Q Nat} (h : Holding limit q st xs) (hw : Wants c q)
    (hn : max ((last.get? q).getD 0) (xs.length - limit) = max n (xs.length - limit)) :
    let r := collectLoop st c (selected st c) last []
    let out := (xs.drop (max n (xs.length - limit))).take (max 1 c.maxSamples).toNat
    (((r.2.get? q).map (·.samples)).getD [] = out) ∧
      max ((r.1.get? q).getD 0) (xs.length - limit) = max (max n (xs.length - limit) + out.length) (xs.length - limit) := by
  simp only
  obtain ⟨h1, h2⟩ := collectOne_kept (mx := (max 1 c.maxSamples).toNat) (by omega) h.buf hn
  by_cases hs : q ∈ selected st c
  · obtain ⟨h3, h4⟩ := collectLoop_at (st := st) (c := c) (selected st c) last [] (selected_nodup h.nodup c) hs rfl
    rw [h4, h3]
    refine ⟨?_, ?_⟩
    · unfold entry
      simp only
      split
      · rename_i he
        simp only [Bool.and_eq_true, List.isEmpty_iff] at he
        rw [← h1, he.1]; rfl
      · simp only [Option.map_some, Option.getD_some]; exact h1
    · have e : ∀ o : Option Nat, (o.orElse (fun _ => last.get? q)).getD 0 = o.getD ((last.get? q).getD 0) := by
        intro o; cases o <;> rfl
      rw [e, h2]
      omega
  · have hx : xs = [] := by
      apply Classical.byContradiction
      intro hx
      exact hs (mem_selected.2 ⟨hw, fun _ => h.proc hx⟩)
    subst hx
    obtain ⟨h3, h4⟩ := collectLoop_other (st := st) (c := c) (q := q) (selected st c) last [] hs
    rw [h3, h4]
    simp only [List.length_nil, Nat.zero_sub, List.drop_nil, List.take_nil] at hn ⊢
    refine ⟨rfl, by omega⟩

theorem received_run {limit : Nat} {f : F} {c : Control Q} {q : Q} (hw : Wants c q) (b : List (Act F Q A)) :
    ∀ (pre : List (Act F Q A)) (st : St F Q A) (xs : List A) (n : Nat),
    Holding limit q st xs → Behind limit f c q st xs n → (.connect q ∈ pre → q ∈ st.procs.keys) → Proper q (pre ++ b) →
    (∀ x ∈ b, isLeave q x = false) → (∀ x ∈ b, Stays f x) →
    received limit f q st b = account limit (max 1 c.maxSamples).toNat f q xs n b := by
  induction b with
  | nil => intros; rfl
  | cons a b ih =>
    intro pre st xs n h hb hc hp hl hs
    have ha := hl a List.mem_cons_self
    have hsa := hs a List.mem_cons_self
    have h1 := h.step ha (fun hx => hc (hp pre b a rfl hx))
    have hc' : .connect q ∈ pre ++ [a] → q ∈ (step limit st a).1.procs.keys := by
      intro hm
      refine mem_procs_step ha ?_
      rcases List.mem_append.1 hm with hm | hm
      · exact .inr (hc hm)
      · exact .inl (by simpa [eq_comm] using hm)
    have next : ∀ xs' n', xs' = xs ++ pushed1 q a → Behind limit f c q (step limit st a).1 xs' n' →
        received limit f q (step limit st a).1 b = account limit (max 1 c.maxSamples).toNat f q xs' n' b := by
      rintro xs' n' rfl hb'
      exact ih (pre ++ [a]) _ _ n' h1 hb' hc' (by simpa using hp) (fun x hx => hl x (List.mem_cons_of_mem _ hx))
        (fun x hx => hs x (List.mem_cons_of_mem _ hx))
    obtain ⟨last, hf, hlast⟩ := hb
    cases a with
    | connect q' => exact next xs n (by simp [pushed1]) ⟨last, hf, hlast⟩
    | register q' pid host => exact next xs n (by simp [pushed1]) ⟨last, hf, hlast⟩
    | leave q' => exact next xs n (by simp [pushed1]) ⟨last, hf, hlast⟩
    | push q' pid host ys =>
      refine next _ n ?_ ⟨last, hf, ?_⟩
      · simp only [pushed1]; split <;> simp
      · split
        · simp only [List.length_append]; omega
        · exact hlast
    | follow g c' =>
      refine next xs n (by simp [pushed1]) ⟨last, ?_, hlast⟩
      simp only [step, get?_set, if_neg (Ne.symm (show g ≠ f from hsa))]; exact hf
    | unfollow g =>
      refine next xs n (by simp [pushed1]) ⟨last, ?_, hlast⟩
      simp only [step, get?_pop, if_neg (Ne.symm (show g ≠ f from hsa))]; exact hf
    | poll g =>
      by_cases hg : g = f
      · subst hg
        obtain ⟨e1, e2⟩ := collected_at h hw hlast
        simp only [received, account, if_true]
        have hst : step limit st (.poll g) =
            ({ st with
               followers := st.followers.set g (c, (collectLoop st c (selected st c) last []).1) },
             (collectLoop st c (selected st c) last []).2) := by
          simp only [step, hf]
        congr 1
        · rw [hst]; exact e1
        · refine next xs _ (by simp [pushed1]) ?_
          rw [hst]
          exact ⟨_, by simp only [get?_set, if_true], e2⟩
      · simp only [received, account, if_neg hg]
        refine next xs n (by simp [pushed1]) ⟨last, ?_, hlast⟩
        simp only [step]
        split
        · exact hf
        · simp only [get?_set, if_neg (Ne.symm hg)]; exact hf

theorem holding_init (limit : Nat) (q : Q) : Holding limit q ({} : St F Q A) [] :=
  ⟨List.nodup_nil, by simp [kept, num, get?], rfl, fun h => absurd rfl h⟩

/-! ## Consequences of the account -/

theorem out_split (xs ys : List A) (lo mx : Nat) : (xs ++ ys).drop lo =
    (xs.drop lo).take mx ++ (xs ++ ys).drop (lo + ((xs.drop lo).take mx).length) := by
  have h : (xs.drop lo).take mx <+: (xs ++ ys).drop lo := by
    refine (List.take_prefix _ _).trans ?_
    rw [List.drop_append]
    exact List.prefix_append _ _
  obtain ⟨t, ht⟩ := h
  rw [← List.drop_drop, ← ht, List.drop_left]

theorem account_sublist {limit mx : Nat} {f : F} {q : Q} (b : List (Act F Q A)) : ∀ (xs : List A) (n : Nat),
    (account limit mx f q xs n b).flatten.Sublist ((xs ++ pushed q b).drop n) := by
  induction b with
  | nil => intro xs n; exact List.nil_sublist _
  | cons a b ih =>
    intro xs n
    cases a with
    | push q' pid host ys =>
      simp only [account, pushed]
      have := ih (if q' = q then xs ++ ys else xs) n
      split
      · rename_i hq; simpa [hq] using this
      · rename_i hq; simpa [hq] using this
    | poll g =>
      simp only [account, pushed]
      split
      · simp only [List.flatten_cons]
        have h1 : ((xs ++ pushed q b).drop (max n (xs.length - limit))).Sublist ((xs ++ pushed q b).drop n) := by
          have : max n (xs.length - limit) = n + (max n (xs.length - limit) - n) := by omega
          rw [this, ← List.drop_drop]
          exact List.drop_sublist _ _
        refine List.Sublist.trans ?_ h1
        rw [out_split xs (pushed q b) (max n (xs.length - limit)) mx]
        exact List.Sublist.append (List.Sublist.refl _) (ih _ _)
      · exact ih xs n
    | connect => exact ih xs n
    | register => exact ih xs n
    | leave => exact ih xs n
    | follow => exact ih xs n
    | unfollow => exact ih xs n

theorem account_ne_nil {limit mx : Nat} {f : F} {q : Q} (b : List (Act F Q A)) : ∀ (xs : List A) (n : Nat),
    account limit mx f q xs n (b ++ [.poll f]) ≠ [] := by
  induction b with
  | nil => intro xs n; simp [account]
  | cons a b ih =>
    intro xs n
    cases a with
    | poll g =>
      simp only [List.cons_append, account]
      split
      · simp
      · exact ih _ _
    | push => exact ih _ _
    | connect => exact ih xs n
    | register => exact ih xs n
    | leave => exact ih xs n
    | follow => exact ih xs n
    | unfollow => exact ih xs n

/-- The last round gave less than asked for. -/
def EndsShort (mx : Nat) (l : List (List A)) : Prop := ∃ o, l.getLast? = some o ∧ o.length < mx

theorem EndsShort.tail {mx : Nat} {o : List A} {l : List (List A)} (h : EndsShort mx (o :: l)) (hl : l ≠ []) :
    EndsShort mx l := by
  obtain ⟨x, hx, hlen⟩ := h
  rw [List.getLast?_cons] at hx
  cases hg : l.getLast? with
  | none => exact absurd (List.getLast?_eq_none_iff.1 hg) hl
  | some y =>
    rw [hg] at hx
    simp only [Option.getD_some, Option.some.injEq] at hx
    subst hx
    exact ⟨y, hg, hlen⟩

theorem account_noloss {limit mx : Nat} {f : F} {q : Q} (b : List (Act F Q A)) : ∀ (xs : List A) (n : Nat),
    (xs ++ pushed q b).length - limit ≤ n → EndsShort mx (account limit mx f q xs n (b ++ [.poll f])) →
    (account limit mx f q xs n (b ++ [.poll f])).flatten = (xs ++ pushed q b).drop n := by
  induction b with
  | nil =>
    intro xs n hn hs
    simp only [pushed, List.append_nil] at hn
    have hm : max n (xs.length - limit) = n := by omega
    simp only [List.nil_append, account, if_true, pushed, List.append_nil, hm] at hs ⊢
    obtain ⟨o, ho, hl⟩ := hs
    simp only [List.getLast?_singleton, Option.some.injEq] at ho
    subst ho
    simp only [List.flatten_cons, List.flatten_nil, List.append_nil]
    rw [List.length_take] at hl
    exact List.take_of_length_le (by omega)
  | cons a b ih =>
    intro xs n hn hs
    cases a with
    | push q' pid host ys =>
      simp only [List.cons_append, account, pushed] at hn hs ⊢
      have := ih (if q' = q then xs ++ ys else xs) n
      split at hn
      · rename_i hq
        simp only [hq, if_true, List.append_assoc] at this hs ⊢
        exact this hn hs
      · rename_i hq
        simp only [hq, if_false] at this hs ⊢
        exact this hn hs
    | poll g =>
      simp only [List.cons_append, account, pushed] at hn hs ⊢
      by_cases hg : g = f
      · simp only [hg, if_true] at hs ⊢
        have hm : max n (xs.length - limit) = n := by
          simp only [List.length_append] at hn; omega
        rw [hm] at hs ⊢
        simp only [List.flatten_cons]
        rw [ih _ _ (by omega) (hs.tail (account_ne_nil b _ _)), ← out_split]
      · simp only [hg, if_false] at hs ⊢
        exact ih _ _ hn hs
    | connect => exact ih xs n hn hs
    | register => exact ih xs n hn hs
    | leave => exact ih xs n hn hs
    | follow => exact ih xs n hn hs
    | unfollow => exact ih xs n hn hs

theorem account_newest {limit mx : Nat} {f : F} {q : Q} (b : List (Act F Q A)) : ∀ (xs : List A) (n : Nat),
    EndsShort mx (account limit mx f q xs n (b ++ [.poll f])) →
    (xs ++ pushed q b).drop (max n ((xs ++ pushed q b).length - limit)) <:+
      (account limit mx f q xs n (b ++ [.poll f])).flatten := by
  induction b with
  | nil =>
    intro xs n hs
    simp only [List.nil_append, account, if_true, pushed, List.append_nil] at hs ⊢
    obtain ⟨o, ho, hl⟩ := hs
    simp only [List.getLast?_singleton, Option.some.injEq] at ho
    subst ho
    simp only [List.flatten_cons, List.flatten_nil, List.append_nil]
    rw [List.length_take] at hl
    rw [List.take_of_length_le (by omega)]
    exact List.suffix_refl _
  | cons a b ih =>
    intro xs n hs
    cases a with
    | push q' pid host ys =>
      simp only [List.cons_append, account, pushed] at hs ⊢
      have := ih (if q' = q then xs ++ ys else xs) n hs
      split
      · rename_i hq
        simp only [hq, if_true, List.append_assoc] at this ⊢
        exact this
      · rename_i hq
        simp only [hq, if_false] at this ⊢
        exact this
    | poll g =>
      simp only [List.cons_append, account, pushed] at hs ⊢
      by_cases hg : g = f
      · simp only [hg, if_true] at hs ⊢
        have hs' := hs.tail (account_ne_nil b _ _)
        simp only [List.flatten_cons]
        generalize hlo : max n (xs.length - limit) = lo at hs hs' ⊢
        generalize hout : (xs.drop lo).take mx = out at hs hs' ⊢
        generalize hT : xs ++ pushed q b = T at *
        have hTl : xs.length ≤ T.length := by rw [← hT]; simp
        have hsp : T.drop lo = out ++ T.drop (lo + out.length) := by
          rw [← hT, ← hout]; exact out_split _ _ _ _
        by_cases hc : T.length - limit ≤ lo + out.length
        · have e := account_noloss b xs (lo + out.length) (by rw [hT]; exact hc) hs'
          rw [e, hT, ← hsp]
          have : max n (T.length - limit) = lo + (max n (T.length - limit) - lo) := by omega
          rw [this, ← List.drop_drop]
          exact List.drop_suffix _ _
        · have h1 := ih xs (lo + out.length) hs'
          rw [hT] at h1
          have : max (lo + out.length) (T.length - limit) = max n (T.length - limit) := by omega
          rw [this] at h1
          exact h1.trans (List.suffix_append _ _)
      · simp only [hg, if_false] at hs ⊢
        exact ih _ _ hs
    | connect => exact ih xs n hs
    | register => exact ih xs n hs
    | leave => exact ih xs n hs
    | follow => exact ih xs n hs
    | unfollow => exact ih xs n hs

theorem account_polls {limit mx : Nat} {f : F} {q : Q} (k : Nat) : ∀ (xs : List A) (n : Nat),
    (account limit mx f q xs n (List.replicate k (.poll f : Act F Q A))).flatten =
      (xs.drop (max n (xs.length - limit))).take (k * mx) := by
  induction k with
  | zero => intro xs n; simp [account]
  | succ k ih =>
    intro xs n
    simp only [List.replicate_succ, account, if_true, List.flatten_cons, ih]
    generalize hlo : max n (xs.length - limit) = lo
    have : max (lo + ((xs.drop lo).take mx).length) (xs.length - limit) = lo + ((xs.drop lo).take mx).length := by omega
    rw [this]
    have h := out_split xs [] lo mx
    simp only [List.append_nil] at h
    by_cases hm : ((xs.drop lo).take mx).length = mx
    · rw [hm] at h ⊢
      conv => rhs; rw [h]
      rw [List.take_append, hm]
      have e1 : ((xs.drop lo).take mx).take ((k + 1) * mx) = (xs.drop lo).take mx := by
        apply List.take_of_length_le
        rw [hm, Nat.succ_mul]; omega
      have e2 : (k + 1) * mx - mx = k * mx := by rw [Nat.succ_mul]; omega
      rw [e1, e2]
    · have hl : (xs.drop lo).length < mx := by
        simp only [List.length_take] at hm; omega
      have e : (xs.drop lo).take mx = xs.drop lo := List.take_of_length_le (by omega)
      rw [e]
      have e0 : xs.drop (lo + (xs.drop lo).length) = [] := by
        rw [List.drop_eq_nil_iff, List.length_drop]; omega
      rw [e0, List.take_nil, List.append_nil]
      refine (List.take_of_length_le ?_).symm
      rw [Nat.succ_mul]; omega

/-! ## Claims -/

/-- C68: a follower gets of a connected process, round by round, exactly what the account says: the oldest samples it
has not got that are among the newest `limit`, at most as many as it asked for. This holds whatever the other processes
and followers do. -/
theorem C68_exact (limit : Nat) (a b : List (Act F Q A)) (f : F) (c : Control Q) (q : Q) (hw : Wants c q)
    (hp : Proper q (a ++ .follow f c :: b)) (hl : ∀ x ∈ a ++ b, isLeave q x = false) (hs : ∀ x ∈ b, Stays f x) :
    received limit f q (run limit {} (a ++ [.follow f c])) b =
      account limit (max 1 c.maxSamples).toNat f q (pushed q a) 0 b := by
  have ha := holding_run a [] ({} : St F Q A) [] (holding_init limit q) (by simp) (by
    intro x y z hx
    exact hp x (y ++ .follow f c :: b) z (by simp at hx; simp [hx]))
    (fun x hx => hl x (List.mem_append_left _ hx))
  simp only [List.nil_append] at ha
  have h1 : run limit ({} : St F Q A) (a ++ [.follow f c]) = (step limit (run limit {} a) (.follow f c)).1 := by
    simp [run]
  rw [h1]
  have h2 := ha.1.step (a := .follow f c) rfl (by simp [isPush])
  simp only [pushed1, List.append_nil] at h2
  refine received_run hw b (a ++ [.follow f c]) _ _ 0 h2 ?_ ?_ (by simpa using hp)
    (fun x hx => hl x (List.mem_append_right _ hx)) hs
  · refine ⟨[], ?_, rfl⟩
    simp only [step, get?_set, if_true]
  · intro hm
    refine mem_procs_step rfl (.inr (ha.2 ?_))
    simpa using hm

/-- C68: over all its rounds a follower gets samples of a process in the order in which they were pushed, none twice. -/
theorem C68_in_order_once (limit : Nat) (a b : List (Act F Q A)) (f : F) (c : Control Q) (q : Q) (hw : Wants c q)
    (hp : Proper q (a ++ .follow f c :: b)) (hl : ∀ x ∈ a ++ b, isLeave q x = false) (hs : ∀ x ∈ b, Stays f x) :
    (received limit f q (run limit {} (a ++ [.follow f c])) b).flatten.Sublist (pushed q (a ++ b)) := by
  rw [C68_exact limit a b f c q hw hp hl hs, pushed_append]
  exact account_sublist b (pushed q a) 0

theorem exact_last (limit : Nat) (a b : List (Act F Q A)) (f : F) (c : Control Q) (q : Q) (hw : Wants c q)
    (hp : Proper q (a ++ .follow f c :: b)) (hl : ∀ x ∈ a ++ b, isLeave q x = false) (hs : ∀ x ∈ b, Stays f x) :
    received limit f q (run limit {} (a ++ [.follow f c])) (b ++ [.poll f]) =
      account limit (max 1 c.maxSamples).toNat f q (pushed q a) 0 (b ++ [.poll f]) := by
  refine C68_exact limit a (b ++ [.poll f]) f c q hw ?_ ?_ ?_
  · intro x y z hx hz
    rcases List.eq_nil_or_concat y with rfl | ⟨y', w, rfl⟩
    · have h1 : (a ++ .follow f c :: b) ++ [.poll f] = x ++ [z] := by simpa using hx
      have := (List.append_inj' h1 rfl).2
      simp only [List.cons.injEq, and_true] at this
      subst this
      cases hz
    · have h1 : (a ++ .follow f c :: b) ++ [.poll f] = (x ++ z :: y') ++ [w] := by simpa using hx
      exact hp x y' z (List.append_inj' h1 rfl).1 hz
  · intro x hx
    simp only [List.mem_append, List.mem_singleton] at hx
    rcases hx with hx | hx | rfl
    · exact hl x (List.mem_append_left _ hx)
    · exact hl x (List.mem_append_right _ hx)
    · rfl
  · intro x hx
    simp only [List.mem_append, List.mem_singleton] at hx
    rcases hx with hx | rfl
    · exact hs x hx
    · trivial

/-- C68: if the process pushed no more samples than the server keeps, a follower whose last round gave less than it
asked for has got all of them. -/
theorem C68_complete (limit : Nat) (a b : List (Act F Q A)) (f : F) (c : Control Q) (q : Q) (hw : Wants c q)
    (hp : Proper q (a ++ .follow f c :: b)) (hl : ∀ x ∈ a ++ b, isLeave q x = false) (hs : ∀ x ∈ b, Stays f x)
    (hn : (pushed q (a ++ b)).length ≤ limit)
    (he : EndsShort (max 1 c.maxSamples).toNat
      (received limit f q (run limit {} (a ++ [.follow f c])) (b ++ [.poll f]))) :
    (received limit f q (run limit {} (a ++ [.follow f c])) (b ++ [.poll f])).flatten = pushed q (a ++ b) := by
  rw [exact_last limit a b f c q hw hp hl hs] at he ⊢
  rw [pushed_append] at hn ⊢
  exact account_noloss b (pushed q a) 0 (by omega) he

/-- C68: however much was pushed, such a follower has got the newest `limit` samples, and they are the last it got. -/
theorem C68_newest (limit : Nat) (a b : List (Act F Q A)) (f : F) (c : Control Q) (q : Q) (hw : Wants c q)
    (hp : Proper q (a ++ .follow f c :: b)) (hl : ∀ x ∈ a ++ b, isLeave q x = false) (hs : ∀ x ∈ b, Stays f x)
    (he : EndsShort (max 1 c.maxSamples).toNat
      (received limit f q (run limit {} (a ++ [.follow f c])) (b ++ [.poll f]))) :
    (pushed q (a ++ b)).drop ((pushed q (a ++ b)).length - limit) <:+
      (received limit f q (run limit {} (a ++ [.follow f c])) (b ++ [.poll f])).flatten := by
  rw [exact_last limit a b f c q hw hp hl hs] at he ⊢
  rw [pushed_append]
  have := account_newest b (pushed q a) 0 he
  rwa [Nat.zero_max] at this

/-- C68: a new follower gets in `k` rounds the first `k * maxSamples` of the samples the server keeps, so it reaches the
newest one after finitely many. -/
theorem C68_catches_up (limit : Nat) (a : List (Act F Q A)) (f : F) (c : Control Q) (q : Q) (k : Nat) (hw : Wants c q)
    (hp : Proper q a) (hl : ∀ x ∈ a, isLeave q x = false) :
    (received limit f q (run limit {} (a ++ [.follow f c])) (List.replicate k (.poll f))).flatten =
      ((pushed q a).drop ((pushed q a).length - limit)).take (k * (max 1 c.maxSamples).toNat) := by
  have hr : ∀ x ∈ List.replicate k (.poll f : Act F Q A), x = .poll f := fun x hx => List.eq_of_mem_replicate hx
  rw [C68_exact limit a _ f c q hw _ _ (fun x hx => by rw [hr x hx]; trivial), account_polls, Nat.zero_max]
  · intro x y z hx hz
    rcases List.append_eq_append_iff.1 hx with ⟨t, h1, h2⟩ | ⟨t, h1, h2⟩
    · exfalso
      have hm : z ∈ (.follow f c : Act F Q A) :: List.replicate k (.poll f) := by
        rw [h2]; simp
      rcases List.mem_cons.1 hm with rfl | hm
      · cases hz
      · rw [hr z hm] at hz; cases hz
    · cases t with
      | nil =>
        simp only [List.nil_append, List.cons.injEq] at h2
        rw [h2.1] at hz; cases hz
      | cons w t =>
        simp only [List.cons_append, List.cons.injEq] at h2
        rw [← h2.1] at h1
        exact hp x t z h1 hz
  · intro x hx
    rcases List.mem_append.1 hx with hx | hx
    · exact hl x hx
    · rw [hr x hx]; rfl

/-! After a process has left. -/

theorem gone_run {limit : Nat} {f : F} {q : Q} (b : List (Act F Q A)) : ∀ st : St F Q A, st.procs.keys.Nodup →
    st.buffers.get? q = none → (∀ x ∈ b, isPush q x = false) → ∀ out ∈ received limit f q st b, out = [] := by
  induction b with
  | nil => intro st _ _ _ out h; simp [received] at h
  | cons a b ih =>
    intro st hn hb hp out ho
    have hn' : (step limit st a).1.procs.keys.Nodup := by
      cases a with
      | connect q => exact nodup_set hn
      | register q pid host => simp only [step]; rw [keys_modify]; exact hn
      | push => exact hn
      | leave q => exact nodup_pop hn
      | follow => exact hn
      | unfollow => exact hn
      | poll f => simp only [step]; split <;> exact hn
    have hb' : (step limit st a).1.buffers.get? q = none := by
      cases a with
      | push q' pid host ys =>
        have hq : q ≠ q' := by
          have := hp _ List.mem_cons_self
          simp only [isPush, decide_eq_false_iff_not] at this
          exact Ne.symm this
        simp only [step, get?_set, if_neg hq]; exact hb
      | leave q' =>
        simp only [step, get?_pop]
        split
        · rfl
        · exact hb
      | connect => exact hb
      | register => exact hb
      | follow => exact hb
      | unfollow => exact hb
      | poll f => simp only [step]; split <;> exact hb
    have next := ih _ hn' hb' (fun x hx => hp x (List.mem_cons_of_mem _ hx)) out
    cases a with
    | poll g =>
      simp only [received] at ho
      split at ho
      · rcases List.mem_cons.1 ho with ho | ho
        · subst ho
          simp only [step]
          split
          · rfl
          · rename_i c last _
            have h0 : (collectOne st (max 1 c.maxSamples).toNat last q).2 = [] := by
              unfold collectOne; rw [hb]
            by_cases hs : q ∈ selected st c
            · rw [(collectLoop_at (selected st c) last [] (selected_nodup hn c) hs rfl).2]
              unfold entry
              simp only [h0]
              split <;> rfl
            · rw [(collectLoop_other (selected st c) last [] hs).2]; rfl
        · exact next ho
      · exact next ho
    | connect => exact next ho
    | register => exact next ho
    | push => exact next ho
    | leave => exact next ho
    | follow => exact next ho
    | unfollow => exact next ho

/-- C68: nothing comes from a process after it has left (what a follower had not collected by then it does not get). -/
theorem C68_silent_after_leaving (limit : Nat) (a b : List (Act F Q A)) (f : F) (q : Q)
    (hp : ∀ x ∈ b, isPush q x = false) :
    ∀ out ∈ received limit f q (run limit {} (a ++ [.leave q])) b, out = [] := by
  refine gone_run b _ (procs_nodup limit _) ?_ hp
  simp [run, step, get?_pop]

/-- C68: what a batch contains: at most as many samples of a process as asked for, no process that was not asked for,
and no process without samples unless that was asked for; then, each of the processes asked for. -/
theorem C68_batch (limit : Nat) (h : List (Act F Q A)) (f : F) (c : Control Q) (last : PyDict Q Nat) (q : Q)
    (hf : (run limit ({} : St F Q A) h).followers.get? f = some (c, last)) :
    (∀ B, (step limit (run limit {} h) (.poll f)).2.get? q = some B →
      (B.samples.length : Int) ≤ max 1 c.maxSamples ∧ Wants c q ∧ (c.includeEmpty = false → B.samples ≠ [])) ∧
    (c.includeEmpty = true → Wants c q → (c.only = none → q ∈ (run limit ({} : St F Q A) h).procs.keys) →
      ((step limit (run limit {} h) (.poll f)).2.get? q).isSome) := by
  have hn := procs_nodup limit h
  generalize run limit ({} : St F Q A) h = st at *
  have hst : (step limit st (.poll f)).2 = (collectLoop st c (selected st c) last []).2 := by
    simp only [step, hf]
  rw [hst]
  refine ⟨fun B hB => ?_, fun he hw hs => ?_⟩
  · by_cases hs : q ∈ selected st c
    · rw [(collectLoop_at (selected st c) last [] (selected_nodup hn c) hs rfl).2] at hB
      unfold entry at hB
      simp only at hB
      split at hB
      · cases hB
      · rename_i hne
        simp only [Option.some.injEq] at hB
        subst hB
        refine ⟨?_, (mem_selected.1 hs).1, fun he => ?_⟩
        · have := collectOne_length st (max 1 c.maxSamples).toNat last q (by omega)
          simp only
          omega
        · simp only [he, Bool.not_false, Bool.and_true, List.isEmpty_iff] at hne
          exact hne
    · rw [(collectLoop_other (selected st c) last [] hs).2] at hB
      cases hB
  · rw [(collectLoop_at (selected st c) last [] (selected_nodup hn c) (mem_selected.2 ⟨hw, hs⟩) rfl).2]
    unfold entry
    simp [he]

/-- `q` neither connects, registers nor leaves in this step. -/
def KeepsIdentity (q : Q) : Act F Q A → Prop
  | .connect q' => q' ≠ q
  | .register q' _ _ => q' ≠ q
  | .leave q' => q' ≠ q
  | _ => True

theorem identity_run (limit : Nat) (q : Q) (x : Option Int × Option String) (b : List (Act F Q A)) :
    ∀ st : St F Q A, st.procs.get? q = some x → (∀ y ∈ b, KeepsIdentity q y) →
    (run limit st b).procs.get? q = some x := by
  induction b with
  | nil => exact fun _ h _ => h
  | cons a b ih =>
    intro st h hk
    refine ih _ ?_ (fun y hy => hk y (List.mem_cons_of_mem _ hy))
    have ha := hk a List.mem_cons_self
    cases a with
    | connect q' => simp only [step, get?_set, if_neg (Ne.symm (show q' ≠ q from ha))]; exact h
    | register q' pid host => simp only [step, get?_modify, if_neg (Ne.symm (show q' ≠ q from ha))]; exact h
    | leave q' => simp only [step, get?_pop, if_neg (Ne.symm (show q' ≠ q from ha))]; exact h
    | push => exact h
    | follow => exact h
    | unfollow => exact h
    | poll f => simp only [step]; split <;> exact h

/-- C68: batches carry the pid and host the process registered last. -/
theorem C68_identity (limit : Nat) (a b : List (Act F Q A)) (f : F) (q : Q) (pid : Int) (host : String) (B : Batch A)
    (hc : q ∈ (run limit ({} : St F Q A) a).procs.keys) (hk : ∀ y ∈ b, KeepsIdentity q y)
    (hB : (step limit (run limit {} (a ++ .register q pid host :: b)) (.poll f)).2.get? q = some B) :
    B.pid = pid ∧ B.host = host := by
  have h1 : (run limit ({} : St F Q A) (a ++ .register q pid host :: b)).procs.get? q = some (some pid, some host) := by
    have e : run limit ({} : St F Q A) (a ++ .register q pid host :: b) =
        run limit (step limit (run limit {} a) (.register q pid host)).1 b := by simp [run]
    rw [e]
    refine identity_run limit q _ b _ ?_ hk
    rw [mem_keys] at hc
    obtain ⟨v, hv⟩ := Option.isSome_iff_exists.1 hc
    simp [step, get?_modify, hv]
  have hn := procs_nodup limit (a ++ .register q pid host :: b)
  generalize run limit ({} : St F Q A) (a ++ .register q pid host :: b) = st at *
  simp only [step] at hB
  split at hB
  · cases hB
  · rename_i c last hf
    by_cases hs : q ∈ selected st c
    · rw [(collectLoop_at (selected st c) last [] (selected_nodup hn c) hs rfl).2] at hB
      unfold entry at hB
      simp only at hB
      split at hB
      · cases hB
      · simp only [Option.some.injEq] at hB
        subst hB
        simp [identity, h1]
    · rw [(collectLoop_other (selected st c) last [] hs).2] at hB
      cases hB

/-! ## Examples -/

namespace Example

abbrev E := Act Nat Nat Char

def before : List E := [.connect 7, .register 7 42 "lab", .push 7 42 "lab" ['a', 'b', 'c']]

/-- The server keeps four samples; rounds give at most two; one sample is lost. -/
def during : List E := [.connect 8, .push 8 1 "x" ['z'], .poll 1, .push 7 42 "lab" ['d'], .follow 2 {},
  .push 7 42 "lab" ['e', 'f', 'g'], .poll 2, .poll 1, .poll 1, .push 7 42 "lab" ['h'], .poll 1]

def two : Control Nat := { maxSamples := 2, only := some [7, 9] }

theorem proper7 : Proper 7 (before ++ .follow 1 two :: during) := by
  intro x y z hx hz
  match x, hx with
  | [], hx => simp [before, during] at hx; rw [← hx.1] at hz; cases hz
  | w :: x, hx =>
    simp only [before, List.cons_append, List.cons.injEq] at hx
    rw [← hx.1]; exact List.mem_cons_self

/-- The hypotheses of `C68_exact`, `C68_in_order_once`, `C68_newest` hold here, with more samples than are kept. -/
example : Wants two 7 ∧ Proper 7 (before ++ .follow 1 two :: during) ∧
    (∀ x ∈ before ++ during, isLeave 7 x = false) ∧ (∀ x ∈ during, Stays 1 x) ∧
    received 4 1 7 (run 4 {} (before ++ [.follow 1 two])) during = [['a', 'b'], ['d', 'e'], ['f', 'g'], ['h']] ∧
    pushed 7 (before ++ during) = ['a', 'b', 'c', 'd', 'e', 'f', 'g', 'h'] ∧
    EndsShort 2 (received 4 1 7 (run 4 {} (before ++ [.follow 1 two])) during) := by
  refine ⟨?_, proper7, ?_, ?_, by decide +kernel, by decide +kernel, ⟨['h'], by decide +kernel, by decide⟩⟩
  · intro ids h
    simp only [two, Option.some.injEq] at h
    subst h; simp
  · simp [before, during, isLeave]
  · simp [during, Stays]

/-- `C68_complete`: the same with a server that keeps enough; the other follower gets everything in its rounds. -/
example : received 9 1 7 (run 9 {} (before ++ [.follow 1 two])) during = [['a', 'b'], ['c', 'd'], ['e', 'f'], ['g', 'h']] ∧
    EndsShort 2 (received 9 1 7 (run 9 {} (before ++ [.follow 1 two])) (during ++ [.poll 1])) ∧
    received 9 2 7 (run 9 {} before) (during ++ [.poll 2]) = [['a', 'b', 'c', 'd', 'e', 'f', 'g'], ['h']] := by
  refine ⟨by decide +kernel, ⟨[], by decide +kernel, by decide⟩, by decide +kernel⟩

/-- `C68_batch`, `C68_identity`: the filter names a process that does not exist; it appears only if empty batches are
wanted. -/
example : ((step 4 (run 4 {} (before ++ [.follow 1 two])) (.poll 1 : E)).2.map
      (fun p => (p.1, p.2.pid, p.2.host, p.2.samples))) = [(7, 42, "lab", ['a', 'b'])] ∧
    ((step 4 (run 4 {} (before ++ [.follow 1 { two with includeEmpty := true }])) (.poll 1 : E)).2.map
      (fun p => (p.1, p.2.pid, p.2.host, p.2.samples))) = [(7, 42, "lab", ['a', 'b']), (9, -1, "", [])] := by
  refine ⟨by decide +kernel, by decide +kernel⟩

/-- `C68_silent_after_leaving`: what was not collected is lost when the process leaves. -/
example : received 4 1 7 (run 4 {} (before ++ [.follow 1 two])) [.poll 1, .leave 7, .poll 1] = [['a', 'b'], []] := by
  decide +kernel

end Example

end Ez.TStream
