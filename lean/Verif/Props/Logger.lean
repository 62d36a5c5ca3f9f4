import Verif.Lemmas.Py
import Verif.Model.Units
import Verif.Props.Backpressure

/-! # C42: what MessageLogger writes -/

set_option linter.unusedSectionVars false
set_option linter.unusedSimpArgs false

namespace Ez.Logger
variable {P L : Type} [DecidableEq P]

/-- Specification, one file: is it open, and what should it contain. -/
def track (p : P) (x : Bool × Option (List (Line L))) : Act P L → Bool × Option (List (Line L))
  | .start q => if q = p ∧ x.1 = false then (true, some [.start]) else x
  | .stop q => if q = p then (false, x.2) else x
  | .message l => if x.1 then (true, x.2.map (· ++ [.msg l])) else x
  | .flush => x
  | .shutdown => (false, x.2)

/-- Specification: a start marker and the messages that arrived while the file was open, since it was last
opened. -/
def wanted (output : Option P) (p : P) (h : List (Act P L)) : Bool × Option (List (Line L)) :=
  h.foldl (track p) (if output = some p then (true, some [.start]) else (false, none))

/-- Specification: what one event does to the messages waiting to be written. -/
def pendStep (b : List L) : Act P L → List L
  | .message l => b ++ [l]
  | .flush => []
  | .shutdown => []
  | .start _ => b
  | .stop _ => b

/-- Specification: messages arrived since the last write of the buffer. -/
def pending (h : List (Act P L)) : List L := h.foldl pendStep []

/-- Specification: the file is only opened or closed when no message waits to be written. -/
def Settled (p : P) (h : List (Act P L)) : Prop :=
  ∀ pre post, (h = pre ++ .start p :: post ∨ h = pre ++ .stop p :: post) → pending pre = []

/-- Specification: the messages that arrived. -/
def messages (h : List (Act P L)) : List L :=
  h.filterMap (fun a => match a with | .message l => some l | _ => none)

/-! ## Lemmas -/

theorem get?_writes (fs : List P) (hn : fs.Nodup) (d : PyDict P (List (Line L))) (ls : List (Line L)) (p : P) :
    (fs.foldl (fun d p => append d p ls) d).get? p =
      if p ∈ fs then (d.get? p).map (· ++ ls) else d.get? p := by
  induction fs generalizing d with
  | nil => simp
  | cons q fs ih =>
    rw [List.nodup_cons] at hn
    rw [List.foldl_cons, ih hn.2]
    unfold append
    rw [PyDict.get?_modify]
    by_cases hq : q = p
    · subst hq; simp [hn.1]
    · have hq' : ¬ p = q := fun e => hq e.symm
      simp [hq, hq']

theorem closeAll (fs : List P) (s : State P L) :
    (fs.foldl closeFile s).disk = s.disk ∧ (fs.foldl closeFile s).buffer = s.buffer ∧
    ∀ p, p ∈ (fs.foldl closeFile s).openFiles ↔ p ∈ s.openFiles ∧ p ∉ fs := by
  induction fs generalizing s with
  | nil => simp
  | cons q fs ih =>
    obtain ⟨h1, h2, h3⟩ := ih (closeFile s q)
    rw [List.foldl_cons, h1, h2]
    refine ⟨?_, ?_, ?_⟩
    · unfold closeFile; split <;> rfl
    · unfold closeFile; split <;> rfl
    · intro p
      rw [h3]
      unfold closeFile
      split
      · simp only [PySet.mem_discard, List.mem_cons]
        constructor
        · rintro ⟨⟨a, b⟩, c⟩; exact ⟨a, by rintro (e | e); exact b e; exact c e⟩
        · rintro ⟨a, b⟩; exact ⟨⟨a, fun e => b (Or.inl e)⟩, fun e => b (Or.inr e)⟩
      · rename_i hq
        simp only [List.mem_cons]
        constructor
        · rintro ⟨a, b⟩; exact ⟨a, by rintro (e | e); exact hq (e ▸ a); exact b e⟩
        · rintro ⟨a, b⟩; exact ⟨a, fun e => b (Or.inr e)⟩

theorem shutdown_all_closed (s : State P L) : (s.openFiles.foldl closeFile s).openFiles = [] := by
  apply List.eq_nil_iff_forall_not_mem.2
  intro p hp
  have := ((closeAll s.openFiles s).2.2 p).1 hp
  exact this.2 this.1

/-- What one step does to one file. -/
theorem step_file (b : Bool) (s : State P L) (hn : s.openFiles.Nodup) (a : Act P L) (p : P) :
    (step b s a).openFiles.Nodup ∧
    (p ∈ (step b s a).openFiles ↔ match a with
      | .start q => q = p ∨ p ∈ s.openFiles
      | .stop q => p ∈ s.openFiles ∧ q ≠ p
      | .shutdown => False
      | _ => p ∈ s.openFiles) ∧
    (step b s a).disk.get? p = (match a with
      | .start q => if q = p ∧ p ∉ s.openFiles then some [.start] else s.disk.get? p
      | .stop _ => s.disk.get? p
      | .message l => if b = false ∧ p ∈ s.openFiles then (s.disk.get? p).map (· ++ [.msg l]) else s.disk.get? p
      | .flush => if b = true ∧ p ∈ s.openFiles then (s.disk.get? p).map (· ++ s.buffer) else s.disk.get? p
      | .shutdown => if p ∈ s.openFiles then (s.disk.get? p).map (· ++ s.buffer) else s.disk.get? p) ∧
    (step b s a).buffer = (match a with
      | .message l => if b then s.buffer ++ [.msg l] else s.buffer
      | .flush => if b then [] else s.buffer
      | .shutdown => []
      | _ => s.buffer) := by
  cases a with
  | start q =>
    simp only [step, openFile]
    split
    · rename_i hq
      refine ⟨hn, ?_, ?_, rfl⟩
      · constructor
        · exact Or.inr
        · rintro (rfl | h); exact hq; exact h
      · rw [if_neg (by rintro ⟨rfl, h⟩; exact h hq)]
    · rename_i hq
      refine ⟨PySet.nodup_add hn, ?_, ?_, rfl⟩
      · rw [PySet.mem_add]
        constructor
        · rintro (h | h); exact Or.inr h; exact Or.inl h.symm
        · rintro (h | h); exact Or.inr h.symm; exact Or.inl h
      · simp only [PyDict.get?_set]
        by_cases e : q = p
        · subst e; simp [hq]
        · have e' : ¬ p = q := fun h => e h.symm
          simp [e, e']
  | stop q =>
    simp only [step, closeFile]
    split
    · refine ⟨PySet.nodup_discard hn, ?_, rfl, rfl⟩
      rw [PySet.mem_discard]
      exact and_congr_right fun _ => ne_comm
    · rename_i hq
      refine ⟨hn, ?_, rfl, rfl⟩
      exact ⟨fun h => ⟨h, fun e => hq (e ▸ h)⟩, fun h => h.1⟩
  | message l =>
    cases b with
    | true => exact ⟨hn, Iff.rfl, by simp [step], rfl⟩
    | false => exact ⟨hn, Iff.rfl, by simp [step, writeAll, get?_writes _ hn], rfl⟩
  | flush =>
    cases b with
    | true => exact ⟨hn, Iff.rfl, by simp [step, writeAll, get?_writes _ hn], rfl⟩
    | false => exact ⟨hn, Iff.rfl, by simp [step], rfl⟩
  | shutdown =>
    simp only [step]
    rw [shutdown_all_closed, (closeAll _ _).1, (closeAll _ _).2.1]
    refine ⟨List.nodup_nil, by simp, ?_, ?_⟩
    · cases hb : s.buffer with
      | nil =>
        simp only [List.isEmpty_nil, if_true, List.append_nil]
        split <;> simp
      | cons x xs => simp [writeAll, get?_writes _ hn]
    · cases hb : s.buffer <;> simp [hb]

theorem run_snoc (b : Bool) (o : Option P) (h : List (Act P L)) (a : Act P L) :
    run b o (h ++ [a]) = step b (run b o h) a := by simp [run, List.foldl_append]

theorem wanted_snoc (o : Option P) (p : P) (h : List (Act P L)) (a : Act P L) :
    wanted o p (h ++ [a]) = track p (wanted o p h) a := by simp [wanted, List.foldl_append]

theorem init_file (o : Option P) (p : P) :
    (init o : State P L).openFiles.Nodup ∧ (p ∈ (init o : State P L).openFiles ↔ o = some p) ∧
    (init o : State P L).disk.get? p = (if o = some p then some [.start] else none) ∧
    (init o : State P L).buffer = [] := by
  cases o with
  | none => simp [init, PyDict.get?]
  | some q =>
    simp only [init, openFile, List.not_mem_nil, if_false, Option.some.injEq]
    refine ⟨PySet.nodup_add List.nodup_nil, ?_, ?_, trivial⟩
    · rw [PySet.mem_add]; simp [eq_comm]
    · rw [PyDict.get?_set]
      by_cases e : q = p
      · simp [e]
      · have e' : ¬ p = q := fun h => e h.symm
        simp [e, e', PyDict.get?]

theorem run_nodup (b : Bool) (o : Option P) (h : List (Act P L)) : (run b o h).openFiles.Nodup := by
  induction h using list_snoc_induction with
  | h0 =>
    cases o with
    | none => exact List.nodup_nil
    | some q => exact (init_file (L := L) (some q) q).1
  | hs h a ih =>
    rw [run_snoc]
    cases a with
    | start q => exact (step_file b _ ih _ q).1
    | stop q => exact (step_file b _ ih _ q).1
    | message l => cases b <;> exact ih
    | flush => cases b <;> exact ih
    | shutdown => simp only [step]; rw [shutdown_all_closed]; exact List.nodup_nil

theorem open_iff (b : Bool) (o : Option P) (h : List (Act P L)) (p : P) :
    p ∈ (run b o h).openFiles ↔ (wanted o p h).1 = true := by
  induction h using list_snoc_induction with
  | h0 =>
    show p ∈ (init o : State P L).openFiles ↔ _
    rw [(init_file o p).2.1]
    simp only [wanted, List.foldl_nil]
    split <;> simp_all
  | hs h a ih =>
    rw [run_snoc, wanted_snoc, (step_file b _ (run_nodup b o h) a p).2.1]
    cases hw : (wanted o p h).1 <;> rw [hw] at ih <;> cases a <;> simp only [track, hw, ih]
    case false.start q => by_cases e : q = p <;> simp [e, hw]
    case false.stop q => by_cases e : q = p <;> simp [e, hw]
    case true.start q => by_cases e : q = p <;> simp [e, hw]
    case true.stop q => by_cases e : q = p <;> simp [e, hw]
    all_goals simp [hw]

/-! ## Immediate writing -/

/-- **C42 (`write_period <= 0`).** At every moment every file is open exactly when it should be and contains
exactly what it should: the start marker and the messages that arrived while it was open, in order. -/
theorem C42_immediate_exact (o : Option P) (h : List (Act P L)) (p : P) :
    (p ∈ (run false o h).openFiles ↔ (wanted o p h).1 = true) ∧
    (run false o h).disk.get? p = (wanted o p h).2 := by
  refine ⟨open_iff false o h p, ?_⟩
  suffices hh : (run false o h).buffer = [] ∧ (run false o h).disk.get? p = (wanted o p h).2 from hh.2
  induction h using list_snoc_induction with
  | h0 =>
    refine ⟨(init_file o p).2.2.2, ?_⟩
    show (init o : State P L).disk.get? p = _
    rw [(init_file o p).2.2.1]
    simp only [wanted, List.foldl_nil]
    split <;> rfl
  | hs h a ih =>
    obtain ⟨i1, i2⟩ := ih
    obtain ⟨-, -, s3, s4⟩ := step_file false _ (run_nodup false o h) a p
    have ho := open_iff false o h p
    rw [run_snoc, wanted_snoc]
    refine ⟨?_, ?_⟩
    · rw [s4, i1]; cases a <;> rfl
    · rw [s3, i2, i1]
      cases hw : (wanted o p h).1 <;> rw [hw] at ho <;> cases a <;> simp only [track, hw, ho]
      case false.start q => by_cases e : q = p <;> simp [e]
      case false.stop q => by_cases e : q = p <;> simp [e]
      case true.start q => by_cases e : q = p <;> simp [e]
      case true.stop q => by_cases e : q = p <;> simp [e]
      all_goals simp

/-! ## Buffered writing -/

theorem buffer_eq (o : Option P) (h : List (Act P L)) : (run true o h).buffer = (pending h).map .msg := by
  induction h using list_snoc_induction with
  | h0 =>
    cases o with
    | none => rfl
    | some q => exact (init_file (L := L) (some q) q).2.2.2
  | hs h a ih =>
    have hp : pending (h ++ [a]) = pendStep (pending h) a := by
      simp [pending, List.foldl_append]
    have s4 : ∀ p : P, _ := fun p => (step_file true _ (run_nodup true o h) a p).2.2.2
    rw [run_snoc, hp]
    cases a with
    | start q => rw [s4 q]; exact ih
    | stop q => rw [s4 q]; exact ih
    | message l => simp [step, ih, pendStep]
    | flush => rfl
    | shutdown =>
      simp only [step]
      rw [(closeAll _ _).2.1]
      cases hb : (run true o h).buffer <;> simp [hb, pendStep]

/-- **C42 (`write_period > 0`).** If a file is only opened and closed while no message waits to be written,
then it should contain what it contains followed, while it is open, by the waiting messages; so after every
write of the buffer and after shutdown it contains exactly what it should. Missing: files opened or closed
while messages wait, for which the claim is false (`C42_buffered_stop_loses`,
`C42_buffered_start_writes_earlier`). -/
theorem C42_buffered_exact_partial (o : Option P) (h : List (Act P L)) (p : P) (hs : Settled p h) :
    (wanted o p h).2 = ((run true o h).disk.get? p).map
      (· ++ if (wanted o p h).1 then (pending h).map .msg else []) ∧
    (pending h = [] → (run true o h).disk.get? p = (wanted o p h).2) := by
  suffices hh : (wanted o p h).2 = ((run true o h).disk.get? p).map
      (· ++ if (wanted o p h).1 then (pending h).map .msg else []) by
    refine ⟨hh, fun he => ?_⟩
    rw [hh, he]
    simp
  induction h using list_snoc_induction with
  | h0 =>
    show _ = ((init o : State P L).disk.get? p).map _
    rw [(init_file o p).2.2.1]
    simp only [wanted, List.foldl_nil, pending]
    split <;> simp
  | hs h a ih =>
    have hs' : Settled p h := by
      intro pre post hpre
      refine hs pre (post ++ [a]) ?_
      rcases hpre with e | e
      · exact Or.inl (by rw [e]; simp)
      · exact Or.inr (by rw [e]; simp)
    have ih := ih hs'
    have hempty : a = .start p ∨ a = .stop p → pending h = [] := by
      rintro (rfl | rfl)
      · exact hs h [] (Or.inl rfl)
      · exact hs h [] (Or.inr rfl)
    obtain ⟨-, -, s3, -⟩ := step_file true _ (run_nodup true o h) a p
    have ho := open_iff true o h p
    have hb := buffer_eq o h
    have hp : pending (h ++ [a]) = pendStep (pending h) a := by
      simp [pending, List.foldl_append]
    rw [run_snoc, wanted_snoc, s3, hb, hp]
    clear hs hs' s3 hp hb
    generalize (run true o h).disk.get? p = d at ih ⊢
    generalize (run true o h).openFiles = fs at ho ⊢
    generalize pending h = b at ih hempty ⊢
    generalize wanted o p h = w at ih ho ⊢
    obtain ⟨w1, w2⟩ := w
    replace ih : w2 = d.map (· ++ if w1 then b.map .msg else []) := ih
    simp only at ho
    subst ih
    cases a with
    | start q =>
      by_cases e : q = p
      · subst e
        have := hempty (Or.inl rfl)
        subst this
        cases w1 <;> simp [track, ho, pendStep]
      · cases w1 <;> simp [track, e, pendStep]
    | stop q =>
      by_cases e : q = p
      · subst e
        have := hempty (Or.inr rfl)
        subst this
        cases w1 <;> simp [track, pendStep]
      · cases w1 <;> simp [track, e, pendStep]
    | message l => cases w1 <;> cases d <;> simp [track, pendStep]
    | flush => cases w1 <;> cases d <;> simp [track, pendStep, ho]
    | shutdown => cases w1 <;> cases d <;> simp [track, pendStep, ho]

/-- **C42 (always).** Whatever the history and the write period, a file consists of one start marker followed
by messages that arrived, in arrival order and none twice; and everything written and still waiting together
is a subsequence of the arrivals. -/
theorem C42_order_no_duplicates (b : Bool) (o : Option P) (h : List (Act P L)) (p : P) (c : List (Line L))
    (hc : (run b o h).disk.get? p = some c) :
    ∃ ms : List L, c = .start :: ms.map .msg ∧
      (ms ++ if b then pending h else []).Sublist (messages h) := by
  induction h using list_snoc_induction generalizing c with
  | h0 =>
    have : (init o : State P L).disk.get? p = some c := hc
    rw [(init_file o p).2.2.1] at this
    split at this
    · cases this; exact ⟨[], rfl, by simp [pending]⟩
    · cases this
  | hs h a ih =>
    obtain ⟨-, -, s3, -⟩ := step_file b _ (run_nodup b o h) a p
    rw [run_snoc, s3] at hc
    have hp : pending (h ++ [a]) = pendStep (pending h) a := by
      simp [pending, List.foldl_append]
    have hm : messages (h ++ [a]) = messages h ++ messages [a] := by
      simp [messages, List.filterMap_append]
    have hone : ∀ l : L, messages [(.message l : Act P L)] = [l] := fun _ => rfl
    have hnone : ∀ q : P, messages [(.start q : Act P L)] = [] ∧ messages [(.stop q : Act P L)] = [] :=
      fun _ => ⟨rfl, rfl⟩
    have hf : messages [(.flush : Act P L)] = [] := rfl
    have hsd : messages [(.shutdown : Act P L)] = [] := rfl
    have hpend : ∀ g : List (Act P L), (pending g).Sublist (messages g) := by
      intro g
      induction g using list_snoc_induction with
      | h0 => simp [pending]
      | hs g x ihg =>
        have e1 : pending (g ++ [x]) = pendStep (pending g) x := by
          simp [pending, List.foldl_append]
        have e2 : messages (g ++ [x]) = messages g ++ messages [x] := by
          simp [messages, List.filterMap_append]
        rw [e1, e2]
        cases x with
        | start q => simpa [pendStep, messages] using ihg
        | stop q => simpa [pendStep, messages] using ihg
        | message l => exact ihg.append (List.Sublist.refl _)
        | flush => simp [pendStep]
        | shutdown => simp [pendStep]
    have hbuf : b = true → (run b o h).buffer = (pending h).map .msg := by rintro rfl; exact buffer_eq o h
    have hbuf0 : b = false → (run b o h).buffer = [] := by
      rintro rfl
      clear ih hc s3 hp hm hbuf hone hnone hf hsd
      induction h using list_snoc_induction with
      | h0 => cases o with
        | none => rfl
        | some q => exact (init_file (L := L) (some q) q).2.2.2
      | hs h a ih =>
        rw [run_snoc, (step_file false _ (run_nodup false o h) a p).2.2.2, ih]
        cases a <;> rfl
    rw [hp, hm]
    cases a with
    | start q =>
      simp only [List.append_nil, pendStep, hone, hnone, hf, hsd] at hc ⊢
      split at hc
      · cases hc
        refine ⟨[], rfl, ?_⟩
        cases b
        · simp
        · simpa using hpend h
      · exact ih c hc
    | stop q => simpa [pendStep, hnone] using ih c hc
    | message l =>
      simp only [pendStep, hone] at hc ⊢
      cases b with
      | true =>
        simp only [Bool.true_eq_false, false_and, if_false, if_true] at hc ⊢
        obtain ⟨ms, e, hsub⟩ := ih c hc
        refine ⟨ms, e, ?_⟩
        simp only [if_true] at hsub
        rw [← List.append_assoc]
        exact hsub.append (List.Sublist.refl _)
      | false =>
        simp only [true_and, Bool.false_eq_true, if_false, List.append_nil] at hc ih ⊢
        split at hc
        · obtain ⟨c0, hc0, rfl⟩ := Option.map_eq_some_iff.1 hc
          obtain ⟨ms, rfl, hsub⟩ := ih c0 hc0
          exact ⟨ms ++ [l], by simp, hsub.append (List.Sublist.refl _)⟩
        · obtain ⟨ms, e, hsub⟩ := ih c hc
          exact ⟨ms, e, hsub.trans (List.sublist_append_left _ _)⟩
    | flush =>
      simp only [List.append_nil, pendStep, hone, hnone, hf, hsd] at hc ⊢
      cases b with
      | true =>
        simp only [true_and, if_true, List.append_nil] at hc ih ⊢
        split at hc
        · obtain ⟨c0, hc0, rfl⟩ := Option.map_eq_some_iff.1 hc
          obtain ⟨ms, rfl, hsub⟩ := ih c0 hc0
          exact ⟨ms ++ pending h, by rw [hbuf rfl]; simp, hsub⟩
        · obtain ⟨ms, e, hsub⟩ := ih c hc
          exact ⟨ms, e, (List.sublist_append_left _ _).trans hsub⟩
      | false => simpa using ih c (by simpa using hc)
    | shutdown =>
      simp only [List.append_nil, pendStep, hone, hnone, hf, hsd] at hc ⊢
      have hsub0 : ∀ ms, (ms ++ if b then pending h else []).Sublist (messages h) → ms.Sublist (messages h) :=
        fun ms hs => (List.sublist_append_left _ _).trans hs
      split at hc
      · obtain ⟨c0, hc0, rfl⟩ := Option.map_eq_some_iff.1 hc
        obtain ⟨ms, rfl, hsub⟩ := ih c0 hc0
        cases hb : b with
        | true => subst hb; exact ⟨ms ++ pending h, by rw [hbuf rfl]; simp, by simpa using hsub⟩
        | false => subst hb; exact ⟨ms, by rw [hbuf0 rfl]; simp, by simpa using hsub⟩
      · obtain ⟨ms, e, hsub⟩ := ih c hc
        exact ⟨ms, e, by cases b <;> simpa using hsub0 ms hsub⟩

/-- **C42 fails (1).** With a write period, a message that arrives before its file is stopped is lost if the
stop comes before the next write of the buffer; without one it is written. -/
theorem C42_buffered_stop_loses :
    let h : List (Act Nat Nat) := [.start 0, .message 1, .stop 0, .flush, .shutdown]
    (run true none h).disk.get? 0 = some [.start] ∧ (run false none h).disk.get? 0 = some [.start, .msg 1] ∧
    (wanted none 0 h).2 = some [.start, .msg 1] := by decide

/-- **C42 fails (2).** With a write period, a message that arrived before the file was opened is written to
it if the buffer has not been written in between. -/
theorem C42_buffered_start_writes_earlier :
    let h : List (Act Nat Nat) := [.message 1, .start 0, .flush, .shutdown]
    (run true none h).disk.get? 0 = some [.start, .msg 1] ∧ (run false none h).disk.get? 0 = some [.start] ∧
    (wanted none 0 h).2 = some [.start] := by decide

/-- Two files, messages before, between and after, one file opened twice. -/
example :
    (run false (some 7) [.message 1, .start 0, .message 2, .stop 0, .message 3, .stop 7, .start 0, .message 4]
      : State Nat Nat).disk = [(7, [.start, .msg 1, .msg 2, .msg 3]), (0, [.start, .msg 4])] := by decide

/-- A settled buffered history in which messages are written at a flush and at shutdown. -/
example :
    let h : List (Act Nat Nat) := [.start 0, .message 1, .flush, .message 2, .shutdown]
    Settled 0 h ∧ (run true none h).disk.get? 0 = some [.start, .msg 1, .msg 2] := by
  refine ⟨?_, by decide⟩
  intro pre post h
  rcases pre with _ | ⟨a1, _ | ⟨a2, _ | ⟨a3, _ | ⟨a4, _ | ⟨a5, pre⟩⟩⟩⟩⟩ <;> simp at h
  rfl

end Ez.Logger
