import Verif.Model.Replay
import Verif.Props.SyncSpin
import Verif.Props.Logger

/-!
# C71: replaying recorded messages
-/

namespace Ez
namespace Replay

set_option linter.unusedSectionVars false
set_option linter.unusedSimpArgs false

variable {V : Type}

/-! ## Specification -/

/-- The messages in some lines. -/
def contents (ls : List (Line V)) : List V :=
  ls.filterMap (fun l => match l with | .msg _ v => some v | _ => none)

/-- What is published. -/
inductive Out (V : Type) where
  | status (idx total : Nat) (done : Bool)
  | message (v : V)
  | total (k : Nat)
deriving DecidableEq

/-- What was published about the `n`-th file. -/
def outOf (n : Nat) : Ev V → Option (Out V)
  | .status m i t d => if m = n then some (.status i t d) else none
  | .message m v _ _ => if m = n then some (.message v) else none
  | .total m k => if m = n then some (.total k) else none
  | _ => none

/-- What was published about the `n`-th file. -/
def outs (n : Nat) (log : List (Ev V)) : List (Out V) := log.filterMap (outOf n)

/-- The messages published. -/
def published (log : List (Ev V)) : List V :=
  log.filterMap (fun e => match e with | .message _ v _ _ => some v | _ => none)

/-- The messages published of the `n`-th file. -/
def publishedOf (n : Nat) (log : List (Ev V)) : List V :=
  log.filterMap (fun e => match e with | .message m v _ _ => if m = n then some v else none | _ => none)

/-- The messages published of the files whose numbers are in `S`. -/
def publishedIn (S : Nat → Bool) (log : List (Ev V)) : List V :=
  log.filterMap (fun e => match e with | .message m v _ _ => if S m = true then some v else none | _ => none)

/-- The files which were asked for. -/
def requested (log : List (Ev V)) : List (File V) :=
  log.filterMap (fun e => match e with | .queued f => some f | _ => none)

/-- The files which were begun. -/
def files (log : List (Ev V)) : List (File V) :=
  log.filterMap (fun e => match e with | .taken _ f => some f | _ => none)

/-- The first `k` lines: the number of each, and the message if there is one. -/
def script (f : File V) : Nat → List (Out V)
  | 0 => []
  | k + 1 => script f k ++ .status (k + 1) f.lines.length false ::
      (match f.lines[k]? with | some (.msg _ v) => [.message v] | _ => [])

/-- A file played up to line `k`. -/
def played (f : File V) (k : Nat) : List (Out V) :=
  .status 0 f.lines.length false :: script f k ++
    [.status k f.lines.length true, .total (contents (f.lines.take k)).length]

/-! ## What is published about a file -/

/-- The `n`-th file is over. -/
def Over (n : Nat) (log : List (Ev V)) : Prop :=
  ∃ f k, (files log)[n]? = some f ∧ k ≤ f.lines.length ∧ outs n log = played f k ∧
    (k = f.lines.length ∨ .cut n ∈ log)

/-- The files before the `m`-th are over, those from number `t` on have not begun. -/
structure Past (log : List (Ev V)) (t m : Nat) : Prop where
  len : (files log).length = t
  over : ∀ n, n < m → Over n log
  fresh : ∀ n, t ≤ n → outs n log = []

/-- The file `c` is being played; `tl` was published since the line was reached. -/
structure Mid (log : List (Ev V)) (t : Nat) (c : Cur V) (tl : List (Out V)) : Prop where
  past : Past log t c.n
  taken : t = c.n + 1
  file : (files log)[c.n]? = some c.file
  idx : c.idx ≤ c.file.lines.length
  out : outs c.n log = .status 0 c.file.lines.length false :: script c.file c.idx ++ tl
  pub : c.pub = (contents (c.file.lines.take c.idx)).length

/-- The invariant. -/
def Good (st : St V) : Prop :=
  match st.phase with
  | .idle => Past st.log st.taken st.taken
  | .announcing c => Mid st.log st.taken c []
  | .waiting c | .waking c => Mid st.log st.taken c [] ∧ c.idx < c.file.lines.length
  | .reading c =>
    Mid st.log st.taken c [.status (c.idx + 1) c.file.lines.length false] ∧ c.idx < c.file.lines.length
  | .sleeping c _ =>
    Mid st.log st.taken c [.status (c.idx + 1) c.file.lines.length false] ∧
      ∃ l, c.file.lines[c.idx]? = some l ∧ l ≠ .bad ∧ l ≠ .alien
  | .publishing c =>
    ∃ ts v, Mid st.log st.taken c [.status (c.idx + 1) c.file.lines.length false, .message v] ∧
      c.file.lines[c.idx]? = some (.msg ts v)
  | .ending c =>
    Mid st.log st.taken c [.status c.idx c.file.lines.length true] ∧
      (c.idx = c.file.lines.length ∨ .cut c.n ∈ st.log)
  | .totalling c =>
    Mid st.log st.taken c [.status c.idx c.file.lines.length true, .total c.pub] ∧
      (c.idx = c.file.lines.length ∨ .cut c.n ∈ st.log)
  | .dead => ∃ c, Mid st.log st.taken c [.status (c.idx + 1) c.file.lines.length false] ∧
      c.idx < c.file.lines.length

/-- Events which are about no file or only about file `n`, and do not begin a file. -/
def About (n : Nat) (e : Ev V) : Prop := (∀ m, m ≠ n → outOf m e = none) ∧ ∀ m f, e ≠ .taken m f

theorem outs_snoc (n : Nat) (log : List (Ev V)) (e : Ev V) :
    outs n (log ++ [e]) = outs n log ++ (outOf n e).toList := by
  simp only [outs, List.filterMap_append, List.filterMap_cons, List.filterMap_nil]
  cases outOf n e <;> simp

theorem files_snoc (log : List (Ev V)) {n : Nat} {e : Ev V} (h : About n e) :
    files (log ++ [e]) = files log := by
  cases e <;> simp_all [files, About]

theorem Past.snoc {log : List (Ev V)} {t m n : Nat} {e : Ev V} (h : Past log t m) (a : About n e)
    (h1 : m ≤ n) (h2 : n < t) : Past (log ++ [e]) t m where
  len := by rw [files_snoc log a]; exact h.len
  over := fun k hk => by
    obtain ⟨f, i, o1, o2, o3, o4⟩ := h.over k hk
    refine ⟨f, i, by rw [files_snoc log a]; exact o1, o2, ?_, ?_⟩
    · rw [outs_snoc, a.1 k (by omega), o3]; simp
    · rcases o4 with o4 | o4
      · exact .inl o4
      · exact .inr (by simp [o4])
  fresh := fun k hk => by rw [outs_snoc, a.1 k (by omega), h.fresh k hk]; rfl

theorem Mid.snoc {log : List (Ev V)} {t : Nat} {c : Cur V} {tl : List (Out V)} {e : Ev V}
    (h : Mid log t c tl) (a : About c.n e) : Mid (log ++ [e]) t c (tl ++ (outOf c.n e).toList) where
  past := h.past.snoc a (Nat.le_refl _) (by rw [h.taken]; omega)
  taken := h.taken
  file := by rw [files_snoc log a]; exact h.file
  idx := h.idx
  out := by rw [outs_snoc, h.out]; simp
  pub := h.pub

theorem Mid.snoc' {log : List (Ev V)} {t : Nat} {c : Cur V} {tl tl' : List (Out V)} {e : Ev V}
    (h : Mid log t c tl) (a : About c.n e) (o : tl ++ (outOf c.n e).toList = tl') :
    Mid (log ++ [e]) t c tl' := o ▸ h.snoc a

theorem Mid.cur {log : List (Ev V)} {t : Nat} {c c' : Cur V} {tl : List (Out V)} (h : Mid log t c tl)
    (h1 : c'.n = c.n) (h2 : c'.file = c.file) (h3 : c'.idx = c.idx) (h4 : c'.pub = c.pub) :
    Mid log t c' tl where
  past := by rw [h1]; exact h.past
  taken := by rw [h1]; exact h.taken
  file := by rw [h1, h2]; exact h.file
  idx := by rw [h2, h3]; exact h.idx
  out := by rw [h1, h2, h3]; exact h.out
  pub := by rw [h2, h3, h4]; exact h.pub

theorem contents_take (ls : List (Line V)) (k : Nat) (h : k < ls.length) :
    contents (ls.take (k + 1)) = contents (ls.take k) ++
      (match ls[k]? with | some (.msg _ v) => [v] | _ => []) := by
  have : ls.take (k + 1) = ls.take k ++ [ls[k]] := by simp
  rw [this, contents, List.filterMap_append, List.getElem?_eq_getElem h]
  simp only [contents, List.filterMap_cons, List.filterMap_nil]
  cases ls[k] <;> rfl

/-- Going to the next line. -/
theorem Mid.next {log : List (Ev V)} {t : Nat} {c c' : Cur V} {tl : List (Out V)} (h : Mid log t c tl)
    (hl : c.idx < c.file.lines.length)
    (ht : tl = .status (c.idx + 1) c.file.lines.length false ::
      (match c.file.lines[c.idx]? with | some (.msg _ v) => [.message v] | _ => []))
    (h1 : c'.n = c.n) (h2 : c'.file = c.file) (h3 : c'.idx = c.idx + 1)
    (h4 : c'.pub = c.pub + (match c.file.lines[c.idx]? with | some (.msg _ _) => 1 | _ => 0)) :
    Mid log t c' [] where
  past := by rw [h1]; exact h.past
  taken := by rw [h1]; exact h.taken
  file := by rw [h1, h2]; exact h.file
  idx := by rw [h2, h3]; exact hl
  out := by
    rw [h1, h2, h3, h.out, ht]
    simp [script]
  pub := by
    rw [h2, h3, h4, contents_take _ _ hl, List.length_append, h.pub]
    congr 1
    rw [List.getElem?_eq_getElem hl]
    cases c.file.lines[c.idx] <;> rfl

theorem good_finish {st : St V} {c : Cur V} (h : Mid st.log st.taken c [])
    (he : c.idx = c.file.lines.length ∨ .cut c.n ∈ st.log) : Good (finish st c) := by
  unfold Good finish note
  refine ⟨h.snoc' ⟨fun m hm => by simp [outOf, Ne.symm hm], by simp⟩ (by simp [outOf]), ?_⟩
  rcases he with he | he
  · exact .inl he
  · exact .inr (by simp [he])

theorem good_proceed {st : St V} {c : Cur V} (h : Mid st.log st.taken c [])
    (hl : c.idx < c.file.lines.length) : Good (proceed st c) := by
  unfold proceed
  split
  · refine good_finish (st := note { st with stop := false } (.cut c.n)) ?_ (.inr (by simp [note]))
    exact h.snoc' ⟨fun m hm => by simp [outOf], by simp⟩ (by simp [outOf])
  · unfold Good note
    exact ⟨h.snoc' ⟨fun m hm => by simp [outOf, Ne.symm hm], by simp⟩ (by simp [outOf]), hl⟩

theorem good_top {st : St V} {c : Cur V} (h : Mid st.log st.taken c []) : Good (top st c) := by
  unfold top
  split
  · rename_i hl
    split
    · exact good_proceed (h.cur rfl rfl rfl rfl) hl
    · unfold Good; exact ⟨h.cur rfl rfl rfl rfl, hl⟩
  · rename_i hl
    exact good_finish h (.inl (by have := h.idx; omega))

theorem lt_of_some {α : Type} {l : List α} {i : Nat} {x : α} (h : l[i]? = some x) : i < l.length := by
  rcases Nat.lt_or_ge i l.length with h1 | h1
  · exact h1
  · rw [List.getElem?_eq_none h1] at h; simp at h

theorem good_emit {st : St V} {c : Cur V} {l : Line V}
    (h : Mid st.log st.taken c [.status (c.idx + 1) c.file.lines.length false])
    (hl : c.file.lines[c.idx]? = some l) : Good (emit st c l) := by
  have hlt := lt_of_some hl
  cases l with
  | msg ts v =>
    unfold Good emit note
    exact ⟨ts, v, h.snoc' ⟨fun m hm => by simp [outOf, Ne.symm hm], by simp⟩ (by simp [outOf]), hl⟩
  | _ =>
    simp only [emit]
    exact good_top (h.next hlt (by simp [hl]) rfl rfl rfl (by simp [hl]))

theorem anchored_cur (st : St V) (c : Cur V) (ts : Option Int) :
    (anchored st c ts).2.n = c.n ∧ (anchored st c ts).2.file = c.file ∧ (anchored st c ts).2.idx = c.idx ∧
      (anchored st c ts).2.pub = c.pub := by
  unfold anchored; split <;> simp

theorem anchored_mid {st : St V} {c : Cur V} {ts : Option Int} {tl : List (Out V)}
    (h : Mid st.log st.taken c tl) :
    Mid (anchored st c ts).1.log (anchored st c ts).1.taken (anchored st c ts).2 tl := by
  unfold anchored
  split
  · exact (h.snoc' ⟨fun m hm => by simp [outOf], by simp⟩ (by simp [outOf])).cur rfl rfl rfl rfl
  · exact h

theorem stamp_cur (c : Cur V) (ts : Option Int) :
    (stamp c ts).n = c.n ∧ (stamp c ts).file = c.file ∧ (stamp c ts).idx = c.idx ∧ (stamp c ts).pub = c.pub := by
  unfold stamp; split <;> simp

theorem stamp_mid {log : List (Ev V)} {t : Nat} {c : Cur V} {tl : List (Out V)} (ts : Option Int)
    (h : Mid log t c tl) : Mid log t (stamp c ts) tl :=
  have s := stamp_cur c ts
  h.cur s.1 s.2.1 s.2.2.1 s.2.2.2

theorem good_play {st : St V} {c : Cur V} {l : Line V}
    (h : Mid st.log st.taken c [.status (c.idx + 1) c.file.lines.length false])
    (hl : c.file.lines[c.idx]? = some l) (h1 : l ≠ .bad) (h2 : l ≠ .alien) : Good (play st c l) := by
  have a := anchored_cur st c (tsOf l)
  have hm : Mid (anchored st c (tsOf l)).1.log (anchored st c (tsOf l)).1.taken (anchored st c (tsOf l)).2
      [.status ((anchored st c (tsOf l)).2.idx + 1) (anchored st c (tsOf l)).2.file.lines.length false] := by
    rw [a.2.1, a.2.2.1]; exact anchored_mid h
  have hl' : (anchored st c (tsOf l)).2.file.lines[(anchored st c (tsOf l)).2.idx]? = some l := by
    rw [a.2.1, a.2.2.1]; exact hl
  unfold play
  split
  · unfold Good
    exact ⟨hm, l, hl', h1, h2⟩
  · have s := stamp_cur (anchored st c (tsOf l)).2 (tsOf l)
    refine good_emit ?_ ?_
    · rw [s.2.1, s.2.2.1]; exact stamp_mid _ hm
    · rw [s.2.1, s.2.2.1]; exact hl'

theorem good_go {st st' : St V} (h : Good st) (e : go st = some st') : Good st' := by
  unfold go at e
  unfold Good at h
  cases hp : st.phase with
  | idle =>
    simp only [hp] at e h
    cases hq : st.queue with
    | nil => simp [hq] at e
    | cons f q =>
      simp only [hq, Option.some.injEq] at e
      subst e
      unfold Good note
      refine ⟨⟨?_, ?_, ?_⟩, rfl, ?_, Nat.zero_le _, ?_, rfl⟩
      · simp [files] at h ⊢; have := h.len; simp [files] at this; omega
      · intro n hn
        obtain ⟨g, i, o1, o2, o3, o4⟩ := h.over n hn
        have hn' : n ≠ st.taken := by simp at hn; omega
        refine ⟨g, i, ?_, o2, ?_, ?_⟩
        · simp only [files, List.filterMap_append] at o1 ⊢
          rw [List.append_assoc, List.getElem?_append_left (lt_of_some o1)]; exact o1
        · rw [outs_snoc, outs_snoc, o3]; simp [outOf, Ne.symm hn']
        · rcases o4 with o4 | o4
          · exact .inl o4
          · exact .inr (by simp [o4])
      · intro n hn
        have hn' : st.taken ≠ n := by simp at hn; omega
        rw [outs_snoc, outs_snoc, h.fresh n (by simp at hn; omega)]
        simp [outOf, hn']
      · have := h.len
        simp only [files, List.filterMap_append] at this ⊢
        simp [← this]
      · rw [outs_snoc, outs_snoc, h.fresh _ (Nat.le_refl _)]
        simp [outOf, script]
  | announcing c =>
    simp only [hp, Option.some.injEq] at e h
    subst e
    exact good_top (st := { st with stop := false }) h
  | waiting c => simp [hp] at e
  | waking c =>
    simp only [hp, Option.some.injEq] at e h
    subst e
    exact good_proceed h.1 h.2
  | reading c =>
    simp only [hp] at e h
    cases hl : c.file.lines[c.idx]? with
    | none => simp [hl] at e
    | some l =>
      cases l with
      | bad =>
        simp only [hl, Option.some.injEq] at e
        subst e
        exact good_top (h.1.next h.2 (by simp [hl]) rfl rfl rfl (by simp [hl]))
      | alien =>
        simp only [hl, Option.some.injEq] at e
        subst e
        unfold Good
        exact ⟨c, h⟩
      | start ts =>
        simp only [hl, Option.some.injEq] at e
        subst e
        exact good_play h.1 hl (by simp) (by simp)
      | msg ts v =>
        simp only [hl, Option.some.injEq] at e
        subst e
        exact good_play h.1 hl (by simp) (by simp)
  | sleeping c till =>
    simp only [hp] at e h
    obtain ⟨hm, l, hl, h1, h2⟩ := h
    simp only [hl, Option.ite_none_right_eq_some, Option.some.injEq] at e
    obtain ⟨_, rfl⟩ := e
    have s := stamp_cur c (tsOf l)
    refine good_emit ?_ ?_
    · rw [s.2.1, s.2.2.1]; exact stamp_mid _ hm
    · rw [s.2.1, s.2.2.1]; exact hl
  | publishing c =>
    simp only [hp, Option.some.injEq] at e h
    obtain ⟨ts, v, hm, hl⟩ := h
    subst e
    exact good_top (hm.next (lt_of_some hl) (by simp [hl]) rfl rfl rfl (by simp [hl]))
  | ending c =>
    simp only [hp, Option.some.injEq] at e h
    subst e
    unfold Good note
    refine ⟨h.1.snoc' ⟨fun m hm => by simp [outOf, Ne.symm hm], by simp⟩ (by simp [outOf]), ?_⟩
    rcases h.2 with he | he
    · exact .inl he
    · exact .inr (by simp [he])
  | totalling c =>
    simp only [hp, Option.some.injEq] at e h
    subst e
    unfold Good
    obtain ⟨hm, he⟩ := h
    refine ⟨hm.past.len, fun n hn => ?_, hm.past.fresh⟩
    have hn' : n < st.taken := hn
    rcases Nat.lt_or_ge n c.n with h1 | h1
    · exact hm.past.over n h1
    · have : n = c.n := by have := hm.taken; omega
      subst this
      exact ⟨c.file, c.idx, hm.file, hm.idx, by rw [hm.out, hm.pub]; simp [played], he⟩
  | dead => simp [hp] at e

/-- Events about no file. -/
def Mute (e : Ev V) : Prop := ∀ n, About n e

theorem Past.mute {log : List (Ev V)} {t m : Nat} {e : Ev V} (h : Past log t m) (a : Mute e)
    (ho : ∀ n, outOf n e = none) : Past (log ++ [e]) t m where
  len := by rw [files_snoc log (a 0)]; exact h.len
  over := fun k hk => by
    obtain ⟨f, i, o1, o2, o3, o4⟩ := h.over k hk
    refine ⟨f, i, by rw [files_snoc log (a 0)]; exact o1, o2, ?_, ?_⟩
    · rw [outs_snoc, ho k, o3]; simp
    · rcases o4 with o4 | o4
      · exact .inl o4
      · exact .inr (by simp [o4])
  fresh := fun k hk => by rw [outs_snoc, ho k, h.fresh k hk]; rfl

theorem Mid.mute {log : List (Ev V)} {t : Nat} {c : Cur V} {tl : List (Out V)} {e : Ev V}
    (h : Mid log t c tl) (a : Mute e) (ho : ∀ n, outOf n e = none) : Mid (log ++ [e]) t c tl :=
  h.snoc' (a _) (by simp [ho])

theorem good_mute {st st' : St V} {e : Ev V} (h : Good st) (a : Mute e) (ho : ∀ n, outOf n e = none)
    (hl : st'.log = st.log ++ [e]) (ht : st'.taken = st.taken)
    (hp : st'.phase = st.phase ∨ st'.phase = resume st.phase) : Good st' := by
  unfold Good at h ⊢
  rw [hl, ht]
  have hc {c : Cur V} (h : c.idx = c.file.lines.length ∨ Ev.cut c.n ∈ st.log) :
      c.idx = c.file.lines.length ∨ Ev.cut c.n ∈ st.log ++ [e] := by
    rcases h with h | h
    · exact .inl h
    · exact .inr (by simp [h])
  cases hq : st.phase <;> simp only [hq, resume, or_self] at h hp <;>
    (try (rcases hp with hp | hp)) <;> simp only [hp]
  all_goals first
    | exact h.mute a ho
    | exact ⟨h.1.mute a ho, h.2⟩
    | exact ⟨h.1.mute a ho, hc h.2⟩
    | (obtain ⟨ts, v, h1, h2⟩ := h; exact ⟨ts, v, h1.mute a ho, h2⟩)
    | (obtain ⟨c, h1, h2⟩ := h; exact ⟨c, h1.mute a ho, h2⟩)

theorem good_step {st st' : St V} {a : Act V} (h : Good st) (e : step st a = some st') : Good st' := by
  cases a with
  | go => exact good_go h e
  | tick d =>
    simp only [step, Option.some.injEq] at e
    subst e
    exact h
  | file f =>
    simp only [step, Option.some.injEq] at e
    subst e
    exact good_mute h (e := .queued f) (fun n => ⟨fun m _ => rfl, by simp⟩) (fun _ => rfl) rfl rfl (.inl rfl)
  | pause b =>
    simp only [step, Option.some.injEq] at e
    subst e
    refine good_mute h (e := .paused b) (fun n => ⟨fun m _ => rfl, by simp⟩) (fun _ => rfl) rfl rfl ?_
    cases b
    · exact .inr rfl
    · exact .inl rfl
  | stop b =>
    simp only [step, Option.some.injEq] at e
    subst e
    exact good_mute h (e := .asked b) (fun n => ⟨fun m _ => rfl, by simp⟩) (fun _ => rfl) rfl rfl (.inl rfl)

theorem good_run {st st' : St V} {as : List (Act V)} (h : Good st) (e : run st as = some st') : Good st' := by
  induction as generalizing st with
  | nil => simp only [run, Option.some.injEq] at e; exact e ▸ h
  | cons a as ih =>
    simp only [run, Option.bind_eq_some_iff] at e
    obtain ⟨st1, e1, e2⟩ := e
    exact ih (good_step h e1) e2

theorem good_init : Good ({} : St V) := by
  unfold Good
  exact ⟨rfl, fun n hn => absurd hn (Nat.not_lt_zero n), fun _ _ => rfl⟩

theorem script_prefix (f : File V) {j k : Nat} (h : j ≤ k) : script f j <+: script f k := by
  induction k with
  | zero => have : j = 0 := by omega
            subst this; exact List.prefix_refl _
  | succ k ih =>
    rcases Nat.lt_or_ge j (k + 1) with h1 | h1
    · exact (ih (by omega)).trans (by simp only [script]; exact List.prefix_append _ _)
    · have : j = k + 1 := by omega
      subst this; exact List.prefix_refl _

/-- **C71.**  What is published about a file is, in this order: a status with number 0, for each line the
status with its number followed by the message if the line has one; finally a status which says that the file is done
and the number of messages published of it.  There is nothing else and nothing is left out, up to where the file is
now.  A file which is over was played to its end unless it was stopped. -/
theorem C71_exact {as : List (Act V)} {st : St V} (e : run {} as = some st) {n : Nat} {f : File V}
    (hf : (files st.log)[n]? = some f) :
    ∃ k, k ≤ f.lines.length ∧ outs n st.log <+: played f k ∧
      ((∃ m, .total m ∈ outs n st.log) → outs n st.log = played f k) ∧
      (k = f.lines.length ∨ .cut n ∈ st.log) := by
  have g := good_run good_init e
  have over (h : Over n st.log) : ∃ k, k ≤ f.lines.length ∧ outs n st.log <+: played f k ∧
      ((∃ m, .total m ∈ outs n st.log) → outs n st.log = played f k) ∧
      (k = f.lines.length ∨ .cut n ∈ st.log) := by
    obtain ⟨f', k, o1, o2, o3, o4⟩ := h
    rw [hf] at o1
    cases o1
    exact ⟨k, o2, o3 ▸ List.prefix_refl _, fun _ => o3, o4⟩
  have nt (i : Nat) (m : Nat) : Out.total m ∉ script f i := by
    induction i with
    | zero => simp [script]
    | succ i ih =>
      simp only [script, List.mem_append, ih, false_or, List.mem_cons, reduceCtorEq]
      split <;> simp
  -- before the last status of the file
  have mid {c : Cur V} {tl : List (Out V)} (hm : Mid st.log st.taken c tl)
      (ht : ∀ m, Out.total m ∉ tl)
      (hp : n = c.n → script c.file c.idx ++ tl <+: script c.file c.file.lines.length) :
      ∃ k, k ≤ f.lines.length ∧ outs n st.log <+: played f k ∧
      ((∃ m, .total m ∈ outs n st.log) → outs n st.log = played f k) ∧
      (k = f.lines.length ∨ .cut n ∈ st.log) := by
    have hn : n < st.taken := by rw [← hm.past.len]; exact lt_of_some hf
    rcases Nat.lt_or_ge n c.n with h1 | h1
    · exact over (hm.past.over n h1)
    · have : n = c.n := by have := hm.taken; omega
      subst this
      have hfc : c.file = f := by have := hm.file; rw [hf] at this; exact (Option.some.inj this).symm
      have hp' := hp rfl
      rw [hfc] at hp'
      have ho := hm.out
      rw [hfc] at ho
      refine ⟨f.lines.length, Nat.le_refl _, ?_, ?_, .inl rfl⟩
      · rw [ho, played, List.cons_append, List.cons_append, List.cons_prefix_cons]
        exact ⟨rfl, hp'.trans (List.prefix_append _ _)⟩
      · rintro ⟨m, h⟩
        rw [ho] at h
        simp [nt, ht] at h
  have last {c : Cur V} {tl : List (Out V)} (hm : Mid st.log st.taken c tl)
      (he : c.idx = c.file.lines.length ∨ Ev.cut c.n ∈ st.log)
      (ht : tl = [.status c.idx c.file.lines.length true] ∨
        tl = [.status c.idx c.file.lines.length true, .total c.pub]) :
      ∃ k, k ≤ f.lines.length ∧ outs n st.log <+: played f k ∧
      ((∃ m, .total m ∈ outs n st.log) → outs n st.log = played f k) ∧
      (k = f.lines.length ∨ .cut n ∈ st.log) := by
    have hn : n < st.taken := by rw [← hm.past.len]; exact lt_of_some hf
    rcases Nat.lt_or_ge n c.n with h1 | h1
    · exact over (hm.past.over n h1)
    · have : n = c.n := by have := hm.taken; omega
      subst this
      have hfc : c.file = f := by have := hm.file; rw [hf] at this; exact (Option.some.inj this).symm
      have ho := hm.out
      have hb := hm.pub
      have hi := hm.idx
      rw [hfc] at ho hb he hi ht
      refine ⟨c.idx, hi, ?_, ?_, he⟩
      · rw [ho, played]
        rcases ht with rfl | rfl
        · simp
        · simp [hb]
      · rintro ⟨m, h⟩
        rw [ho] at h ⊢
        rcases ht with rfl | rfl
        · simp [nt] at h
        · simp [played, hb]
  have one {c : Cur V} (hl : c.idx < c.file.lines.length) :
      script c.file c.idx ++ [.status (c.idx + 1) c.file.lines.length false] <+:
        script c.file c.file.lines.length := by
    refine List.IsPrefix.trans ?_ (script_prefix c.file hl)
    simp only [script]
    exact (List.prefix_append_right_inj _).mpr (by simp)
  unfold Good at g
  cases hp : st.phase with
  | idle =>
    simp only [hp] at g
    exact over (g.over n (by rw [← g.len]; exact lt_of_some hf))
  | announcing c =>
    simp only [hp] at g
    exact mid g (by simp) (fun _ => by simpa using script_prefix c.file g.idx)
  | waiting c =>
    simp only [hp] at g
    exact mid g.1 (by simp) (fun _ => by simpa using script_prefix c.file g.1.idx)
  | waking c =>
    simp only [hp] at g
    exact mid g.1 (by simp) (fun _ => by simpa using script_prefix c.file g.1.idx)
  | reading c =>
    simp only [hp] at g
    exact mid g.1 (by simp) (fun _ => one g.2)
  | sleeping c t =>
    simp only [hp] at g
    obtain ⟨g1, l, g2, _⟩ := g
    exact mid g1 (by simp) (fun _ => one (lt_of_some g2))
  | publishing c =>
    simp only [hp] at g
    obtain ⟨ts, v, g1, g2⟩ := g
    refine mid g1 (by simp) (fun _ => ?_)
    have h1 : script c.file (c.idx + 1) =
        script c.file c.idx ++ [.status (c.idx + 1) c.file.lines.length false, .message v] := by
      simp [script, g2]
    rw [← h1]
    exact script_prefix c.file (lt_of_some g2)
  | ending c =>
    simp only [hp] at g
    exact last g.1 g.2 (.inl rfl)
  | totalling c =>
    simp only [hp] at g
    exact last g.1 g.2 (.inr rfl)
  | dead =>
    simp only [hp] at g
    obtain ⟨c, g1, g2⟩ := g
    exact mid g1 (by simp) (fun _ => one g2)

/-- What is published about file `n` has the messages of file `n`. -/
theorem publishedOf_outs (n : Nat) (log : List (Ev V)) :
    publishedOf n log = (outs n log).filterMap (fun o => match o with | .message v => some v | _ => none) := by
  unfold publishedOf outs
  rw [List.filterMap_filterMap]
  congr 1
  funext e
  cases e <;> simp only [outOf, Option.bind_none] <;> split <;> simp

/-! ## Everything, in order -/

/-- The messages of some files. -/
def allOf (fs : List (File V)) : List V := fs.flatMap (fun f => contents f.lines)

/-- `r` is still to be published. -/
def Left (st : St V) (r : List V) : Prop :=
  st.stop = false ∧ published st.log ++ (r ++ allOf st.queue) = allOf (requested st.log)

/-- What is still to be published of the file. -/
def Flow (st : St V) : Prop :=
  match st.phase with
  | .idle | .ending _ | .totalling _ => Left st []
  | .announcing c | .waiting c | .waking c | .reading c | .sleeping c _ => Left st (contents (c.file.lines.drop c.idx))
  | .publishing c => Left st (contents (c.file.lines.drop (c.idx + 1)))
  | .dead => ∃ r, Left st r

theorem published_snoc (log : List (Ev V)) (e : Ev V) :
    published (log ++ [e]) = published log ++ (match e with | .message _ v _ _ => [v] | _ => []) := by
  simp only [published, List.filterMap_append, List.filterMap_cons, List.filterMap_nil]
  cases e <;> simp

theorem published_snoc2 (log : List (Ev V)) (e e' : Ev V) :
    published (log ++ [e, e']) = published log ++ (match e with | .message _ v _ _ => [v] | _ => []) ++
      (match e' with | .message _ v _ _ => [v] | _ => []) := by
  rw [← published_snoc, ← published_snoc, List.append_assoc]; rfl

theorem requested_snoc (log : List (Ev V)) (e : Ev V) :
    requested (log ++ [e]) = requested log ++ (match e with | .queued f => [f] | _ => []) := by
  simp only [requested, List.filterMap_append, List.filterMap_cons, List.filterMap_nil]
  cases e <;> simp

theorem Left.note {st : St V} {r : List V} {e : Ev V} (h : Left st r)
    (h1 : ∀ n v ts t, e ≠ .message n v ts t) (h2 : ∀ f, e ≠ .queued f) : Left (note st e) r := by
  refine ⟨h.1, ?_⟩
  have := h.2
  simp only [Replay.note, published_snoc, requested_snoc]
  cases e <;> simp_all

theorem contents_drop {ls : List (Line V)} {k : Nat} {l : Line V} (h : ls[k]? = some l) :
    contents (ls.drop k) = (match l with | .msg _ v => [v] | _ => []) ++ contents (ls.drop (k + 1)) := by
  have hk := lt_of_some h
  rw [List.drop_eq_getElem_cons hk]
  rw [List.getElem?_eq_getElem hk, Option.some.injEq] at h
  rw [h]
  cases l <;> simp [contents]

theorem contents_end {ls : List (Line V)} {k : Nat} (h : ¬ k < ls.length) : contents (ls.drop k) = [] := by
  rw [List.drop_eq_nil_of_le (by omega)]; rfl

theorem flow_proceed {st : St V} {c : Cur V} (h : Left st (contents (c.file.lines.drop c.idx))) :
    Flow (proceed st c) := by
  have hs := h.1
  unfold proceed
  rw [if_neg (by simp [hs])]
  unfold Flow
  exact ⟨h.1, by simpa [note, published_snoc, requested_snoc] using h.2⟩

theorem flow_top {st : St V} {c : Cur V} (h : Left st (contents (c.file.lines.drop c.idx))) :
    Flow (top st c) := by
  unfold top
  split
  · split
    · exact flow_proceed (c := { c with begun := st.now }) h
    · unfold Flow; exact h
  · rename_i hl
    rw [contents_end hl] at h
    unfold finish Flow
    exact Left.note (st := { st with phase := _ }) h (by simp) (by simp)

theorem flow_emit {st : St V} {c : Cur V} {l : Line V} (hl : c.file.lines[c.idx]? = some l)
    (h : Left st (contents (c.file.lines.drop c.idx))) : Flow (emit st c l) := by
  rw [contents_drop hl] at h
  cases l with
  | msg ts v =>
    unfold emit Flow note
    refine ⟨h.1, ?_⟩
    have := h.2
    simp only [published_snoc, requested_snoc, List.append_nil] at this ⊢
    rw [← this]; simp
  | _ =>
    simp only [emit]
    exact flow_top (c := { c with idx := c.idx + 1 }) h

theorem anchored_left {st : St V} {c : Cur V} {ts : Option Int} {r : List V} (h : Left st r) :
    Left (anchored st c ts).1 r := by
  unfold anchored
  split
  · exact h.note (by simp) (by simp)
  · exact h

theorem flow_play {st : St V} {c : Cur V} {l : Line V} (hl : c.file.lines[c.idx]? = some l)
    (h : Left st (contents (c.file.lines.drop c.idx))) : Flow (play st c l) := by
  have a := anchored_cur st c (tsOf l)
  have h' : Left (anchored st c (tsOf l)).1 (contents
      ((anchored st c (tsOf l)).2.file.lines.drop (anchored st c (tsOf l)).2.idx)) := by
    rw [a.2.1, a.2.2.1]; exact anchored_left h
  unfold play
  split
  · unfold Flow; exact h'
  · have s := stamp_cur (anchored st c (tsOf l)).2 (tsOf l)
    refine flow_emit ?_ ?_
    · rw [s.2.1, s.2.2.1, a.2.1, a.2.2.1]; exact hl
    · rw [s.2.1, s.2.2.1]; exact h'

theorem flow_step {st st' : St V} {a : Act V} (h : Flow st) (ha : ∀ b, a ≠ .stop b)
    (e : step st a = some st') : Flow st' := by
  cases a with
  | stop b => exact absurd rfl (ha b)
  | tick d =>
    simp only [step, Option.some.injEq] at e
    subst e
    exact h
  | file f =>
    simp only [step, Option.some.injEq] at e
    subst e
    have key {r : List V} (hl : Left st r) :
        Left (note { st with queue := st.queue ++ [f] } (.queued f)) r := by
      refine ⟨hl.1, ?_⟩
      have := hl.2
      simp only [note, published_snoc, requested_snoc, allOf, List.flatMap_append, List.append_nil] at this ⊢
      rw [← this]; simp
    unfold Flow at h ⊢
    simp only [note]
    cases hp : st.phase <;> simp only [hp] at h ⊢ <;> first
      | exact key h
      | (obtain ⟨r, h⟩ := h; exact ⟨r, key h⟩)
  | pause b =>
    simp only [step, Option.some.injEq] at e
    subst e
    have key {p : Phase V} {r : List V} (hl : Left st r) :
        Left (note { st with running := !b, phase := p } (.paused b)) r :=
      Left.note (st := { st with running := !b, phase := p }) hl (by simp) (by simp)
    unfold Flow at h ⊢
    simp only [note]
    cases b <;> cases hp : st.phase <;> simp only [hp, resume, Bool.false_eq_true, if_false, if_true] at h ⊢ <;>
      first
      | exact key h
      | (obtain ⟨r, h⟩ := h; exact ⟨r, key h⟩)
  | go =>
    simp only [step] at e
    unfold go at e
    unfold Flow at h
    cases hp : st.phase with
    | idle =>
      simp only [hp] at e h
      cases hq : st.queue with
      | nil => simp [hq] at e
      | cons f q =>
        simp only [hq, Option.some.injEq] at e
        subst e
        unfold Flow note
        refine ⟨h.1, ?_⟩
        have := h.2
        simp only [published_snoc, requested_snoc, hq, allOf, List.flatMap_cons] at this ⊢
        simpa using this
    | announcing c =>
      simp only [hp, Option.some.injEq] at e h
      subst e
      exact flow_top (st := { st with stop := false }) ⟨rfl, h.2⟩
    | waiting c => simp [hp] at e
    | waking c =>
      simp only [hp, Option.some.injEq] at e h
      subst e
      exact flow_proceed h
    | reading c =>
      simp only [hp] at e h
      cases hl : c.file.lines[c.idx]? with
      | none => simp [hl] at e
      | some l =>
        cases l with
        | bad =>
          simp only [hl, Option.some.injEq] at e
          subst e
          rw [contents_drop hl] at h
          exact flow_top (c := { c with idx := c.idx + 1 }) h
        | alien =>
          simp only [hl, Option.some.injEq] at e
          subst e
          unfold Flow
          exact ⟨_, h⟩
        | start ts =>
          simp only [hl, Option.some.injEq] at e
          subst e
          exact flow_play hl h
        | msg ts v =>
          simp only [hl, Option.some.injEq] at e
          subst e
          exact flow_play hl h
    | sleeping c till =>
      simp only [hp] at e h
      cases hl : c.file.lines[c.idx]? with
      | none => simp [hl] at e
      | some l =>
        simp only [hl, Option.ite_none_right_eq_some, Option.some.injEq] at e
        obtain ⟨_, rfl⟩ := e
        have s := stamp_cur c (tsOf l)
        refine flow_emit ?_ ?_
        · rw [s.2.1, s.2.2.1]; exact hl
        · rw [s.2.1, s.2.2.1]; exact h
    | publishing c =>
      simp only [hp, Option.some.injEq] at e h
      subst e
      exact flow_top (c := { c with idx := c.idx + 1, pub := c.pub + 1 }) h
    | ending c =>
      simp only [hp, Option.some.injEq] at e h
      subst e
      unfold Flow
      exact Left.note (st := { st with phase := _ }) h (by simp) (by simp)
    | totalling c =>
      simp only [hp, Option.some.injEq] at e h
      subst e
      unfold Flow
      exact h
    | dead => simp [hp] at e

theorem flow_run {st st' : St V} {as : List (Act V)} (h : Flow st) (ha : ∀ b, .stop b ∉ as)
    (e : run st as = some st') : Flow st' := by
  induction as generalizing st with
  | nil => simp only [run, Option.some.injEq] at e; exact e ▸ h
  | cons a as ih =>
    simp only [run, Option.bind_eq_some_iff] at e
    obtain ⟨st1, e1, e2⟩ := e
    exact ih (flow_step h (fun b hb => ha b (by simp [hb])) e1) (fun b hb => ha b (by simp [hb])) e2

/-- **C71.**  If no stop is asked for, the messages published are those of the files asked for, file by
file, in the order in which they are recorded, each once: at any time a first part of them, and all of them when
`replay` waits for another file. -/
theorem C71_all_in_order {as : List (Act V)} {st : St V} (e : run {} as = some st)
    (ha : ∀ b, .stop b ∉ as) :
    published st.log <+: allOf (requested st.log) ∧
      (st.phase = .idle → st.queue = [] → published st.log = allOf (requested st.log)) := by
  have h : Flow st := flow_run (st := {}) ⟨rfl, rfl⟩ ha e
  have key {r : List V} (hl : Left st r) : published st.log <+: allOf (requested st.log) := by
    rw [← hl.2]; exact List.prefix_append _ _
  unfold Flow at h
  refine ⟨?_, fun hp hq => ?_⟩
  · cases hp : st.phase <;> simp only [hp] at h <;> first
      | exact key h
      | (obtain ⟨r, h⟩ := h; exact key h)
  · simp only [hp] at h
    have := h.2
    simpa [hq, allOf] using this

/-! ## Pausing and stopping -/

/-- How many messages can still be published while paused. -/
def credit : Phase V → Nat
  | .waking _ | .reading _ | .sleeping _ _ => 1
  | _ => 0

theorem credit_proceed {st : St V} {c : Cur V} :
    (published (proceed st c).log).length = (published st.log).length ∧
      (proceed st c).running = st.running ∧ credit (proceed st c).phase ≤ 1 := by
  unfold proceed finish note
  split <;> simp [published_snoc, published_snoc2, credit]

theorem credit_top {st : St V} {c : Cur V} (hr : st.running = false) :
    (published (top st c).log).length = (published st.log).length ∧
      (top st c).running = false ∧ credit (top st c).phase = 0 := by
  unfold top finish note
  simp only [hr, Bool.false_eq_true, if_false]
  split <;> simp [published_snoc, credit, hr]

theorem credit_emit {st : St V} {c : Cur V} {l : Line V} (hr : st.running = false) :
    (published (emit st c l).log).length ≤ (published st.log).length + 1 ∧
      (emit st c l).running = false ∧ credit (emit st c l).phase = 0 := by
  cases l with
  | msg ts v => simp [emit, note, published_snoc, credit, hr]
  | _ =>
    simp only [emit]
    have := credit_top (st := st) (c := { c with idx := c.idx + 1 }) hr
    exact ⟨by omega, this.2⟩

theorem anchored_st (st : St V) (c : Cur V) (ts : Option Int) :
    (anchored st c ts).1.running = st.running ∧ published (anchored st c ts).1.log = published st.log ∧
      (anchored st c ts).1.stop = st.stop ∧ (anchored st c ts).1.queue = st.queue ∧
      (anchored st c ts).1.taken = st.taken ∧ (anchored st c ts).1.now = st.now ∧
      ∀ S, publishedIn S (anchored st c ts).1.log = publishedIn S st.log := by
  unfold anchored note
  split <;> simp [published_snoc, publishedIn]

theorem credit_play {st : St V} {c : Cur V} {l : Line V} (hr : st.running = false) :
    (published (play st c l).log).length + credit (play st c l).phase ≤ (published st.log).length + 1 ∧
      (play st c l).running = false := by
  have a := anchored_st st c (tsOf l)
  unfold play
  split
  · simp [credit, a.2.1, a.1, hr]
  · have := credit_emit (st := (anchored st c (tsOf l)).1) (c := stamp (anchored st c (tsOf l)).2 (tsOf l))
      (l := l) (by rw [a.1]; exact hr)
    rw [a.2.1] at this
    exact ⟨by omega, this.2.1⟩

theorem credit_step {st st' : St V} {a : Act V} (hr : st.running = false) (ha : a ≠ .pause false)
    (e : step st a = some st') :
    (published st'.log).length + credit st'.phase ≤ (published st.log).length + credit st.phase ∧
      st'.running = false := by
  cases a with
  | tick d => simp only [step, Option.some.injEq] at e; subst e; exact ⟨Nat.le_refl _, hr⟩
  | file f =>
    simp only [step, Option.some.injEq] at e; subst e
    simp [note, published_snoc, hr]
  | stop f =>
    simp only [step, Option.some.injEq] at e; subst e
    simp [note, published_snoc, hr]
  | pause b =>
    cases b with
    | false => exact absurd rfl ha
    | true =>
      simp only [step, Option.some.injEq] at e; subst e
      simp [note, published_snoc]
  | go =>
    simp only [step] at e
    unfold go at e
    cases hp : st.phase with
    | idle =>
      simp only [hp] at e
      cases hq : st.queue with
      | nil => simp [hq] at e
      | cons f q =>
        simp only [hq, Option.some.injEq] at e
        subst e
        simp [note, published_snoc2, hr, credit]
    | announcing c =>
      simp only [hp, Option.some.injEq] at e
      subst e
      have := credit_top (st := { st with stop := false }) (c := c) hr
      simp only [hp] at this ⊢
      exact ⟨by omega, this.2.1⟩
    | waiting c => simp [hp] at e
    | waking c =>
      simp only [hp, Option.some.injEq] at e
      subst e
      have := credit_proceed (st := st) (c := c)
      have h1 : credit (Phase.waking c) = 1 := rfl
      exact ⟨by omega, this.2.1.trans hr⟩
    | reading c =>
      simp only [hp] at e
      cases hl : c.file.lines[c.idx]? with
      | none => simp [hl] at e
      | some l =>
        cases l with
        | bad =>
          simp only [hl, Option.some.injEq] at e
          subst e
          have := credit_top (st := st) (c := { c with idx := c.idx + 1 }) hr
          exact ⟨by omega, this.2.1⟩
        | alien =>
          simp only [hl, Option.some.injEq] at e
          subst e
          simp [credit, hr]
        | start ts =>
          simp only [hl, Option.some.injEq] at e
          subst e
          exact credit_play hr
        | msg ts v =>
          simp only [hl, Option.some.injEq] at e
          subst e
          exact credit_play hr
    | sleeping c till =>
      simp only [hp] at e
      cases hl : c.file.lines[c.idx]? with
      | none => simp [hl] at e
      | some l =>
        simp only [hl, Option.ite_none_right_eq_some, Option.some.injEq] at e
        obtain ⟨_, rfl⟩ := e
        have := credit_emit (st := st) (c := stamp c (tsOf l)) (l := l) hr
        have h1 : credit (Phase.sleeping c till) = 1 := rfl
        exact ⟨by omega, this.2.1⟩
    | publishing c =>
      simp only [hp, Option.some.injEq] at e
      subst e
      have := credit_top (st := st) (c := { c with idx := c.idx + 1, pub := c.pub + 1 }) hr
      exact ⟨by omega, this.2.1⟩
    | ending c =>
      simp only [hp, Option.some.injEq] at e
      subst e
      simp [note, published_snoc, hr, credit]
    | totalling c =>
      simp only [hp, Option.some.injEq] at e
      subst e
      simp [note, published_snoc, hr, credit]
    | dead => simp [hp] at e

theorem credit_run {st st' : St V} {as : List (Act V)} (hr : st.running = false) (ha : .pause false ∉ as)
    (e : run st as = some st') :
    (published st'.log).length + credit st'.phase ≤ (published st.log).length + credit st.phase := by
  induction as generalizing st with
  | nil => simp only [run, Option.some.injEq] at e; subst e; exact Nat.le_refl _
  | cons a as ih =>
    simp only [run, Option.bind_eq_some_iff] at e
    obtain ⟨st1, e1, e2⟩ := e
    have h1 := credit_step hr (fun h => ha (by simp [h])) e1
    have h2 := ih h1.2 (fun h => ha (by simp [h])) e2
    omega

/-- **C71.**  From the moment `True` arrives at `INPUT_PAUSED` until `False` does, at most one message is
published, and none if `replay` is not just working on a line. -/
theorem C71_pause {st st' : St V} {as : List (Act V)} (ha : .pause false ∉ as)
    (e : run st (.pause true :: as) = some st') :
    (published st'.log).length ≤ (published st.log).length + credit st.phase := by
  simp only [run, step, Option.bind_some] at e
  have h := credit_run (by rfl) ha e
  simp only [note, published_snoc, if_true, List.append_nil] at h
  omega

/-- The files in `S` are stopped, and can publish `k` more messages at most. -/
def Stopping (S : Nat → Bool) (st : St V) (k : Nat) : Prop :=
  ((∀ m, st.taken ≤ m → S m = false) ∨ st.queue = []) ∧
  match st.phase with
  | .waiting c | .waking c | .publishing c => c.n < st.taken ∧ (S c.n = true → st.stop = true)
  | .reading c | .sleeping c _ => c.n < st.taken ∧ (S c.n = true → st.stop = true ∧ 1 ≤ k)
  | .announcing c => c.n < st.taken ∧ S c.n = false
  | _ => True

theorem publishedIn_snoc (S : Nat → Bool) (log : List (Ev V)) (e : Ev V) :
    publishedIn S (log ++ [e]) = publishedIn S log ++
      (match e with | .message m v _ _ => if S m = true then [v] else [] | _ => []) := by
  simp only [publishedIn, List.filterMap_append, List.filterMap_cons, List.filterMap_nil]
  cases e <;> simp only [List.append_cancel_left_eq]
  split <;> simp_all

theorem publishedIn_snoc2 (S : Nat → Bool) (log : List (Ev V)) (e e' : Ev V) :
    publishedIn S (log ++ [e, e']) = publishedIn S log ++
      (match e with | .message m v _ _ => if S m = true then [v] else [] | _ => []) ++
      (match e' with | .message m v _ _ => if S m = true then [v] else [] | _ => []) := by
  rw [← publishedIn_snoc, ← publishedIn_snoc, List.append_assoc]; rfl

theorem stopping_top {S : Nat → Bool} {k : Nat} {st : St V} {c : Cur V} (h1 : (∀ m, st.taken ≤ m → S m = false) ∨ st.queue = []) (h2 : c.n < st.taken)
    (h3 : S c.n = true → st.stop = true) :
    Stopping S (top st c) k ∧ publishedIn S (top st c).log = publishedIn S st.log := by
  unfold top proceed finish note Stopping
  by_cases hi : c.idx < c.file.lines.length
  · cases hr : st.running
    · simp_all
    · cases hs : st.stop
      · simp_all [publishedIn_snoc]
      · simp_all [publishedIn_snoc2]
  · rw [if_neg hi]
    exact ⟨⟨h1, trivial⟩, by simp [publishedIn_snoc]⟩

theorem stopping_emit {S : Nat → Bool} {k : Nat} {st : St V} {c : Cur V} {l : Line V} (h1 : (∀ m, st.taken ≤ m → S m = false) ∨ st.queue = [])
    (h2 : c.n < st.taken) (h3 : S c.n = true → st.stop = true ∧ 1 ≤ k) :
    ∃ k', Stopping S (emit st c l) k' ∧
      (publishedIn S (emit st c l).log).length + k' ≤ (publishedIn S st.log).length + k := by
  cases l with
  | msg ts v =>
    by_cases hn : S c.n = true
    · exact ⟨k - 1, by simp_all [emit, note, Stopping, publishedIn_snoc]; omega⟩
    · exact ⟨k, by simp_all [emit, note, Stopping, publishedIn_snoc]⟩
  | _ =>
    simp only [emit]
    have := stopping_top (S := S) (k := k) (st := st) (c := { c with idx := c.idx + 1 }) h1 h2
      (fun h => (h3 h).1)
    exact ⟨k, this.1, by rw [this.2]; exact Nat.le_refl _⟩

theorem stopping_play {S : Nat → Bool} {k : Nat} {st : St V} {c : Cur V} {l : Line V} (h1 : (∀ m, st.taken ≤ m → S m = false) ∨ st.queue = [])
    (h2 : c.n < st.taken) (h3 : S c.n = true → st.stop = true ∧ 1 ≤ k) :
    ∃ k', Stopping S (play st c l) k' ∧
      (publishedIn S (play st c l).log).length + k' ≤ (publishedIn S st.log).length + k := by
  have a := anchored_st st c (tsOf l)
  have b := anchored_cur st c (tsOf l)
  unfold play
  split
  · refine ⟨k, ?_, by simp [a.2.2.2.2.2.2]⟩
    unfold Stopping
    simp only [a.2.2.2.2.1, b.1, a.2.2.1, a.2.2.2.1]
    exact ⟨h1, h2, h3⟩
  · have s := stamp_cur (anchored st c (tsOf l)).2 (tsOf l)
    have := stopping_emit (S := S) (k := k) (st := (anchored st c (tsOf l)).1)
      (c := stamp (anchored st c (tsOf l)).2 (tsOf l)) (l := l) (by rw [a.2.2.2.2.1, a.2.2.2.1]; exact h1)
      (by rw [a.2.2.2.2.1, s.1, b.1]; exact h2) (by rw [s.1, b.1, a.2.2.1]; exact h3)
    rw [a.2.2.2.2.2.2] at this
    exact this

theorem stopping_step {S : Nat → Bool} {k : Nat} {st st' : St V} {a : Act V} (h : Stopping S st k)
    (ha : ∀ f, a = .file f → ∀ m, st.taken ≤ m → S m = false) (e : step st a = some st') :
    ∃ k', Stopping S st' k' ∧
      (publishedIn S st'.log).length + k' ≤ (publishedIn S st.log).length + k := by
  cases a with
  | tick d => simp only [step, Option.some.injEq] at e; subst e; exact ⟨k, h, Nat.le_refl _⟩
  | file f =>
    simp only [step, Option.some.injEq] at e; subst e
    refine ⟨k, ?_, by simp [note, publishedIn_snoc]⟩
    exact ⟨.inl (ha f rfl), h.2⟩
  | stop f =>
    simp only [step, Option.some.injEq] at e; subst e
    refine ⟨k, ?_, by simp [note, publishedIn_snoc]⟩
    simp only [Stopping, note] at h ⊢
    refine ⟨?_, ?_⟩
    · rcases h.1 with h1 | h1
      · exact .inl h1
      · exact .inr (by simp [h1])
    · cases hp : st.phase <;> simp_all
  | pause b =>
    simp only [step, Option.some.injEq] at e; subst e
    refine ⟨k, ?_, by simp [note, publishedIn_snoc]⟩
    simp only [Stopping, note] at h ⊢
    refine ⟨h.1, ?_⟩
    cases b <;> cases hp : st.phase <;> simp_all [resume]
  | go =>
    simp only [step] at e
    unfold go at e
    unfold Stopping at h
    cases hp : st.phase with
    | idle =>
      simp only [hp] at e h
      cases hq : st.queue with
      | nil => simp [hq] at e
      | cons f q =>
        simp only [hq, Option.some.injEq] at e
        subst e
        refine ⟨k, ?_, by simp [note, publishedIn_snoc2]⟩
        have h1 : ∀ m, st.taken ≤ m → S m = false := by
          rcases h.1 with h1 | h1
          · exact h1
          · rw [hq] at h1; simp at h1
        exact ⟨.inl (fun m hm => h1 m (by simp only [note] at hm; omega)), by simp [note], h1 _ (Nat.le_refl _)⟩
    | announcing c =>
      simp only [hp, Option.some.injEq] at e h
      subst e
      have := stopping_top (S := S) (k := k) (st := { st with stop := false }) (c := c) h.1 h.2.1
        (fun hh => by rw [h.2.2] at hh; simp at hh)
      simp only [hp] at this ⊢
      exact ⟨k, this.1, by rw [this.2]; exact Nat.le_refl _⟩
    | waiting c => simp [hp] at e
    | waking c =>
      simp only [hp, Option.some.injEq] at e h
      subst e
      refine ⟨k, ?_, ?_⟩
      · unfold proceed finish note Stopping
        cases hs : st.stop <;> simp_all
      · unfold proceed finish note
        cases hs : st.stop <;> simp [publishedIn_snoc, publishedIn_snoc2]
    | reading c =>
      simp only [hp] at e h
      cases hl : c.file.lines[c.idx]? with
      | none => simp [hl] at e
      | some l =>
        cases l with
        | bad =>
          simp only [hl, Option.some.injEq] at e
          subst e
          have := stopping_top (S := S) (k := k) (st := st) (c := { c with idx := c.idx + 1 }) h.1 h.2.1
            (fun hh => (h.2.2 hh).1)
          exact ⟨k, this.1, by rw [this.2]; exact Nat.le_refl _⟩
        | alien =>
          simp only [hl, Option.some.injEq] at e
          subst e
          exact ⟨k, by simp [Stopping, h.1], Nat.le_refl _⟩
        | start ts =>
          simp only [hl, Option.some.injEq] at e
          subst e
          exact stopping_play h.1 h.2.1 h.2.2
        | msg ts v =>
          simp only [hl, Option.some.injEq] at e
          subst e
          exact stopping_play h.1 h.2.1 h.2.2
    | sleeping c till =>
      simp only [hp] at e h
      cases hl : c.file.lines[c.idx]? with
      | none => simp [hl] at e
      | some l =>
        simp only [hl, Option.ite_none_right_eq_some, Option.some.injEq] at e
        obtain ⟨_, rfl⟩ := e
        have s := stamp_cur c (tsOf l)
        exact stopping_emit h.1 (by rw [s.1]; exact h.2.1) (by rw [s.1]; exact h.2.2)
    | publishing c =>
      simp only [hp, Option.some.injEq] at e h
      subst e
      have := stopping_top (S := S) (k := k) (st := st) (c := { c with idx := c.idx + 1, pub := c.pub + 1 })
        h.1 h.2.1 h.2.2
      exact ⟨k, this.1, by rw [this.2]; exact Nat.le_refl _⟩
    | ending c =>
      simp only [hp, Option.some.injEq] at e h
      subst e
      exact ⟨k, by simp [Stopping, note, h.1], by simp [note, publishedIn_snoc]⟩
    | totalling c =>
      simp only [hp, Option.some.injEq] at e h
      subst e
      exact ⟨k, by simp [Stopping, h.1], Nat.le_refl _⟩
    | dead => simp [hp] at e

theorem taken_top (st : St V) (c : Cur V) : (top st c).taken = st.taken := by
  unfold top proceed finish note
  split
  · split
    · split <;> rfl
    · rfl
  · rfl

theorem taken_emit (st : St V) (c : Cur V) (l : Line V) : (emit st c l).taken = st.taken := by
  cases l <;> simp [emit, taken_top, note]

theorem taken_play (st : St V) (c : Cur V) (l : Line V) : (play st c l).taken = st.taken := by
  have a := anchored_st st c (tsOf l)
  unfold play
  split
  · exact a.2.2.2.2.1
  · rw [taken_emit]; exact a.2.2.2.2.1

theorem taken_step {st st' : St V} {a : Act V} (e : step st a = some st') : st.taken ≤ st'.taken := by
  cases a with
  | go =>
    simp only [step] at e
    unfold go at e
    split at e <;> (try split at e) <;> (try split at e) <;>
      simp only [Option.some.injEq, reduceCtorEq] at e <;> subst e <;>
      simp [taken_top, taken_play, taken_emit, note, proceed, finish] <;> split <;> simp
  | _ => simp only [step, Option.some.injEq] at e; subst e; simp [note]

theorem stopping_run {S : Nat → Bool} {k : Nat} {st st' : St V} {as : List (Act V)} (h : Stopping S st k)
    (ha : (∀ f, .file f ∉ as) ∨ ∀ m, st.taken ≤ m → S m = false)
    (e : run st as = some st') : (publishedIn S st'.log).length ≤ (publishedIn S st.log).length + k := by
  induction as generalizing st k with
  | nil => simp only [run, Option.some.injEq] at e; subst e; omega
  | cons a as ih =>
    simp only [run, Option.bind_eq_some_iff] at e
    obtain ⟨st1, e1, e2⟩ := e
    obtain ⟨k', h1, h2⟩ := stopping_step h (fun f hf => by
      rcases ha with ha | ha
      · exact absurd (by simp [hf]) (ha f)
      · exact ha) e1
    have := ih h1 (by
      rcases ha with ha | ha
      · exact .inl (fun f hf => ha f (by simp [hf]))
      · exact .inr (fun m hm => ha m (by have := taken_step e1; omega))) e2
    omega

/-- The file being played, once its lines are being read. -/
def playing : Phase V → Option Nat
  | .waiting c | .waking c | .reading c | .sleeping c _ | .publishing c => some c.n
  | _ => none

theorem good_taken {st : St V} (g : Good st) {n : Nat} (h : playing st.phase = some n) : n + 1 = st.taken := by
  unfold Good at g
  cases hp : st.phase <;> simp only [hp, playing, Option.some.injEq, reduceCtorEq] at g h
  · subst h; exact g.1.taken.symm
  · subst h; exact g.1.taken.symm
  · subst h; exact g.1.taken.symm
  · subst h; exact g.1.taken.symm
  · subst h; obtain ⟨_, _, g, _⟩ := g; exact g.taken.symm

theorem publishedOf_in (n : Nat) (log : List (Ev V)) : publishedOf n log = publishedIn (· == n) log := by
  unfold publishedOf publishedIn
  congr 1
  funext e
  cases e <;> simp

theorem published_in (log : List (Ev V)) : published log = publishedIn (fun _ => true) log := by
  unfold published publishedIn
  congr 1

/-- **C71** (partial).  When a stop is asked for while the lines of a file are being read, at most one more
message of this file is published, and none unless `replay` is just working on a line.  Missing: a stop which arrives
while the first status of a file is being published is ignored (`Example.C71_stop_ignored`), and after `False` the
file is not started again (`Example.C71_no_restart`). -/
theorem C71_stop_partial {as bs : List (Act V)} {st st' : St V} {n : Nat} {b : Bool}
    (e : run {} as = some st) (hp : playing st.phase = some n)
    (e' : run st (.stop b :: bs) = some st') :
    (publishedOf n st'.log).length ≤ (publishedOf n st.log).length + credit st.phase := by
  have g := good_run good_init e
  have ht := good_taken g hp
  simp only [run, step, Option.bind_some] at e'
  rw [publishedOf_in, publishedOf_in]
  have h1 : ∀ m, st.taken ≤ m → (m == n) = false := fun m hm => by simp; omega
  have h : Stopping (· == n) (note { st with stop := true, queue := (if b then [] else st.queue) } (.asked b))
      (credit st.phase) := by
    refine ⟨.inl h1, ?_⟩
    simp only [note]
    cases hq : st.phase <;> simp only [hq, playing, Option.some.injEq, reduceCtorEq] at hp <;>
      subst hp <;> simp [credit] <;> omega
  have := stopping_run h (.inr h1) e'
  simpa [note, publishedIn_snoc] using this

/-- **C71** (partial).  After `True` at `INPUT_STOP`, unless it arrives while the first status of a file is being published,
at most one more message is published until another file is asked for. -/
theorem C71_stop_all_partial {as bs : List (Act V)} {st st' : St V} (e : run {} as = some st)
    (hp : ∀ c, st.phase ≠ .announcing c) (hf : ∀ f, .file f ∉ bs)
    (e' : run st (.stop true :: bs) = some st') :
    (published st'.log).length ≤ (published st.log).length + credit st.phase := by
  have g := good_run good_init e
  have ht := fun n => good_taken (n := n) g
  simp only [run, step, Option.bind_some] at e'
  rw [published_in, published_in]
  have h : Stopping (fun _ => true)
      (note { st with stop := true, queue := (if true then [] else st.queue) } (.asked true))
      (credit st.phase) := by
    refine ⟨.inr rfl, ?_⟩
    simp only [note]
    cases hq : st.phase <;> simp only [hq, playing, Option.some.injEq, reduceCtorEq, false_implies, implies_true,
      forall_eq', ne_eq, Phase.announcing.injEq, not_true, forall_false] at hp ht ⊢ <;> simp_all [credit] <;> omega
  have := stopping_run h (.inl hf) e'
  simpa [note, publishedIn_snoc] using this

/-! ## Files are cut only if a stop was asked for -/

/-- The `n`-th file was begun. -/
def Begun (n : Nat) (log : List (Ev V)) : Prop := ∃ p1 f p2, log = p1 ++ .taken n f :: p2

/-- A stop was asked for after the `n`-th file was begun. -/
def Asked (n : Nat) (log : List (Ev V)) : Prop := ∃ p1 f p2 b, log = p1 ++ .taken n f :: p2 ∧ .asked b ∈ p2

theorem Begun.append {n : Nat} {log : List (Ev V)} (h : Begun n log) (es : List (Ev V)) :
    Begun n (log ++ es) := by
  obtain ⟨p1, f, p2, rfl⟩ := h
  exact ⟨p1, f, p2 ++ es, by simp⟩

theorem Asked.append {n : Nat} {log : List (Ev V)} (h : Asked n log) (es : List (Ev V)) :
    Asked n (log ++ es) := by
  obtain ⟨p1, f, p2, b, rfl, h⟩ := h
  exact ⟨p1, f, p2 ++ es, b, by simp, by simp [h]⟩

/-- Every file was cut because a stop was asked for. -/
def CutsAsked (log : List (Ev V)) : Prop := ∀ pre n post, log = pre ++ .cut n :: post → Asked n pre

theorem CutsAsked.snoc {log : List (Ev V)} {e : Ev V} (h : CutsAsked log)
    (he : ∀ n, e = .cut n → Asked n log) : CutsAsked (log ++ [e]) := by
  intro pre n post hs
  rcases Spin.split_snoc hs with ⟨m, h1, _⟩ | ⟨m, h1, h2⟩
  · exact h pre n m h1
  · obtain ⟨h3, h4⟩ := Spin.cons_eq_snoc h1
    subst h3
    rw [h2, List.append_nil]
    exact he n h4

/-- The file which was begun and is not over. -/
def current : Phase V → Option Nat
  | .announcing c => some c.n
  | p => playing p

/-- The invariant about stops. -/
structure Stops (st : St V) : Prop where
  cuts : CutsAsked st.log
  begun : ∀ n, current st.phase = some n → Begun n st.log
  asked : ∀ n, playing st.phase = some n → st.stop = true → Asked n st.log

theorem stops_proceed {st : St V} {c : Cur V} (h1 : CutsAsked st.log) (h2 : Begun c.n st.log)
    (h3 : st.stop = true → Asked c.n st.log) : Stops (proceed st c) := by
  unfold proceed
  by_cases hs : st.stop = true
  · rw [if_pos hs]
    refine ⟨?_, by simp [finish, note, current, playing], by simp [finish, note, playing]⟩
    simp only [finish, note]
    refine (h1.snoc (e := .cut c.n) ?_).snoc (by simp)
    intro n hn
    cases hn
    exact h3 hs
  · rw [if_neg hs]
    refine ⟨h1.snoc (by simp), ?_, ?_⟩
    · intro n hn
      simp only [note, current, playing, Option.some.injEq] at hn
      subst hn
      exact h2.append _
    · intro n _ h
      exact absurd h hs

theorem stops_top {st : St V} {c : Cur V} (h1 : CutsAsked st.log) (h2 : Begun c.n st.log)
    (h3 : st.stop = true → Asked c.n st.log) : Stops (top st c) := by
  unfold top
  split
  · split
    · exact stops_proceed h1 h2 h3
    · refine ⟨h1, ?_, ?_⟩
      · intro n hn
        simp only [current, playing, Option.some.injEq] at hn
        subst hn; exact h2
      · intro n hn h
        simp only [playing, Option.some.injEq] at hn
        subst hn; exact h3 h
  · exact ⟨h1.snoc (by simp), by simp [finish, note, current, playing], by simp [finish, note, playing]⟩

theorem stops_emit {st : St V} {c : Cur V} {l : Line V} (h1 : CutsAsked st.log) (h2 : Begun c.n st.log)
    (h3 : st.stop = true → Asked c.n st.log) : Stops (emit st c l) := by
  cases l with
  | msg ts v =>
    refine ⟨h1.snoc (by simp), ?_, ?_⟩
    · intro n hn
      simp only [emit, note, current, playing, Option.some.injEq] at hn
      subst hn; exact h2.append _
    · intro n hn h
      simp only [emit, note, playing, Option.some.injEq] at hn
      subst hn; exact (h3 h).append _
  | _ =>
    simp only [emit]
    exact stops_top h1 h2 h3

theorem stops_play {st : St V} {c : Cur V} {l : Line V} (h1 : CutsAsked st.log) (h2 : Begun c.n st.log)
    (h3 : st.stop = true → Asked c.n st.log) : Stops (play st c l) := by
  have a := anchored_st st c (tsOf l)
  have b := anchored_cur st c (tsOf l)
  have k1 : CutsAsked (anchored st c (tsOf l)).1.log := by
    unfold anchored; split
    · exact h1.snoc (by simp)
    · exact h1
  have k2 : Begun c.n (anchored st c (tsOf l)).1.log := by
    unfold anchored; split
    · exact h2.append _
    · exact h2
  have k3 : (anchored st c (tsOf l)).1.stop = true → Asked c.n (anchored st c (tsOf l)).1.log := by
    unfold anchored; split
    · exact fun h => (h3 h).append _
    · exact h3
  unfold play
  split
  · refine ⟨k1, ?_, ?_⟩
    · intro n hn
      simp only [current, playing, Option.some.injEq, b.1] at hn
      subst hn; exact k2
    · intro n hn h
      simp only [playing, Option.some.injEq, b.1] at hn
      subst hn; exact k3 h
  · have s := stamp_cur (anchored st c (tsOf l)).2 (tsOf l)
    refine stops_emit k1 ?_ ?_
    · rw [s.1, b.1]; exact k2
    · rw [s.1, b.1]; exact k3

theorem stops_step {st st' : St V} {a : Act V} (h : Stops st) (e : step st a = some st') : Stops st' := by
  obtain ⟨h1, h2, h3⟩ := h
  have cp {p : Phase V} {n : Nat} (h : playing p = some n) : current p = some n := by
    cases p <;> simp_all [playing, current]
  cases a with
  | tick d => simp only [step, Option.some.injEq] at e; subst e; exact ⟨h1, h2, h3⟩
  | file f =>
    simp only [step, Option.some.injEq] at e; subst e
    exact ⟨h1.snoc (by simp), fun n hn => (h2 n hn).append _, fun n hn hs => (h3 n hn hs).append _⟩
  | stop b =>
    simp only [step, Option.some.injEq] at e; subst e
    refine ⟨h1.snoc (by simp), fun n hn => (h2 n hn).append _, fun n hn _ => ?_⟩
    obtain ⟨p1, f, p2, hb⟩ := h2 n (cp hn)
    exact ⟨p1, f, p2 ++ [.asked b], b, by simp [note, hb], by simp⟩
  | pause b =>
    simp only [step, Option.some.injEq] at e; subst e
    have hr (p : Phase V) : current (resume p) = current p ∧ playing (resume p) = playing p := by
      cases p <;> simp [resume, current, playing]
    cases b
    · refine ⟨h1.snoc (by simp), fun n hn => ?_, fun n hn hs => ?_⟩
      · simp only [note, Bool.false_eq_true, if_false, (hr _).1] at hn
        exact (h2 n hn).append _
      · simp only [note, Bool.false_eq_true, if_false, (hr _).2] at hn
        exact (h3 n hn hs).append _
    · exact ⟨h1.snoc (by simp), fun n hn => (h2 n hn).append _, fun n hn hs => (h3 n hn hs).append _⟩
  | go =>
    simp only [step] at e
    unfold go at e
    cases hp : st.phase with
    | idle =>
      simp only [hp] at e
      cases hq : st.queue with
      | nil => simp [hq] at e
      | cons f q =>
        simp only [hq, Option.some.injEq] at e
        subst e
        refine ⟨(h1.snoc (by simp)).snoc (by simp), ?_, by simp [note, playing]⟩
        intro n hn
        simp only [note, current, Option.some.injEq] at hn
        subst hn
        exact ⟨st.log, f, [.status st.taken 0 f.lines.length false], by simp [note]⟩
    | announcing c =>
      simp only [hp, Option.some.injEq] at e
      subst e
      exact stops_top (st := { st with phase := .announcing c, stop := false }) h1
        (h2 c.n (by simp [hp, current])) (by simp)
    | waiting c => simp [hp] at e
    | waking c =>
      simp only [hp, Option.some.injEq] at e
      subst e
      exact stops_proceed h1 (h2 c.n (by simp [hp, current, playing])) (h3 c.n (by simp [hp, playing]))
    | reading c =>
      have k2 := h2 c.n (by simp [hp, current, playing])
      have k3 := h3 c.n (by simp [hp, playing])
      simp only [hp] at e
      cases hl : c.file.lines[c.idx]? with
      | none => simp [hl] at e
      | some l =>
        cases l with
        | bad =>
          simp only [hl, Option.some.injEq] at e
          subst e
          exact stops_top h1 k2 k3
        | alien =>
          simp only [hl, Option.some.injEq] at e
          subst e
          exact ⟨h1, by simp [current, playing], by simp [playing]⟩
        | start ts =>
          simp only [hl, Option.some.injEq] at e
          subst e
          exact stops_play h1 k2 k3
        | msg ts v =>
          simp only [hl, Option.some.injEq] at e
          subst e
          exact stops_play h1 k2 k3
    | sleeping c till =>
      have k2 := h2 c.n (by simp [hp, current, playing])
      have k3 := h3 c.n (by simp [hp, playing])
      simp only [hp] at e
      cases hl : c.file.lines[c.idx]? with
      | none => simp [hl] at e
      | some l =>
        simp only [hl, Option.ite_none_right_eq_some, Option.some.injEq] at e
        obtain ⟨_, rfl⟩ := e
        have s := stamp_cur c (tsOf l)
        refine stops_emit h1 ?_ ?_
        · rw [s.1]; exact k2
        · rw [s.1]; exact k3
    | publishing c =>
      have k2 := h2 c.n (by simp [hp, current, playing])
      have k3 := h3 c.n (by simp [hp, playing])
      simp only [hp, Option.some.injEq] at e
      subst e
      exact stops_top h1 k2 k3
    | ending c =>
      simp only [hp, Option.some.injEq] at e
      subst e
      exact ⟨h1.snoc (by simp), by simp [note, current, playing], by simp [note, playing]⟩
    | totalling c =>
      simp only [hp, Option.some.injEq] at e
      subst e
      exact ⟨h1, by simp [current, playing], by simp [playing]⟩
    | dead => simp [hp] at e

theorem stops_run {st st' : St V} {as : List (Act V)} (h : Stops st) (e : run st as = some st') :
    Stops st' := by
  induction as generalizing st with
  | nil => simp only [run, Option.some.injEq] at e; exact e ▸ h
  | cons a as ih =>
    simp only [run, Option.bind_eq_some_iff] at e
    obtain ⟨st1, e1, e2⟩ := e
    exact ih (stops_step h e1) e2

/-- **C71.**  A file is cut short only if a stop was asked for after it had been begun; with `C71_exact`: a
file is played to its end otherwise. -/
theorem C71_cut_asked {as : List (Act V)} {st : St V} (e : run {} as = some st) {n : Nat}
    {pre post : List (Ev V)} (h : st.log = pre ++ .cut n :: post) :
    ∃ p1 f p2 b, pre = p1 ++ .taken n f :: p2 ∧ .asked b ∈ p2 :=
  (stops_run (st := {}) ⟨fun pre n post h => by simp at h, by simp [current, playing], by simp [playing]⟩ e).cuts
    pre n post h

/-! ## Files which are over -/

theorem good_over {st : St V} (g : Good st) {n : Nat}
    (h : n + 1 < (files st.log).length ∨ st.phase = .idle ∧ n < (files st.log).length) : Over n st.log := by
  unfold Good at g
  have mid {c : Cur V} {tl : List (Out V)} (hm : Mid st.log st.taken c tl) (hi : st.phase ≠ .idle) : Over n st.log := by
    refine hm.past.over n ?_
    have h1 := hm.past.len
    have h2 := hm.taken
    rcases h with h | h
    · omega
    · exact absurd h.1 hi
  cases hp : st.phase <;> simp only [hp] at g
  case idle =>
    refine g.over n ?_
    have := g.len
    rcases h with h | h
    · omega
    · omega
  case announcing => exact mid g (by simp [hp])
  case waiting => exact mid g.1 (by simp [hp])
  case waking => exact mid g.1 (by simp [hp])
  case reading => exact mid g.1 (by simp [hp])
  case sleeping => exact mid g.1 (by simp [hp])
  case publishing => obtain ⟨_, _, g, _⟩ := g; exact mid g (by simp [hp])
  case ending => exact mid g.1 (by simp [hp])
  case totalling => exact mid g.1 (by simp [hp])
  case dead => obtain ⟨_, g, _⟩ := g; exact mid g (by simp [hp])

/-- **C71.**  When another file is begun, or `replay` waits for one, all that is to be published about the files before
was published, including the last status and the number of messages. -/
theorem C71_finished {as : List (Act V)} {st : St V} (e : run {} as = some st) {n : Nat} {f : File V}
    (hf : (files st.log)[n]? = some f) (h : n + 1 < (files st.log).length ∨ st.phase = .idle) :
    ∃ k, k ≤ f.lines.length ∧ outs n st.log = played f k ∧ (k = f.lines.length ∨ .cut n ∈ st.log) := by
  obtain ⟨f', k, h1, h2⟩ := good_over (n := n) (good_run good_init e) (h.imp id (fun h => ⟨h, lt_of_some hf⟩))
  rw [hf, Option.some.injEq] at h1
  subst h1
  exact ⟨k, h2⟩

/-! ## The queue -/

/-- The files waiting to be played: those asked for and not yet begun since the last stop with `True`. -/
def pendingFiles (log : List (Ev V)) : List (File V) :=
  log.foldl (fun q e => match e with
    | .queued f => q ++ [f]
    | .asked true => []
    | .taken _ _ => q.tail
    | _ => q) []

/-- Files are begun in the order in which they were asked for. -/
def Fifo (log : List (Ev V)) : Prop :=
  ∀ pre n f post, log = pre ++ .taken n f :: post → (pendingFiles pre).head? = some f

theorem pending_snoc (log : List (Ev V)) (e : Ev V) : pendingFiles (log ++ [e]) = (match e with
    | .queued f => pendingFiles log ++ [f]
    | .asked true => []
    | .taken _ _ => (pendingFiles log).tail
    | _ => pendingFiles log) := by
  unfold pendingFiles
  rw [List.foldl_append]
  rfl

theorem Fifo.snoc {log : List (Ev V)} {e : Ev V} (h : Fifo log)
    (he : ∀ n f, e = .taken n f → (pendingFiles log).head? = some f) : Fifo (log ++ [e]) := by
  intro pre n f post hs
  rcases Spin.split_snoc hs with ⟨m, h1, _⟩ | ⟨m, h1, h2⟩
  · exact h pre n f m h1
  · obtain ⟨h3, h4⟩ := Spin.cons_eq_snoc h1
    subst h3
    rw [h2, List.append_nil]
    exact he n f h4

/-- The queue is as it should be. -/
def Queued (st : St V) : Prop := pendingFiles st.log = st.queue ∧ Fifo st.log

theorem Queued.same {st st' : St V} {e : Ev V} (h : Queued st) (hq : st'.queue = st.queue)
    (hl : st'.log = st.log ++ [e]) (he : ∀ f, e ≠ .queued f) (he' : ∀ b, e ≠ .asked b) (he'' : ∀ n f, e ≠ .taken n f) :
    Queued st' := by
  refine ⟨?_, ?_⟩
  · rw [hl, pending_snoc, hq, ← h.1]
    cases e <;> simp_all
  · rw [hl]
    exact h.2.snoc (fun n f hh => absurd hh (he'' n f))

theorem Queued.of {st st' : St V} (h : Queued st) (hq : st'.queue = st.queue) (hl : st'.log = st.log) : Queued st' := by
  unfold Queued at *
  rwa [hq, hl]

theorem queued_proceed {st : St V} {c : Cur V} (h : Queued st) : Queued (proceed st c) := by
  unfold proceed
  split
  · have h1 : Queued (note { st with stop := false } (.cut c.n)) :=
      h.same (e := .cut c.n) rfl rfl (by simp) (by simp) (by simp)
    exact h1.same (e := .status c.n c.idx c.file.lines.length true) rfl rfl (by simp) (by simp) (by simp)
  · exact h.same (e := .status c.n (c.idx + 1) c.file.lines.length false) rfl rfl (by simp) (by simp) (by simp)

theorem queued_top {st : St V} {c : Cur V} (h : Queued st) : Queued (top st c) := by
  unfold top
  split
  · split
    · exact queued_proceed h
    · exact h.of rfl rfl
  · exact h.same (e := .status c.n c.idx c.file.lines.length true) rfl rfl (by simp) (by simp) (by simp)

theorem queued_emit {st : St V} {c : Cur V} {l : Line V} (h : Queued st) : Queued (emit st c l) := by
  cases l with
  | msg ts v => exact h.same (e := .message c.n v ts st.now) rfl rfl (by simp) (by simp) (by simp)
  | _ => exact queued_top h

theorem queued_play {st : St V} {c : Cur V} {l : Line V} (h : Queued st) : Queued (play st c l) := by
  have h1 : Queued (anchored st c (tsOf l)).1 := by
    unfold anchored
    split
    · exact h.same (e := .anchor c.n _ st.now) rfl rfl (by simp) (by simp) (by simp)
    · exact h
  unfold play
  split
  · exact h1.of rfl rfl
  · exact queued_emit h1

theorem queued_step {st st' : St V} {a : Act V} (h : Queued st) (e : step st a = some st') : Queued st' := by
  cases a with
  | tick d => simp only [step, Option.some.injEq] at e; subst e; exact h.of rfl rfl
  | pause b =>
    simp only [step, Option.some.injEq] at e; subst e
    exact h.same (e := .paused b) rfl rfl (by simp) (by simp) (by simp)
  | file f =>
    simp only [step, Option.some.injEq] at e; subst e
    refine ⟨?_, h.2.snoc (by simp)⟩
    simp only [note, pending_snoc, h.1]
  | stop b =>
    simp only [step, Option.some.injEq] at e; subst e
    refine ⟨?_, h.2.snoc (by simp)⟩
    simp only [note, pending_snoc, h.1]
    cases b <;> simp
  | go =>
    simp only [step] at e
    unfold go at e
    cases hp : st.phase with
    | idle =>
      simp only [hp] at e
      cases hq : st.queue with
      | nil => simp [hq] at e
      | cons f q =>
        simp only [hq, Option.some.injEq] at e
        subst e
        refine ⟨?_, (h.2.snoc ?_).snoc (by simp)⟩
        · simp only [note, pending_snoc, h.1, hq, List.tail_cons]
        · intro n f' hh
          simp only [Ev.taken.injEq] at hh
          rw [h.1, hq, hh.2]; rfl
    | announcing c =>
      simp only [hp, Option.some.injEq] at e
      subst e
      exact queued_top (h.of rfl rfl)
    | waiting c => simp [hp] at e
    | waking c => simp only [hp, Option.some.injEq] at e; subst e; exact queued_proceed h
    | reading c =>
      simp only [hp] at e
      cases hl : c.file.lines[c.idx]? with
      | none => simp [hl] at e
      | some l =>
        cases l with
        | bad => simp only [hl, Option.some.injEq] at e; subst e; exact queued_top h
        | alien => simp only [hl, Option.some.injEq] at e; subst e; exact h.of rfl rfl
        | start ts => simp only [hl, Option.some.injEq] at e; subst e; exact queued_play h
        | msg ts v => simp only [hl, Option.some.injEq] at e; subst e; exact queued_play h
    | sleeping c till =>
      simp only [hp] at e
      cases hl : c.file.lines[c.idx]? with
      | none => simp [hl] at e
      | some l =>
        simp only [hl, Option.ite_none_right_eq_some, Option.some.injEq] at e
        obtain ⟨_, rfl⟩ := e
        exact queued_emit h
    | publishing c => simp only [hp, Option.some.injEq] at e; subst e; exact queued_top h
    | ending c =>
      simp only [hp, Option.some.injEq] at e; subst e
      exact h.same (e := .total c.n c.pub) rfl rfl (by simp) (by simp) (by simp)
    | totalling c => simp only [hp, Option.some.injEq] at e; subst e; exact h.of rfl rfl
    | dead => simp [hp] at e

theorem queued_run {st st' : St V} {as : List (Act V)} (h : Queued st) (e : run st as = some st') : Queued st' := by
  induction as generalizing st with
  | nil => simp only [run, Option.some.injEq] at e; exact e ▸ h
  | cons a as ih =>
    simp only [run, Option.bind_eq_some_iff] at e
    obtain ⟨st1, e1, e2⟩ := e
    exact ih (queued_step h e1) e2

/-- **C71.**  A file which is begun was asked for earliest among those not yet begun and not dropped by a stop with
`True`; a stop with `False` drops none.  When `replay` waits for a file, `st.queue` being empty, none is left. -/
theorem C71_fifo {as : List (Act V)} {st : St V} (e : run {} as = some st) :
    (∀ pre n f post, st.log = pre ++ .taken n f :: post → (pendingFiles pre).head? = some f) ∧
    pendingFiles st.log = st.queue := by
  have := queued_run (st := {}) ⟨rfl, fun pre n f post h => by simp at h⟩ e
  exact ⟨this.2, this.1⟩

/-! ## Going on -/

/-- How many steps are left for the file. -/
def toGo : Phase V → Nat
  | .announcing c => 4 * (c.file.lines.length - c.idx) + 3
  | .waiting c | .waking c => 4 * (c.file.lines.length - c.idx) + 2
  | .reading c => 4 * (c.file.lines.length - c.idx) + 1
  | .sleeping c _ => 4 * (c.file.lines.length - c.idx)
  | .publishing c => 4 * (c.file.lines.length - c.idx) - 1
  | .ending _ => 2
  | .totalling _ => 1
  | .idle | .dead => 0

/-- How many steps are left. -/
def load (st : St V) : Nat := toGo st.phase + (st.queue.map (fun f => 4 * f.lines.length + 4)).sum

theorem load_top {st : St V} {c : Cur V} : load (top st c) + toGo st.phase ≤
    load st + max 2 (4 * (c.file.lines.length - c.idx) + 2) := by
  unfold top proceed finish note load
  split
  · split
    · split <;> simp only [toGo] <;> omega
    · simp only [toGo]; omega
  · simp only [toGo]; omega

theorem load_emit {st : St V} {c : Cur V} {l : Line V} (hl : c.file.lines[c.idx]? = some l) :
    load (emit st c l) + toGo st.phase < load st + 4 * (c.file.lines.length - c.idx) := by
  have hk := lt_of_some hl
  cases l with
  | msg ts v => unfold emit note load; simp only [toGo]; omega
  | _ =>
    simp only [emit]
    have := load_top (st := st) (c := { c with idx := c.idx + 1 })
    simp only at this
    omega

theorem anchored_phase (st : St V) (c : Cur V) (ts : Option Int) : (anchored st c ts).1.phase = st.phase := by
  unfold anchored note; split <;> rfl

theorem load_play {st : St V} {c : Cur V} {l : Line V} (hl : c.file.lines[c.idx]? = some l) :
    load (play st c l) + toGo st.phase < load st + 4 * (c.file.lines.length - c.idx) + 1 := by
  have a := anchored_st st c (tsOf l)
  have b := anchored_cur st c (tsOf l)
  have h1 : load (anchored st c (tsOf l)).1 = load st := by
    unfold load; rw [anchored_phase, a.2.2.2.1]
  unfold play
  split
  · unfold load
    simp only [toGo, b.2.1, b.2.2.1, a.2.2.2.1]
    omega
  · have s := stamp_cur (anchored st c (tsOf l)).2 (tsOf l)
    have := load_emit (st := (anchored st c (tsOf l)).1) (c := stamp (anchored st c (tsOf l)).2 (tsOf l)) (l := l)
      (by rw [s.2.1, s.2.2.1, b.2.1, b.2.2.1]; exact hl)
    rw [h1, anchored_phase, s.2.1, s.2.2.1, b.2.1, b.2.2.1] at this
    omega

theorem load_go {st st' : St V} (g : Good st) (e : go st = some st') : load st' < load st := by
  unfold go at e
  unfold Good at g
  cases hp : st.phase with
  | idle =>
    simp only [hp] at e
    cases hq : st.queue with
    | nil => simp [hq] at e
    | cons f q =>
      simp only [hq, Option.some.injEq] at e
      subst e
      simp only [load, note, toGo, hp, hq, List.map_cons, List.sum_cons]
      omega
  | announcing c =>
    simp only [hp, Option.some.injEq] at e
    subst e
    have := load_top (st := { st with phase := .announcing c, stop := false }) (c := c)
    have h1 : load { st with phase := .announcing c, stop := false } = load st := by simp [load, hp]
    simp only [toGo] at this
    omega
  | waiting c => simp [hp] at e
  | waking c =>
    simp only [hp, Option.some.injEq] at e g
    subst e
    have := g.2
    unfold proceed finish note load
    split <;> simp only [toGo, hp] <;> omega
  | reading c =>
    have hr : toGo st.phase = 4 * (c.file.lines.length - c.idx) + 1 := by rw [hp]; rfl
    simp only [hp] at e g
    cases hl : c.file.lines[c.idx]? with
    | none => simp [hl] at e
    | some l =>
      have hk := lt_of_some hl
      cases l with
      | bad =>
        simp only [hl, Option.some.injEq] at e
        subst e
        have := load_top (st := st) (c := { c with idx := c.idx + 1 })
        simp only at this
        omega
      | alien =>
        simp only [hl, Option.some.injEq] at e
        subst e
        simp only [load, toGo, hp]; omega
      | start ts =>
        simp only [hl, Option.some.injEq] at e
        subst e
        have := load_play (st := st) hl
        omega
      | msg ts v =>
        simp only [hl, Option.some.injEq] at e
        subst e
        have := load_play (st := st) hl
        omega
  | sleeping c till =>
    have hr : toGo st.phase = 4 * (c.file.lines.length - c.idx) := by rw [hp]; rfl
    simp only [hp] at e
    cases hl : c.file.lines[c.idx]? with
    | none => simp [hl] at e
    | some l =>
      simp only [hl, Option.ite_none_right_eq_some, Option.some.injEq] at e
      obtain ⟨_, rfl⟩ := e
      have s := stamp_cur c (tsOf l)
      have := load_emit (st := st) (c := stamp c (tsOf l)) (l := l) (by rw [s.2.1, s.2.2.1]; exact hl)
      rw [s.2.1, s.2.2.1] at this
      omega
  | publishing c =>
    have hr : toGo st.phase = 4 * (c.file.lines.length - c.idx) - 1 := by rw [hp]; rfl
    simp only [hp, Option.some.injEq] at e g
    obtain ⟨ts, v, _, hl⟩ := g
    have hk := lt_of_some hl
    subst e
    have := load_top (st := st) (c := { c with idx := c.idx + 1, pub := c.pub + 1 })
    simp only at this
    omega
  | ending c =>
    simp only [hp, Option.some.injEq] at e
    subst e
    simp [load, note, toGo, hp]
  | totalling c =>
    simp only [hp, Option.some.injEq] at e
    subst e
    simp [load, toGo, hp]
  | dead => simp [hp] at e

/-- Waiting is for being paused, and only a foreign line ends `replay`. -/
def Waits (st : St V) : Prop :=
  (∀ c, st.phase = .waiting c → st.running = false) ∧ (st.phase = .dead → ∃ f ∈ files st.log, .alien ∈ f.lines)

theorem waits_top (st : St V) (c : Cur V) : Waits (top st c) := by
  unfold top proceed finish note Waits
  split
  · split
    · split <;> simp
    · simp_all
  · simp

theorem waits_emit (st : St V) (c : Cur V) (l : Line V) : Waits (emit st c l) := by
  cases l with
  | msg ts v => simp [emit, note, Waits]
  | _ => exact waits_top _ _

theorem waits_step {st st' : St V} {a : Act V} (g : Good st) (h : Waits st) (e : step st a = some st') : Waits st' := by
  cases a with
  | tick d => simp only [step, Option.some.injEq] at e; subst e; exact h
  | file f =>
    simp only [step, Option.some.injEq] at e; subst e
    refine ⟨h.1, fun hd => ?_⟩
    obtain ⟨f', h1, h2⟩ := h.2 hd
    exact ⟨f', by simp only [note, files, List.filterMap_append, List.mem_append]; exact .inl h1, h2⟩
  | stop b =>
    simp only [step, Option.some.injEq] at e; subst e
    refine ⟨h.1, fun hd => ?_⟩
    obtain ⟨f', h1, h2⟩ := h.2 hd
    exact ⟨f', by simp only [note, files, List.filterMap_append, List.mem_append]; exact .inl h1, h2⟩
  | pause b =>
    simp only [step, Option.some.injEq] at e; subst e
    refine ⟨fun c hc => ?_, fun hd => ?_⟩
    · cases b
      · simp only [note, Bool.false_eq_true, if_false] at hc
        cases hp : st.phase <;> simp [hp, resume] at hc
      · rfl
    · have hd' : st.phase = .dead := by
        cases b
        · simp only [note, Bool.false_eq_true, if_false] at hd
          cases hp : st.phase <;> simp [hp, resume] at hd
          rfl
        · exact hd
      obtain ⟨f', h1, h2⟩ := h.2 hd'
      exact ⟨f', by simp only [note, files, List.filterMap_append, List.mem_append]; exact .inl h1, h2⟩
  | go =>
    simp only [step] at e
    unfold go at e
    unfold Good at g
    cases hp : st.phase with
    | idle =>
      simp only [hp] at e
      cases hq : st.queue with
      | nil => simp [hq] at e
      | cons f q => simp only [hq, Option.some.injEq] at e; subst e; simp [Waits, note]
    | announcing c => simp only [hp, Option.some.injEq] at e; subst e; exact waits_top _ _
    | waiting c => simp [hp] at e
    | waking c =>
      simp only [hp, Option.some.injEq] at e; subst e
      unfold proceed finish note Waits
      split <;> simp
    | reading c =>
      simp only [hp] at e g
      cases hl : c.file.lines[c.idx]? with
      | none => simp [hl] at e
      | some l =>
        have hplay : Waits (play st c l) := by
          unfold play
          split
          · simp [Waits]
          · exact waits_emit _ _ _
        cases l with
        | bad => simp only [hl, Option.some.injEq] at e; subst e; exact waits_top _ _
        | alien =>
          simp only [hl, Option.some.injEq] at e; subst e
          exact ⟨by simp, fun _ => ⟨c.file, List.mem_of_getElem? g.1.file, List.mem_of_getElem? hl⟩⟩
        | start ts => simp only [hl, Option.some.injEq] at e; subst e; exact hplay
        | msg ts v => simp only [hl, Option.some.injEq] at e; subst e; exact hplay
    | sleeping c till =>
      simp only [hp] at e
      cases hl : c.file.lines[c.idx]? with
      | none => simp [hl] at e
      | some l =>
        simp only [hl, Option.ite_none_right_eq_some, Option.some.injEq] at e
        obtain ⟨_, rfl⟩ := e
        exact waits_emit _ _ _
    | publishing c => simp only [hp, Option.some.injEq] at e; subst e; exact waits_top _ _
    | ending c => simp only [hp, Option.some.injEq] at e; subst e; simp [Waits, note]
    | totalling c => simp only [hp, Option.some.injEq] at e; subst e; simp [Waits]
    | dead => simp [hp] at e

theorem waits_run {st st' : St V} {as : List (Act V)} (g : Good st) (h : Waits st) (e : run st as = some st') :
    Waits st' := by
  induction as generalizing st with
  | nil => simp only [run, Option.some.injEq] at e; exact e ▸ h
  | cons a as ih =>
    simp only [run, Option.bind_eq_some_iff] at e
    obtain ⟨st1, e1, e2⟩ := e
    exact ih (good_step g e1) (waits_step g h e1) e2

/-- **C71.**  `replay` does not get stuck: it can go on unless it has played all files, is paused, sleeps or met a line
which is not from a recording; and it can go on only a bounded number of times before a new file is asked for. -/
theorem C71_goes_on {as : List (Act V)} {st : St V} (e : run {} as = some st) :
    (go st = none →
      (st.phase = .idle ∧ st.queue = []) ∨ ((∃ c, st.phase = .waiting c) ∧ st.running = false) ∨
      (∃ c till, st.phase = .sleeping c till ∧ st.now < till) ∨
      (st.phase = .dead ∧ ∃ f ∈ files st.log, .alien ∈ f.lines)) ∧
    (∀ st', go st = some st' → load st' < load st) := by
  have g := good_run good_init e
  have w : Waits st := waits_run (st := {}) good_init ⟨by simp, by simp⟩ e
  refine ⟨fun hn => ?_, fun st' h => load_go g h⟩
  unfold go at hn
  unfold Good at g
  cases hp : st.phase with
  | idle =>
    simp only [hp] at hn
    cases hq : st.queue with
    | nil => exact .inl ⟨rfl, rfl⟩
    | cons f q => simp [hq] at hn
  | waiting c => exact .inr (.inl ⟨⟨c, rfl⟩, w.1 c hp⟩)
  | reading c =>
    simp only [hp] at hn g
    rw [List.getElem?_eq_getElem g.2] at hn
    revert hn
    cases c.file.lines[c.idx]'g.2 <;> simp
  | sleeping c till =>
    simp only [hp] at hn g
    obtain ⟨_, l, hl, _⟩ := g
    simp only [hl, ite_eq_right_iff, reduceCtorEq, imp_false] at hn
    exact .inr (.inr (.inl ⟨c, till, rfl, by omega⟩))
  | dead => exact .inr (.inr (.inr ⟨rfl, w.2 hp⟩))
  | announcing c => simp [hp] at hn
  | waking c => simp [hp] at hn
  | publishing c => simp [hp] at hn
  | ending c => simp [hp] at hn
  | totalling c => simp [hp] at hn

/-! ## Times -/

/-- The recorded times in a file. -/
def stamps (ls : List (Line V)) : List Int := ls.filterMap tsOf

/-- The times in a file do not go back. -/
def Sorted (f : File V) : Prop := (stamps f.lines).Pairwise (· ≤ ·)

/-- What holds of all messages of files played in real time: none is early; if `P`, none is late. -/
structure Sched (P : Prop) (log : List (Ev V)) (taken : Nat) : Prop where
  early : ∀ n f v ts t p0 r0, (files log)[n]? = some f → f.rate = .realtime → .message n v (some ts) t ∈ log →
    .anchor n p0 r0 ∈ log → r0 + (ts - p0) ≤ t ∧ (P → Sorted f → t ≤ r0 + (ts - p0))
  head : ∀ n f p0 r0, (files log)[n]? = some f → .anchor n p0 r0 ∈ log → (stamps f.lines).head? = some p0
  fresh : ∀ n, taken ≤ n → (∀ p0 r0, .anchor n p0 r0 ∉ log) ∧ ∀ v ts t, .message n v ts t ∉ log
  known : ∀ n v ts t, .message n v (some ts) t ∈ log → ∃ p0 r0, .anchor n p0 r0 ∈ log
  one : ∀ n p0 r0 p1 r1, .anchor n p0 r0 ∈ log → .anchor n p1 r1 ∈ log → p1 = p0 ∧ r1 = r0

/-- What holds of the file being played. -/
structure Clock (P : Prop) (log : List (Ev V)) (taken : Nat) (c : Cur V) : Prop where
  sched : Sched P log taken
  lt : c.n < taken
  file : (files log)[c.n]? = some c.file
  unset : c.last = none → stamps (c.file.lines.take c.idx) = [] ∧ (∀ p0 r0, .anchor c.n p0 r0 ∉ log) ∧
    ∀ v ts t, .message c.n v (some ts) t ∉ log
  set : ∀ l, c.last = some l → .anchor c.n c.p0 c.r0 ∈ log ∧ ∀ p0 r0, .anchor c.n p0 r0 ∈ log → p0 = c.p0 ∧ r0 = c.r0
  ahead : ∀ l, c.last = some l → Sorted c.file → ∀ t ∈ stamps (c.file.lines.drop c.idx), l ≤ t

/-- The last message was due at time `b`; if `P`, exactly then. -/
def Due (P : Prop) (b : Int) (c : Cur V) : Prop :=
  c.file.rate = .realtime → ∀ l, c.last = some l → c.r0 + (l - c.p0) ≤ b ∧
    (P → Sorted c.file → b ≤ c.r0 + (l - c.p0))

/-- The next line has a time stamp and is not yet over due. -/
def Ahead (now : Int) (c : Cur V) : Prop :=
  ∃ l t, c.file.lines[c.idx]? = some l ∧ tsOf l = some t ∧ now ≤ c.r0 + (t - c.p0)

/-- If `P`, the last or the next message is not over due. -/
def Next (P : Prop) (now : Int) (c : Cur V) : Prop :=
  c.file.rate = .realtime → P → Sorted c.file → ∀ l, c.last = some l → now ≤ c.r0 + (l - c.p0) ∨ Ahead now c

/-- The invariant about times. -/
def Timed (P : Prop) (st : St V) : Prop :=
  match st.phase with
  | .announcing c => Clock P st.log st.taken c ∧ c.last = none
  | .waiting c | .waking c | .reading c =>
    Clock P st.log st.taken c ∧ c.begun ≤ st.now ∧ Due P c.begun c ∧ Next P st.now c
  | .sleeping c till => Clock P st.log st.taken c ∧ ∃ l, c.file.lines[c.idx]? = some l ∧
      (c.last = none → tsOf l = none) ∧
      (c.file.rate = .realtime → ∃ t, tsOf l = some t ∧ c.r0 + (t - c.p0) ≤ till ∧
        (P → Sorted c.file → till ≤ c.r0 + (t - c.p0) ∧ st.now ≤ till))
  | .publishing c => Clock P st.log st.taken { c with idx := c.idx + 1 } ∧ Due P st.now c
  | _ => Sched P st.log st.taken

/-- An event which matters for times. -/
def quiet : Ev V → Prop
  | .taken _ _ => False
  | .anchor _ _ _ => False
  | .message _ _ _ _ => False
  | _ => True

theorem files_quiet (log : List (Ev V)) {e : Ev V} (h : ∀ n f, e ≠ .taken n f) : files (log ++ [e]) = files log := by
  cases e <;> simp_all [files]

theorem quiet_ne {e : Ev V} (h : quiet e) : (∀ n f, e ≠ .taken n f) ∧ (∀ n p r, .anchor n p r ≠ e) ∧
    ∀ n v ts t, .message n v ts t ≠ e := by
  cases e <;> simp_all [quiet]

theorem Sched.quiet {P : Prop} {log : List (Ev V)} {k : Nat} {e : Ev V} (h : Sched P log k) (hq : Replay.quiet e) :
    Sched P (log ++ [e]) k := by
  have ⟨q1, q2, q3⟩ := quiet_ne hq
  have hf := files_quiet log q1
  constructor
  · intro n f v ts t p0 r0 h1 h2 h3 h4
    rw [hf] at h1
    simp only [List.mem_append, List.mem_singleton, q2, q3, or_false] at h3 h4
    exact h.early n f v ts t p0 r0 h1 h2 h3 h4
  · intro n f p0 r0 h1 h2
    rw [hf] at h1
    simp only [List.mem_append, List.mem_singleton, q2, or_false] at h2
    exact h.head n f p0 r0 h1 h2
  · intro n hn
    simp only [List.mem_append, List.mem_singleton, q2, q3, or_false]
    exact h.fresh n hn
  · simp only [List.mem_append, List.mem_singleton, q2, q3, or_false]
    exact h.known
  · simp only [List.mem_append, List.mem_singleton, q2, or_false]
    exact h.one

theorem Clock.quiet {P : Prop} {log : List (Ev V)} {k : Nat} {c : Cur V} {e : Ev V} (h : Clock P log k c)
    (hq : Replay.quiet e) : Clock P (log ++ [e]) k c := by
  have ⟨q1, q2, q3⟩ := quiet_ne hq
  have hf := files_quiet log q1
  refine ⟨h.sched.quiet hq, h.lt, by rw [hf]; exact h.file, ?_, ?_, h.ahead⟩
  · simp only [List.mem_append, List.mem_singleton, q2, q3, or_false]
    exact h.unset
  · simp only [List.mem_append, List.mem_singleton, q2, or_false]
    exact h.set

theorem timed_quiet {P : Prop} {st st' : St V} {e : Ev V} (h : Timed P st) (hq : quiet e) (h1 : st'.phase = st.phase)
    (h2 : st'.log = st.log ++ [e]) (h3 : st'.taken = st.taken) (h4 : st'.now = st.now) : Timed P st' := by
  unfold Timed at h ⊢
  rw [h1, h2, h3, h4]
  cases hp : st.phase <;> simp only [hp] at h ⊢
  case idle => exact h.quiet hq
  case announcing => exact ⟨h.1.quiet hq, h.2⟩
  case waiting => exact ⟨h.1.quiet hq, h.2⟩
  case waking => exact ⟨h.1.quiet hq, h.2⟩
  case reading => exact ⟨h.1.quiet hq, h.2⟩
  case sleeping => exact ⟨h.1.quiet hq, h.2⟩
  case publishing => exact ⟨h.1.quiet hq, h.2⟩
  case ending => exact h.quiet hq
  case totalling => exact h.quiet hq
  case dead => exact h.quiet hq

theorem timed_finish {P : Prop} {st : St V} {c : Cur V} (h : Sched P st.log st.taken) : Timed P (finish st c) :=
  h.quiet trivial

theorem timed_proceed {P : Prop} {st : St V} {c : Cur V} (h : Clock P st.log st.taken c) (hb : c.begun ≤ st.now)
    (hd : Due P c.begun c) (hx : Next P st.now c) : Timed P (proceed st c) := by
  unfold proceed
  split
  · exact timed_finish (st := note { st with stop := false } (.cut c.n)) (h.sched.quiet trivial)
  · exact ⟨h.quiet trivial, hb, hd, hx⟩

theorem Clock.congr {P : Prop} {log : List (Ev V)} {k : Nat} {c c' : Cur V} (h : Clock P log k c) (h1 : c'.n = c.n)
    (h2 : c'.file = c.file) (h3 : c'.idx = c.idx) (h4 : c'.last = c.last) (h5 : c'.p0 = c.p0) (h6 : c'.r0 = c.r0) :
    Clock P log k c' := by
  obtain ⟨a1, a2, a3, a4, a5, a6⟩ := h
  exact ⟨a1, by rw [h1]; exact a2, by rw [h1, h2]; exact a3, by rw [h1, h2, h3, h4]; exact a4,
    by rw [h1, h4, h5, h6]; exact a5, by rw [h2, h3, h4]; exact a6⟩

theorem timed_top {P : Prop} {st : St V} {c : Cur V} (h : Clock P st.log st.taken c) (hd : Due P st.now c) :
    Timed P (top st c) := by
  have hx : Next P st.now c := fun hr hP hs l hl => .inl ((hd hr l hl).2 hP hs)
  unfold top
  split
  · split
    · exact timed_proceed (h.congr rfl rfl rfl rfl rfl rfl) (Int.le_refl _) hd hx
    · exact ⟨h.congr rfl rfl rfl rfl rfl rfl, Int.le_refl _, hd, hx⟩
  · exact timed_finish h.sched

theorem stamps_take_succ {ls : List (Line V)} {i : Nat} {l : Line V} (h : ls[i]? = some l) :
    stamps (ls.take (i + 1)) = stamps (ls.take i) ++ (tsOf l).toList := by
  rw [List.take_add_one, h]
  simp only [stamps, Option.toList_some, List.filterMap_append, List.filterMap_cons, List.filterMap_nil]
  cases tsOf l <;> simp

theorem stamps_drop {ls : List (Line V)} {i : Nat} {l : Line V} (h : ls[i]? = some l) :
    stamps (ls.drop i) = (tsOf l).toList ++ stamps (ls.drop (i + 1)) := by
  have hk := lt_of_some h
  have : ls[i] = l := by rw [List.getElem?_eq_getElem hk] at h; simpa using h
  rw [List.drop_eq_getElem_cons hk, this]
  simp only [stamps, List.filterMap_cons]
  cases tsOf l <;> simp

theorem stamps_split (ls : List (Line V)) (i : Nat) : stamps ls = stamps (ls.take i) ++ stamps (ls.drop i) := by
  simp only [stamps, ← List.filterMap_append, List.take_append_drop]

theorem sorted_after {f : File V} (hs : Sorted f) {i : Nat} {l : Line V} {t : Int} (h : f.lines[i]? = some l)
    (ht : tsOf l = some t) : ∀ t' ∈ stamps (f.lines.drop (i + 1)), t ≤ t' := by
  unfold Sorted at hs
  rw [stamps_split f.lines i, stamps_drop h, ht, List.pairwise_append] at hs
  have := hs.2.1
  simp only [Option.toList_some, List.singleton_append, List.pairwise_cons] at this
  exact this.1

/-- The next line. -/
theorem Clock.next {P : Prop} {log : List (Ev V)} {k : Nat} {c : Cur V} {l : Line V} (h : Clock P log k c)
    (hl : c.file.lines[c.idx]? = some l) (hn : c.last = none → tsOf l = none) :
    Clock P log k { c with idx := c.idx + 1 } := by
  refine ⟨h.sched, h.lt, h.file, ?_, h.set, ?_⟩
  · intro h0
    refine ⟨?_, (h.unset h0).2⟩
    show stamps (c.file.lines.take (c.idx + 1)) = []
    rw [stamps_take_succ hl, (h.unset h0).1, hn h0]; rfl
  · intro x hx hs t ht
    refine h.ahead x hx hs t ?_
    rw [stamps_drop hl]
    exact List.mem_append_right _ ht

theorem stamp_clock (c : Cur V) (ts : Option Int) : (stamp c ts).p0 = c.p0 ∧ (stamp c ts).r0 = c.r0 ∧
    ((stamp c ts).last = none ↔ c.last = none) := by
  unfold stamp; split <;> simp_all

/-- `last_msg_t = ts`, and the next line. -/
theorem Clock.stamp {P : Prop} {log : List (Ev V)} {k : Nat} {c : Cur V} {l : Line V} (h : Clock P log k c)
    (hl : c.file.lines[c.idx]? = some l) (hn : c.last = none → tsOf l = none) :
    Clock P log k { Replay.stamp c (tsOf l) with idx := c.idx + 1 } := by
  have hx := h.next hl hn
  unfold Replay.stamp
  split
  case h_2 => exact hx
  case h_1 _ _ _ a b h1 h2 h3 =>
    refine ⟨hx.sched, hx.lt, hx.file, ?_, ?_, ?_⟩
    · intro h0; simp at h0
    · intro x _
      exact hx.set a h2
    · intro x hx2 hs t ht
      simp only [Option.some.injEq] at hx2
      subst hx2
      exact sorted_after hs hl h3 t ht

theorem timed_emit {P : Prop} {st : St V} {c : Cur V} {l : Line V} (h : Clock P st.log st.taken c)
    (hl : c.file.lines[c.idx]? = some l) (hn : c.last = none → tsOf l = none)
    (hd : Due P st.now (stamp c (tsOf l))) : Timed P (emit st (stamp c (tsOf l)) l) := by
  have hx := h.stamp hl hn
  have s := stamp_cur c (tsOf l)
  have s' := stamp_clock c (tsOf l)
  cases l with
  | msg ts v =>
    unfold emit Timed note
    simp only
    simp only [tsOf] at hn hx hd s s' ⊢
    have hlast : ∀ x, ts = some x → c.file.rate = .realtime → (Replay.stamp c ts).last = some x := by
      intro x hx2 hr
      subst hx2
      cases h0 : c.last with
      | none => simp [hn h0] at hl; simp [h0] at hn
      | some y => simp [Replay.stamp, h0, hr]
    have hf : ∀ a b, files (st.log ++ [Ev.message a v ts b]) = files st.log := by intro a b; simp [files]
    have hS : Sched P (st.log ++ [.message (Replay.stamp c ts).n v ts st.now]) st.taken := by
      constructor
      · intro n f v' ts' t p0 r0 h1 h2 h3 h4
        rw [hf] at h1
        simp only [List.mem_append, List.mem_singleton, reduceCtorEq, or_false, Ev.message.injEq] at h3 h4
        rcases h3 with h3 | ⟨rfl, rfl, h3, rfl⟩
        · exact h.sched.early n f v' ts' t p0 r0 h1 h2 h3 h4
        · rw [s.1] at h1 h4
          rw [h.file, Option.some.injEq] at h1
          subst h1
          have hl2 := hlast ts' h3.symm h2
          have := hd (by rw [s.2.1]; exact h2) ts' hl2
          obtain ⟨y, hy⟩ : ∃ y, c.last = some y := by
            cases h0 : c.last with
            | none => exact absurd (s'.2.2.2 h0) (by simp [hl2])
            | some y => exact ⟨y, rfl⟩
          obtain ⟨rfl, rfl⟩ := (h.set y hy).2 p0 r0 h4
          rw [s'.1, s'.2.1, s.2.1] at this
          exact this
      · intro n f p0 r0 h1 h2
        rw [hf] at h1
        simp only [List.mem_append, List.mem_singleton, reduceCtorEq, or_false] at h2
        exact h.sched.head n f p0 r0 h1 h2
      · intro n hk
        have := h.sched.fresh n hk
        have hne : n ≠ c.n := by have := h.lt; omega
        simp only [List.mem_append, List.mem_singleton, reduceCtorEq, or_false, Ev.message.injEq, s.1]
        refine ⟨this.1, fun v ts t hh => ?_⟩
        rcases hh with hh | hh
        · exact this.2 v ts t hh
        · exact hne hh.1
      · intro n v' ts' t hh
        simp only [List.mem_append, List.mem_singleton, reduceCtorEq, or_false, Ev.message.injEq] at hh ⊢
        rcases hh with hh | ⟨rfl, _, hh, _⟩
        · exact h.sched.known n v' ts' t hh
        · cases h0 : c.last with
          | none => rw [hn h0] at hh; cases hh
          | some y => exact ⟨_, _, by rw [s.1]; exact (h.set y h0).1⟩
      · intro n p0 r0 p1 r1
        simp only [List.mem_append, List.mem_singleton, reduceCtorEq, or_false]
        exact h.sched.one n p0 r0 p1 r1
    refine ⟨⟨hS, hx.lt, by rw [hf]; exact hx.file, ?_, ?_, ?_⟩, hd⟩
    · intro h0
      have h0' : c.last = none := s'.2.2.1 h0
      have := hx.unset h0
      simp only [s.2.2.1, List.mem_append, List.mem_singleton, reduceCtorEq, or_false, Ev.message.injEq, not_or] at this ⊢
      refine ⟨this.1, this.2.1, fun v' ts' t => ⟨this.2.2 v' ts' t, ?_⟩⟩
      rintro ⟨_, _, h3, _⟩
      simp [hn h0'] at h3
    · simp only [List.mem_append, List.mem_singleton, reduceCtorEq, or_false]
      exact hx.set
    · rw [s.2.2.1]; exact hx.ahead
  | start ts =>
    simp only [emit]
    rw [s.2.2.1]
    exact timed_top hx hd
  | bad =>
    simp only [emit]
    rw [s.2.2.1]
    exact timed_top hx hd
  | alien =>
    simp only [emit]
    rw [s.2.2.1]
    exact timed_top hx hd

/-- The clocks are related at the first time stamp. -/
theorem timed_anchored {P : Prop} {st : St V} {c : Cur V} {l : Line V} (h : Clock P st.log st.taken c)
    (hl : c.file.lines[c.idx]? = some l) :
    Clock P (anchored st c (tsOf l)).1.log st.taken (anchored st c (tsOf l)).2 ∧
    ((anchored st c (tsOf l)).2.last = none → tsOf l = none) := by
  unfold anchored
  split
  case h_2 hne =>
    refine ⟨h, fun h0 => ?_⟩
    cases ht : tsOf l with
    | none => rfl
    | some t => exact absurd ht (hne t h0)
  case h_1 _ _ t h1 h2 =>
    have h0 := h.unset h1
    have hf : files (st.log ++ [Ev.anchor c.n t st.now]) = files st.log := by simp [files]
    refine ⟨⟨⟨?_, ?_, ?_, ?_, ?_⟩, h.lt, by simp only [note]; rw [hf]; exact h.file, fun x => by simp at x, ?_, ?_⟩, by simp⟩
    · intro n f v ts t' p0 r0 a1 a2 a3 a4
      simp only [note] at a1 a3 a4
      rw [hf] at a1
      simp only [List.mem_append, List.mem_singleton, reduceCtorEq, or_false, Ev.anchor.injEq] at a3 a4
      rcases a4 with a4 | ⟨rfl, _, _⟩
      · exact h.sched.early n f v ts t' p0 r0 a1 a2 a3 a4
      · exact absurd a3 (h0.2.2 _ _ _)
    · intro n f p0 r0 a1 a2
      simp only [note] at a1 a2
      rw [hf] at a1
      simp only [List.mem_append, List.mem_singleton, reduceCtorEq, or_false, Ev.anchor.injEq] at a2
      rcases a2 with a2 | ⟨rfl, rfl, _⟩
      · exact h.sched.head n f p0 r0 a1 a2
      · rw [h.file, Option.some.injEq] at a1
        subst a1
        rw [stamps_split c.file.lines c.idx, h0.1, stamps_drop hl, h2]
        rfl
    · intro n hk
      have := h.sched.fresh n hk
      have hne : n ≠ c.n := by have := h.lt; omega
      simp only [note, List.mem_append, List.mem_singleton, reduceCtorEq, or_false, Ev.anchor.injEq]
      refine ⟨fun p r hh => ?_, this.2⟩
      rcases hh with hh | hh
      · exact this.1 p r hh
      · exact hne hh.1
    · intro n v ts t' hh
      simp only [note, List.mem_append, List.mem_singleton, reduceCtorEq, or_false] at hh ⊢
      obtain ⟨p, r, hh⟩ := h.sched.known n v ts t' hh
      exact ⟨p, r, .inl hh⟩
    · intro n p0 r0 p1 r1
      simp only [note, List.mem_append, List.mem_singleton, Ev.anchor.injEq]
      rintro (k1 | ⟨rfl, rfl, rfl⟩) (k2 | ⟨k3, rfl, rfl⟩)
      · exact h.sched.one n p0 r0 p1 r1 k1 k2
      · subst k3; exact absurd k1 (h0.2.1 _ _)
      · exact absurd k2 (h0.2.1 _ _)
      · exact ⟨rfl, rfl⟩
    · intro x _
      simp only [note, List.mem_append, List.mem_singleton, Ev.anchor.injEq]
      refine ⟨by simp, fun p r hh => ?_⟩
      rcases hh with hh | hh
      · exact absurd hh (h0.2.1 p r)
      · exact hh.2
    · intro x hx hs t' ht'
      simp only [Option.some.injEq] at hx
      subst hx
      simp only [stamps_drop hl, h2, Option.toList_some, List.singleton_append, List.mem_cons] at ht'
      rcases ht' with rfl | ht'
      · exact Int.le_refl _
      · exact sorted_after hs hl h2 t' ht'

theorem timed_play {P : Prop} {st : St V} {c : Cur V} {l : Line V} (h : Clock P st.log st.taken c)
    (hb : c.begun ≤ st.now) (hd : Due P c.begun c) (hx : Next P st.now c) (hl : c.file.lines[c.idx]? = some l) :
    Timed P (play st c l) := by
  have a := anchored_st st c (tsOf l)
  have b := anchored_cur st c (tsOf l)
  obtain ⟨hc, hn⟩ := timed_anchored h hl
  have d3 : (anchored st c (tsOf l)).2 = c ∨
      ∃ t, tsOf l = some t ∧ (anchored st c (tsOf l)).2.last = some t ∧ (anchored st c (tsOf l)).2.p0 = t ∧
        (anchored st c (tsOf l)).2.r0 = st.now := by
    unfold anchored
    split
    next h1 h2 => exact .inr ⟨_, h2, rfl, rfl, rfl⟩
    next => exact .inl rfl
  unfold play
  generalize anchored st c (tsOf l) = r at *
  obtain ⟨st1, c1⟩ := r
  simp only at *
  obtain ⟨a1, a2, a3, a4, a5, a6, a7⟩ := a
  obtain ⟨b1, b2, b3, b4⟩ := b
  have hl1 : c1.file.lines[c1.idx]? = some l := by rw [b2, b3]; exact hl
  have hx' (hr : c.file.rate = .realtime) (hP : P) (hs : Sorted c.file) (x : Int) (h0 : c.last = some x) :
      st.now ≤ c.r0 + (x - c.p0) ∨ ∃ t, tsOf l = some t ∧ st.now ≤ c.r0 + (t - c.p0) := by
    rcases hx hr hP hs x h0 with h1 | ⟨l', t, h1, h2, h3⟩
    · exact .inl h1
    · rw [hl, Option.some.injEq] at h1
      subst h1
      exact .inr ⟨t, h2, h3⟩
  cases hnap : nap st1 c1 (tsOf l) with
  | some d =>
    simp only
    refine ⟨by rw [a5]; exact hc, l, hl1, hn, fun hr => ?_⟩
    unfold nap at hnap
    simp only [hr] at hnap
    cases hlast : c1.last with
    | none => simp [hlast] at hnap
    | some x =>
      cases ht : tsOf l with
      | none => simp [hlast, ht] at hnap
      | some t =>
        simp only [hlast, ht, Option.ite_none_right_eq_some, Option.some.injEq] at hnap
        obtain ⟨hlag, rfl⟩ := hnap
        rw [a6] at hlag
        rcases d3 with rfl | ⟨t', e1, e2, e3, e4⟩
        · have := hd hr x hlast
          refine ⟨t, rfl, ?_, fun hP hs => ⟨?_, ?_⟩⟩
          · rw [a6]
            omega
          · have := this.2 hP hs
            rw [a6]
            omega
          · show st1.now ≤ _
            rw [a6]
            omega
        · rw [ht, Option.some.injEq] at e1
          omega
  | none =>
    simp only
    refine timed_emit (by rw [a5]; exact hc) hl1 hn ?_
    rw [a6]
    unfold stamp
    split
    case h_2 hne =>
      intro hr x hlast
      rcases d3 with rfl | ⟨t', e1, e2, e3, e4⟩
      · have := hd hr x hlast
        refine ⟨Int.le_trans this.1 hb, fun hP hs => ?_⟩
        rcases hx' hr hP hs x hlast with h1 | ⟨t, h1, _⟩
        · exact h1
        · exact absurd h1 (hne x t hr hlast)
      · rw [e2, Option.some.injEq] at hlast
        omega
    case h_1 _ _ _ x t h1 h2 h3 =>
      intro hr y hy
      simp only [Option.some.injEq] at hy
      subst hy
      simp only
      unfold nap at hnap
      simp only [h1, h2, h3, ite_eq_right_iff, reduceCtorEq, imp_false] at hnap
      rw [a6] at hnap
      refine ⟨by omega, fun hP hs => ?_⟩
      rcases d3 with rfl | ⟨t', e1, e2, e3, e4⟩
      · have := hc.ahead x h2 hs t (by rw [stamps_drop hl1, h3]; simp)
        rcases hx' h1 hP hs x h2 with k | ⟨t2, k, k'⟩
        · omega
        · rw [h3, Option.some.injEq] at k
          omega
      · rw [h3, Option.some.injEq] at e1
        omega

/-- No time is lost: it passes only while `replay` sleeps, without oversleeping; while it is paused or publishes a status before
the next line is due; while a message is published only in a file without times; and before the first time stamp. -/
def PromptAt (st : St V) (a : Act V) : Prop :=
  ∀ d, a = .tick d → match st.phase with
    | .publishing c => c.last = none
    | .sleeping _ till => st.now + d ≤ till
    | .waiting c | .waking c | .reading c => c.last = none ∨ Ahead (st.now + d) c
    | _ => True

theorem timed_step {P : Prop} {st st' : St V} {a : Act V} (g : Good st) (h : Timed P st) (hp : P → PromptAt st a)
    (e : step st a = some st') : Timed P st' := by
  cases a with
  | tick d =>
    simp only [step, Option.some.injEq] at e; subst e
    have hP : P → _ := fun x => hp x d rfl
    unfold Timed at h ⊢
    cases hph : st.phase <;> simp only [hph] at h hP ⊢
    case idle => exact h
    case announcing => exact h
    case waiting c =>
      refine ⟨h.1, by omega, h.2.2.1, fun _ hx _ l hl => ?_⟩
      exact .inr ((hP hx).resolve_left (by simp [hl]))
    case waking c =>
      refine ⟨h.1, by omega, h.2.2.1, fun _ hx _ l hl => ?_⟩
      exact .inr ((hP hx).resolve_left (by simp [hl]))
    case reading c =>
      refine ⟨h.1, by omega, h.2.2.1, fun _ hx _ l hl => ?_⟩
      exact .inr ((hP hx).resolve_left (by simp [hl]))
    case sleeping c till =>
      obtain ⟨h1, l, h2, h3, h4⟩ := h
      refine ⟨h1, l, h2, h3, fun hr => ?_⟩
      obtain ⟨t, h5, h6, h7⟩ := h4 hr
      exact ⟨t, h5, h6, fun x hs => ⟨(h7 x hs).1, hP x⟩⟩
    case publishing c =>
      refine ⟨h.1, fun hr l hl => ⟨by have := (h.2 hr l hl).1; omega, fun x => ?_⟩⟩
      have := hP x
      simp [hl] at this
    case ending => exact h
    case totalling => exact h
    case dead => exact h
  | file f =>
    simp only [step, Option.some.injEq] at e; subst e
    exact timed_quiet h (e := .queued f) trivial rfl rfl rfl rfl
  | stop b =>
    simp only [step, Option.some.injEq] at e; subst e
    exact timed_quiet h (e := .asked b) trivial rfl rfl rfl rfl
  | pause b =>
    simp only [step, Option.some.injEq] at e; subst e
    cases b
    · have h' : Timed P { st with phase := resume st.phase } := by
        unfold Timed at h ⊢
        cases hph : st.phase <;> simp only [hph, resume] at h ⊢ <;> exact h
      exact timed_quiet h' (e := .paused false) trivial rfl rfl rfl rfl
    · exact timed_quiet h (e := .paused true) trivial rfl rfl rfl rfl
  | go =>
    clear hp
    simp only [step] at e
    unfold go at e
    unfold Timed at h
    unfold Good at g
    cases hp : st.phase with
    | idle =>
      simp only [hp] at e h g
      cases hq : st.queue with
      | nil => simp [hq] at e
      | cons f q =>
        simp only [hq, Option.some.injEq] at e
        subst e
        have hf : files (st.log ++ [Ev.taken st.taken f]) = files st.log ++ [f] := by simp [files]
        have hS : Sched P (st.log ++ [.taken st.taken f]) (st.taken + 1) := by
          constructor
          · intro n f' v ts t p0 r0 a1 a2 a3 a4
            simp only [List.mem_append, List.mem_singleton, reduceCtorEq, or_false] at a3 a4
            have hn : n < st.taken := by
              rcases Nat.lt_or_ge n st.taken with x | x
              · exact x
              · exact absurd a4 ((h.fresh n x).1 p0 r0)
            rw [hf, List.getElem?_append_left (by rw [g.len]; exact hn)] at a1
            exact h.early n f' v ts t p0 r0 a1 a2 a3 a4
          · intro n f' p0 r0 a1 a4
            simp only [List.mem_append, List.mem_singleton, reduceCtorEq, or_false] at a4
            have hn : n < st.taken := by
              rcases Nat.lt_or_ge n st.taken with x | x
              · exact x
              · exact absurd a4 ((h.fresh n x).1 p0 r0)
            rw [hf, List.getElem?_append_left (by rw [g.len]; exact hn)] at a1
            exact h.head n f' p0 r0 a1 a4
          · intro n hn
            simp only [List.mem_append, List.mem_singleton, reduceCtorEq, or_false]
            exact h.fresh n (by omega)
          · simp only [List.mem_append, List.mem_singleton, reduceCtorEq, or_false]
            exact h.known
          · simp only [List.mem_append, List.mem_singleton, reduceCtorEq, or_false]
            exact h.one
        have hC : Clock P (st.log ++ [.taken st.taken f]) (st.taken + 1)
            ({ n := st.taken, file := f } : Cur V) := by
          refine ⟨hS, by simp, ?_, fun _ => ?_, by simp, by simp⟩
          · rw [hf, List.getElem?_append_right (by rw [g.len]; exact Nat.le_refl _), g.len]; simp
          · simp only [List.mem_append, List.mem_singleton, reduceCtorEq, or_false]
            refine ⟨by simp [stamps], (h.fresh st.taken (Nat.le_refl _)).1, fun v ts t => (h.fresh st.taken (Nat.le_refl _)).2 v _ t⟩
        exact ⟨hC.quiet trivial, rfl⟩
    | announcing c =>
      simp only [hp, Option.some.injEq] at e h
      subst e
      refine timed_top (st := { st with phase := .announcing c, stop := false }) h.1 ?_
      intro _ l hl
      simp [h.2] at hl
    | waiting c => simp [hp] at e
    | waking c =>
      simp only [hp, Option.some.injEq] at e h
      subst e
      exact timed_proceed h.1 h.2.1 h.2.2.1 h.2.2.2
    | reading c =>
      simp only [hp] at e h
      cases hl : c.file.lines[c.idx]? with
      | none => simp [hl] at e
      | some l =>
        cases l with
        | bad =>
          simp only [hl, Option.some.injEq] at e
          subst e
          refine timed_top (h.1.next hl (by simp [tsOf])) ?_
          intro hr x hx
          have := h.2.2.1 hr x hx
          refine ⟨Int.le_trans this.1 h.2.1, fun hP hs => ?_⟩
          rcases h.2.2.2 hr hP hs x hx with k | ⟨l', t, k1, k2, _⟩
          · exact k
          · rw [hl, Option.some.injEq] at k1
            subst k1
            simp [tsOf] at k2
        | alien =>
          simp only [hl, Option.some.injEq] at e
          subst e
          exact h.1.sched
        | start ts =>
          simp only [hl, Option.some.injEq] at e
          subst e
          exact timed_play h.1 h.2.1 h.2.2.1 h.2.2.2 hl
        | msg ts v =>
          simp only [hl, Option.some.injEq] at e
          subst e
          exact timed_play h.1 h.2.1 h.2.2.1 h.2.2.2 hl
    | sleeping c till =>
      simp only [hp] at e h
      obtain ⟨h1, l, hl, h3, h4⟩ := h
      simp only [hl, Option.ite_none_right_eq_some, Option.some.injEq] at e
      obtain ⟨hw, rfl⟩ := e
      refine timed_emit h1 hl h3 ?_
      intro hr y hy
      have s := stamp_cur c (tsOf l)
      have s' := stamp_clock c (tsOf l)
      rw [s.2.1] at hr
      obtain ⟨t, ht, k1, k2⟩ := h4 hr
      have : y = t := by
        rw [ht] at hy
        cases h0 : c.last with
        | none => simp [h3 h0] at ht
        | some z => simp [stamp, h0, hr] at hy; exact hy.symm
      subst this
      rw [s'.1, s'.2.1, s.2.1]
      exact ⟨by omega, fun hP hs => by have := k2 hP hs; omega⟩
    | publishing c =>
      simp only [hp, Option.some.injEq] at e h
      subst e
      exact timed_top (h.1.congr rfl rfl rfl rfl rfl rfl) h.2
    | ending c =>
      simp only [hp, Option.some.injEq] at e h
      subst e
      exact Sched.quiet h trivial
    | totalling c =>
      simp only [hp, Option.some.injEq] at e h
      subst e
      exact h
    | dead => simp [hp] at e

/-- No time is lost in a run. -/
def Prompt (st : St V) : List (Act V) → Prop
  | [] => True
  | a :: as => PromptAt st a ∧ ∀ st', step st a = some st' → Prompt st' as

theorem timed_run {P : Prop} {st st' : St V} {as : List (Act V)} (g : Good st) (h : Timed P st)
    (hp : P → Prompt st as) (e : run st as = some st') : Timed P st' := by
  induction as generalizing st with
  | nil => simp only [run, Option.some.injEq] at e; exact e ▸ h
  | cons a as ih =>
    simp only [run, Option.bind_eq_some_iff] at e
    obtain ⟨st1, e1, e2⟩ := e
    exact ih (good_step g e1) (timed_step g h (fun x => (hp x).1) e1) (fun x => (hp x).2 st1 e1) e2

theorem timed_sched {P : Prop} {st : St V} (h : Timed P st) : Sched P st.log st.taken := by
  unfold Timed at h
  cases hp : st.phase <;> simp only [hp] at h
  case idle => exact h
  case announcing => exact h.1.sched
  case waiting => exact h.1.sched
  case waking => exact h.1.sched
  case reading => exact h.1.sched
  case sleeping => exact h.1.sched
  case publishing => exact h.1.sched
  case ending => exact h
  case totalling => exact h
  case dead => exact h

/-- **C71.**  A file played in real time: no message is published earlier after the first time stamp was read than it
was recorded after the first time stamp, however pauses, stops and delays happen.  (`C71_clock`: the times `r0` and
`t` are those of the clock when the first time stamp was read and when the message was published.) -/
theorem C71_never_early {as : List (Act V)} {st : St V} (e : run {} as = some st) {n : Nat} {f : File V}
    (hf : (files st.log)[n]? = some f) (hr : f.rate = .realtime) {v : V} {ts t : Int}
    (hm : .message n v (some ts) t ∈ st.log) :
    ∃ p0 r0, .anchor n p0 r0 ∈ st.log ∧ (∀ p1 r1, .anchor n p1 r1 ∈ st.log → p1 = p0 ∧ r1 = r0) ∧
      (stamps f.lines).head? = some p0 ∧ r0 + (ts - p0) ≤ t := by
  have h : Timed False ({} : St V) := ⟨by simp, by simp, by simp, by simp, by simp⟩
  have := timed_sched (timed_run good_init h (by simp) e)
  obtain ⟨p0, r0, ha⟩ := this.known n v ts t hm
  exact ⟨p0, r0, ha, fun p1 r1 => this.one n p0 r0 p1 r1 ha, this.head n f p0 r0 hf ha,
    (this.early n f v ts t p0 r0 hf hr hm ha).1⟩

/-- **C71.**  If the recorded times do not go back and no time is lost, every message is published exactly when it
is due.  Time spent on publishing a status or being paused is not lost if it is over before the next line is due. -/
theorem C71_on_time {as : List (Act V)} {st : St V} (e : run {} as = some st) (hp : Prompt ({} : St V) as)
    {n : Nat} {f : File V} (hf : (files st.log)[n]? = some f) (hr : f.rate = .realtime) (hs : Sorted f) {v : V}
    {ts t p0 r0 : Int} (hm : .message n v (some ts) t ∈ st.log) (ha : .anchor n p0 r0 ∈ st.log) :
    t = r0 + (ts - p0) := by
  have h : Timed True ({} : St V) := ⟨by simp, by simp, by simp, by simp, by simp⟩
  have := timed_sched (timed_run good_init h (fun _ => hp) e)
  have := this.early n f v ts t p0 r0 hf hr hm ha
  have := this.2 trivial hs
  omega

/-- The time of an event. -/
def timeOf : Ev V → Option Int
  | .anchor _ _ r0 => some r0
  | .message _ _ _ t => some t
  | _ => none

/-- The log grows by events which happen now. -/
def Grows (st st' : St V) : Prop := ∃ es, st'.log = st.log ++ es ∧ ∀ x ∈ es, ∀ t, timeOf x = some t → t = st.now

theorem Grows.note {st st' : St V} {e : Ev V} (h : Grows st st') (he : ∀ t, timeOf e = some t → t = st.now) :
    Grows st (Replay.note st' e) := by
  obtain ⟨es, h1, h2⟩ := h
  refine ⟨es ++ [e], by simp [Replay.note, h1], ?_⟩
  intro x hx
  rw [List.mem_append, List.mem_singleton] at hx
  rcases hx with hx | rfl
  · exact h2 x hx
  · exact he

theorem Grows.of_log {st st' st'' : St V} (h : Grows st st') (e : st''.log = st'.log) : Grows st st'' := by
  obtain ⟨es, h1, h2⟩ := h
  exact ⟨es, by rw [e, h1], h2⟩

theorem Grows.refl (st : St V) : Grows st st := ⟨[], by simp, by simp⟩

theorem grows_top {s0 st : St V} (c : Cur V) (h : Grows s0 st) : Grows s0 (top st c) := by
  unfold top proceed finish
  split
  · split
    · split
      · exact ((h.of_log (st'' := { st with stop := false }) rfl).note (e := .cut _) (by simp [timeOf])).of_log
          (st'' := { Replay.note { st with stop := false } (.cut _) with phase := .ending _ }) rfl
          |>.note (by simp [timeOf])
      · exact (h.of_log rfl).note (by simp [timeOf])
    · exact h.of_log rfl
  · exact (h.of_log rfl).note (by simp [timeOf])

theorem grows_emit {s0 st : St V} (c : Cur V) (l : Line V) (h : Grows s0 st) (hn : st.now = s0.now) :
    Grows s0 (emit st c l) := by
  cases l with
  | msg ts v => exact (h.of_log rfl).note (by simp [timeOf, hn])
  | _ => exact grows_top _ h

theorem grows_play {st : St V} (c : Cur V) (l : Line V) : Grows st (play st c l) := by
  have h1 : Grows st (anchored st c (tsOf l)).1 := by
    unfold anchored
    split
    · exact (Grows.refl st).note (by simp [timeOf])
    · exact Grows.refl st
  unfold play
  split
  · exact h1.of_log rfl
  · exact grows_emit _ _ h1 (anchored_st st c (tsOf l)).2.2.2.2.2.1

/-- **C71.**  What a step records is timed by the clock. -/
theorem C71_clock {st st' : St V} {a : Act V} (e : step st a = some st') :
    (∃ es, st'.log = st.log ++ es ∧ ∀ x ∈ es, ∀ t, timeOf x = some t → t = st.now) := by
  show Grows st st'
  cases a with
  | tick d => simp only [step, Option.some.injEq] at e; subst e; exact (Grows.refl st).of_log rfl
  | file f =>
    simp only [step, Option.some.injEq] at e; subst e
    exact ((Grows.refl st).of_log rfl).note (by simp [timeOf])
  | stop b =>
    simp only [step, Option.some.injEq] at e; subst e
    exact ((Grows.refl st).of_log rfl).note (by simp [timeOf])
  | pause b =>
    simp only [step, Option.some.injEq] at e; subst e
    exact ((Grows.refl st).of_log rfl).note (by simp [timeOf])
  | go =>
    simp only [step] at e
    unfold go at e
    cases hp : st.phase with
    | idle =>
      simp only [hp] at e
      cases hq : st.queue with
      | nil => simp [hq] at e
      | cons f q =>
        simp only [hq, Option.some.injEq] at e
        subst e
        exact (((Grows.refl st).of_log rfl).note (by simp [timeOf])).note (by simp [timeOf])
    | announcing c =>
      simp only [hp, Option.some.injEq] at e
      subst e
      exact grows_top c ((Grows.refl st).of_log rfl)
    | waiting c => simp [hp] at e
    | waking c =>
      simp only [hp, Option.some.injEq] at e
      subst e
      unfold proceed finish
      split
      · exact (((Grows.refl st).of_log (st'' := { st with stop := false }) rfl).note (e := .cut _) (by simp [timeOf])).of_log
          (st'' := { Replay.note { st with stop := false } (.cut _) with phase := .ending _ }) rfl
          |>.note (by simp [timeOf])
      · exact ((Grows.refl st).of_log rfl).note (by simp [timeOf])
    | reading c =>
      simp only [hp] at e
      cases hl : c.file.lines[c.idx]? with
      | none => simp [hl] at e
      | some l =>
        cases l with
        | bad => simp only [hl, Option.some.injEq] at e; subst e; exact grows_top _ (Grows.refl st)
        | alien => simp only [hl, Option.some.injEq] at e; subst e; exact (Grows.refl st).of_log rfl
        | start ts => simp only [hl, Option.some.injEq] at e; subst e; exact grows_play c _
        | msg ts v => simp only [hl, Option.some.injEq] at e; subst e; exact grows_play c _
    | sleeping c till =>
      simp only [hp] at e
      cases hl : c.file.lines[c.idx]? with
      | none => simp [hl] at e
      | some l =>
        simp only [hl, Option.ite_none_right_eq_some, Option.some.injEq] at e
        obtain ⟨_, rfl⟩ := e
        exact grows_emit _ _ (Grows.refl st) rfl
    | publishing c => simp only [hp, Option.some.injEq] at e; subst e; exact grows_top _ (Grows.refl st)
    | ending c =>
      simp only [hp, Option.some.injEq] at e; subst e
      exact ((Grows.refl st).of_log rfl).note (by simp [timeOf])
    | totalling c => simp only [hp, Option.some.injEq] at e; subst e; exact (Grows.refl st).of_log rfl
    | dead => simp [hp] at e

/-! ## Playing at a fixed rate -/

/-- Messages are not in the future, and those of a file played at a fixed rate are apart. -/
structure Gaps (log : List (Ev V)) (now : Int) : Prop where
  past : ∀ n v ts t, .message n v ts t ∈ log → t ≤ now
  gap : ∀ pre n v ts t post f (d : Nat), log = pre ++ .message n v ts t :: post → (files log)[n]? = some f →
    f.rate = .every d → ∀ v1 ts1 t1, .message n v1 ts1 t1 ∈ pre → t1 + (d : Int) ≤ t

/-- The invariant about a fixed rate. -/
def Spaced (st : St V) : Prop := Gaps st.log st.now ∧
  ∀ c till, st.phase = .sleeping c till → ∀ d, c.file.rate = .every d → ∀ v ts t, .message c.n v ts t ∈ st.log →
    t + (d : Int) ≤ till

/-- Neither the beginning of a file nor a message. -/
def Mild (e : Ev V) : Prop := (∀ n f, e ≠ .taken n f) ∧ ∀ n v ts t, e ≠ .message n v ts t

theorem Gaps.mild {log es : List (Ev V)} {now : Int} (h : Gaps log now) (he : ∀ e ∈ es, Mild e) :
    Gaps (log ++ es) now := by
  induction es using list_snoc_induction with
  | h0 => simpa using h
  | hs es e ih =>
    have ih := ih (fun x hx => he x (by simp [hx]))
    have hm := he e (by simp)
    rw [← List.append_assoc]
    constructor
    · intro n v ts t hh
      rw [List.mem_append, List.mem_singleton] at hh
      rcases hh with hh | hh
      · exact ih.past n v ts t hh
      · exact absurd hh.symm (hm.2 n v ts t)
    · intro pre n v ts t post f d hs hf hr
      rw [files_quiet _ hm.1] at hf
      rcases Spin.split_snoc hs with ⟨m, h1, _⟩ | ⟨m, h1, h2⟩
      · exact ih.gap pre n v ts t m f d h1 hf hr
      · obtain ⟨_, h4⟩ := Spin.cons_eq_snoc h1
        exact absurd h4 (hm.2 n v ts t)

theorem mild_top (st : St V) (c : Cur V) : (∃ es, (top st c).log = st.log ++ es ∧ ∀ e ∈ es, Mild e) ∧
    (top st c).now = st.now ∧ ∀ c' till, (top st c).phase ≠ .sleeping c' till := by
  unfold top proceed finish note
  split
  · split
    · split
      · exact ⟨⟨_, by simp only [List.append_assoc]; rfl, by simp [Mild]⟩, rfl, by simp⟩
      · exact ⟨⟨_, rfl, by simp [Mild]⟩, rfl, by simp⟩
    · exact ⟨⟨[], by simp, by simp⟩, rfl, by simp⟩
  · exact ⟨⟨_, rfl, by simp [Mild]⟩, rfl, by simp⟩

theorem spaced_top {st : St V} (c : Cur V) (h : Gaps st.log st.now) : Spaced (top st c) := by
  obtain ⟨⟨es, h1, h2⟩, h3, h4⟩ := mild_top st c
  refine ⟨by rw [h1, h3]; exact h.mild h2, fun c' till hp => absurd hp (h4 c' till)⟩

theorem spaced_emit {st : St V} {c : Cur V} {l : Line V} (h : Gaps st.log st.now)
    (hf : (files st.log)[c.n]? = some c.file)
    (hg : ∀ d, c.file.rate = .every d → ∀ v ts t, .message c.n v ts t ∈ st.log → t + (d : Int) ≤ st.now) :
    Spaced (emit st c l) := by
  cases l with
  | msg ts v =>
    refine ⟨⟨?_, ?_⟩, by simp [emit, note]⟩
    · intro n v' ts' t hh
      simp only [emit, note, List.mem_append, List.mem_singleton, Ev.message.injEq] at hh
      rcases hh with hh | ⟨_, _, _, rfl⟩
      · exact h.past n v' ts' t hh
      · exact Int.le_refl _
    · intro pre n v' ts' t post f d hs hf' hr v1 ts1 t1 hm
      simp only [emit, note] at hs hf'
      rw [files_quiet _ (by simp)] at hf'
      rcases Spin.split_snoc hs with ⟨m, h1, _⟩ | ⟨m, h1, h2⟩
      · exact h.gap pre n v' ts' t m f d h1 hf' hr v1 ts1 t1 hm
      · obtain ⟨h3, h4⟩ := Spin.cons_eq_snoc h1
        subst h3
        simp only [Ev.message.injEq] at h4
        obtain ⟨rfl, _, _, rfl⟩ := h4
        rw [h2, List.append_nil] at hm
        rw [hf, Option.some.injEq] at hf'
        subst hf'
        exact hg d hr v1 ts1 t1 hm
  | _ => exact spaced_top _ h

theorem spaced_play {st : St V} {c : Cur V} {l : Line V} (h : Gaps st.log st.now)
    (hf : (files st.log)[c.n]? = some c.file) : Spaced (play st c l) := by
  have a := anchored_st st c (tsOf l)
  have b := anchored_cur st c (tsOf l)
  obtain ⟨es, h1, h2⟩ : ∃ es, (anchored st c (tsOf l)).1.log = st.log ++ es ∧ ∀ e ∈ es, Mild e := by
    unfold anchored
    split
    · exact ⟨_, rfl, by simp [Mild]⟩
    · exact ⟨[], by simp, by simp⟩
  have k1 : Gaps (anchored st c (tsOf l)).1.log (anchored st c (tsOf l)).1.now := by
    rw [h1, a.2.2.2.2.2.1]; exact h.mild h2
  have k2 : (files (anchored st c (tsOf l)).1.log)[c.n]? = some c.file := by
    rw [h1]
    have : files (st.log ++ es) = files st.log := by
      have : files es = [] := by
        unfold files
        rw [List.filterMap_eq_nil_iff]
        intro e he
        have := (h2 e he).1
        cases e <;> simp_all
      have hap : files (st.log ++ es) = files st.log ++ files es := by simp [files]
      rw [hap, this, List.append_nil]
    rw [this]; exact hf
  unfold play
  split
  next d hd =>
    refine ⟨k1, ?_⟩
    intro c' till hp d' hr v ts t hm
    simp only [Phase.sleeping.injEq] at hp
    obtain ⟨rfl, rfl⟩ := hp
    have := k1.past _ _ _ _ hm
    rw [a.2.2.2.2.2.1] at this
    unfold nap at hd
    simp only [hr, Option.some.injEq] at hd
    omega
  next hd =>
    have s := stamp_cur (anchored st c (tsOf l)).2 (tsOf l)
    refine spaced_emit k1 (by rw [s.1, s.2.1, b.1, b.2.1]; exact k2) ?_
    intro d hr
    rw [s.2.1] at hr
    unfold nap at hd
    simp [hr] at hd

theorem message_fresh {log : List (Ev V)} {n : Nat} {v : V} {ts : Option Int} {t : Int}
    (h : .message n v ts t ∈ log) : outs n log ≠ [] := by
  intro h0
  have : Out.message v ∈ outs n log := by
    unfold outs
    rw [List.mem_filterMap]
    exact ⟨_, h, by simp [outOf]⟩
  simp [h0] at this

theorem spaced_step {st st' : St V} {a : Act V} (g : Good st) (h : Spaced st) (e : step st a = some st') :
    Spaced st' := by
  obtain ⟨h1, h2⟩ := h
  cases a with
  | tick d =>
    simp only [step, Option.some.injEq] at e; subst e
    refine ⟨⟨fun n v ts t hm => ?_, h1.gap⟩, h2⟩
    have := h1.past n v ts t hm
    simp only; omega
  | file f =>
    simp only [step, Option.some.injEq] at e; subst e
    refine ⟨h1.mild (es := [.queued f]) (by simp [Mild]), fun c till hp d hr v ts t hm => ?_⟩
    simp only [note, List.mem_append, List.mem_singleton, reduceCtorEq, or_false] at hm
    exact h2 c till hp d hr v ts t hm
  | stop b =>
    simp only [step, Option.some.injEq] at e; subst e
    refine ⟨h1.mild (es := [.asked b]) (by simp [Mild]), fun c till hp d hr v ts t hm => ?_⟩
    simp only [note, List.mem_append, List.mem_singleton, reduceCtorEq, or_false] at hm
    exact h2 c till hp d hr v ts t hm
  | pause b =>
    simp only [step, Option.some.injEq] at e; subst e
    refine ⟨h1.mild (es := [.paused b]) (by simp [Mild]), fun c till hp d hr v ts t hm => ?_⟩
    simp only [note, List.mem_append, List.mem_singleton, reduceCtorEq, or_false] at hm
    refine h2 c till ?_ d hr v ts t hm
    simp only [note] at hp
    cases b <;> simp at hp
    · cases hph : st.phase <;> simp_all [resume]
    · exact hp
  | go =>
    simp only [step] at e
    unfold go at e
    unfold Good at g
    cases hp : st.phase with
    | idle =>
      simp only [hp] at e g
      cases hq : st.queue with
      | nil => simp [hq] at e
      | cons f q =>
        simp only [hq, Option.some.injEq] at e
        subst e
        refine ⟨?_, by simp [note]⟩
        have : Gaps (st.log ++ [.taken st.taken f]) st.now := by
          constructor
          · intro n v ts t hm
            simp only [List.mem_append, List.mem_singleton, reduceCtorEq, or_false] at hm
            exact h1.past n v ts t hm
          · intro pre n v ts t post f' d hs hf hr v1 ts1 t1 hm
            rcases Spin.split_snoc hs with ⟨m, k1, _⟩ | ⟨m, k1, _⟩
            · refine h1.gap pre n v ts t m f' d k1 ?_ hr v1 ts1 t1 hm
              have hn : n < st.taken := by
                rcases Nat.lt_or_ge n st.taken with x | x
                · exact x
                · exact absurd (g.fresh n x) (message_fresh (v := v) (ts := ts) (t := t) (by rw [k1]; simp))
              have hf2 : files (st.log ++ [Ev.taken st.taken f]) = files st.log ++ [f] := by simp [files]
              rwa [hf2, List.getElem?_append_left (by rw [g.len]; exact hn)] at hf
            · obtain ⟨_, k4⟩ := Spin.cons_eq_snoc k1
              cases k4
        exact this.mild (es := [_]) (by simp [Mild])
    | announcing c =>
      simp only [hp, Option.some.injEq] at e
      subst e
      exact spaced_top c h1
    | waiting c => simp [hp] at e
    | waking c =>
      simp only [hp, Option.some.injEq] at e
      subst e
      unfold proceed finish note
      split
      · refine ⟨?_, by simp⟩
        simp only [List.append_assoc]
        exact h1.mild (by simp [Mild])
      · exact ⟨h1.mild (by simp [Mild]), by simp⟩
    | reading c =>
      simp only [hp] at e g
      cases hl : c.file.lines[c.idx]? with
      | none => simp [hl] at e
      | some l =>
        cases l with
        | bad => simp only [hl, Option.some.injEq] at e; subst e; exact spaced_top _ h1
        | alien => simp only [hl, Option.some.injEq] at e; subst e; exact ⟨h1, by simp⟩
        | start ts => simp only [hl, Option.some.injEq] at e; subst e; exact spaced_play h1 g.1.file
        | msg ts v => simp only [hl, Option.some.injEq] at e; subst e; exact spaced_play h1 g.1.file
    | sleeping c till =>
      simp only [hp] at e g
      cases hl : c.file.lines[c.idx]? with
      | none => simp [hl] at e
      | some l =>
        simp only [hl, Option.ite_none_right_eq_some, Option.some.injEq] at e
        obtain ⟨hw, rfl⟩ := e
        have s := stamp_cur c (tsOf l)
        refine spaced_emit h1 (by rw [s.1, s.2.1]; exact g.1.file) ?_
        intro d hr v ts t hm
        rw [s.2.1] at hr
        rw [s.1] at hm
        have := h2 c till hp d hr v ts t hm
        omega
    | publishing c => simp only [hp, Option.some.injEq] at e; subst e; exact spaced_top _ h1
    | ending c =>
      simp only [hp, Option.some.injEq] at e; subst e
      exact ⟨h1.mild (es := [_]) (by simp [Mild]), by simp [note]⟩
    | totalling c => simp only [hp, Option.some.injEq] at e; subst e; exact ⟨h1, by simp⟩
    | dead => simp [hp] at e

theorem spaced_run {st st' : St V} {as : List (Act V)} (g : Good st) (h : Spaced st) (e : run st as = some st') :
    Spaced st' := by
  induction as generalizing st with
  | nil => simp only [run, Option.some.injEq] at e; exact e ▸ h
  | cons a as ih =>
    simp only [run, Option.bind_eq_some_iff] at e
    obtain ⟨st1, e1, e2⟩ := e
    exact ih (good_step g e1) (spaced_step g h e1) e2

/-- **C71.**  The messages of a file played at a fixed rate are at least the given time apart. -/
theorem C71_spacing {as : List (Act V)} {st : St V} (e : run {} as = some st) {n d : Nat} {f : File V}
    (hf : (files st.log)[n]? = some f) (hr : f.rate = .every d) {pre post : List (Ev V)} {v v1 : V}
    {ts ts1 : Option Int} {t t1 : Int} (hs : st.log = pre ++ .message n v ts t :: post)
    (hm : .message n v1 ts1 t1 ∈ pre) : t1 + (d : Int) ≤ t :=
  (spaced_run (st := {}) good_init ⟨⟨by simp, fun pre n v ts t post f d h => by simp at h⟩, by simp⟩ e).1.gap
    pre n v ts t post f d hs hf hr v1 ts1 t1 hm

/-! ## Replaying what was logged -/

/-- The line of a recording, without the time. -/
def logged : Line V → Option (Logger.Line V)
  | .start _ => some .start
  | .msg _ v => some (.msg v)
  | _ => none

/-- The messages among lines of a recording. -/
def logMessages (ls : List (Logger.Line V)) : List V :=
  ls.filterMap (fun l => match l with | .msg v => some v | .start => none)

/-- **C71.**  Recording and replaying: `MessageLogger` recorded into a file (at once, `write_period <= 0`), the file is
then played and nothing else is asked for.  When all is played, exactly the messages were published that arrived while
the file was open (`Logger.wanted`, with `C42_immediate_exact`), in order, at any rate, whatever times were written and
however playing was paused. -/
theorem C71_roundtrip {Q : Type} [DecidableEq Q] {o : Option Q} {h : List (Logger.Act Q V)} {p : Q}
    {c : List (Logger.Line V)} (hw : (Logger.wanted o p h).2 = some c) {f : File V}
    (hc : (Logger.run false o h).disk.get? p = some (f.lines.filterMap logged))
    {as : List (Act V)} {st : St V} (e : run {} as = some st) (hs : ∀ b, .stop b ∉ as)
    (hq : requested st.log = [f]) (hi : st.phase = .idle) (he : st.queue = []) :
    published st.log = logMessages c := by
  have h1 : f.lines.filterMap logged = c := by
    have := (Logger.C42_immediate_exact o h p).2
    rw [hc, hw] at this
    simpa using this
  rw [(C71_all_in_order e hs).2 hi he, hq, ← h1]
  have : ∀ ls : List (Line V), contents ls = logMessages (ls.filterMap logged) := by
    intro ls
    induction ls with
    | nil => rfl
    | cons l ls ih =>
      cases l <;> simp [contents, logMessages, logged] at ih ⊢ <;> exact ih
  simp [allOf, this]


namespace Example

/-- A recording of two messages, played in real time. -/
def tape : File Nat := ⟨"a", .realtime, [.start (some 100), .msg (some 103) 1, .bad, .msg (some 105) 2]⟩

/-- The same at a fixed rate. -/
def slow : File Nat := { tape with rate := .every 4 }

/-- Another file. -/
def other : File Nat := ⟨"b", .asap, [.start none, .msg none 7]⟩

/-- Playing the recording, sleeping as long as needed; publishing a status takes time. -/
def playTape : List (Act Nat) :=
  [.tick 50, .file tape, .go, .go, .go, .tick 1, .go, .tick 2, .go, .go, .go, .go, .tick 2, .go, .go, .go, .go]

/-- What `C71_exact`, `C71_finished`, `C71_fifo`, `C71_clock`, `C71_all_in_order`, `C71_never_early`, `C71_on_time` and `C71_goes_on` are about: the file is
played, every message is published when it is due. -/
example : ∃ st : St Nat, run {} playTape = some st ∧ st.phase = .idle ∧ st.queue = [] ∧ requested st.log = [tape] ∧
    (files st.log)[0]? = some tape ∧ Sorted tape ∧ .cut 0 ∉ st.log ∧ go st = none ∧
    published st.log = [1, 2] ∧ .anchor 0 100 50 ∈ st.log ∧ .message 0 1 (some 103) 53 ∈ st.log ∧
    .message 0 2 (some 105) 55 ∈ st.log ∧
    outs 0 st.log = [.status 0 4 false, .status 1 4 false, .status 2 4 false, .message 1, .status 3 4 false,
      .status 4 4 false, .message 2, .status 4 4 true, .total 2] := by
  refine ⟨_, rfl, rfl, rfl, rfl, rfl, by unfold Sorted; decide, ?_, rfl, rfl, ?_, ?_, ?_, rfl⟩ <;> decide

/-- `C71_on_time`: no time is lost. -/
example : Prompt ({} : St Nat) playTape := by
  have q {st st1 : St Nat} {a : Act Nat} {as : List (Act Nat)} (ha : ∀ d, a ≠ .tick d) (e : step st a = some st1)
      (h : Prompt st1 as) : Prompt st (a :: as) :=
    ⟨fun d hd => absurd hd (ha d), fun st2 e2 => by rw [e, Option.some.injEq] at e2; exact e2 ▸ h⟩
  have t {st st1 : St Nat} {d : Nat} {as : List (Act Nat)} (ha : PromptAt st (.tick d)) (e : step st (.tick d) = some st1)
      (h : Prompt st1 as) : Prompt st (.tick d :: as) :=
    ⟨ha, fun st2 e2 => by rw [e, Option.some.injEq] at e2; exact e2 ▸ h⟩
  refine t (fun d h => trivial) rfl (q (by simp) rfl (q (by simp) rfl (q (by simp) rfl (q (by simp) rfl ?_))))
  refine t (fun d h => ?_) rfl (q (by simp) rfl (t (fun d h => ?_) rfl (q (by simp) rfl (q (by simp) rfl ?_))))
  · cases h; exact .inr ⟨.msg (some 103) 1, 103, rfl, rfl, by decide⟩
  · cases h; show (53 : Int) ≤ _; decide
  refine q (by simp) rfl (q (by simp) rfl (t (fun d h => ?_) rfl (q (by simp) rfl (q (by simp) rfl (q (by simp) rfl
    (q (by simp) rfl trivial))))))
  cases h; show (55 : Int) ≤ _; decide

/-- `C71_never_early`: playing is late after a pause, and catches up. -/
example : ∃ st : St Nat, run {} [.file tape, .go, .pause true, .go, .tick 4, .pause false, .go, .go, .go, .tick 9, .go,
      .go, .go, .go] = some st ∧ .anchor 0 100 4 ∈ st.log ∧ .message 0 1 (some 103) 13 ∈ st.log ∧
      .message 0 2 (some 105) 13 ∈ st.log := by
  refine ⟨_, rfl, ?_, ?_, ?_⟩ <;> decide

/-- `C71_spacing`. -/
example : ∃ st : St Nat, run {} [.file slow, .go, .go, .go, .tick 4, .go, .go, .tick 5, .go, .go, .go, .go, .tick 4, .go]
      = some st ∧ (files st.log)[0]? = some slow ∧
      ∃ pre post, st.log = pre ++ .message 0 2 (some 105) 13 :: post ∧ .message 0 1 (some 103) 9 ∈ pre := by
  refine ⟨_, rfl, rfl, ?_⟩
  refine ⟨[.queued slow, .taken 0 slow, .status 0 0 4 false, .status 0 1 4 false, .anchor 0 100 0, .status 0 2 4 false,
    .message 0 1 (some 103) 9, .status 0 3 4 false, .status 0 4 4 false], [], ?_, ?_⟩ <;> decide

/-- `C71_pause`: while paused at most one more message is published; `replay` waits. -/
example : ∃ st st' : St Nat, run {} [.file tape, .go, .go, .go, .go, .tick 3, .pause true] = some st ∧
    run st [.go, .go, .tick 100] = some st' ∧ published st'.log = published st.log ++ [1] ∧
    (∃ c, st'.phase = .waiting c) := by
  exact ⟨_, _, rfl, rfl, rfl, _, rfl⟩

/-- `C71_cut_asked`, `C71_stop_partial` and `C71_stop_all_partial`: the file is cut, with `true` nothing else is played. -/
example : ∃ st st' : St Nat, run {} [.file tape, .file other, .go, .go, .go, .go] = some st ∧
    run st [.stop true, .tick 3, .go, .go, .go, .go] = some st' ∧ .cut 0 ∈ st'.log ∧ published st.log = [] ∧
    published st'.log = [1] ∧ st'.phase = .idle ∧ st'.queue = [] := by
  refine ⟨_, _, rfl, rfl, ?_, rfl, rfl, rfl, rfl⟩
  decide

/-- A stop asked for while the first status of a file is published is forgotten (:141-142): the whole file is played. -/
theorem C71_stop_ignored : ∃ st st' : St Nat, run {} [.file tape, .go] = some st ∧ (∃ c, st.phase = .announcing c) ∧
    run st [.stop true, .go, .go, .go, .tick 3, .go, .go, .go, .go, .tick 2, .go, .go, .go, .go] = some st' ∧
    published st.log = [] ∧ published st'.log = [1, 2] ∧ .cut 0 ∉ st'.log := by
  refine ⟨_, _, rfl, ⟨_, rfl⟩, rfl, rfl, rfl, ?_⟩
  decide

/-- `INPUT_STOP` with `False` does not "reset to the beginning of the current file" (:86-88): the file is
abandoned, and the next one is played. -/
theorem C71_no_restart : ∃ st st' : St Nat, run {} [.file tape, .file other, .go, .go, .go, .go, .tick 3, .go] = some st ∧
    run st [.stop false, .go, .go, .go, .go, .go, .go, .go, .go, .go, .go] = some st' ∧
    published st.log = [1] ∧ published st'.log = [1, 7] ∧ st'.phase = .idle ∧ st'.queue = [] := by
  exact ⟨_, _, rfl, rfl, rfl, rfl, rfl, rfl⟩

/-- `C71_roundtrip`: two messages are logged while the file is open, and replayed. -/
example : (Logger.wanted (none : Option String) "a" [.message 5, .start "a", .message 1, .message 2, .stop "a", .message 6]).2
      = some [.start, .msg 1, .msg 2] ∧
    (Logger.run false (none : Option String) [.message 5, .start "a", .message 1, .message 2, .stop "a", .message 6]).disk.get? "a"
      = some (tape.lines.filterMap logged) ∧ ∀ b, .stop b ∉ playTape := by
  refine ⟨rfl, rfl, ?_⟩
  simp [playTape]

end Example

end Replay
end Ez
