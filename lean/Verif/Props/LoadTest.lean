import Verif.Model.LoadTest
import Verif.Lemmas.Py

/-!
# C117: what a load test reports
-/
set_option linter.unusedSimpArgs false
set_option linter.unusedSectionVars false

namespace Ez.LoadTest

variable {K : Type} [DecidableEq K]

/-! ## Spec -/

/-- A way along connections to the sink. -/
inductive Path (edges : List (Node × Node)) : Node → List Node → Prop
  | here : Path edges .sink [.sink]
  | step {a b : Node} {p : List Node} : (a, b) ∈ edges → Path edges b p → Path edges a (a :: p)

/-- The numbers of source `k` among messages, in the order received. -/
def numbers (k : K) (xs : List (Sample K × Rat)) : List Nat := (xs.filter (fun x => decide (x.1.key = k))).map (fun x => x.1.counter)

/-- The sum of the numbers in warnings about source `k`. -/
def warned (k : K) (ws : List (K × Int)) : Int := ((ws.filter (fun w => decide (w.1 = k))).map Prod.snd).sum

/-- The numbers missing between the least and the greatest. -/
def missing (lo hi : Nat) (cs : List Nat) : List Nat := (List.range (hi + 1)).filter (fun c => decide (lo ≤ c) && decide (c ∉ cs))

/-! ## The network -/

theorem path_unique {E : List (Node × Node)} (hs : ∀ b, (Node.sink, b) ∉ E)
    (hf : ∀ a b b', (a, b) ∈ E → (a, b') ∈ E → b = b') {a : Node} {p q : List Node} (hp : Path E a p) (hq : Path E a q) : p = q := by
  induction hp generalizing q with
  | here =>
    cases hq with
    | here => rfl
    | step he _ => exact absurd he (hs _)
  | step he _ ih =>
    cases hq with
    | here => exact absurd he (hs _)
    | step he' hp' =>
      have := hf _ _ _ he he'
      subst this
      rw [ih hp']

/-- Every component that publishes messages of its own has exactly one way to the sink; and the number the sink waits for is
that of all their messages. -/
def Sound (c : Config) (msgs : Nat) : Prop :=
  (∀ s ∈ c.sources, ∃ p, Path c.edges s p ∧ ∀ q, Path c.edges s q → q = p) ∧ c.sources.Nodup ∧ c.edges.Nodup ∧ c.expected = msgs * c.sources.length

theorem nodup_map_of_inj {α β : Type} {f : α → β} (hf : ∀ a b, f a = f b → a = b) : ∀ {l : List α}, l.Nodup → (l.map f).Nodup
  | [], _ => by simp
  | a :: l, h => by
    simp only [List.map_cons, List.nodup_cons] at h ⊢
    refine ⟨?_, nodup_map_of_inj hf h.2⟩
    intro hm
    obtain ⟨b, hb, e⟩ := List.mem_map.1 hm
    rw [hf _ _ e] at hb
    exact h.1 hb

theorem fanin_sound (n msgs : Nat) : Sound (fanin n msgs) msgs := by
  have hE : ∀ a b, (a, b) ∈ (fanin n msgs).edges ↔ b = .sink ∧ (a = .source ∨ ∃ i, i < n ∧ a = .client i) := by
    intro a b
    simp [fanin]
    constructor
    · rintro (⟨rfl, rfl⟩ | ⟨i, hi, rfl, rfl⟩)
      · simp
      · exact ⟨rfl, Or.inr ⟨i, hi, rfl⟩⟩
    · rintro ⟨rfl, rfl | ⟨i, hi, rfl⟩⟩
      · simp
      · exact Or.inr ⟨i, hi, rfl, rfl⟩
  refine ⟨fun s hs => ⟨[s, .sink], ?_, fun q hq => ?_⟩, ?_, ?_, ?_⟩
  · refine .step ((hE s .sink).2 ⟨rfl, ?_⟩) .here
    simp [fanin] at hs
    rcases hs with rfl | ⟨i, hi, rfl⟩
    · exact Or.inl rfl
    · exact Or.inr ⟨i, hi, rfl⟩
  · refine path_unique (fun b hb => ?_) (fun a b b' h h' => ?_) hq (.step ((hE s .sink).2 ⟨rfl, ?_⟩) .here)
    · rw [hE] at hb; rcases hb.2 with h | ⟨i, _, h⟩ <;> cases h
    · rw [hE] at h h'; rw [h.1, h'.1]
    · simp [fanin] at hs
      rcases hs with rfl | ⟨i, hi, rfl⟩
      · exact Or.inl rfl
      · exact Or.inr ⟨i, hi, rfl⟩
  · simp only [fanin, List.nodup_cons]
    exact ⟨by simp, nodup_map_of_inj (fun a b h => by injection h) List.nodup_range⟩
  · simp only [fanin, List.nodup_cons]
    exact ⟨by simp, nodup_map_of_inj (fun a b h => by simpa using h) List.nodup_range⟩
  · simp [fanin, Nat.add_comm]

theorem fanout_sound (n msgs : Nat) : Sound (fanout n msgs) msgs := by
  have hE : ∀ a b, (a, b) ∈ (fanout n msgs).edges ↔ a = .source ∧ (b = .sink ∨ ∃ i, i < n ∧ b = .client i) := by
    intro a b
    simp [fanout]
    constructor
    · rintro (⟨rfl, rfl⟩ | ⟨i, hi, rfl, rfl⟩)
      · simp
      · exact ⟨rfl, Or.inr ⟨i, hi, rfl⟩⟩
    · rintro ⟨rfl, rfl | ⟨i, hi, rfl⟩⟩
      · simp
      · exact Or.inr ⟨i, hi, rfl, rfl⟩
  refine ⟨fun s hs => ⟨[s, .sink], ?_, fun q hq => ?_⟩, ?_, ?_, ?_⟩
  · simp [fanout] at hs; subst hs
    exact .step ((hE _ _).2 ⟨rfl, Or.inl rfl⟩) .here
  · simp [fanout] at hs; subst hs
    cases hq with
    | step he hp =>
      rcases ((hE _ _).1 he).2 with rfl | ⟨i, _, rfl⟩
      · cases hp with
        | here => rfl
        | step he' _ => cases ((hE _ _).1 he').1
      · cases hp with
        | step he' _ => cases ((hE _ _).1 he').1
  · simp [fanout]
  · simp only [fanout, List.nodup_cons]
    exact ⟨by simp, nodup_map_of_inj (fun a b h => by simpa using h) List.nodup_range⟩
  · simp [fanout]

theorem relay_sound (n msgs : Nat) : Sound (relay n msgs) msgs := by
  have hE : ∀ a b, (a, b) ∈ (relay n msgs).edges ↔ (a = .source ∧ b = (if n = 0 then .sink else .client 0)) ∨
      ∃ i, i < n ∧ a = .client i ∧ b = (if i + 1 = n then .sink else .client (i + 1)) := by
    intro a b
    simp only [relay]
    by_cases h0 : n = 0
    · subst h0; simp
    · simp [h0]
      constructor
      · rintro (h | ⟨i, hi, rfl, rfl⟩ | ⟨rfl, rfl⟩)
        · exact Or.inl h
        · exact Or.inr ⟨i, by omega, rfl, by rw [if_neg (by omega)]⟩
        · exact Or.inr ⟨n - 1, by omega, rfl, by rw [if_pos (by omega)]⟩
      · rintro (h | ⟨i, hi, rfl, rfl⟩)
        · exact Or.inl h
        · by_cases h1 : i + 1 = n
          · rw [if_pos h1]; exact Or.inr (Or.inr ⟨by rw [← h1]; rfl, rfl⟩)
          · rw [if_neg h1]; exact Or.inr (Or.inl ⟨i, by omega, rfl, rfl⟩)
  have hs : ∀ b, (Node.sink, b) ∉ (relay n msgs).edges := by
    intro b hb; rw [hE] at hb; rcases hb with ⟨h, _⟩ | ⟨i, _, h, _⟩ <;> cases h
  have hf : ∀ a b b', (a, b) ∈ (relay n msgs).edges → (a, b') ∈ (relay n msgs).edges → b = b' := by
    intro a b b' h h'
    rw [hE] at h h'
    rcases h with ⟨rfl, rfl⟩ | ⟨i, _, rfl, rfl⟩ <;> rcases h' with ⟨h1, rfl⟩ | ⟨j, _, h1, rfl⟩
    · rfl
    · cases h1
    · cases h1
    · injection h1 with h1; subst h1; rfl
  have hC : ∀ k i, i + k + 1 = n → ∃ p, Path (relay n msgs).edges (.client i) p := by
    intro k
    induction k with
    | zero => intro i hi; exact ⟨_, .step ((hE _ .sink).2 (Or.inr ⟨i, by omega, rfl, by rw [if_pos (by omega)]⟩)) .here⟩
    | succ k ih =>
      intro i hi
      obtain ⟨p, hp⟩ := ih (i + 1) (by omega)
      exact ⟨_, .step ((hE _ (.client (i + 1))).2 (Or.inr ⟨i, by omega, rfl, by rw [if_neg (by omega)]⟩)) hp⟩
  have hP : ∃ p, Path (relay n msgs).edges .source p := by
    by_cases h0 : n = 0
    · exact ⟨_, .step ((hE _ .sink).2 (Or.inl ⟨rfl, by rw [if_pos h0]⟩)) .here⟩
    · obtain ⟨p, hp⟩ := hC (n - 1) 0 (by omega)
      exact ⟨_, .step ((hE _ (.client 0)).2 (Or.inl ⟨rfl, by rw [if_neg h0]⟩)) hp⟩
  obtain ⟨p, hp⟩ := hP
  refine ⟨fun s hs' => ?_, ?_, ?_, ?_⟩
  · simp [relay] at hs'; subst hs'
    exact ⟨p, hp, fun q hq => path_unique hs hf hq hp⟩
  · simp [relay]
  · simp only [relay]
    split
    · simp
    · rw [List.nodup_cons, List.nodup_append]
      refine ⟨by simp, nodup_map_of_inj (fun a b h => by simpa using h) List.nodup_range, by simp, ?_⟩
      intro x hx y hy
      simp at hx hy
      obtain ⟨i, _, rfl⟩ := hx
      subst hy
      simp
  · simp [relay]

/-- **C117.**  In each of the three configurations, with any number of clients, every source has exactly one way to the sink,
and the number of messages the sink waits for is that of all sources together. -/
theorem C117_network (n msgs : Nat) : Sound (fanin n msgs) msgs ∧ Sound (fanout n msgs) msgs ∧ Sound (relay n msgs) msgs :=
  ⟨fanin_sound n msgs, fanout_sound n msgs, relay_sound n msgs⟩

/-! ## The sink -/

theorem sinkAll_spec (e : Nat) : ∀ (xs : List (Sample K × Rat)) (st : RSt K), st.data.length < e →
    (sinkAll e st xs).1.data = st.data ++ (xs.take (e - st.data.length)).map (fun x => (x.1.sent, x.2, x.1.counter)) ∧
      (sinkAll e st xs).2.1 = xs.drop (e - st.data.length) ∧ ((sinkAll e st xs).2.2 = true ↔ e ≤ st.data.length + xs.length)
  | [], st, h => by simp [sinkAll]; omega
  | (s, now) :: xs, st, h => by
    simp only [sinkAll]
    have hl : (receive st s now).1.data = st.data ++ [(s.sent, now, s.counter)] := rfl
    split
    · rename_i he
      rw [hl] at he; simp at he
      have : e - st.data.length = 1 := by omega
      rw [this, hl]
      simp; omega
    · rename_i he
      rw [hl] at he; simp at he
      obtain ⟨h1, h2, h3⟩ := sinkAll_spec e xs (receive st s now).1 (by rw [hl]; simp; omega)
      rw [hl] at h1 h2 h3
      have : e - st.data.length = (e - (st.data ++ [(s.sent, now, s.counter)]).length) + 1 := by simp; omega
      rw [this, h1, h2, h3]
      simp; omega

/-- **C117.**  The sink ends the test with the last of the messages it waits for, not before, and has recorded all of them,
each with the time it was sent, the time it was received, and its number. -/
theorem C117_ends (e : Nat) (he : 0 < e) (xs : List (Sample K × Rat)) :
    (sinkAll e RSt.init xs).1.data = (xs.take e).map (fun x => (x.1.sent, x.2, x.1.counter)) ∧
      (sinkAll e RSt.init xs).2.1 = xs.drop e ∧ ((sinkAll e RSt.init xs).2.2 = true ↔ e ≤ xs.length) := by
  have := sinkAll_spec e xs RSt.init (by simpa [RSt.init] using he)
  simpa [RSt.init] using this

/-! ## Warnings -/

theorem warned_cons (k : K) (w : K × Int) (ws : List (K × Int)) : warned k (w :: ws) = (if w.1 = k then w.2 else 0) + warned k ws := by
  unfold warned
  by_cases h : w.1 = k
  · rw [List.filter_cons_of_pos (by simpa using h)]; simp [h]
  · rw [List.filter_cons_of_neg (by simpa using h)]; simp [h]

theorem warnings_spec (k : K) : ∀ (xs : List (Sample K × Rat)) (st : RSt K),
    warned k (receiveAll st xs).2 + (numbers k xs).length = ((receiveAll st xs).1.counters.get? k).getD (-1) - (st.counters.get? k).getD (-1) ∧
      ((receiveAll st xs).1.counters.get? k) = (match (numbers k xs).getLast? with | some c => some (c : Int) | none => st.counters.get? k)
  | [], st => by simp [receiveAll, warned, numbers]
  | (s, now) :: xs, st => by
    obtain ⟨h1, h2⟩ := warnings_spec k xs (receive st s now).1
    have hc : (receive st s now).1.counters.get? k = if s.key = k then some (s.counter : Int) else st.counters.get? k := by
      simp only [receive]; rw [PyDict.get?_set]; simp [eq_comm]
    rw [hc] at h1 h2
    have hw : warned k (receiveAll st ((s, now) :: xs)).2 =
        (if s.key = k then (s.counter : Int) - (st.counters.get? k).getD (-1) - 1 else 0) + warned k (receiveAll (receive st s now).1 xs).2 := by
      simp only [receiveAll]
      by_cases hz : (s.counter : Int) ≠ (st.counters.get? s.key).getD (-1) + 1
      · simp only [receive, if_pos hz, List.cons_append, List.nil_append, warned_cons]
        by_cases hk : s.key = k
        · subst hk; simp
        · simp [hk]
      · simp only [receive, if_neg hz, List.nil_append]
        by_cases hk : s.key = k
        · subst hk; simp at hz ⊢; omega
        · simp [hk]
    have h3 : (receiveAll st ((s, now) :: xs)).1 = (receiveAll (receive st s now).1 xs).1 := rfl
    rw [hw, h3]
    by_cases hk : s.key = k
    · have hn : numbers k ((s, now) :: xs) = s.counter :: numbers k xs := by simp [numbers, hk]
      rw [hn]
      simp only [hk, if_true] at h1 h2 ⊢
      constructor
      · simp only [Option.getD_some] at h1; simp only [List.length_cons]; omega
      · rw [h2]
        cases hl : numbers k xs with
        | nil => simp
        | cons a l =>
          rw [List.getLast?_cons_cons]
          cases hx : (a :: l).getLast? with
          | none => simp at hx
          | some c => rfl
    · have hn : numbers k ((s, now) :: xs) = numbers k xs := by simp [numbers, hk]
      rw [hn]
      simp only [hk, if_false] at h1 h2 ⊢
      exact ⟨by omega, h2⟩

/-- **C117.**  The warnings of a receiver tell, for every source, how many of its messages are missing up to the last received:
their numbers, with the number of messages received, add up to the last number plus one (the first is zero). -/
theorem C117_warnings (k : K) (xs : List (Sample K × Rat)) {c : Nat} (hc : (numbers k xs).getLast? = some c) :
    warned k (receiveAll RSt.init xs).2 + (numbers k xs).length = c + 1 := by
  obtain ⟨h1, h2⟩ := warnings_spec k xs RSt.init
  rw [h2, hc] at h1
  simp [RSt.init] at h1
  simp [PyDict.get?] at h1
  exact h1

/-! ## Messages dropped -/

theorem insert_perm {α : Type} (le : α → α → Bool) (a : α) : ∀ l : List α, (insert le a l).Perm (a :: l)
  | [] => .refl _
  | b :: l => by
    unfold insert
    split
    · exact .refl _
    · exact ((insert_perm le a l).cons b).trans (.swap a b l)

theorem isort_perm {α : Type} (le : α → α → Bool) : ∀ l : List α, (isort le l).Perm l
  | [] => .refl _
  | a :: l => (insert_perm le a _).trans ((isort_perm le l).cons a)

theorem insert_pairwise {α : Type} {le : α → α → Bool} (ht : ∀ a b c, le a b = true → le b c = true → le a c = true)
    (hT : ∀ a b, le a b = true ∨ le b a = true) (a : α) : ∀ {l : List α}, l.Pairwise (fun x y => le x y = true) → (insert le a l).Pairwise (fun x y => le x y = true)
  | [], _ => by simp [insert]
  | b :: l, h => by
    rw [List.pairwise_cons] at h
    unfold insert
    split
    · rename_i hab
      rw [List.pairwise_cons, List.pairwise_cons]
      refine ⟨fun x hx => ?_, h⟩
      rcases List.mem_cons.1 hx with rfl | hx
      · exact hab
      · exact ht _ _ _ hab (h.1 x hx)
    · rename_i hab
      rw [List.pairwise_cons]
      refine ⟨fun x hx => ?_, insert_pairwise ht hT a h.2⟩
      rcases List.mem_cons.1 ((insert_perm le a l).mem_iff.1 hx) with rfl | hx
      · exact (hT x b).resolve_left hab
      · exact h.1 x hx

theorem isort_pairwise {α : Type} {le : α → α → Bool} (ht : ∀ a b c, le a b = true → le b c = true → le a c = true)
    (hT : ∀ a b, le a b = true ∨ le b a = true) : ∀ l : List α, (isort le l).Pairwise (fun x y => le x y = true)
  | [] => List.Pairwise.nil
  | a :: l => insert_pairwise ht hT a (isort_pairwise ht hT l)

theorem gaps_spec : ∀ {l : List Nat} {a b : Nat}, l.Pairwise (· < ·) → l.head? = some a → l.getLast? = some b → gaps l + l.length = b - a + 1 ∧ a ≤ b
  | [], _, _, _, h, _ => by cases h
  | [x], a, b, _, h, h' => by simp at h h'; subst h; subst h'; simp [gaps]
  | x :: y :: l, a, b, hp, h, h' => by
    simp at h; subst h
    have hp' := hp
    rw [List.pairwise_cons] at hp
    have hxy := hp.1 y (by simp)
    rw [List.getLast?_cons_cons] at h'
    obtain ⟨h1, h2⟩ := gaps_spec hp.2 (a := y) (by simp) h'
    simp only [gaps, List.length_cons] at h1 ⊢
    omega

theorem range_ge_length (lo : Nat) : ∀ n, ((List.range n).filter (fun c => decide (lo ≤ c))).length = n - lo
  | 0 => by simp
  | n + 1 => by
    rw [List.range_succ, List.filter_append, List.length_append, range_ge_length lo n]
    by_cases h : lo ≤ n
    · simp [h]; omega
    · simp [h]; omega

theorem filter_split {α : Type} (p q : α → Bool) : ∀ l : List α,
    (l.filter p).length = (l.filter (fun c => p c && q c)).length + (l.filter (fun c => p c && !q c)).length
  | [] => by simp
  | a :: l => by
    have := filter_split p q l
    simp only [List.filter_cons]
    cases p a <;> cases q a <;> simp <;> omega

theorem missing_length {cs : List Nat} (hn : cs.Nodup) {lo hi : Nat} (hb : ∀ c ∈ cs, lo ≤ c ∧ c ≤ hi) : (missing lo hi cs).length + cs.length = hi + 1 - lo := by
  have h1 := filter_split (fun c => decide (lo ≤ c)) (fun c => decide (c ∈ cs)) (List.range (hi + 1))
  rw [range_ge_length] at h1
  have h2 : ((List.range (hi + 1)).filter (fun c => decide (lo ≤ c) && decide (c ∈ cs))).Perm cs := by
    rw [List.perm_ext_iff_of_nodup (List.Pairwise.sublist List.filter_sublist List.nodup_range) hn]
    intro c
    simp
    constructor
    · exact fun h => h.2.2
    · intro h; have := hb c h; exact ⟨by omega, this.1, h⟩
  rw [h2.length_eq] at h1
  have h3 : missing lo hi cs = (List.range (hi + 1)).filter (fun c => decide (lo ≤ c) && !decide (c ∈ cs)) := by
    unfold missing; congr 1; funext c; simp
  rw [h3]; omega

/-- **C117, as far as it goes.**  If all messages are of one source, so that no number comes twice, the number of messages
dropped which is logged is that of the numbers missing between the first and the last. -/
theorem C117_dropped_partial {cs : List Nat} (hn : cs.Nodup) {lo hi : Nat} (hlo : lo ∈ cs) (hhi : hi ∈ cs)
    (hb : ∀ c ∈ cs, lo ≤ c ∧ c ≤ hi) : dropped cs = (missing lo hi cs).length := by
  have hm := missing_length hn hb
  have hperm := isort_perm (fun a b => decide (a ≤ b)) cs
  have hle : (isort (fun a b => decide (a ≤ b)) cs).Pairwise (fun a b => decide (a ≤ b) = true) :=
    isort_pairwise (fun a b c h1 h2 => by simp at *; omega) (fun a b => by simp; omega) cs
  unfold dropped
  generalize hs : isort (fun a b => decide (a ≤ b)) cs = s at hperm hle
  have hlt : s.Pairwise (· < ·) := by
    have hnd : s.Nodup := hperm.nodup_iff.2 hn
    exact (List.Pairwise.and hle hnd).imp (fun h => by obtain ⟨h1, h2⟩ := h; simp at h1; omega)
  have hlos := hperm.mem_iff.2 hlo
  have hhis := hperm.mem_iff.2 hhi
  cases hss : s with
  | nil => rw [hss] at hlos; cases hlos
  | cons a t =>
    rw [← hss]
    have ha : s.head? = some a := by rw [hss]; rfl
    obtain ⟨b, hbL⟩ : ∃ b, s.getLast? = some b := by
      cases hx : s.getLast? with
      | none => rw [hss] at hx; simp at hx
      | some b => exact ⟨b, rfl⟩
    obtain ⟨h1, h2⟩ := gaps_spec hlt ha hbL
    have hlen := hperm.length_eq
    have hae : a = lo := by
      have h3 := (hb a (hperm.mem_iff.1 (by rw [hss]; simp))).1
      rw [hss] at hlos hlt
      rcases List.mem_cons.1 hlos with h | h
      · exact h.symm
      · have := (List.pairwise_cons.1 hlt).1 _ h; omega
    have hbe : b = hi := by
      have h3 := (hb b (hperm.mem_iff.1 (List.mem_of_getLast? hbL))).2
      obtain ⟨l', hl'⟩ := List.getLast?_eq_some_iff.1 hbL
      rw [hl'] at hhis hlt
      rcases List.mem_append.1 hhis with h | h
      · have := (List.pairwise_append.1 hlt).2.2 _ h b (by simp); omega
      · simp at h; exact h.symm
    have := (hb hi hhi).1
    omega

/-! ## The results -/

theorem le_div_of {a s n : Rat} (h : 0 < n) (hs : n * a ≤ s) : a ≤ s / n := by
  have := Rat.div_mul_cancel (a := s) (b := n) (by grind)
  apply Classical.byContradiction; intro hc
  have h1 : s / n < a := by grind
  have h2 := Rat.mul_lt_mul_of_pos_right h1 h
  grind

theorem div_le_of {a s n : Rat} (h : 0 < n) (hs : s ≤ n * a) : s / n ≤ a := by
  have := Rat.div_mul_cancel (a := s) (b := n) (by grind)
  apply Classical.byContradiction; intro hc
  have h1 : a < s / n := by grind
  have h2 := Rat.mul_lt_mul_of_pos_right h1 h
  grind

theorem sum_bounds {a b : Rat} : ∀ {l : List Rat}, (∀ x ∈ l, a ≤ x ∧ x ≤ b) → (l.length : Rat) * a ≤ l.sum ∧ l.sum ≤ (l.length : Rat) * b
  | [], _ => by simp
  | x :: l, h => by
    have h1 := h x (by simp)
    have h2 := sum_bounds (l := l) (fun y hy => h y (List.mem_cons_of_mem _ hy))
    simp only [List.length_cons, List.sum_cons]
    have : ((l.length + 1 : Nat) : Rat) = (l.length : Rat) + 1 := by simp
    rw [this]
    constructor <;> grind

theorem sorted_perm (l : List Rat) : (sorted l).Perm l := isort_perm _ _

theorem sorted_pairwise (l : List Rat) : (sorted l).Pairwise (· ≤ ·) := by
  have : (sorted l).Pairwise (fun a b => decide (a ≤ b) = true) :=
    isort_pairwise (fun a b c h1 h2 => by simp at *; exact Rat.le_trans h1 h2) (fun a b => by simp; exact Rat.le_total) l
  exact this.imp (fun h => by simpa using h)

theorem least_le : ∀ (l : List Rat) (a x : Rat), x = a ∨ x ∈ l → least a l ≤ x
  | [], a, x, h => by simp at h; subst h; exact Rat.le_refl
  | y :: l, a, x, h => by
    show least (min a y) l ≤ x
    have hm : min a y ≤ a ∧ min a y ≤ y := by grind
    rcases h with h | h
    · exact Rat.le_trans (least_le l _ _ (Or.inl rfl)) (by rw [h]; exact hm.1)
    · rcases List.mem_cons.1 h with h | h
      · exact Rat.le_trans (least_le l _ _ (Or.inl rfl)) (by rw [h]; exact hm.2)
      · exact least_le l _ _ (Or.inr h)

theorem le_greatest : ∀ (l : List Rat) (a x : Rat), x = a ∨ x ∈ l → x ≤ greatest a l
  | [], a, x, h => by simp at h; subst h; exact Rat.le_refl
  | y :: l, a, x, h => by
    show x ≤ greatest (max a y) l
    have hm : a ≤ max a y ∧ y ≤ max a y := by grind
    rcases h with h | h
    · exact Rat.le_trans (by rw [h]; exact hm.1) (le_greatest l _ _ (Or.inl rfl))
    · rcases List.mem_cons.1 h with h | h
      · exact Rat.le_trans (by rw [h]; exact hm.2) (le_greatest l _ _ (Or.inl rfl))
      · exact le_greatest l _ _ (Or.inr h)

theorem least_mem : ∀ (l : List Rat) (a : Rat), least a l = a ∨ least a l ∈ l
  | [], a => Or.inl rfl
  | y :: l, a => by
    show least (min a y) l = a ∨ least (min a y) l ∈ y :: l
    rcases least_mem l (min a y) with h | h
    · rw [h]
      have : min a y = a ∨ min a y = y := by grind
      rcases this with h' | h' <;> simp [h']
    · exact Or.inr (List.mem_cons_of_mem _ h)

theorem greatest_mem : ∀ (l : List Rat) (a : Rat), greatest a l = a ∨ greatest a l ∈ l
  | [], a => Or.inl rfl
  | y :: l, a => by
    show greatest (max a y) l = a ∨ greatest (max a y) l ∈ y :: l
    rcases greatest_mem l (max a y) with h | h
    · rw [h]
      have : max a y = a ∨ max a y = y := by grind
      rcases this with h' | h' <;> simp [h']
    · exact Or.inr (List.mem_cons_of_mem _ h)

/-- Half of a list is at most, and half of it at least, its median. -/
theorem median_halves {l : List Rat} (h : l ≠ []) : (sorted l).getD (l.length / 2) 0 ∈ l ∧
    l.length ≤ 2 * (l.countP (fun x => decide (x ≤ (sorted l).getD (l.length / 2) 0))) ∧
    l.length ≤ 2 * (l.countP (fun x => decide ((sorted l).getD (l.length / 2) 0 ≤ x))) := by
  have hp := sorted_perm l
  have hs := sorted_pairwise l
  have hl : 0 < l.length := List.length_pos_iff.2 h
  generalize sorted l = s at hp hs
  have hlen := hp.length_eq
  have hk : l.length / 2 < s.length := by omega
  have hg : s.getD (l.length / 2) 0 = s[l.length / 2] := by simp [List.getD, hk]
  rw [hg]
  generalize hm : s[l.length / 2] = m
  have hsplit : s = s.take (l.length / 2) ++ m :: s.drop (l.length / 2 + 1) := by
    rw [← hm, List.getElem_cons_drop, List.take_append_drop]
  rw [hsplit, List.pairwise_append, List.pairwise_cons] at hs
  obtain ⟨_, ⟨h2, _⟩, h3⟩ := hs
  refine ⟨hp.mem_iff.1 (by rw [← hm]; exact List.getElem_mem hk), ?_, ?_⟩
  · rw [← hp.countP_eq, hsplit, List.countP_append, List.countP_cons]
    have : (s.take (l.length / 2)).countP (fun x => decide (x ≤ m)) = (s.take (l.length / 2)).length := by
      rw [List.countP_eq_length]; intro x hx; simpa using h3 x hx m (by simp)
    rw [this, List.length_take]
    simp [Rat.le_refl]; omega
  · rw [← hp.countP_eq, hsplit, List.countP_append, List.countP_cons]
    have : (s.drop (l.length / 2 + 1)).countP (fun x => decide (m ≤ x)) = (s.drop (l.length / 2 + 1)).length := by
      rw [List.countP_eq_length]; intro x hx; simpa using h2 x hx
    rw [this, List.length_drop]
    simp [Rat.le_refl]; omega

/-- **C117.**  What the results say.  The number of messages is that received.  The mean latency, times that number, is the
total; if no message takes less than `a` (which is not negative) or more than `b`, the mean lies between them.  The median latency is that of one of
the messages; half of them, at least, take at most, and half at least as long.  The mean rate, times the time between the first
message sent and the last, is the number of messages, and the data rate is the mean rate times the size of a message. -/
theorem C117_results {data : List (Rat × Rat × Nat)} {size : Nat} {m : Metrics} (h : metrics data size = .ok m) :
    m.num = data.length ∧ m.latencyMean * m.num = m.latencyTotal ∧
    (∀ a b : Rat, 0 ≤ a → (∀ d ∈ data, a ≤ d.2.1 - d.1 ∧ d.2.1 - d.1 ≤ b) → a ≤ m.latencyMean ∧ m.latencyMean ≤ b) ∧
    (∃ d ∈ data, d.2.1 - d.1 = m.latencyMedian) ∧
    data.length ≤ 2 * data.countP (fun d => decide (d.2.1 - d.1 ≤ m.latencyMedian)) ∧
    data.length ≤ 2 * data.countP (fun d => decide (m.latencyMedian ≤ d.2.1 - d.1)) ∧
    (∃ f ∈ data, ∃ l ∈ data, (∀ d ∈ data, f.1 ≤ d.1 ∧ d.1 ≤ l.1) ∧ m.rateMean * (l.1 - f.1) = data.length) ∧
    m.dataRate = m.rateMean * size ∧ m.dropped = dropped (data.map (·.2.2)) := by
  cases data with
  | nil => simp [metrics] at h
  | cons x xs =>
  simp only [metrics] at h
  split at h
  · cases h
  · rename_i hr
    injection h with h
    have hn : ((x :: xs).length : Rat) ≠ 0 := by
      intro h0
      have : (((x :: xs).length : Nat) : Rat) = ((0 : Nat) : Rat) := by simpa using h0
      rw [Rat.natCast_inj] at this
      simp at this
    have hpos : (0 : Rat) < ((x :: xs).length : Rat) := by
      have : ((0 : Nat) : Rat) < (((x :: xs).length : Nat) : Rat) := by rw [Rat.natCast_lt_natCast]; simp
      simpa using this
    have hmed := median_halves (l := (x :: xs).map (fun d : Rat × Rat × Nat => d.2.1 - d.1)) (by simp)
    rw [List.countP_map, List.countP_map, List.length_map, List.mem_map] at hmed
    subst h
    refine ⟨rfl, ?_, ?_, ?_, ?_, ?_, ?_, ?_, rfl⟩
    · exact Rat.div_mul_cancel hn
    · intro a b ha hb
      have hs := sum_bounds (a := a) (b := b) (l := (x :: xs).map (fun d : Rat × Rat × Nat => d.2.1 - d.1)) (by
        intro y hy
        obtain ⟨d, hd, rfl⟩ := List.mem_map.1 hy
        exact hb d hd)
      rw [List.length_map] at hs
      have h0 : 0 ≤ ((x :: xs).map (fun d : Rat × Rat × Nat => d.2.1 - d.1)).sum :=
        Rat.le_trans (Rat.mul_nonneg (Rat.le_of_lt hpos) ha) hs.1
      have he : ((x :: xs).map (fun d : Rat × Rat × Nat => d.2.1 - d.1)).sum.abs = ((x :: xs).map (fun d : Rat × Rat × Nat => d.2.1 - d.1)).sum := Rat.abs_of_nonneg h0
      simp only
      rw [he]
      constructor
      · exact le_div_of hpos hs.1
      · exact div_le_of hpos hs.2
    · obtain ⟨⟨d, hd, he⟩, _⟩ := hmed
      refine ⟨d, hd, ?_⟩
      simpa using he
    · simpa [Function.comp_def] using hmed.2.1
    · simpa [Function.comp_def] using hmed.2.2
    · have hlo : ∃ f ∈ x :: xs, f.1 = least x.1 (xs.map (·.1)) := by
        rcases least_mem (xs.map (·.1)) x.1 with h | h
        · exact ⟨x, by simp, h.symm⟩
        · obtain ⟨d, hd, he⟩ := List.mem_map.1 h
          exact ⟨d, List.mem_cons_of_mem _ hd, he⟩
      have hhi : ∃ f ∈ x :: xs, f.1 = greatest x.1 (xs.map (·.1)) := by
        rcases greatest_mem (xs.map (·.1)) x.1 with h | h
        · exact ⟨x, by simp, h.symm⟩
        · obtain ⟨d, hd, he⟩ := List.mem_map.1 h
          exact ⟨d, List.mem_cons_of_mem _ hd, he⟩
      obtain ⟨f, hf, hfe⟩ := hlo
      obtain ⟨l, hl, hle⟩ := hhi
      refine ⟨f, hf, l, hl, fun d hd => ?_, ?_⟩
      · rw [hfe, hle]
        have : d.1 = x.1 ∨ d.1 ∈ xs.map (·.1) := by
          rcases List.mem_cons.1 hd with rfl | hd
          · exact Or.inl rfl
          · exact Or.inr (List.mem_map.2 ⟨d, hd, rfl⟩)
        exact ⟨least_le _ _ _ this, le_greatest _ _ _ this⟩
      · rw [hfe, hle]; exact Rat.div_mul_cancel hr
    · simp only [Rat.div_def]
      rw [Rat.natCast_mul]
      grind

/-- **C117: when there are results.**  Exactly if two of the messages received were sent at different times. -/
theorem C117_some (data : List (Rat × Rat × Nat)) (size : Nat) :
    (∃ m, metrics data size = .ok m) ↔ ∃ d ∈ data, ∃ e ∈ data, d.1 ≠ e.1 := by
  cases data with
  | nil => simp [metrics]
  | cons x xs =>
    constructor
    · rintro ⟨m, h⟩
      obtain ⟨_, _, _, _, _, _, ⟨f, hf, l, hl, _, hm⟩, _⟩ := C117_results h
      refine ⟨f, hf, l, hl, fun e => ?_⟩
      rw [e, Rat.sub_self, Rat.mul_zero] at hm
      have : (((x :: xs).length : Nat) : Rat) = ((0 : Nat) : Rat) := by simpa using hm.symm
      rw [Rat.natCast_inj] at this
      simp at this
    · rintro ⟨d, hd, e, he, hne⟩
      have mem : ∀ d ∈ x :: xs, d.1 = x.1 ∨ d.1 ∈ xs.map (·.1) := by
        intro d hd
        rcases List.mem_cons.1 hd with rfl | hd
        · exact Or.inl rfl
        · exact Or.inr (List.mem_map.2 ⟨d, hd, rfl⟩)
      have hr : ¬ greatest x.1 (xs.map (·.1)) - least x.1 (xs.map (·.1)) = 0 := by
        intro h0
        have h1 := least_le _ _ _ (mem d hd)
        have h2 := least_le _ _ _ (mem e he)
        have h3 := le_greatest _ _ _ (mem d hd)
        have h4 := le_greatest _ _ _ (mem e he)
        apply hne
        grind
      simp only [metrics]
      rw [if_neg hr]
      exact ⟨_, rfl⟩

/-- **C117: the disagreements.**  Two sources send the numbers 0 to 2; of one of them the message 1 is lost, and no message dropped is
reported, although the receiver warns.  With a single message `ZeroDivisionError` is raised in place of results, with none `ValueError`.
If one message of three is dropped, what is logged as per cent is a third. -/
theorem C117_negation :
    (∃ xs : List (Sample Char × Rat), numbers 'a' xs = [0, 2] ∧ numbers 'b' xs = [0, 1, 2] ∧ (receiveAll RSt.init xs).2 = [('a', 1)] ∧
      (metrics (receiveAll RSt.init xs).1.data 8).toOption.map (fun m => (m.num, m.dropped)) = some (5, 0)) ∧
    (∀ d size, metrics [d] size = .error .zeroDivision) ∧ (∀ size, metrics [] size = .error .valueError) ∧
    ((metrics [(0, 1, 0), (2, 3, 2)] 8).toOption.map (fun m => (m.dropped, m.share)) = some (1, 1 / 3)) := by
  refine ⟨⟨[(⟨0, 0, 'a'⟩, 1), (⟨0, 0, 'b'⟩, 2), (⟨1, 1, 'b'⟩, 3), (⟨2, 2, 'b'⟩, 4), (⟨2, 2, 'a'⟩, 5)], by decide, by decide, ?_, ?_⟩, ?_, fun _ => rfl, ?_⟩
  · rfl
  · decide +kernel
  · intro d size
    simp only [metrics, least, greatest, List.map_nil, List.foldl_nil]
    rw [if_pos (Rat.sub_self)]
  · decide +kernel

/-! ## Examples -/

/-- Messages 0, 1, 4 of one source: two are missing, and two are dropped. -/
example : dropped [4, 0, 1] = 2 ∧ missing 0 4 [4, 0, 1] = [2, 3] := by decide

/-- A test with three relays. -/
example : (relay 3 10).edges = [(.source, .client 0), (.client 0, .client 1), (.client 1, .client 2), (.client 2, .sink)] ∧ (fanin 3 10).expected = 40 := by decide

/-- Two sources, one of which loses messages. -/
example : (receiveAll RSt.init [((⟨0, 0, 'a'⟩ : Sample Char), (1 : Rat)), (⟨0, 2, 'b'⟩, 2), (⟨1, 1, 'a'⟩, 3), (⟨1, 5, 'b'⟩, 4)]).2 = [('b', 2), ('b', 2)] := by rfl

end Ez.LoadTest
