import Verif.Model.HotPath
import Verif.Props.Compare
import Verif.Props.Transport

/-!
# C125: what the benchmark of round trips measures and reports

Exactly the combinations asked for are measured, each over the transport it names; a sample is the time of the messages asked
for after the warm-up and of nothing else; the summary is that of the samples; and everything is left as it was found.
-/

set_option linter.unusedSimpArgs false
set_option linter.unusedVariables false

namespace Ez.HotPath
open AB (sort sort_perm sort_sorted mean median medianOfMeans Err IsMedian Central ratLe)

/-! ### Specification -/

/-- A combination that was asked for. -/
structure Asked (apis transports : List String) (sizes : List Nat) (buffers : Nat) (c : Case) : Prop where
  api : c.api ∈ apis
  known : c.api = "async" ∨ c.api = "sync"
  transport : c.transport ∈ transports
  way : c.transport = "local" ∨ c.transport = "shm" ∨ c.transport = "tcp"
  payload : c.payload ∈ sizes
  buffers : c.buffers = buffers

/-- How long the `n` operations from the one with the number `i` on take. -/
def span (dur : Nat → Rat) : Nat → Nat → Rat
  | _, 0 => 0
  | i, n + 1 => dur i + span dur (i + 1) n

/-- `n` messages of a case, each received before the next is sent. -/
def roundTrips (c : Case) : Nat → List Ev
  | 0 => []
  | n + 1 => .sent c :: .received :: roundTrips c n

/-- What happens in one sample. -/
def oneSample (c : Case) (count warmup : Nat) : List Ev :=
  .opened c :: (roundTrips c warmup ++ roundTrips c count ++ [.closed])

/-- None of the `n` operations from the one with the number `i` on raises. -/
def Fine (env : Env) (i n : Nat) : Prop := ∀ k, i ≤ k → k < i + n → env.fails k = false

/-- What was opened is closed before anything else is opened, and messages are sent in between only, those of the case that is
open. -/
inductive Tidy : List Ev → Prop where
  | nil : Tidy []
  | one (c : Case) (l m : List Ev) (h : ∀ e ∈ l, e = .sent c ∨ e = .received) (t : Tidy m) :
      Tidy (.opened c :: (l ++ .closed :: m))

/-! ### The cases -/

theorem id_total (a b : Case) : idLe a b = true ∨ idLe b a = true := by
  simp only [idLe, decide_eq_true_eq]; exact String.le_total _ _

theorem id_trans (a b c : Case) : idLe a b = true → idLe b c = true → idLe a c = true := by
  simp only [idLe, decide_eq_true_eq]; exact String.le_trans

/-- **C125** The cases are exactly the combinations asked for, each once if nothing was asked for twice, in the order of
their names. -/
theorem C125_cases (apis transports : List String) (sizes : List Nat) (buffers : Nat) :
    (∀ c, c ∈ buildCases apis transports sizes buffers ↔ Asked apis transports sizes buffers c) ∧
    (buildCases apis transports sizes buffers).Pairwise (fun a b => a.id ≤ b.id) ∧
    (apis.Nodup → transports.Nodup → sizes.Nodup → (buildCases apis transports sizes buffers).Nodup) := by
  refine ⟨?_, ?_, ?_⟩
  · intro c
    unfold buildCases
    rw [(sort_perm _).mem_iff]
    simp only [List.mem_flatMap, List.mem_filterMap]
    constructor
    · rintro ⟨a, ha, t, ht, p, hp, h⟩
      split at h
      · rename_i hh
        cases h
        refine ⟨ha, ?_, ht, ?_, hp, rfl⟩
        · simpa using hh.1
        · simpa using hh.2
      · cases h
    · intro h
      refine ⟨c.api, h.api, c.transport, h.transport, c.payload, h.payload, ?_⟩
      rw [if_pos ⟨by simpa using h.known, by simpa using h.way⟩, ← h.buffers]
  · have := sort_sorted id_total id_trans (apis.flatMap (fun a => transports.flatMap (fun t => sizes.filterMap (fun p =>
      if a ∈ ["async", "sync"] ∧ t ∈ ["local", "shm", "tcp"] then some (⟨a, t, p, buffers⟩ : Case) else none))))
    exact this.imp (by intro a b h; simpa [idLe] using h)
  · intro h1 h2 h3
    unfold buildCases
    rw [(sort_perm _).nodup_iff]
    have key : ∀ {α : Type} (l : List α) (f : α → List Case), l.Nodup → (∀ x ∈ l, (f x).Nodup) →
        (∀ x y c, c ∈ f x → c ∈ f y → x = y) → (l.flatMap f).Nodup := by
      intro α l f hl hf hi
      induction l with
      | nil => simp
      | cons x l ih =>
        rw [List.flatMap_cons, List.nodup_append]
        have hl' := List.nodup_cons.1 hl
        refine ⟨hf x (by simp), ih hl'.2 (fun y hy => hf y (by simp [hy])), ?_⟩
        intro c hc d hd hcd
        subst hcd
        obtain ⟨y, hy, hy'⟩ := List.mem_flatMap.1 hd
        exact hl'.1 (hi x y c hc hy' ▸ hy)
    have mem : ∀ {a t : String} {c : Case}, c ∈ sizes.filterMap (fun p =>
        if a ∈ ["async", "sync"] ∧ t ∈ ["local", "shm", "tcp"] then some (⟨a, t, p, buffers⟩ : Case) else none) →
        c.api = a ∧ c.transport = t := by
      intro a t c hc
      obtain ⟨p, _, h⟩ := List.mem_filterMap.1 hc
      split at h
      · cases h; exact ⟨rfl, rfl⟩
      · cases h
    apply key _ _ h1
    · intro a _
      apply key _ _ h2
      · intro t _
        clear mem key
        induction sizes with
        | nil => simp
        | cons p l ih =>
          have hl' := List.nodup_cons.1 h3
          rw [List.filterMap_cons]
          split
          · exact ih hl'.2
          · rename_i d hd
            split at hd
            · rename_i hh
              cases hd
              refine List.nodup_cons.2 ⟨?_, ih hl'.2⟩
              intro hm
              obtain ⟨q, hq, h⟩ := List.mem_filterMap.1 hm
              rw [if_pos hh] at h
              injection h with h
              injection h with _ _ h _
              exact hl'.1 (h ▸ hq)
            · cases hd
      · intro t t' c hc hc'
        exact (mem hc).2.symm.trans (mem hc').2
    · intro a a' c hc hc'
      obtain ⟨t, _, h⟩ := List.mem_flatMap.1 hc
      obtain ⟨t', _, h'⟩ := List.mem_flatMap.1 hc'
      exact (mem h).1.symm.trans (mem h').1

example : (buildCases ["async", "other"] ["tcp", "local"] [64, 8] 1).map Case.id =
    ["async/local/payload=64/buffers=1", "async/local/payload=8/buffers=1", "async/tcp/payload=64/buffers=1",
      "async/tcp/payload=8/buffers=1"] := by decide +kernel

theorem split_at {x y u v : List Char} {c : Char} (hx : c ∉ x) (hy : c ∉ y) (h : x ++ c :: u = y ++ c :: v) : x = y ∧ u = v := by
  induction x generalizing y with
  | nil =>
    cases y with
    | nil => simpa using h
    | cons d y => simp at h; exact absurd (by simp [h.1]) hy
  | cons d x ih =>
    cases y with
    | nil => simp at h; exact absurd (by simp [h.1]) hx
    | cons e y =>
      simp at h hx hy
      have := ih hx.2 hy.2 h.2
      exact ⟨by rw [h.1, this.1], this.2⟩

theorem digits_inj {m n : Nat} (h : (toString m).toList = (toString n).toList) : m = n := by
  have e : ∀ k : Nat, (toString k).toList = Nat.toDigits 10 k := by
    intro k; show (Nat.repr k).toList = _; simp [Nat.repr]
  rw [e, e] at h
  have := congrArg (fun l => Nat.ofDigitChars 10 l 0) h
  simpa [Nat.ofDigitChars_ten_toDigits] using this

theorem slash_digits (n : Nat) : '/' ∉ (toString n).toList := by
  have e : (toString n).toList = Nat.toDigits 10 n := by show (Nat.repr n).toList = _; simp [Nat.repr]
  rw [e]
  intro h
  have := Nat.isDigit_of_mem_toDigits (by decide) (by decide) h
  revert this; decide

/-- **C125** Different cases have different names. -/
theorem C125_names {c d : Case} (h1 : '/' ∉ c.api.toList) (h2 : '/' ∉ c.transport.toList) (h3 : '/' ∉ d.api.toList)
    (h4 : '/' ∉ d.transport.toList) (h : c.id = d.id) : c = d := by
  have h := congrArg String.toList h
  simp only [Case.id, String.toList_append, List.append_assoc] at h
  have e1 : "/".toList = ['/'] := rfl
  have e2 : "/payload=".toList = '/' :: "payload=".toList := rfl
  have e3 : "/buffers=".toList = '/' :: "buffers=".toList := rfl
  rw [e1, e2, e3] at h
  simp only [List.cons_append, List.nil_append] at h
  have a1 := split_at h1 h3 h
  have a2 := split_at h2 h4 a1.2
  have a3 := List.append_cancel_left a2.2
  have a4 := split_at (slash_digits _) (slash_digits _) a3
  have a5 := List.append_cancel_left a4.2
  obtain ⟨ca, ct, cp, cb⟩ := c
  obtain ⟨da, dt, dp, db⟩ := d
  simp only at a1 a2 a4 a5
  rw [String.toList_inj.1 a1.1, String.toList_inj.1 a2.1, digits_inj a4.1, digits_inj a5]

example : (⟨"async", "tcp", 1, 11⟩ : Case).id ≠ (⟨"async", "tcp", 11, 1⟩ : Case).id := by decide +kernel

/-! ### The transport -/

/-- **C125** In a case every message goes to the subscriber once, over the transport the case names, whatever the
environment says. -/
theorem C125_transport {C : Type} (pid : Nat) (envForce envAllow : String) (c : Case) (l : C) :
    (c.transport = "local" → Transport.handOvers (publisher pid envForce envAllow c) l [⟨l, pid, true⟩] = [(l, .local)]) ∧
    (c.transport = "shm" → Transport.handOvers (publisher pid envForce envAllow c) l [⟨l, pid, true⟩] = [(l, .shm)]) ∧
    (c.transport = "tcp" → ∀ ok, Transport.handOvers (publisher pid envForce envAllow c) l [⟨l, pid, ok⟩] = [(l, .tcp)]) := by
  refine ⟨?_, ?_, ?_⟩
  · intro h
    simp [publisher, h, Transport.Pub.create, Transport.resolveForceTcp, Transport.resolveAllowLocal, Transport.handOvers,
      Transport.canLocal, Transport.canShm]
  · intro h
    simp [publisher, h, Transport.Pub.create, Transport.resolveForceTcp, Transport.resolveAllowLocal, Transport.handOvers,
      Transport.canLocal, Transport.canShm]
  · intro h ok
    simp [publisher, h, Transport.Pub.create, Transport.resolveForceTcp, Transport.resolveAllowLocal, Transport.handOvers,
      Transport.canLocal, Transport.canShm]

example : Transport.handOvers (publisher 7 "1" "0" ⟨"sync", "local", 8, 1⟩) 3 [⟨3, 7, true⟩] = [(3, .local)] := by decide +kernel

/-! ### One sample -/

theorem span_add (dur : Nat → Rat) : ∀ m i n, span dur i (m + n) = span dur i m + span dur (i + m) n
  | 0, i, n => by simp [span]; grind
  | m + 1, i, n => by
    have := span_add dur m (i + 1) n
    rw [show m + 1 + n = (m + n) + 1 by omega]
    simp only [span]
    rw [this, show i + 1 + m = i + (m + 1) by omega]
    grind

theorem trips_ok {env : Env} {c : Case} : ∀ {n : Nat} {w : W}, Fine env w.ops (2 * n) →
    trips env c n w = (true, { w with clock := w.clock + span env.dur w.ops (2 * n), ops := w.ops + 2 * n
                                      log := w.log ++ roundTrips c n })
  | 0, w, _ => by simp [trips, span, roundTrips]; cases w; simp; grind
  | n + 1, w, h => by
    have h1 := h w.ops (by omega) (by omega)
    have h2 := h (w.ops + 1) (by omega) (by omega)
    simp only [trips, op, h1, h2, Bool.false_eq_true, if_false]
    rw [trips_ok (n := n) (by intro k hk hk'; exact h k (by simp at hk; omega) (by simp at hk'; omega))]
    simp only [roundTrips, List.append_assoc, List.cons_append, List.nil_append]
    rw [show 2 * (n + 1) = 2 * n + 1 + 1 by omega]
    simp only [span]
    congr 2
    · grind
    · omega

theorem trips_bad {env : Env} {c : Case} : ∀ {n : Nat} {w : W}, ¬ Fine env w.ops (2 * n) →
    ∃ w' l, trips env c n w = (false, w') ∧ w'.log = w.log ++ l ∧ w'.level = w.level ∧ ∀ e ∈ l, e = .sent c ∨ e = .received
  | 0, w, h => absurd (by intro k hk hk'; omega) h
  | n + 1, w, h => by
    cases h1 : env.fails w.ops with
    | true =>
      exact ⟨{ w with clock := w.clock + env.dur w.ops, ops := w.ops + 1 }, [], by simp [trips, op, h1], by simp, rfl, by simp⟩
    | false =>
      cases h2 : env.fails (w.ops + 1) with
      | true =>
        exact ⟨⟨w.clock + env.dur w.ops + env.dur (w.ops + 1), w.ops + 1 + 1, w.level, w.log ++ [.sent c]⟩, [.sent c],
          by simp [trips, op, h1, h2], by simp, rfl, by simp⟩
      | false =>
        have : ¬ Fine env (w.ops + 1 + 1) (2 * n) := by
          intro hf
          apply h
          intro k hk hk'
          rcases Nat.lt_or_ge k (w.ops + 2) with h3 | h3
          · rcases Nat.eq_or_lt_of_le hk with h4 | h4
            · rw [← h4]; exact h1
            · rw [show k = w.ops + 1 by omega]; exact h2
          · exact hf k (by omega) (by omega)
        obtain ⟨w', l, e1, e2, e3, e4⟩ := trips_bad (c := c) (n := n)
          (w := ⟨w.clock + env.dur w.ops + env.dur (w.ops + 1), w.ops + 1 + 1, w.level, w.log ++ [.sent c] ++ [.received]⟩) this
        refine ⟨w', .sent c :: .received :: l, ?_, ?_, e3, ?_⟩
        · simp only [trips, op, h1, h2, Bool.false_eq_true, if_false]; exact e1
        · rw [e2]; simp
        · intro e he
          rcases List.mem_cons.1 he with rfl | he
          · simp
          rcases List.mem_cons.1 he with rfl | he
          · simp
          exact e4 e he

theorem trips_log (c : Case) : ∀ n, ∀ e ∈ roundTrips c n, e = .sent c ∨ e = .received
  | 0, e, h => by simp [roundTrips] at h
  | n + 1, e, h => by
    simp only [roundTrips, List.mem_cons] at h
    rcases h with h | h | h
    · exact Or.inl h
    · exact Or.inr h
    · exact trips_log c n e h

/-- **C125** A sample is there exactly when nothing raises. It is the time of the messages asked for: opening, the messages
of the warm-up and closing are not in it. -/
theorem C125_sample (env : Env) (c : Case) (count warmup : Nat) (w : W) :
    ((sample env c count warmup w).1.isSome ↔ Fine env w.ops (1 + 2 * warmup + 2 * count)) ∧
    (Fine env w.ops (1 + 2 * warmup + 2 * count) →
      (sample env c count warmup w).1 = some (span env.dur (w.ops + 1 + 2 * warmup) (2 * count)) ∧
      (sample env c count warmup w).2.log = w.log ++ oneSample c count warmup ∧
      (sample env c count warmup w).2.ops = w.ops + (2 + 2 * warmup + 2 * count)) ∧
    (sample env c count warmup w).2.level = w.level ∧
    ∃ l, (sample env c count warmup w).2.log = w.log ++ l ∧ Tidy l := by
  have tidy : ∀ l : List Ev, (∀ e ∈ l, e = .sent c ∨ e = .received) → Tidy (.opened c :: (l ++ [.closed])) :=
    fun l h => Tidy.one c l [] h Tidy.nil
  cases h0 : env.fails w.ops with
  | true =>
    have hn : ¬ Fine env w.ops (1 + 2 * warmup + 2 * count) := by
      intro h; have := h w.ops (by omega) (by omega); rw [h0] at this; cases this
    have e : sample env c count warmup w = (none, { w with clock := w.clock + env.dur w.ops, ops := w.ops + 1 }) := by
      simp [sample, op, h0]
    rw [e]
    exact ⟨by simp [hn], fun h => absurd h hn, rfl, [], by simp, Tidy.nil⟩
  | false =>
    let w1 : W := ⟨w.clock + env.dur w.ops, w.ops + 1, w.level, w.log ++ [.opened c]⟩
    have o : op env (.opened c) w = (true, w1) := by simp [op, h0, w1]
    by_cases h1 : Fine env w1.ops (2 * warmup)
    · have t1 := trips_ok (c := c) (w := w1) h1
      let w2 : W := { w1 with clock := w1.clock + span env.dur w1.ops (2 * warmup), ops := w1.ops + 2 * warmup, log := w1.log ++ roundTrips c warmup }
      by_cases h2 : Fine env w2.ops (2 * count)
      · have t2 := trips_ok (c := c) (w := w2) h2
        have hf : Fine env w.ops (1 + 2 * warmup + 2 * count) := by
          intro k hk hk'
          rcases Nat.eq_or_lt_of_le hk with h4 | h4
          · rw [← h4]; exact h0
          · rcases Nat.lt_or_ge k (w.ops + 1 + 2 * warmup) with h5 | h5
            · exact h1 k (by simp only [w1]; omega) (by simp only [w1]; omega)
            · exact h2 k (by simp only [w2, w1]; omega) (by simp only [w2, w1]; omega)
        have e : sample env c count warmup w = (some (w2.clock + span env.dur w2.ops (2 * count) - w2.clock),
            close env { w2 with clock := w2.clock + span env.dur w2.ops (2 * count), ops := w2.ops + 2 * count, log := w2.log ++ roundTrips c count }) := by
          simp only [sample, o]; rw [t1]; simp only []; rw [show trips env c count _ = _ from t2]
        have hl : w2.log ++ roundTrips c count ++ [.closed] = w.log ++ oneSample c count warmup := by
          simp [w2, w1, oneSample]
        rw [e]
        refine ⟨by simp [hf], fun _ => ⟨?_, ?_, ?_⟩, rfl, oneSample c count warmup, hl, ?_⟩
        · simp only [w2, w1]; congr 1; grind
        · exact hl
        · simp only [close, w2, w1]; omega
        · apply tidy
          intro e he
          rcases List.mem_append.1 he with he | he
          · exact trips_log _ _ e he
          · exact trips_log _ _ e he
      · obtain ⟨w3, l, t2, e2, e3, e4⟩ := trips_bad (c := c) h2
        have hn : ¬ Fine env w.ops (1 + 2 * warmup + 2 * count) := by
          intro h; apply h2; intro k hk hk'
          exact h k (by simp only [w2, w1] at hk; omega) (by simp only [w2, w1] at hk'; omega)
        have e : sample env c count warmup w = (none, close env w3) := by
          simp only [sample, o]; rw [t1]; simp only []; rw [show trips env c count _ = _ from t2]
        rw [e]
        refine ⟨by simp [hn], fun h => absurd h hn, e3, .opened c :: ((roundTrips c warmup ++ l) ++ [.closed]), ?_, ?_⟩
        · simp [close, e2, w2, w1]
        · apply tidy
          intro e he
          rcases List.mem_append.1 he with he | he
          · exact trips_log _ _ e he
          · exact e4 e he
    · obtain ⟨w3, l, t1, e2, e3, e4⟩ := trips_bad (c := c) h1
      have hn : ¬ Fine env w.ops (1 + 2 * warmup + 2 * count) := by
        intro h; apply h1; intro k hk hk'
        exact h k (by simp only [w1] at hk; omega) (by simp only [w1] at hk'; omega)
      have e : sample env c count warmup w = (none, close env w3) := by
        simp only [sample, o]; rw [t1]
      rw [e]
      refine ⟨by simp [hn], fun h => absurd h hn, e3, .opened c :: (l ++ [.closed]), ?_, tidy _ e4⟩
      simp [close, e2, w1]

example : (sample ⟨fun i => i, fun _ => false⟩ ⟨"async", "tcp", 8, 1⟩ 2 1 ⟨0, 0, 20, []⟩).1 = some (3 + 4 + 5 + 6) := by
  decide +kernel

/-! ### The summary -/

theorem isMedian_scale {l : List Rat} {k m : Rat} (hk : 0 < k) : IsMedian (l.map (fun s => s * k)) (m * k) ↔ IsMedian l m := by
  have e : ∀ x y : Rat, x * k < y * k ↔ x < y := fun x y => ⟨fun h => by
    by_cases h1 : x < y
    · exact h1
    · have := Rat.mul_le_mul_of_nonneg_right (Rat.not_lt.1 h1) (Rat.le_of_lt hk)
      grind, fun h => Rat.mul_lt_mul_of_pos_right h hk⟩
  simp only [IsMedian, List.countP_map, List.length_map, Function.comp_def, e]

theorem central_scale {l : List Rat} {k m : Rat} (hk : 0 < k) (h : Central l m) : Central (l.map (fun s => s * k)) (m * k) := by
  obtain ⟨x, hx, y, hy, h1, h2, h3, h4⟩ := h
  refine ⟨x * k, List.mem_map_of_mem hx, y * k, List.mem_map_of_mem hy, (isMedian_scale hk).2 h1, (isMedian_scale hk).2 h2, ?_, ?_⟩
  · intro z hz
    have hkk : k ≠ 0 := by grind
    have e : z = z / k * k := by rw [Rat.div_mul_cancel hkk]
    rw [e] at hz
    have := h3 _ ((isMedian_scale hk).1 hz)
    rw [e]
    exact ⟨Rat.mul_le_mul_of_nonneg_right this.1 (Rat.le_of_lt hk), Rat.mul_le_mul_of_nonneg_right this.2 (Rat.le_of_lt hk)⟩
  · rw [h4]; grind

theorem sum_scale (k : Rat) : ∀ l : List Rat, (l.map (fun s => s * k)).sum = l.sum * k
  | [] => by simp
  | x :: l => by simp [sum_scale k l]; grind

theorem mean_scale {k : Rat} {l : List Rat} : mean (l.map (fun s => s * k)) = mean l * k := by
  simp only [mean, sum_scale, List.length_map]; grind

theorem mean_mul {l : List Rat} (h : l ≠ []) : mean l * (l.length : Rat) = l.sum := by
  have : (l.length : Rat) ≠ 0 := by
    intro h0
    have := Rat.natCast_inj.1 (h0.trans (by rfl : (0 : Rat) = ((0 : Nat) : Rat)))
    exact h (List.length_eq_zero_iff.1 this)
  rw [mean, Rat.div_mul_cancel this]

theorem least_spec : ∀ (l : List Rat) (x : Rat), least x l ∈ x :: l ∧ ∀ y ∈ x :: l, least x l ≤ y
  | [], x => by simp [least]
  | z :: l, x => by
    have h := least_spec l (if z < x then z else x)
    have e : least x (z :: l) = least (if z < x then z else x) l := rfl
    rw [e]
    have hle := h.2 _ (List.mem_cons_self ..)
    constructor
    · rcases List.mem_cons.1 h.1 with h1 | h1
      · rw [h1]; split <;> simp
      · simp [h1]
    · intro y hy
      simp only [List.mem_cons] at hy
      rcases hy with rfl | rfl | hy
      · revert hle; split <;> intro hle <;> grind
      · revert hle; split <;> intro hle <;> grind
      · exact h.2 y (by simp [hy])

theorem greatest_spec : ∀ (l : List Rat) (x : Rat), greatest x l ∈ x :: l ∧ ∀ y ∈ x :: l, y ≤ greatest x l
  | [], x => by simp [greatest]
  | z :: l, x => by
    have h := greatest_spec l (if x < z then z else x)
    have e : greatest x (z :: l) = greatest (if x < z then z else x) l := rfl
    rw [e]
    have hle := h.2 _ (List.mem_cons_self ..)
    constructor
    · rcases List.mem_cons.1 h.1 with h1 | h1
      · rw [h1]; split <;> simp
      · simp [h1]
    · intro y hy
      simp only [List.mem_cons] at hy
      rcases hy with rfl | rfl | hy
      · revert hle; split <;> intro hle <;> grind
      · revert hle; split <;> intro hle <;> grind
      · exact h.2 y (by simp [hy])

/-- What a summary of samples says. -/
structure Says (sqrt : Rat → Rat) (samples : List Rat) (count : Nat) (s : Summary) : Prop where
  number : s.samples = samples.length
  median : Central samples s.secondsMedian
  mean : s.secondsMean * (samples.length : Rat) = samples.sum
  least : s.secondsMin ∈ samples ∧ ∀ x ∈ samples, s.secondsMin ≤ x
  greatest : s.secondsMax ∈ samples ∧ ∀ x ∈ samples, x ≤ s.secondsMax
  robust : s.secondsMedianOfMeans = medianOfMeans samples
  one : samples.length < 2 → s.secondsCv = 0
  spread : 2 ≤ samples.length → s.secondsMean ≠ 0 → ∃ v, s.secondsCv * s.secondsMean = sqrt v ∧
    v * (samples.length : Rat) = (samples.map (fun x => (x - s.secondsMean) * (x - s.secondsMean))).sum
  us : s.usMedian * (count : Rat) = s.secondsMedian * 1000000
  usMean : s.usMean * (count : Rat) = s.secondsMean * 1000000
  rate : Central (samples.map (fun x => (count : Rat) / x)) s.rateMedian
  rateMean : s.rateMean * (samples.length : Rat) = (samples.map (fun x => (count : Rat) / x)).sum

/-- **C125** No summary is made of no samples, of samples without messages, or of a sample that took no time. Otherwise the
summary is that of the samples, and times per message are those of the samples divided by the number of messages. -/
theorem C125_summary (sqrt : Rat → Rat) (samples : List Rat) (count : Nat) :
    ((∃ s, summarize sqrt samples count = .ok s) ↔ samples ≠ [] ∧ count ≠ 0 ∧ (0 : Rat) ∉ samples) ∧
    ∀ s, summarize sqrt samples count = .ok s → Says sqrt samples count s := by
  have good : samples ≠ [] → count ≠ 0 → (0 : Rat) ∉ samples → ∃ s, summarize sqrt samples count = .ok s ∧ Says sqrt samples count s := by
    intro h1 h2 h3
    have hc : (count : Rat) ≠ 0 := by
      intro h0
      exact h2 (Rat.natCast_inj.1 (h0.trans (by rfl : (0 : Rat) = ((0 : Nat) : Rat))))
    have hc0 : (0 : Rat) < (count : Rat) := by
      have : (0 : Rat) ≤ (count : Rat) := Rat.natCast_nonneg
      grind
    let k : Rat := 1000000 / (count : Rat)
    have hk : 0 < k := by simp only [k]; rw [Rat.div_def]; exact Rat.mul_pos (by decide) (Rat.inv_pos.2 hc0)
    have eus : samples.map (fun s => s / (count : Rat) * 1000000) = samples.map (fun s => s * k) := by
      apply List.map_congr_left; intro x _; simp only [k]; grind
    obtain ⟨m, m1, m2, _⟩ := (AB.C121_median samples).2 h1
    obtain ⟨mu, u1, u2, u3⟩ := (AB.C121_median (samples.map (fun s => s * k))).2 (by simpa using h1)
    obtain ⟨mr, r1, r2, _⟩ := (AB.C121_median (samples.map (fun s => (count : Rat) / s))).2 (by simpa using h1)
    have hmu : m * k = mu := u3 _ (central_scale hk m2)
    have kc : k * (count : Rat) = 1000000 := by simp only [k]; rw [Rat.div_mul_cancel hc]
    obtain ⟨x, l, rfl⟩ : ∃ x l, samples = x :: l := by cases samples with
      | nil => exact absurd rfl h1
      | cons x l => exact ⟨x, l, rfl⟩
    refine ⟨{ samples := (x :: l).length, secondsMedian := m, secondsMean := mean (x :: l), secondsMin := least x l
              secondsMax := greatest x l, secondsMedianOfMeans := medianOfMeans (x :: l), secondsCv := coefVar sqrt (x :: l)
              usMedian := mu, usMean := mean ((x :: l).map (fun s => s * k)), rateMedian := mr
              rateMean := mean ((x :: l).map (fun s => (count : Rat) / s)) }, by
      unfold summarize
      rw [if_neg (by intro h; exact h2 h.1), if_neg h3]
      simp only [eus, m1, u1, r1], ?_⟩
    refine ⟨rfl, m2, mean_mul h1, least_spec l x, greatest_spec l x, rfl, ?_, ?_, ?_, ?_, r2, ?_⟩
    · intro h; simp only [coefVar]; rw [if_pos h]
    · intro h hm
      simp only at hm
      refine ⟨mean ((x :: l).map (fun y => (y - mean (x :: l)) * (y - mean (x :: l)))), ?_, ?_⟩
      · simp only [coefVar]
        rw [if_neg (by omega), if_neg hm, Rat.div_mul_cancel hm]
      · have := mean_mul (l := (x :: l).map (fun y => (y - mean (x :: l)) * (y - mean (x :: l)))) (by simp)
        rw [List.length_map] at this
        exact this
    · simp only; rw [← hmu, Rat.mul_assoc, kc]
    · simp only; rw [mean_scale, Rat.mul_assoc, kc]
    · have := mean_mul (l := (x :: l).map (fun s => (count : Rat) / s)) (by simp)
      rw [List.length_map] at this
      exact this
  have conv : ∀ s, summarize sqrt samples count = .ok s → samples ≠ [] ∧ count ≠ 0 ∧ (0 : Rat) ∉ samples := by
    intro s h
    have h1 : samples ≠ [] := by
      rintro rfl
      simp [summarize] at h
    unfold summarize at h
    split at h
    · cases h
    · rename_i h2
      split at h
      · cases h
      · rename_i h3
        exact ⟨h1, fun h4 => h2 ⟨h4, h1⟩, h3⟩
  refine ⟨⟨fun ⟨s, h⟩ => conv s h, fun ⟨a, b, c⟩ => (good a b c).imp fun _ h => h.1⟩, ?_⟩
  intro s h
  obtain ⟨a, b, c⟩ := conv s h
  obtain ⟨s', e, h'⟩ := good a b c
  rw [h] at e
  cases e
  exact h'

/-- **C125** With an odd number of samples the rate that is reported is the number of messages by the time that is reported. -/
theorem C125_rate {sqrt : Rat → Rat} {samples : List Rat} {count : Nat} {s : Summary} (h : summarize sqrt samples count = .ok s)
    (hodd : samples.length % 2 = 1) (hpos : ∀ x ∈ samples, 0 < x) : s.rateMedian * s.secondsMedian = (count : Rat) := by
  have hs := (C125_summary sqrt samples count).2 s h
  have h0 := ((C125_summary sqrt samples count).1.1 ⟨s, h⟩).2.1
  have hc0 : (0 : Rat) < (count : Rat) := by
    have h1 : (0 : Rat) ≤ (count : Rat) := Rat.natCast_nonneg
    have hc : (count : Rat) ≠ 0 := by
      intro h2
      exact h0 (Rat.natCast_inj.1 (h2.trans (by rfl : (0 : Rat) = ((0 : Nat) : Rat))))
    grind
  have hm := AB.odd_mem hodd hs.median
  have hmp := hpos _ hm
  have hi := AB.central_isMedian hs.median
  have key : ∀ x y : Rat, 0 < x → 0 < y → ((count : Rat) / x < (count : Rat) / y ↔ y < x) := by
    intro x y hx hy
    have ex : (count : Rat) / x * x = count := Rat.div_mul_cancel (by grind)
    have ey : (count : Rat) / y * y = count := Rat.div_mul_cancel (by grind)
    have ux : 0 < (count : Rat) / x := by rw [Rat.div_def]; exact Rat.mul_pos hc0 (Rat.inv_pos.2 hx)
    have uy : 0 < (count : Rat) / y := by rw [Rat.div_def]; exact Rat.mul_pos hc0 (Rat.inv_pos.2 hy)
    generalize (count : Rat) / x = u at *
    generalize (count : Rat) / y = v at *
    constructor
    · intro hh
      by_cases h1 : y < x
      · exact h1
      · have h2 := Rat.mul_le_mul_of_nonneg_left (Rat.not_lt.1 h1) (Rat.le_of_lt ux)
        have h3 := Rat.mul_lt_mul_of_pos_right hh hy
        grind
    · intro hh
      by_cases h1 : u < v
      · exact h1
      · have h2 := Rat.mul_le_mul_of_nonneg_right (Rat.not_lt.1 h1) (Rat.le_of_lt hy)
        have h3 := Rat.mul_lt_mul_of_pos_left hh ux
        grind
  have hi' : IsMedian (samples.map (fun x => (count : Rat) / x)) ((count : Rat) / s.secondsMedian) := by
    have c1 : (samples.map (fun x => (count : Rat) / x)).countP (fun x => decide (x < (count : Rat) / s.secondsMedian)) =
        samples.countP (fun x => decide (s.secondsMedian < x)) := by
      rw [List.countP_map]
      apply AB.count_congr
      intro x hx
      simp only [Function.comp_def, decide_eq_true_eq]
      exact key _ _ (hpos x hx) hmp
    have c2 : (samples.map (fun x => (count : Rat) / x)).countP (fun x => decide ((count : Rat) / s.secondsMedian < x)) =
        samples.countP (fun x => decide (x < s.secondsMedian)) := by
      rw [List.countP_map]
      apply AB.count_congr
      intro x hx
      simp only [Function.comp_def, decide_eq_true_eq]
      exact key _ _ hmp (hpos x hx)
    unfold IsMedian
    rw [c1, c2, List.length_map]
    exact ⟨hi.2, hi.1⟩
  have := AB.odd_unique (by rw [List.length_map]; exact hodd) (AB.central_isMedian hs.rate) hi'
  rw [this, Rat.div_mul_cancel (by grind)]

example : (match summarize id [2, 1, 4] 10 with
    | .ok s => (s.secondsMedian, s.rateMedian, s.usMedian) == (2, 5, 200000)
    | .error _ => false) = true := by decide +kernel

/-! ### The suite -/

/-- The samples of a case that begins with the operation `i`. -/
def times (dur : Nat → Rat) (count warmup : Nat) : Nat → Nat → List Rat
  | 0, _ => []
  | n + 1, i => span dur (i + 1 + 2 * warmup) (2 * count) :: times dur count warmup n (i + (2 + 2 * warmup + 2 * count))

/-- The samples of `n` cases, the first of which begins with the operation `i`. -/
def allTimes (dur : Nat → Rat) (count warmup samples : Nat) : Nat → Nat → List (List Rat)
  | 0, _ => []
  | n + 1, i => times dur count warmup samples i ::
      allTimes dur count warmup samples n (i + samples * (2 + 2 * warmup + 2 * count))

/-- All that happens for a case. -/
def oneCase (count warmup samples : Nat) (c : Case) : List Ev := (List.replicate samples (oneSample c count warmup)).flatten

theorem Tidy.append {l m : List Ev} (h : Tidy l) (h' : Tidy m) : Tidy (l ++ m) := by
  induction h with
  | nil => exact h'
  | one c a b hl _ ih =>
    have := Tidy.one c a (b ++ m) hl ih
    simpa using this

theorem samplesOf_spec {env : Env} {c : Case} {count warmup : Nat} : ∀ {n : Nat} {w : W},
    (samplesOf env c count warmup n w).2.level = w.level ∧
    (∃ l, (samplesOf env c count warmup n w).2.log = w.log ++ l ∧ Tidy l) ∧
    (∀ ts, (samplesOf env c count warmup n w).1 = some ts → ts = times env.dur count warmup n w.ops ∧
      (samplesOf env c count warmup n w).2.log = w.log ++ oneCase count warmup n c ∧
      (samplesOf env c count warmup n w).2.ops = w.ops + n * (2 + 2 * warmup + 2 * count)) ∧
    ((∀ k, env.fails k = false) → (samplesOf env c count warmup n w).1.isSome)
  | 0, w => by
    refine ⟨rfl, ⟨[], by simp [samplesOf], Tidy.nil⟩, ?_, by simp [samplesOf]⟩
    intro ts h
    simp only [samplesOf, Option.some.injEq] at h
    exact ⟨by rw [← h]; rfl, by simp [samplesOf, oneCase], by simp [samplesOf]⟩
  | n + 1, w => by
    obtain ⟨a1, a2, a3, l, a4, a5⟩ := C125_sample env c count warmup w
    unfold samplesOf
    generalize sample env c count warmup w = x at *
    obtain ⟨_ | t, w1⟩ := x
    · refine ⟨a3, ⟨l, a4, a5⟩, by simp, ?_⟩
      intro hf
      have := a1.2 (fun k _ _ => hf k)
      simp at this
    · obtain ⟨b1, b2, b3⟩ := a2 (a1.1 rfl)
      obtain ⟨c1, ⟨l', c2, c3⟩, c4, c5⟩ := samplesOf_spec (env := env) (c := c) (count := count) (warmup := warmup) (n := n) (w := w1)
      simp only at a3 a4 b1 b2 b3 ⊢
      generalize samplesOf env c count warmup n w1 = y at *
      obtain ⟨_ | ts, w2⟩ := y
      · exact ⟨c1.trans a3, ⟨l ++ l', by rw [c2, a4]; simp, a5.append c3⟩, by simp, by simpa using c5⟩
      · refine ⟨c1.trans a3, ⟨l ++ l', by rw [c2, a4]; simp, a5.append c3⟩, ?_, by simp⟩
        intro ts' h
        simp only [Option.some.injEq] at h
        obtain ⟨d1, d2, d3⟩ := c4 ts rfl
        refine ⟨?_, ?_, ?_⟩
        · rw [← h, times, d1, b3]
          simp only [Option.some.injEq] at b1
          rw [b1]
        · simp only at d2 ⊢
          rw [d2, b2]; simp [oneCase, List.replicate_succ]
        · simp only at d3 ⊢
          rw [d3, b3, Nat.add_mul n 1]; omega

theorem span_pos {dur : Nat → Rat} (h : ∀ k, 0 < dur k) : ∀ n i, 0 < n → 0 < span dur i n
  | 0, i, h0 => absurd h0 (by omega)
  | 1, i, _ => by simp only [span]; have := h i; grind
  | n + 2, i, _ => by
    have := span_pos h (n + 1) (i + 1) (by omega)
    have h1 := h i
    simp only [span] at this ⊢
    grind

theorem times_length (dur : Nat → Rat) (count warmup : Nat) : ∀ n i, (times dur count warmup n i).length = n
  | 0, _ => rfl
  | n + 1, i => by simp [times, times_length dur count warmup n]

theorem times_pos {dur : Nat → Rat} (h : ∀ k, 0 < dur k) {count warmup : Nat} (hc : 0 < count) :
    ∀ n i, ∀ t ∈ times dur count warmup n i, 0 < t
  | 0, _, t, ht => by simp [times] at ht
  | n + 1, i, t, ht => by
    simp only [times, List.mem_cons] at ht
    rcases ht with rfl | ht
    · exact span_pos h _ _ (by omega)
    · exact times_pos h hc n _ t ht

theorem runCases_spec {env : Env} {sqrt : Rat → Rat} {count warmup samples : Nat} : ∀ {cs : List Case} {w : W},
    (runCases env sqrt count warmup samples cs w).2.level = w.level ∧
    (∃ l, (runCases env sqrt count warmup samples cs w).2.log = w.log ++ l ∧ Tidy l) ∧
    (∀ rs, (runCases env sqrt count warmup samples cs w).1 = some rs → rs.map (·.case) = cs ∧
      rs.map (·.seconds) = allTimes env.dur count warmup samples cs.length w.ops ∧
      (runCases env sqrt count warmup samples cs w).2.log = w.log ++ cs.flatMap (oneCase count warmup samples) ∧
      ∀ r ∈ rs, Says sqrt r.seconds count r.summary) ∧
    ((∀ k, env.fails k = false) → (∀ k, 0 < env.dur k) → 0 < count → 0 < samples →
      (runCases env sqrt count warmup samples cs w).1.isSome)
  | [], w => by
    refine ⟨rfl, ⟨[], by simp [runCases], Tidy.nil⟩, ?_, by simp [runCases]⟩
    intro rs h
    simp only [runCases, Option.some.injEq] at h
    subst h
    exact ⟨rfl, rfl, by simp [runCases], by simp⟩
  | c :: cs, w => by
    obtain ⟨a1, ⟨l, a2, a3⟩, a4, a5⟩ := samplesOf_spec (env := env) (c := c) (count := count) (warmup := warmup) (n := samples) (w := w)
    unfold runCases runCase
    generalize samplesOf env c count warmup samples w = x at *
    obtain ⟨_ | ts, w1⟩ := x
    · exact ⟨a1, ⟨l, a2, a3⟩, by simp, fun hf => by simpa using a5 hf⟩
    · obtain ⟨b1, b2, b3⟩ := a4 ts rfl
      simp only at a1 a2 b2 b3 ⊢
      cases hs : summarize sqrt ts count with
      | error e =>
        refine ⟨a1, ⟨l, a2, a3⟩, by simp, ?_⟩
        intro hf hd hc hn
        have : ∃ s, summarize sqrt ts count = .ok s := (C125_summary sqrt ts count).1.2 ⟨by
          intro h0
          have := times_length env.dur count warmup samples w.ops
          rw [← b1, h0] at this
          simp at this; omega, by omega, by
          intro h0
          rw [b1] at h0
          have := times_pos hd hc _ _ _ h0
          exact absurd this (by decide)⟩
        rw [hs] at this
        obtain ⟨_, h⟩ := this
        cases h
      | ok s =>
        obtain ⟨c1, ⟨l', c2, c3⟩, c4, c5⟩ := runCases_spec (env := env) (sqrt := sqrt) (count := count) (warmup := warmup) (samples := samples)
          (cs := cs) (w := w1)
        simp only
        generalize runCases env sqrt count warmup samples cs w1 = y at *
        obtain ⟨_ | rs, w2⟩ := y
        · exact ⟨c1.trans a1, ⟨l ++ l', by rw [c2, a2]; simp, a3.append c3⟩, by simp, fun h1 h2 h3 h4 => by simpa using c5 h1 h2 h3 h4⟩
        · refine ⟨c1.trans a1, ⟨l ++ l', by rw [c2, a2]; simp, a3.append c3⟩, ?_, by simp⟩
          intro rs' h
          simp only [Option.some.injEq] at h
          subst h
          obtain ⟨d1, d2, d3, d4⟩ := c4 rs rfl
          refine ⟨by simp [d1], ?_, ?_, ?_⟩
          · simp only [List.map_cons, List.length_cons, allTimes]
            rw [d2, b1, b3]
          · simp only at d3 ⊢
            rw [d3, b2]; simp
          · intro r hr
            rcases List.mem_cons.1 hr with rfl | hr
            · exact (C125_summary sqrt _ count).2 _ hs
            · exact d4 r hr

theorem known_names {apis transports : List String} {sizes : List Nat} {buffers : Nat} {c d : Case}
    (hc : Asked apis transports sizes buffers c) (hd : Asked apis transports sizes buffers d) (h : c.id = d.id) : c = d := by
  have a : ∀ {x : Case}, Asked apis transports sizes buffers x → '/' ∉ x.api.toList := by
    intro x hx; rcases hx.known with h | h <;> (rw [h]; decide)
  have t : ∀ {x : Case}, Asked apis transports sizes buffers x → '/' ∉ x.transport.toList := by
    intro x hx; rcases hx.way with h | h | h <;> (rw [h]; decide)
  exact C125_names (a hc) (t hc) (a hd) (t hd) h

/-- **C125** In whatever order the cases are measured, there is one result per case, in the order of their names, with the
times of exactly the messages of this case and the summary of these times. -/
theorem C125_suite {env : Env} {sqrt : Rat → Rat} {count warmup samples buffers : Nat} {quiet : Bool} {apis transports : List String}
    {sizes : List Nat} {shuffled : List Case} {w : W} (hp : shuffled.Perm (buildCases apis transports sizes buffers))
    {rs : List Result} (h : (suite env sqrt count warmup samples quiet shuffled w).1 = some rs) :
    rs.map (·.case) = buildCases apis transports sizes buffers ∧
    (∃ ms : List Result, ms.Perm rs ∧ ms.map (·.case) = shuffled ∧
      ms.map (·.seconds) = allTimes env.dur count warmup samples shuffled.length (w.ops + 1)) ∧
    (suite env sqrt count warmup samples quiet shuffled w).2.log =
      w.log ++ .served :: (shuffled.flatMap (oneCase count warmup samples) ++ [.stopped]) ∧
    ∀ r ∈ rs, Says sqrt r.seconds count r.summary := by
  unfold suite at h ⊢
  cases h0 : env.fails w.ops with
  | true => simp [op, h0] at h
  | false =>
    simp only [op, h0, Bool.false_eq_true, if_false] at h ⊢
    let w1 : W := if quiet = true then ⟨w.clock + env.dur w.ops, w.ops + 1, 30, w.log ++ [.served]⟩
      else ⟨w.clock + env.dur w.ops, w.ops + 1, w.level, w.log ++ [.served]⟩
    have ho : w1.ops = w.ops + 1 := by simp only [w1]; split <;> rfl
    have hl : w1.log = w.log ++ [.served] := by simp only [w1]; split <;> rfl
    have key := runCases_spec (env := env) (sqrt := sqrt) (count := count) (warmup := warmup) (samples := samples) (cs := shuffled) (w := w1)
    change (Option.map _ (runCases env sqrt count warmup samples shuffled w1).1) = some rs at h
    change _ ∧ _ ∧ (runCases env sqrt count warmup samples shuffled w1).2.log ++ [.stopped] = _ ∧ _
    obtain ⟨ms, hm, rfl⟩ := Option.map_eq_some_iff.1 h
    obtain ⟨k1, k2, k3, k4⟩ := key.2.2.1 ms hm
    have perm := sort_perm (le := fun a b : Result => idLe a.case b.case) ms
    refine ⟨?_, ⟨ms, perm.symm, k1, by rw [k2, ho]⟩, by rw [k3, hl]; simp, fun r hr => k4 r (perm.mem_iff.1 hr)⟩
    have pc : ((sort (fun a b : Result => idLe a.case b.case) ms).map (·.case)).Perm (buildCases apis transports sizes buffers) := by
      refine (perm.map _).trans ?_
      rw [k1]; exact hp
    have asked := (C125_cases apis transports sizes buffers).1
    refine List.Perm.eq_of_pairwise (le := fun a b : Case => a.id ≤ b.id) ?_ ?_ (C125_cases apis transports sizes buffers).2.1 pc
    · intro a b ha hb h1 h2
      exact known_names ((asked a).1 (pc.mem_iff.1 ha)) ((asked b).1 hb) (String.le_antisymm h1 h2)
    · rw [List.pairwise_map]
      have so := sort_sorted (le := fun a b : Result => idLe a.case b.case) (fun a b => id_total a.case b.case)
        (fun a b c => id_trans a.case b.case c.case) ms
      exact so.imp (fun {a b} hab => of_decide_eq_true hab)

/-- **C125** Whatever raises, the level of the logger is what it was, every context that was opened is closed, and the server
is stopped if it was started. -/
theorem C125_left {env : Env} {sqrt : Rat → Rat} {count warmup samples : Nat} {quiet : Bool} {shuffled : List Case} {w : W} :
    (suite env sqrt count warmup samples quiet shuffled w).2.level = w.level ∧
    ((suite env sqrt count warmup samples quiet shuffled w).2.log = w.log ∨
      ∃ l, (suite env sqrt count warmup samples quiet shuffled w).2.log = w.log ++ .served :: (l ++ [.stopped]) ∧ Tidy l) := by
  unfold suite
  cases h0 : env.fails w.ops with
  | true => simp [op, h0]
  | false =>
    simp only [op, h0, Bool.false_eq_true, if_false]
    let w1 : W := if quiet = true then ⟨w.clock + env.dur w.ops, w.ops + 1, 30, w.log ++ [.served]⟩
      else ⟨w.clock + env.dur w.ops, w.ops + 1, w.level, w.log ++ [.served]⟩
    have hl : w1.log = w.log ++ [.served] := by simp only [w1]; split <;> rfl
    obtain ⟨a, ⟨l, b, c⟩, _⟩ := runCases_spec (env := env) (sqrt := sqrt) (count := count) (warmup := warmup) (samples := samples) (cs := shuffled) (w := w1)
    change (if quiet = true then w.level else (runCases env sqrt count warmup samples shuffled w1).2.level) = _ ∧
      ((runCases env sqrt count warmup samples shuffled w1).2.log ++ [.stopped] = _ ∨ ∃ l,
        (runCases env sqrt count warmup samples shuffled w1).2.log ++ [.stopped] = _ ∧ _)
    constructor
    · split
      · rfl
      · rename_i hq; rw [a]; simp [w1, hq]
    · exact Or.inr ⟨l, by rw [b, hl]; simp, c⟩

/-- **C125** If nothing raises and time passes, the suite gives results. -/
theorem C125_works {env : Env} {sqrt : Rat → Rat} {count warmup samples : Nat} {quiet : Bool} {shuffled : List Case} {w : W}
    (hf : ∀ k, env.fails k = false) (hd : ∀ k, 0 < env.dur k) (hc : 0 < count) (hs : 0 < samples) :
    (suite env sqrt count warmup samples quiet shuffled w).1.isSome := by
  unfold suite
  simp only [op, hf, Bool.false_eq_true, if_false, Option.isSome_map]
  exact runCases_spec.2.2.2 hf hd hc hs

example : ((suite ⟨fun i => i + 1, fun _ => false⟩ id 1 0 1 true [⟨"async", "tcp", 8, 1⟩, ⟨"async", "local", 8, 1⟩] ⟨0, 0, 20, []⟩).1.map
    (·.map (fun r => (r.case.transport, r.seconds)))) = some [("local", [7 + 8]), ("tcp", [3 + 4])] := by decide +kernel

end Ez.HotPath
