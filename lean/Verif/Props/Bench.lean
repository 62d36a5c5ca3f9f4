import Verif.Model.Bench
import Verif.Lemmas.Py
import Verif.Props.Compare

/-!
# C123: what a benchmark measures and what is reported of it

`ezmsg perf benchmark` runs every combination asked for, the same number of times in every repetition; the report says for every
combination the median over the repetitions of the mean; a comparison says which of them changed by more than the noise.
-/

set_option linter.unusedSimpArgs false
set_option linter.unusedVariables false

namespace Ez.Bench

/-! ### Specification -/

/-- A repetition: the parameters and the result of every test, in order. -/
abbrev Run := List (Params × Rat)

/-- A file with these repetitions. -/
def file (runs : List Run) : List Line := runs.flatMap (fun r => .info :: r.map (fun e => .entry e.1 e.2))

/-- The results of a combination in a repetition. -/
def results (c : Test) (r : Run) : List Rat := (r.filter (fun e => decide (e.1.test = c))).map (·.2)

/-- The means of a combination, one for every repetition that has results of it. -/
def means (c : Test) (runs : List Run) : List Rat :=
  (runs.filter (fun r => decide (results c r ≠ []))).map (fun r => AB.mean (results c r))

/-- Tests of the same combination have the same parameters. -/
def Uniform (runs : List Run) : Prop :=
  ∀ r ∈ runs, ∀ e ∈ r, ∀ r' ∈ runs, ∀ e' ∈ r', e.1.test = e'.1.test → e.1 = e'.1

/-! ### Reading the log -/

def vals (p : Params) (r : Run) : List Rat := (r.filter (fun e => decide (e.1 = p))).map (·.2)

def collect (p : Params) : Nat → List Run → PyDict Nat (List Rat)
  | _, [] => []
  | i, r :: rs => (if vals p r = [] then [] else [(i, vals p r)]) ++ collect p (i + 1) rs

theorem collect_snoc (p : Params) (r : Run) : ∀ (rs : List Run) (i : Nat),
    collect p i (rs ++ [r]) = collect p i rs ++ (if vals p r = [] then [] else [(i + rs.length, vals p r)])
  | [], i => by simp [collect]
  | s :: rs, i => by
    rw [List.cons_append, collect, collect, collect_snoc p r rs (i + 1), List.append_assoc, List.length_cons]
    have : i + 1 + rs.length = i + (rs.length + 1) := by omega
    rw [this]

theorem collect_keys (p : Params) : ∀ (rs : List Run) (i j : Nat), i + rs.length ≤ j → PyDict.get? (collect p i rs) j = none
  | [], i, j, _ => rfl
  | s :: rs, i, j, h => by
    rw [collect, PyDict.get?_append, collect_keys p rs (i + 1) j (by simp at h; omega)]
    simp at h
    by_cases hv : vals p s = []
    · simp [hv, PyDict.get?_nil]
    · have : i ≠ j := by omega
      simp [hv, PyDict.get?_cons, PyDict.get?_nil, this]

theorem set_fresh {K V : Type} [DecidableEq K] (d : PyDict K V) (k : K) (v : V) (h : PyDict.get? d k = none) :
    PyDict.set d k v = d ++ [(k, v)] := by
  simp [PyDict.set, h]

theorem set_last {K V : Type} [DecidableEq K] (d : PyDict K V) (k : K) (v w : V) (h : PyDict.get? d k = none) :
    PyDict.set (d ++ [(k, v)]) k w = d ++ [(k, w)] := by
  have hg : PyDict.get? (d ++ [(k, v)]) k = some v := by
    rw [PyDict.get?_append, h]; simp [PyDict.get?_cons]
  simp only [PyDict.set, hg, Option.isSome_some, if_true, PyDict.modify]
  have hn : ∀ e ∈ d, e.1 ≠ k := by
    intro e he hk
    have := (PyDict.get?_eq_none).1 h
    exact this (by rw [← hk]; exact List.mem_map.2 ⟨e, he, rfl⟩)
  rw [List.map_append]
  congr 1
  · conv => rhs; rw [← List.map_id d]
    apply List.map_congr_left
    intro e he
    simp [hn e he]
  · simp

/-- What the table has after `rs` and `r`, the latter being read. -/
def Holds (t : Table) (rs : List Run) (r : Run) : Prop :=
  (PyDict.keys t).Nodup ∧ ∀ p, PyDict.get? t p = if collect p 0 (rs ++ [r]) = [] then none else some (collect p 0 (rs ++ [r]))

theorem holds_entry {t : Table} {rs : List Run} {r : Run} (h : Holds t rs r) (q : Params) (v : Rat) :
    Holds (PyDict.set t q (PyDict.set ((PyDict.get? t q).getD []) rs.length
      (((PyDict.get? ((PyDict.get? t q).getD []) rs.length).getD []) ++ [v]))) rs (r ++ [(q, v)]) := by
  obtain ⟨hn, hg⟩ := h
  refine ⟨PyDict.nodup_set hn, ?_⟩
  have hd : (PyDict.get? t q).getD [] = collect q 0 (rs ++ [r]) := by
    rw [hg q]; split <;> simp_all
  have hk : PyDict.get? (collect q 0 rs) rs.length = none := collect_keys q rs 0 rs.length (by omega)
  have hv : vals q (r ++ [(q, v)]) = vals q r ++ [v] := by simp [vals]
  have hnew : PyDict.set (collect q 0 (rs ++ [r])) rs.length (((PyDict.get? (collect q 0 (rs ++ [r])) rs.length).getD []) ++ [v]) =
      collect q 0 (rs ++ [r ++ [(q, v)]]) := by
    rw [collect_snoc, collect_snoc, hv]
    by_cases he : vals q r = []
    · simp only [he, if_true, List.append_nil, List.nil_append]
      rw [hk, set_fresh _ _ _ hk]
      simp
    · have h1 : PyDict.get? (collect q 0 rs ++ [(rs.length, vals q r)]) rs.length = some (vals q r) := by
        rw [PyDict.get?_append, hk]; simp [PyDict.get?_cons]
      simp only [he, if_false, Nat.zero_add, h1, Option.getD_some]
      rw [set_last _ _ _ _ hk]
      simp
  rw [hd, hnew]
  intro p
  rw [PyDict.get?_set]
  by_cases hp : p = q
  · subst hp
    have : collect p 0 (rs ++ [r ++ [(p, v)]]) ≠ [] := by
      rw [collect_snoc, hv]; simp
    simp [this]
  · have hpv : vals p (r ++ [(q, v)]) = vals p r := by simp [vals, Ne.symm hp]
    have : collect p 0 (rs ++ [r ++ [(q, v)]]) = collect p 0 (rs ++ [r]) := by
      rw [collect_snoc, collect_snoc, hpv]
    rw [this, ← hg p]
    simp [hp, Ne.symm hp]

theorem holds_info {t : Table} {rs : List Run} {r : Run} (h : Holds t rs r) : Holds t (rs ++ [r]) [] := by
  obtain ⟨hn, hg⟩ := h
  refine ⟨hn, fun p => ?_⟩
  rw [hg p, collect_snoc p [] (rs ++ [r])]
  simp [vals]

theorem read_entries (ls : List Line) : ∀ (es r : Run) (rs : List Run) (t : Table), Holds t rs r →
    ∃ t', Holds t' rs (r ++ es) ∧ read t rs.length (es.map (fun e => .entry e.1 e.2) ++ ls) = read t' rs.length ls
  | [], r, rs, t, h => ⟨t, by simpa using h, rfl⟩
  | e :: es, r, rs, t, h => by
    obtain ⟨t', h', e'⟩ := read_entries ls es (r ++ [(e.1, e.2)]) rs _ (holds_entry h e.1 e.2)
    refine ⟨t', by simpa using h', ?_⟩
    rw [← e']; rfl

theorem read_file : ∀ (more : List Run) (r : Run) (rs : List Run) (t : Table), Holds t rs r →
    ∃ rs' r', rs' ++ [r'] = rs ++ [r] ++ more ∧ Holds (read t rs.length (file more)) rs' r'
  | [], r, rs, t, h => ⟨rs, r, by simp, h⟩
  | m :: more, r, rs, t, h => by
    have h1 := holds_info h
    obtain ⟨t', h2, e2⟩ := read_entries (file more) m [] (rs ++ [r]) t h1
    obtain ⟨rs', r', h3, h4⟩ := read_file more m (rs ++ [r]) t' (by simpa using h2)
    refine ⟨rs', r', by rw [h3]; simp, ?_⟩
    have : read t rs.length (file (m :: more)) = read t' (rs ++ [r]).length (file more) := by
      rw [← e2]
      simp [file, read]
    rw [this]
    exact h4

theorem holds_file (r : Run) (more : List Run) :
    (PyDict.keys (read [] 0 (r.map (fun e => .entry e.1 e.2) ++ file more))).Nodup ∧
    ∀ p, PyDict.get? (read [] 0 (r.map (fun e => .entry e.1 e.2) ++ file more)) p =
      if collect p 0 (r :: more) = [] then none else some (collect p 0 (r :: more)) := by
  have h0 : Holds [] [] [] := ⟨by simp [PyDict.keys], fun p => by simp [collect, vals, PyDict.get?_nil]⟩
  obtain ⟨t, h1, e1⟩ := read_entries (file more) r [] [] [] h0
  obtain ⟨rs', r', h2, h3⟩ := read_file more r [] t (by simpa using h1)
  simp only [List.length_nil] at e1 h3
  rw [e1]
  simp only [Holds, h2] at h3
  simpa using h3

theorem value_none {c : Test} : ∀ {t : Table} (v : Option Rat), (∀ e ∈ t, e.1.test ≠ c) →
    t.foldl (fun v e => if e.1.test = c then summary e.2 else v) v = v
  | [], v, _ => rfl
  | e :: t, v, h => by
    rw [List.foldl_cons, if_neg (h e (by simp))]
    exact value_none v (fun x hx => h x (by simp [hx]))

theorem value_some {c : Test} {p : Params} {d : PyDict Nat (List Rat)} : ∀ {t : Table} (v : Option Rat),
    (PyDict.keys t).Nodup → (∀ e ∈ t, e.1.test = c → e.1 = p) → p.test = c → (p, d) ∈ t →
    t.foldl (fun v e => if e.1.test = c then summary e.2 else v) v = summary d
  | e :: t, v, hn, hu, hp, hm => by
    rw [List.foldl_cons]
    simp only [PyDict.keys, List.map_cons, List.nodup_cons] at hn
    rcases List.mem_cons.1 hm with rfl | hm
    · rw [if_pos hp]
      apply value_none
      intro x hx hc
      have := hu x (by simp [hx]) hc
      exact hn.1 (List.mem_map.2 ⟨x, hx, this⟩)
    · exact value_some _ hn.2 (fun x hx => hu x (by simp [hx])) hp hm

theorem collect_means (p : Params) : ∀ (rs : List Run) (i : Nat), (collect p i rs).map (fun r => AB.mean r.2) =
    (rs.filter (fun r => decide (vals p r ≠ []))).map (fun r => AB.mean (vals p r))
  | [], i => rfl
  | r :: rs, i => by
    rw [collect, List.map_append, collect_means p rs (i + 1)]
    by_cases h : vals p r = [] <;> simp [h]

/-- **C123** If the tests of a combination all have the same parameters, the report says of it the median of the means of the
repetitions that have it, and of others nothing. -/
theorem C123_reported (runs : List Run) (hne : runs ≠ []) (hu : Uniform runs) :
    ∃ says, load (file runs) = .ok says ∧ ∀ c,
      (means c runs = [] → says c = none) ∧ (means c runs ≠ [] → ∃ m, says c = some m ∧ AB.Central (means c runs) m) := by
  obtain ⟨r, more, rfl⟩ := List.exists_cons_of_ne_nil hne
  refine ⟨_, by simp only [file, List.flatMap_cons, List.cons_append, load]; rfl, ?_⟩
  intro c
  obtain ⟨hn, hg⟩ := holds_file r more
  simp only [file] at hn hg
  generalize hT : read [] 0 (r.map (fun e => Line.entry e.1 e.2) ++
    more.flatMap (fun r => Line.info :: r.map (fun e => Line.entry e.1 e.2))) = t at hn hg
  -- keys of the table are parameters of entries
  have hkey : ∀ e ∈ t, ∃ s ∈ r :: more, ∃ x ∈ s, x.1 = e.1 := by
    intro e he
    have h1 := PyDict.get?_of_mem hn (k := e.1) (v := e.2) he
    rw [hg] at h1
    have h2 : collect e.1 0 (r :: more) ≠ [] := by
      intro h3; rw [if_pos h3] at h1; cases h1
    have h3 := collect_means e.1 (r :: more) 0
    have h4 : (r :: more).filter (fun r => decide (vals e.1 r ≠ [])) ≠ [] := by
      intro h5
      rw [h5] at h3
      exact h2 (List.map_eq_nil_iff.1 h3)
    obtain ⟨s, hs⟩ := List.exists_mem_of_ne_nil _ h4
    rw [List.mem_filter] at hs
    refine ⟨s, hs.1, ?_⟩
    have h6 : vals e.1 s ≠ [] := by simpa using hs.2
    obtain ⟨v, hv⟩ := List.exists_mem_of_ne_nil _ h6
    simp only [vals, List.mem_map, List.mem_filter] at hv
    obtain ⟨x, ⟨hx, hx2⟩, _⟩ := hv
    exact ⟨x, hx, by simpa using hx2⟩
  constructor
  · intro hm
    apply value_none
    intro e he hc
    obtain ⟨s, hs, x, hx, hxe⟩ := hkey e he
    have : results c s ≠ [] := by
      intro h0
      have : x.2 ∈ results c s := by
        simp only [results, List.mem_map, List.mem_filter]
        exact ⟨x, ⟨hx, by simpa [hxe] using hc⟩, rfl⟩
      rw [h0] at this
      cases this
    have : AB.mean (results c s) ∈ means c (r :: more) := by
      simp only [means, List.mem_map, List.mem_filter]
      exact ⟨s, ⟨hs, by simpa using this⟩, rfl⟩
    rw [hm] at this
    cases this
  · intro hm
    obtain ⟨_, hm1⟩ := List.exists_mem_of_ne_nil _ hm
    simp only [means, List.mem_map, List.mem_filter] at hm1
    obtain ⟨s, ⟨hs, hs2⟩, _⟩ := hm1
    have hs3 : results c s ≠ [] := by simpa using hs2
    obtain ⟨_, hv⟩ := List.exists_mem_of_ne_nil _ hs3
    simp only [results, List.mem_map, List.mem_filter] at hv
    obtain ⟨x, ⟨hx, hx2⟩, _⟩ := hv
    have hxc : x.1.test = c := by simpa using hx2
    have hrv : ∀ s' ∈ r :: more, results c s' = vals x.1 s' := by
      intro s' hs'
      simp only [results, vals]
      congr 1
      apply List.filter_congr
      intro e he
      by_cases hc : e.1.test = c
      · have := hu s' hs' e he s hs x hx (hc.trans hxc.symm)
        simp [hc, this, hxc]
      · have : e.1 ≠ x.1 := fun h => hc (by rw [h, hxc])
        simp [hc, this]
    have hmeq : (collect x.1 0 (r :: more)).map (fun r => AB.mean r.2) = means c (r :: more) := by
      rw [collect_means, means]
      have h1 : (r :: more).filter (fun r => decide (vals x.1 r ≠ [])) = (r :: more).filter (fun r => decide (results c r ≠ [])) := by
        apply List.filter_congr
        intro s' hs'
        rw [hrv s' hs']
      rw [h1]
      apply List.map_congr_left
      intro s' hs'
      rw [hrv s' (List.mem_filter.1 hs').1]
    have hcne : collect x.1 0 (r :: more) ≠ [] := by
      intro h0
      rw [h0] at hmeq
      exact hm hmeq.symm
    have hget := hg x.1
    rw [if_neg hcne] at hget
    have hval : value t c = summary (collect x.1 0 (r :: more)) := by
      apply value_some none hn _ hxc (PyDict.mem_of_get? hget)
      intro e he hc
      obtain ⟨s', hs', y, hy, hye⟩ := hkey e he
      rw [← hye]
      exact hu s' hs' y hy s hs x hx (by rw [hye, hc, hxc])
    obtain ⟨m, h1, h2, _⟩ := (AB.C121_median (means c (r :: more))).2 hm
    refine ⟨m, ?_, h2⟩
    rw [hval, summary, hmeq, h1]

def demoTest : Test := ⟨16, 1, "fanin", "local"⟩
def demoParams : Params := ⟨demoTest, 100, 5, 1⟩

example : Uniform [[(demoParams, 10), (demoParams, 20)], [(demoParams, 40)]] ∧
    means demoTest [[(demoParams, 10), (demoParams, 20)], [(demoParams, 40)]] = [15, 40] ∧
    (match load (file [[(demoParams, 10), (demoParams, 20)], [(demoParams, 40)]]) with
      | .ok says => says demoTest
      | .error _ => none) = some ((55 : Rat) / 2) := by
  refine ⟨?_, by decide +kernel, by decide +kernel⟩
  intro r hr e he r' hr' e' he' _
  simp at hr hr'
  rcases hr with rfl | rfl <;> rcases hr' with rfl | rfl <;> simp at he he' <;> grind

/-- **C123 (violation)** If a combination is measured with other parameters, such as another number of messages, in a further
part of the file, the results of one of them are not reported, although the report does not tell them apart. -/
theorem C123_negation_mixed :
    (match load (file [[(demoParams, 10)], [({ demoParams with numMsgs := 200 }, 20)]]) with
      | .ok says => says demoTest
      | .error _ => none) = some 20 ∧
    means demoTest [[(demoParams, 10)], [({ demoParams with numMsgs := 200 }, 20)]] = [10, 20] := by decide +kernel

/-! ### Running the tests -/

theorem count_prod {α β γ : Type} [BEq α] [LawfulBEq α] [BEq β] [LawfulBEq β] [BEq γ] [LawfulBEq γ] (f : α → β → γ)
    (hf : ∀ a b a' b', f a b = f a' b' → a = a' ∧ b = b') (ys : List β) (a : α) (b : β) :
    ∀ xs : List α, (xs.flatMap (fun x => ys.map (f x))).count (f a b) = xs.count a * ys.count b
  | [] => by simp
  | x :: xs => by
    rw [List.flatMap_cons, List.count_append, count_prod f hf ys a b xs, List.count_cons]
    have h : (ys.map (f x)).count (f a b) = if x == a then ys.count b else 0 := by
      by_cases hx : x = a
      · subst hx
        simp only [beq_self_eq_true, if_true]
        induction ys with
        | nil => rfl
        | cons y ys ih =>
          rw [List.map_cons, List.count_cons, List.count_cons, ih]
          by_cases hy : y = b
          · subst hy; simp
          · have : f x y ≠ f x b := fun e => hy (hf _ _ _ _ e).2
            simp [hy, this]
      · rw [if_neg (by simpa using hx), List.count_eq_zero]
        intro hm
        obtain ⟨y, _, hy⟩ := List.mem_map.1 hm
        exact hx (hf _ _ _ _ hy).1
    rw [h]
    by_cases hx : x = a <;> simp [hx, Nat.add_mul, Nat.add_comm]

theorem count_outer {α γ : Type} [BEq α] [LawfulBEq α] [BEq γ] [LawfulBEq γ] (g : α → List γ) (t : γ) (a : α) (n : Nat)
    (h1 : (g a).count t = n) (h2 : ∀ x, x ≠ a → (g x).count t = 0) : ∀ xs : List α, (xs.flatMap g).count t = xs.count a * n
  | [] => by simp
  | x :: xs => by
    rw [List.flatMap_cons, List.count_append, count_outer g t a n h1 h2 xs, List.count_cons]
    by_cases hx : x = a
    · subst hx; simp [h1, Nat.add_mul, Nat.add_comm]
    · simp [hx, h2 x hx]

theorem count_replicate_flatten {γ : Type} [BEq γ] [LawfulBEq γ] (l : List γ) (t : γ) : ∀ n : Nat,
    (List.replicate n l).flatten.count t = n * l.count t
  | 0 => by simp
  | n + 1 => by
    rw [List.replicate_succ, List.flatten_cons, List.count_append, count_replicate_flatten l t n, Nat.add_mul]; omega

/-- How often the sizes and numbers of clients are asked for together: every size with every number, or one by one. -/
def asked (a : Args) (size clients : Int) : Nat :=
  let sizes := a.sizes.getD [16, 1048576]
  let cs := a.clients.getD [1, 16]
  if a.grid then sizes.count size * cs.count clients else (sizes.zip cs).count (size, clients)

/-- **C123** Every combination is tested as often as asked for: sizes with numbers of clients (every one with every other, or one
by one), with every configuration and every way to communicate, `iters` times. -/
theorem C123_tests {a : Args} {ts : List Test} (h : tests a = .ok ts) (t : Test) :
    ts.count t = a.iters.toNat * (asked a t.size t.clients *
      ((a.configs.getD ["fanin", "fanout", "relay"]).count t.config *
        (a.comms.getD ["local", "shm", "tcp", "shm_spread", "tcp_spread"]).count t.comms)) := by
  simp only [tests] at h
  split at h
  · cases h
  · split at h
    · cases h
    · split at h
      · cases h
      · split at h
        · cases h
        · simp only [Except.ok.injEq] at h
          subst h
          rw [count_replicate_flatten]
          congr 1
          rw [count_outer (a := (t.size, t.clients))
            (n := (a.configs.getD knownConfigs).count t.config * (a.comms.getD defaultComms).count t.comms)]
          · have : (combine a.grid (a.sizes.getD defaultSizes) (a.clients.getD defaultClients)).count (t.size, t.clients) =
                asked a t.size t.clients := by
              have e1 : a.sizes.getD [16, 1048576] = a.sizes.getD defaultSizes := rfl
              have e2 : a.clients.getD [1, 16] = a.clients.getD defaultClients := rfl
              simp only [combine, asked, e1, e2]
              cases a.grid with
              | false => rfl
              | true =>
                exact count_prod Prod.mk (fun a b a' b' e => Prod.mk.inj e) _ _ _ _
            rw [this]
            rfl
          · exact count_prod (fun conf comm => (⟨t.size, t.clients, conf, comm⟩ : Test))
              (fun _ _ _ _ e => by simpa using e) _ _ _ _
          · intro sc hsc
            rw [List.count_eq_zero]
            intro hm
            simp only [List.mem_flatMap, List.mem_map] at hm
            obtain ⟨conf, _, comm, _, rfl⟩ := hm
            exact hsc rfl

example : tests ⟨5, 100, 1, 2, 1, some [16], some [1, 4], some ["local"], some ["fanin"], true⟩ =
    .ok [⟨16, 1, "fanin", "local"⟩, ⟨16, 4, "fanin", "local"⟩, ⟨16, 1, "fanin", "local"⟩, ⟨16, 4, "fanin", "local"⟩] := by
  decide +kernel

/-- **C123** Nothing is run if a size or a number of clients is negative, or a way to communicate or a configuration is unknown. -/
theorem C123_checks (a : Args) :
    (tests a = .error .valueError ↔ (∃ c, c < 0 ∧ c ∈ a.clients.getD [1, 16]) ∨ (∃ s, s < 0 ∧ s ∈ a.sizes.getD [16, 1048576]) ∨
      ∃ cs, a.comms = some cs ∧ ∃ c ∈ cs, c ∉ ["local", "shm", "shm_spread", "tcp", "tcp_spread"]) ∧
    ((∃ cs, a.configs = some cs ∧ ∃ c ∈ cs, c ∉ ["fanin", "fanout", "relay"]) → ∃ e, tests a = .error e) := by
  have hd : ¬ ∃ c ∈ defaultComms, c ∉ knownComms := by decide
  have hk : ¬ ∃ c ∈ knownConfigs, c ∉ knownConfigs := by decide
  have hc : (∃ c ∈ a.comms.getD defaultComms, c ∉ knownComms) ↔ ∃ cs, a.comms = some cs ∧ ∃ c ∈ cs, c ∉ knownComms := by
    cases h : a.comms with
    | none => simp [defaultComms, knownComms]
    | some cs => simp
  have hf : (∃ c ∈ a.configs.getD knownConfigs, c ∉ knownConfigs) ↔ ∃ cs, a.configs = some cs ∧ ∃ c ∈ cs, c ∉ knownConfigs := by
    cases h : a.configs with
    | none => simp
    | some cs => simp
  have h1 : (∃ c, c < 0 ∧ c ∈ a.clients.getD [1, 16]) ↔ ∃ c ∈ a.clients.getD defaultClients, c < 0 :=
    ⟨fun ⟨c, x, y⟩ => ⟨c, y, x⟩, fun ⟨c, x, y⟩ => ⟨c, y, x⟩⟩
  have h2 : (∃ s, s < 0 ∧ s ∈ a.sizes.getD [16, 1048576]) ↔ ∃ s ∈ a.sizes.getD defaultSizes, s < 0 :=
    ⟨fun ⟨c, x, y⟩ => ⟨c, y, x⟩, fun ⟨c, x, y⟩ => ⟨c, y, x⟩⟩
  change (_ ↔ _ ∨ _ ∨ ∃ cs, a.comms = some cs ∧ ∃ c ∈ cs, c ∉ knownComms) ∧
    ((∃ cs, a.configs = some cs ∧ ∃ c ∈ cs, c ∉ knownConfigs) → _)
  rw [h1, h2, ← hc, ← hf]
  simp only [tests]
  by_cases a1 : ∃ c ∈ a.clients.getD defaultClients, c < 0
  · rw [if_pos a1]; exact ⟨⟨fun _ => Or.inl a1, fun _ => rfl⟩, fun _ => ⟨_, rfl⟩⟩
  · rw [if_neg a1]
    by_cases a2 : ∃ s ∈ a.sizes.getD defaultSizes, s < 0
    · rw [if_pos a2]; exact ⟨⟨fun _ => Or.inr (Or.inl a2), fun _ => rfl⟩, fun _ => ⟨_, rfl⟩⟩
    · rw [if_neg a2]
      by_cases a3 : ∃ c ∈ a.comms.getD defaultComms, c ∉ knownComms
      · rw [if_pos a3]; exact ⟨⟨fun _ => Or.inr (Or.inr a3), fun _ => rfl⟩, fun _ => ⟨_, rfl⟩⟩
      · rw [if_neg a3]
        by_cases a4 : ∃ c ∈ a.configs.getD knownConfigs, c ∉ knownConfigs
        · rw [if_pos a4]
          refine ⟨⟨fun e => (by cases e), ?_⟩, fun _ => ⟨_, rfl⟩⟩
          rintro (e | e | e)
          · exact absurd e a1
          · exact absurd e a2
          · exact absurd e a3
        · rw [if_neg a4]
          refine ⟨⟨fun e => (by cases e), ?_⟩, fun e => absurd e a4⟩
          rintro (e | e | e)
          · exact absurd e a1
          · exact absurd e a2
          · exact absurd e a3

example : tests ⟨5, 100, 1, 2, 1, some [16], some [-1], none, none, true⟩ = .error .valueError := by decide +kernel

/-- **C123 (violation)** An unknown configuration is not reported as such: `KeyError` is raised, where `ValueError` is caught. -/
theorem C123_negation_config : tests ⟨5, 100, 1, 2, 1, none, none, none, some ["fan"], true⟩ = .error .keyError := by decide +kernel

theorem once_false (a : Args) (quit : Nat → Bool) (meas : Nat → Test → Rat) : ∀ (ts : List Test) (n : Nat),
    (∀ i, i < ts.length → quit (n + i) = false) →
    once a quit meas n ts = ((ts.zipIdx n).map (fun x => .entry (params a x.1) (meas x.2 x.1)), false, n + ts.length)
  | [], n, _ => by simp [once]
  | t :: ts, n, h => by
    have h0 := h 0 (by simp)
    simp only [Nat.add_zero] at h0
    have := once_false a quit meas ts (n + 1) (fun i hi => by
      have := h (i + 1) (by simpa using hi)
      rwa [show n + 1 + i = n + (i + 1) by omega])
    simp only [once, h0, this, Bool.false_eq_true, if_false]
    simp only [List.zipIdx_cons, List.map_cons, List.length_cons]
    congr 2
    omega

theorem once_true (a : Args) (quit : Nat → Bool) (meas : Nat → Test → Rat) : ∀ (ts : List Test) (n N : Nat),
    quit N = true → n ≤ N → N < n + ts.length → (∀ i, n ≤ i → i < N → quit i = false) →
    ∃ m, once a quit meas n ts = (((ts.zipIdx n).map (fun x => Line.entry (params a x.1) (meas x.2 x.1))).take (N - n), true, m)
  | [], n, N, hN, h1, h2, h => by simp at h2; omega
  | t :: ts, n, N, hN, h1, h2, h => by
    by_cases hn : n = N
    · subst hn
      exact ⟨n + 1, by simp [once, hN]⟩
    · obtain ⟨m, hm⟩ := once_true a quit meas ts (n + 1) N hN (by omega) (by simp at h2; omega) (fun i hi hi' => h i (by omega) hi')
      refine ⟨m, ?_⟩
      have h0 : quit n = false := h n (by omega) (by omega)
      simp only [once, h0, hm, Bool.false_eq_true, if_false]
      have : N - n = (N - (n + 1)) + 1 := by omega
      rw [this, List.zipIdx_cons, List.map_cons, List.take_succ_cons]

/-- A repetition, the first test of which is the `n`-th of all. -/
def runAt (a : Args) (meas : Nat → Test → Rat) (ts : List Test) (n : Nat) : Run :=
  (ts.zipIdx n).map (fun x => (params a x.1, meas x.2 x.1))

theorem log_never (a : Args) (quit : Nat → Bool) (meas : Nat → Test → Rat) (ts : List Test) : ∀ (k n : Nat),
    (∀ i, n ≤ i → i < n + k * ts.length → quit i = false) →
    log a quit meas ts k n = file ((List.range k).map (fun j => runAt a meas ts (n + j * ts.length)))
  | 0, n, _ => rfl
  | k + 1, n, hq => by
    have e : (k + 1) * ts.length = k * ts.length + ts.length := by rw [Nat.add_mul]; omega
    simp only [log, once_false a quit meas ts n (fun i hi => hq _ (by omega) (by omega)), Bool.false_eq_true, if_false]
    rw [log_never a quit meas ts k (n + ts.length) (fun i hi hi' => hq i (by omega) (by omega)), List.range_succ_eq_map]
    simp only [file, List.map_cons, List.flatMap_cons, List.map_map]
    congr 2
    · simp [runAt]
    · congr 2
      funext j
      simp only [Function.comp, Nat.succ_eq_add_one]
      congr 1
      rw [Nat.add_mul]; omega

/-- **C123** If it is not quit, the log has the number of repetitions asked for; every one has every test exactly as often as it is listed, in the
same shuffled order, with what was measured. -/
theorem C123_log {a : Args} {shuffle : List Test → List Test} (hs : ∀ l, (shuffle l).Perm l) {quit : Nat → Bool}
    (hq : ∀ n, quit n = false) (meas : Nat → Test → Rat) {ts : List Test} (h : tests a = .ok ts) :
    ∃ runs : List Run, benchmark a shuffle quit meas = .ok (file runs) ∧ runs.length = a.repeats.toNat ∧
      ∀ (k : Nat) r, runs[k]? = some r → (r.map (·.1.test)).Perm ts ∧
        (∀ e ∈ r, e.1 = ⟨e.1.test, a.numMsgs, a.maxDuration, a.buffers⟩) ∧
        ∀ (i : Nat) e, r[i]? = some e → e.2 = meas (k * ts.length + i) e.1.test := by
  have hlen : (shuffle ts).length = ts.length := (hs ts).length_eq
  refine ⟨(List.range a.repeats.toNat).map (fun j => runAt a meas (shuffle ts) (0 + j * (shuffle ts).length)), ?_, by simp, ?_⟩
  · simp only [benchmark, h, log_never a quit meas (shuffle ts) _ 0 (fun i _ _ => hq i)]
  · intro k r hk
    rw [List.getElem?_map] at hk
    simp only [Option.map_eq_some_iff] at hk
    obtain ⟨j, hj, rfl⟩ := hk
    have hjk : j = k := by
      rw [List.getElem?_range] at hj
      · exact (Option.some.inj hj).symm
      · rw [List.getElem?_eq_some_iff] at hj
        obtain ⟨hl, _⟩ := hj
        simpa using hl
    subst hjk
    refine ⟨?_, ?_, ?_⟩
    · have : (runAt a meas (shuffle ts) (0 + j * (shuffle ts).length)).map (·.1.test) = shuffle ts := by
        simp only [runAt, List.map_map]
        have : ((fun x : Params × Rat => x.1.test) ∘ fun x : Test × Nat => (params a x.1, meas x.2 x.1)) = Prod.fst := by
          funext x; rfl
        rw [this]
        exact List.zipIdx_map_fst _ _
      rw [this]
      exact hs ts
    · intro e he
      simp only [runAt, List.mem_map] at he
      obtain ⟨x, _, rfl⟩ := he
      rfl
    · intro i e he
      simp only [runAt, List.getElem?_map, Option.map_eq_some_iff] at he
      obtain ⟨x, hx, rfl⟩ := he
      rw [List.getElem?_zipIdx] at hx
      simp only [Option.map_eq_some_iff] at hx
      obtain ⟨y, _, rfl⟩ := hx
      simp [params, hlen]

example : benchmark ⟨5, 100, 1, 1, 2, some [16], some [1, 4], some ["local"], some ["fanin"], true⟩ List.reverse (fun _ => false)
    (fun n _ => n) = .ok (file [[(⟨⟨16, 4, "fanin", "local"⟩, 100, 5, 1⟩, 0), (⟨⟨16, 1, "fanin", "local"⟩, 100, 5, 1⟩, 1)],
      [(⟨⟨16, 4, "fanin", "local"⟩, 100, 5, 1⟩, 2), (⟨⟨16, 1, "fanin", "local"⟩, 100, 5, 1⟩, 3)]]) := by decide +kernel

/-- Whether a line is a result. -/
def Line.isEntry : Line → Bool
  | .info => false
  | .entry _ _ => true

theorem log_quit (a : Args) (quit : Nat → Bool) (meas : Nat → Test → Rat) (ts : List Test) (N : Nat) (hN : quit N = true) :
    ∀ (k n : Nat), n ≤ N → (∀ i, n ≤ i → i < N → quit i = false) →
    log a quit meas ts k n <+: log a (fun _ => false) meas ts k n ∧
    (log a quit meas ts k n).countP Line.isEntry = min (N - n) (k * ts.length)
  | 0, n, _, _ => by simp [log]
  | k + 1, n, hn, h => by
    have e : (k + 1) * ts.length = k * ts.length + ts.length := by rw [Nat.add_mul]; omega
    have hcnt : ∀ l : List (Test × Nat), (l.map (fun x => Line.entry (params a x.1) (meas x.2 x.1))).countP Line.isEntry = l.length := by
      intro l
      rw [List.countP_eq_length.2]
      · simp
      · intro x hx
        obtain ⟨y, _, rfl⟩ := List.mem_map.1 hx
        rfl
    have h0 := once_false a (fun _ => false) meas ts n (fun _ _ => rfl)
    by_cases hlt : N < n + ts.length
    · obtain ⟨m, hm⟩ := once_true a quit meas ts n N hN hn hlt h
      simp only [log, hm, h0, if_true, List.append_nil, Bool.false_eq_true, if_false]
      refine ⟨?_, ?_⟩
      · refine List.IsPrefix.trans ?_ (List.prefix_append _ _)
        rw [List.prefix_cons_inj]
        exact List.take_prefix _ _
      · rw [List.countP_cons, ← List.map_take, hcnt]
        simp [Line.isEntry]
        omega
    · have h1 := once_false a quit meas ts n (fun i hi => h _ (by omega) (by omega))
      obtain ⟨i1, i2⟩ := log_quit a quit meas ts N hN k (n + ts.length) (by omega) (fun i hi hi' => h i (by omega) hi')
      simp only [log, h1, h0, Bool.false_eq_true, if_false]
      refine ⟨?_, ?_⟩
      · obtain ⟨z, hz⟩ := i1
        exact ⟨z, by rw [List.append_assoc, hz]⟩
      · rw [List.countP_append, i2, List.countP_cons, hcnt]
        simp [Line.isEntry]
        omega

/-- **C123** If it is quit before the `N`-th test, the log is that of the first `N` tests: a beginning of the whole log, with their results. -/
theorem C123_quit {a : Args} {shuffle : List Test → List Test} (hs : ∀ l, (shuffle l).Perm l) {quit : Nat → Bool} {N : Nat}
    (hN : quit N = true) (hq : ∀ i, i < N → quit i = false) (meas : Nat → Test → Rat) {ts : List Test} (h : tests a = .ok ts) :
    ∃ l whole, benchmark a shuffle quit meas = .ok l ∧ benchmark a shuffle (fun _ => false) meas = .ok whole ∧ l <+: whole ∧
      l.countP Line.isEntry = min N (a.repeats.toNat * ts.length) := by
  obtain ⟨h1, h2⟩ := log_quit a quit meas (shuffle ts) N hN a.repeats.toNat 0 (by omega) (fun i _ hi => hq i hi)
  refine ⟨_, _, by simp only [benchmark, h], by simp only [benchmark, h], h1, ?_⟩
  rw [h2, (hs ts).length_eq]; rfl

example : benchmark ⟨5, 100, 1, 1, 2, some [16], some [1, 4], some ["local"], some ["fanin"], true⟩ id (fun n => n == 3)
    (fun n _ => n) = .ok (file [[(⟨⟨16, 1, "fanin", "local"⟩, 100, 5, 1⟩, 0), (⟨⟨16, 4, "fanin", "local"⟩, 100, 5, 1⟩, 1)],
      [(⟨⟨16, 1, "fanin", "local"⟩, 100, 5, 1⟩, 2)]]) := by decide +kernel

/-- **C123** The report of a benchmark that was not quit has every combination asked for and no other: the median over all repetitions of the
mean of as many results as asked for. -/
theorem C123_report {a : Args} {shuffle : List Test → List Test} (hs : ∀ l, (shuffle l).Perm l) {quit : Nat → Bool}
    (hq : ∀ n, quit n = false) (meas : Nat → Test → Rat) {ts : List Test} (h : tests a = .ok ts) (hr : 0 < a.repeats) :
    ∃ runs says, benchmark a shuffle quit meas = .ok (file runs) ∧ load (file runs) = .ok says ∧ ∀ c,
      (c ∉ ts → says c = none) ∧
      (c ∈ ts → ∃ m, says c = some m ∧ AB.Central (runs.map (fun r => AB.mean (results c r))) m ∧
        runs.length = a.repeats.toNat ∧ ∀ r ∈ runs, (results c r).length = ts.count c) := by
  obtain ⟨runs, h1, h2, h3⟩ := C123_log hs hq meas h
  have hmem : ∀ r ∈ runs, (r.map (·.1.test)).Perm ts ∧ ∀ e ∈ r, e.1 = ⟨e.1.test, a.numMsgs, a.maxDuration, a.buffers⟩ := by
    intro r hr
    obtain ⟨k, hk⟩ := List.mem_iff_getElem?.1 hr
    exact ⟨(h3 k r hk).1, (h3 k r hk).2.1⟩
  have hne : runs ≠ [] := by
    intro h0
    rw [h0] at h2
    simp at h2
    omega
  have hu : Uniform runs := by
    intro r hr e he r' hr' e' he' ht
    rw [(hmem r hr).2 e he, (hmem r' hr').2 e' he', ht]
  have hlen : ∀ c, ∀ r ∈ runs, (results c r).length = ts.count c := by
    intro c r hr
    rw [← (hmem r hr).1.count_eq]
    simp only [results, List.length_map]
    rw [List.count, List.countP_map, ← List.countP_eq_length_filter]
    apply List.countP_congr
    intro x _
    simp
  obtain ⟨says, h4, h5⟩ := C123_reported runs hne hu
  refine ⟨runs, says, h1, h4, fun c => ⟨?_, ?_⟩⟩
  · intro hc
    apply (h5 c).1
    have : runs.filter (fun r => decide (results c r ≠ [])) = [] := by
      rw [List.filter_eq_nil_iff]
      intro r hr
      have := hlen c r hr
      rw [List.count_eq_zero.2 hc] at this
      simpa using List.length_eq_zero_iff.1 this
    simp only [means, this, List.map_nil]
  · intro hc
    have hf : runs.filter (fun r => decide (results c r ≠ [])) = runs := by
      rw [List.filter_eq_self]
      intro r hr
      have := hlen c r hr
      have hp := List.count_pos_iff.2 hc
      simp only [ne_eq, decide_not, Bool.not_eq_true', decide_eq_false_iff_not]
      intro h0
      rw [h0] at this
      simp at this
      omega
    have hm : means c runs = runs.map (fun r => AB.mean (results c r)) := by rw [means, hf]
    obtain ⟨m, h6, h7⟩ := (h5 c).2 (by rw [hm]; simpa using hne)
    exact ⟨m, h6, by rw [← hm]; exact h7, h2, hlen c⟩

/-- **C123 (violation)** Without repetitions an empty file is written, and reporting it raises `StopIteration`. -/
theorem C123_negation_empty {a : Args} {shuffle : List Test → List Test} {quit : Nat → Bool} (meas : Nat → Test → Rat) {ts : List Test}
    (h : tests a = .ok ts) (hr : a.repeats ≤ 0) :
    benchmark a shuffle quit meas = .ok [] ∧ load [] = .error .stopIteration := by
  have : a.repeats.toNat = 0 := by omega
  simp [benchmark, h, this, log, load]

/-- **C123 (violation)** The wall clock time shown is ambiguous: an hour and five seconds look like a minute and five seconds. -/
theorem C123_negation_wallclock : wallclock 3605 = wallclock 65 := by decide

/-! ### Comparing two reports -/

/-- **C123** A rate is an improvement above the noise band and a regression below it, a latency the other way round. -/
theorem C123_classified {band : Rat} (hb : 0 ≤ band) (m : Metric) (q : Rat) :
    (classify band m (.num q) = .improvement ↔ if m = .latencyMean ∨ m = .latencyMedian then q < 100 - band else 100 + band < q) ∧
    (classify band m (.num q) = .regression ↔ if m = .latencyMean ∨ m = .latencyMedian then 100 + band < q else q < 100 - band) := by
  have key : ∀ s : Rat, ((if s ≤ band ∧ -band ≤ s then Said.neutral else if s > 0 then .improvement else .regression) = .improvement ↔ band < s) ∧
      ((if s ≤ band ∧ -band ≤ s then Said.neutral else if s > 0 then .improvement else .regression) = .regression ↔ s < -band) := by
    intro s
    by_cases h1 : s ≤ band ∧ -band ≤ s
    · rw [if_pos h1]
      constructor <;> constructor <;> intro h <;> first | grind | cases h
    · rw [if_neg h1]
      by_cases h2 : s > 0
      · rw [if_pos h2]
        constructor <;> constructor <;> intro h <;> first | rfl | grind | cases h
      · rw [if_neg h2]
        constructor <;> constructor <;> intro h <;> first | rfl | grind | cases h
  cases m <;> simp only [classify, score, Metric.latency, key, if_true, if_false, reduceCtorEq, or_false, or_true, false_or, true_or,
    Bool.false_eq_true] <;> constructor <;> grind

example : classify 10 .dataRate (.num 120) = .improvement ∧ classify 10 .latencyMean (.num 120) = .regression := by decide +kernel

/-- **C123** A comparison counts every metric of every combination once; the lists have the improvements, the largest first, and the
regressions, the largest first. -/
theorem C123_overview (band : Rat) (ds : List Delta) :
    let o := overview band ds
    o.improved + o.neutral + o.regressed = ds.length ∧
    o.improvements.Perm (ds.filter (fun d => decide (classify band d.metric d.val = .improvement))) ∧ o.improved = o.improvements.length ∧
    o.regressions.Perm (ds.filter (fun d => decide (classify band d.metric d.val = .regression))) ∧ o.regressed = o.regressions.length ∧
    o.improvements.Pairwise (fun x y => score y.metric y.val ≤ score x.metric x.val) ∧
    o.regressions.Pairwise (fun x y => score x.metric x.val ≤ score y.metric y.val) := by
  have key : ∀ (ds : List Delta) (o : Overview), o.improved = o.improvements.length → o.regressed = o.regressions.length →
      let o' := ds.foldl (note band) o
      o'.improved + o'.neutral + o'.regressed = o.improved + o.neutral + o.regressed + ds.length ∧
      o'.improvements = o.improvements ++ ds.filter (fun d => decide (classify band d.metric d.val = .improvement)) ∧
      o'.regressions = o.regressions ++ ds.filter (fun d => decide (classify band d.metric d.val = .regression)) ∧
      o'.improved = o'.improvements.length ∧ o'.regressed = o'.regressions.length := by
    intro ds
    induction ds with
    | nil => intro o h1 h2; simp [h1, h2]
    | cons d ds ih =>
      intro o h1 h2
      have := ih (note band o d) (by unfold note; split <;> simp [h1]) (by unfold note; split <;> simp [h2])
      obtain ⟨i1, i2, i3, i4, i5⟩ := this
      simp only [List.foldl_cons]
      refine ⟨?_, ?_, ?_, i4, i5⟩
      · rw [i1]
        unfold note
        split <;> simp <;> omega
      · rw [i2]
        unfold note
        split <;> rename_i hc <;> simp [hc]
      · rw [i3]
        unfold note
        split <;> rename_i hc <;> simp [hc]
  obtain ⟨k1, k2, k3, k4, k5⟩ := key ds {} rfl rfl
  simp only [List.nil_append] at k2 k3
  simp only [overview]
  refine ⟨by simpa using k1, ?_, ?_, ?_, ?_, ?_, ?_⟩
  · rw [← k2]; exact AB.sort_perm _
  · rw [AB.length_sort]; exact k4
  · rw [← k3]; exact AB.sort_perm _
  · rw [AB.length_sort]; exact k5
  · have := AB.sort_sorted (le := fun x y : Delta => decide (score y.metric y.val ≤ score x.metric x.val))
      (by intro x y; simp only [decide_eq_true_eq]; grind) (by intro x y z; simp only [decide_eq_true_eq]; grind)
      (ds.foldl (note band) {}).improvements
    simpa using this
  · have := AB.sort_sorted (le := fun x y : Delta => decide (score x.metric x.val ≤ score y.metric y.val))
      (by intro x y; simp only [decide_eq_true_eq]; grind) (by intro x y z; simp only [decide_eq_true_eq]; grind)
      (ds.foldl (note band) {}).regressions
    simpa using this

example : (overview 10 [⟨demoTest, .dataRate, .num 120⟩, ⟨demoTest, .latencyMean, .num 50⟩, ⟨demoTest, .dataRate, .num 95⟩]).improvements =
    [⟨demoTest, .latencyMean, .num 50⟩, ⟨demoTest, .dataRate, .num 120⟩] := by decide +kernel

/-- **C123** Five metrics are counted for every combination of which both reports have something, and none of the others. -/
theorem C123_compared (band : Rat) (cells : List Test) (c b : Metric → Test → Option Rat) :
    (∀ d ∈ deltas (rows cells c b) c b, d.cell ∈ cells ∧ d.val = relative (c d.metric d.cell) (b d.metric d.cell) ∧
      ∃ m x y, c m d.cell = some x ∧ b m d.cell = some y) ∧
    (deltas (rows cells c b) c b).length = 5 * (rows cells c b).length ∧
    ∀ t ∈ cells, ∀ m x y, c m t = some x → b m t = some y → y ≠ 0 →
      ⟨t, m, .num (x / y * 100)⟩ ∈ deltas (rows cells c b) c b := by
  have hall : ∀ m : Metric, m ∈ metrics := by intro m; cases m <;> decide
  refine ⟨?_, ?_, ?_⟩
  · intro d hd
    simp only [deltas, List.mem_flatMap, List.mem_map] at hd
    obtain ⟨t, ht, m, _, rfl⟩ := hd
    simp only [rows, List.mem_filter, List.any_eq_true, decide_eq_true_eq] at ht
    obtain ⟨ht, m', _, hm'⟩ := ht
    refine ⟨ht, rfl, m', ?_⟩
    simp only
    cases h1 : c m' t with
    | none => simp [relative, h1] at hm'
    | some x =>
      cases h2 : b m' t with
      | none => simp [relative, h1, h2] at hm'
      | some y => exact ⟨x, y, rfl, rfl⟩
  · simp only [deltas]
    induction rows cells c b with
    | nil => rfl
    | cons t ts ih =>
      rw [List.flatMap_cons, List.length_append, ih]
      simp [metrics]
      omega
  · intro t ht m x y h1 h2 hy
    have hrel : relative (c m t) (b m t) = .num (x / y * 100) := by simp [relative, h1, h2, hy]
    simp only [deltas, List.mem_flatMap, List.mem_map]
    refine ⟨t, ?_, m, hall m, by rw [hrel]⟩
    simp only [rows, List.mem_filter, List.any_eq_true, decide_eq_true_eq]
    exact ⟨ht, m, hall m, by rw [hrel]; simp⟩

example : deltas (rows [demoTest] (fun _ _ => some 10) (fun m _ => if m = .dataRate then some 5 else none))
    (fun _ _ => some 10) (fun m _ => if m = .dataRate then some 5 else none) ≠ [] := by decide +kernel

theorem relative_num {x y : Rat} (hy : 0 < y) : relative (some x) (some y) = .num (x / y * 100) := by
  have : y ≠ 0 := by grind
  simp [relative, this]

theorem ratio_lt {x y k : Rat} (hy : 0 < y) : x / y * 100 < k ↔ 100 * x < k * y := by
  have h : x / y * y = x := Rat.div_mul_cancel (by grind)
  constructor
  · intro h1
    have := Rat.mul_lt_mul_of_pos_right h1 hy
    grind
  · intro h1
    apply Rat.lt_of_mul_lt_mul_right _ (Rat.le_of_lt hy)
    grind

theorem lt_ratio {x y k : Rat} (hy : 0 < y) : k < x / y * 100 ↔ k * y < 100 * x := by
  have h : x / y * y = x := Rat.div_mul_cancel (by grind)
  constructor
  · intro h1
    have := Rat.mul_lt_mul_of_pos_right h1 hy
    grind
  · intro h1
    apply Rat.lt_of_mul_lt_mul_right _ (Rat.le_of_lt hy)
    grind

/-- **C123 (partial)** If the reports are exchanged, a metric that was an improvement is never one again, nor a regression; a lower rate is
then an improvement and a shorter latency a regression. Missing: a higher rate or a longer latency may be called neutral. -/
theorem C123_exchanged_partial (m : Metric) {x y : Rat} (hx : 0 < x) (hy : 0 < y) :
    (classify 10 m (relative (some x) (some y)) = .improvement → classify 10 m (relative (some y) (some x)) ≠ .improvement) ∧
    (classify 10 m (relative (some x) (some y)) = .regression → classify 10 m (relative (some y) (some x)) ≠ .regression) ∧
    (¬ (m = .latencyMean ∨ m = .latencyMedian) → classify 10 m (relative (some x) (some y)) = .regression →
      classify 10 m (relative (some y) (some x)) = .improvement) ∧
    (m = .latencyMean ∨ m = .latencyMedian → classify 10 m (relative (some x) (some y)) = .improvement →
      classify 10 m (relative (some y) (some x)) = .regression) := by
  rw [relative_num hx, relative_num hy]
  have h10 : (0 : Rat) ≤ 10 := by decide
  obtain ⟨a1, a2⟩ := C123_classified h10 m (x / y * 100)
  obtain ⟨b1, b2⟩ := C123_classified h10 m (y / x * 100)
  rw [ne_eq, ne_eq, a1, a2, b1, b2]
  simp only [ratio_lt hy, ratio_lt hx, lt_ratio hy, lt_ratio hx]
  by_cases hm : m = .latencyMean ∨ m = .latencyMedian
  · simp only [hm, if_true, not_true_eq_false, false_implies, true_implies, true_and]
    refine ⟨?_, ?_, ?_⟩ <;> intro h <;> grind
  · simp only [hm, if_false, not_false_eq_true, false_implies, true_implies, and_true]
    refine ⟨?_, ?_, ?_⟩ <;> intro h <;> grind

example : classify 10 .dataRate (relative (some 8) (some 10)) = .regression ∧
    classify 10 .dataRate (relative (some 10) (some 8)) = .improvement := by decide +kernel

/-- **C123 (violation)** A rate that is 10.5 % higher is an improvement, but the lower one compared to it is neutral. -/
theorem C123_negation_exchanged : classify 10 .dataRate (relative (some 1105) (some 1000)) = .improvement ∧
    classify 10 .dataRate (relative (some 1000) (some 1105)) = .neutral := by decide +kernel

/-- **C123 (violation)** Compared to a rate of 0, whatever the rate is, it is neutral. -/
theorem C123_negation_zero (m : Metric) {x : Rat} (hx : x ≠ 0) {band : Rat} (hb : 0 ≤ band) :
    relative (some x) (some 0) = .inf ∧ classify band m (relative (some x) (some 0)) = .neutral := by
  have : relative (some x) (some 0) = .inf := by simp [relative, hx]
  refine ⟨this, ?_⟩
  rw [this]
  have h0 : score m .inf = 0 := rfl
  have h1 : score m .inf ≤ band ∧ -band ≤ score m .inf := by
    rw [h0]; constructor <;> grind
  simp only [classify, h1, and_self, if_true]

end Ez.Bench
