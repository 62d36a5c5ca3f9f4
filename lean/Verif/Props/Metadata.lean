import Verif.Model.Metadata
import Verif.Lemmas.Py

/-!
# C108: the metadata of a system describes its components

Specification: `Inside` (the components of a system, as a relation), `Describes` (what the entry of a component has to say, for a unit and
for a collection).
-/

set_option linter.unusedSimpArgs false
set_option linter.unusedSectionVars false

namespace Ez.Meta

variable {A Y W : Type}

/-- The components of a system: its roots, and the components of its components. -/
inductive Inside (roots : List (Comp A Y W)) : Comp A Y W → Prop where
  | root {c} (h : c ∈ roots) : Inside roots c
  | child {c d} (h : Inside roots c) (hd : d ∈ c.children) : Inside roots d

/-- Relays republish at the boundary of a collection. -/
def Cls.relay (c : Cls) : Prop := c = .inputRelay ∨ c = .outputRelay

/-- What an endpoint of a collection that does not republish is called. -/
def Cls.asTopic : Cls → Cls
  | .inputStream => .inputTopic
  | .outputStream => .outputTopic
  | .stream => .topic
  | c => c

/-- The endpoints of a unit. -/
def Cls.ofUnit (c : Cls) : Prop := c = .stream ∨ c = .inputStream ∨ c = .outputStream

/-- The entry of a stream `s` named `n` says: its class, its address, the type of its messages, and the parameters of its class. -/
structure Says (n : String) (s : Strm A Y) (k : Cls) (m : Entry A Y) : Prop where
  cls : m.cls = k
  name : m.name = n
  addr : m.addr = s.addr
  msgType : m.msgType = s.msgType
  inp : m.inp = if k = .inputStream ∨ k = .inputRelay then some s.inp else none
  out : m.out = if k = .outputStream ∨ k = .outputRelay then some s.out else none
  copy : m.copy = if k = .inputRelay ∨ k = .outputRelay then some s.copy else none

/-- The entry of a task `t` named `x.name` of a component with these streams. -/
structure TaskSays (streams : PyDict String (Strm A Y)) (t : Tsk) (x : TaskEntry A) : Prop where
  subscribes : ∀ a, x.subscribes = some a ↔ ∃ n s, t.subscribes = some n ∧ streams.get? n = some s ∧ s.addr = a
  publishes : ∀ ns, t.publishes = some ns → (∀ n ∈ ns, n ∈ PyDict.keys streams) →
    x.publishes.map some = ns.map fun n => (streams.get? n).map (·.addr)
  silent : t.publishes = none → x.publishes = []

/-- What the entry of a component has to say. -/
structure Describes (le : Orders A) (c : Comp A Y W) (e : CompEntry A Y W) : Prop where
  addr : e.addr = c.addr
  name : e.name = c.name
  common : e.common = c.common
  dynamic : ∀ t y, e.dynamic = some (t, y) ↔
    ∃ s, c.streams.get? "INPUT_SETTINGS" = some s ∧ s.cls = .inputStream ∧ s.addr = t ∧ s.msgType = y
  unit : c.kind = .unit → ∃ streams tasks threads, e.special = .unit streams tasks c.main threads ∧
    (∀ n m, streams.get? n = some m ↔ ∃ s, c.streams.get? n = some s ∧ s.cls.ofUnit ∧ Says n s s.cls m) ∧
    (tasks.map (·.name)).Perm (PyDict.keys c.tasks) ∧ (∀ x ∈ tasks, ∃ t, (x.name, t) ∈ c.tasks ∧ TaskSays c.streams t x) ∧
    (tasks.map (·.name)).Pairwise (fun x y => le.name x y) ∧ threads.Perm c.threads ∧ threads.Pairwise (fun x y => le.name x y)
  collection : c.kind = .collection → ∃ topics relays children, e.special = .collection topics relays children ∧
    (∀ n m, topics.get? n = some m ↔ ∃ s, c.streams.get? n = some s ∧ ¬ s.cls.relay ∧ Says n s s.cls.asTopic m) ∧
    (∀ n m, relays.get? n = some m ↔ ∃ s, c.streams.get? n = some s ∧ s.cls.relay ∧ Says n s s.cls m) ∧
    children.Perm (c.children.map (·.addr)) ∧ children.Pairwise (fun x y => le.addr x y)
  other : c.kind = .other → e.special = .other

/-! ## Proofs -/

/-- The entry of a stream, in one dictionary. -/
theorem describe_spec (b : Bool) (n : String) (s : Strm A Y) (m : Entry A Y) :
    (describe b n s = (.streams, m) ↔ b = false ∧ s.cls.ofUnit ∧ Says n s s.cls m) ∧
      (describe b n s = (.relays, m) ↔ s.cls.relay ∧ Says n s s.cls m) ∧
      (describe true n s = (.topics, m) ↔ ¬ s.cls.relay ∧ Says n s s.cls.asTopic m) := by
  have key : ∀ (c : Cls) (i : Option In) (o : Option Out) (p : Option Bool),
      (⟨c, n, s.addr, s.msgType, i, o, p⟩ : Entry A Y) = m ↔
        m.cls = c ∧ m.name = n ∧ m.addr = s.addr ∧ m.msgType = s.msgType ∧ m.inp = i ∧ m.out = o ∧ m.copy = p := by
    intro c i o p
    cases m
    simp only [Entry.mk.injEq]
    constructor <;> (rintro ⟨h1, h2, h3, h4, h5, h6, h7⟩; exact ⟨h1.symm, h2.symm, h3.symm, h4.symm, h5.symm, h6.symm, h7.symm⟩)
  have says : ∀ c, Says n s c m ↔ m.cls = c ∧ m.name = n ∧ m.addr = s.addr ∧ m.msgType = s.msgType ∧
      (m.inp = if c = .inputStream ∨ c = .inputRelay then some s.inp else none) ∧
      (m.out = if c = .outputStream ∨ c = .outputRelay then some s.out else none) ∧
      (m.copy = if c = .inputRelay ∨ c = .outputRelay then some s.copy else none) := by
    intro c
    exact ⟨fun h => ⟨h.1, h.2, h.3, h.4, h.5, h.6, h.7⟩, fun ⟨h1, h2, h3, h4, h5, h6, h7⟩ => ⟨h1, h2, h3, h4, h5, h6, h7⟩⟩
  simp only [says]
  cases b <;> cases hc : s.cls <;>
    simp [describe, hc, Cls.isa, Cls.base, Cls.relay, Cls.ofUnit, Cls.asTopic, key]

theorem put_get (d : Dicts A Y) (n k : String) (x : Slot × Entry A Y) :
    ((d.put n x).streams.get? k = if k = n ∧ x.1 = .streams then some x.2 else d.streams.get? k) ∧
      ((d.put n x).topics.get? k = if k = n ∧ x.1 = .topics then some x.2 else d.topics.get? k) ∧
      ((d.put n x).relays.get? k = if k = n ∧ x.1 = .relays then some x.2 else d.relays.get? k) := by
  obtain ⟨sl, e⟩ := x
  cases sl <;> simp [Dicts.put, PyDict.get?_set] <;> (intros; simp_all)

/-- Looking up in the dictionaries after the loop. -/
theorem fold_get (b : Bool) (ss : PyDict String (Strm A Y)) (hn : (PyDict.keys ss).Nodup) (d : Dicts A Y) (k : String) :
    let r := ss.foldl (fun d x => d.put x.1 (describe b x.1 x.2)) d
    (r.streams.get? k = match ss.get? k with
      | some s => if (describe b k s).1 = .streams then some (describe b k s).2 else d.streams.get? k
      | none => d.streams.get? k) ∧
    (r.topics.get? k = match ss.get? k with
      | some s => if (describe b k s).1 = .topics then some (describe b k s).2 else d.topics.get? k
      | none => d.topics.get? k) ∧
    (r.relays.get? k = match ss.get? k with
      | some s => if (describe b k s).1 = .relays then some (describe b k s).2 else d.relays.get? k
      | none => d.relays.get? k) := by
  induction ss generalizing d with
  | nil => simp [PyDict.get?_nil]
  | cons x ss ih =>
    obtain ⟨n, s⟩ := x
    simp only [PyDict.keys, List.map_cons, List.nodup_cons] at hn
    have hp := put_get d n k (describe b n s)
    have := ih hn.2 (d.put n (describe b n s))
    simp only [List.foldl_cons]
    simp only [PyDict.get?_cons]
    by_cases hk : n = k
    · subst hk
      have hnone : PyDict.get? ss n = none := PyDict.get?_eq_none.2 hn.1
      simp only [hnone] at this
      simp only [if_true, this.1, this.2.1, this.2.2, hp.1, hp.2.1, hp.2.2, true_and]
    · have hk' : ¬ k = n := fun h => hk h.symm
      simp only [hk, if_false]
      simp only [hk', false_and, if_false] at hp
      simp only [this.1, this.2.1, this.2.2, hp.1, hp.2.1, hp.2.2]
      simp

theorem Cls.isa_inputStream (c : Cls) : c.isa .inputStream = true ↔ c = .inputStream := by
  cases c <;> decide

theorem taskEntry_says (ss : PyDict String (Strm A Y)) (n : String) (t : Tsk) : TaskSays ss t (taskEntry ss n t) := by
  refine ⟨?_, ?_, ?_⟩
  · intro a
    simp only [taskEntry, Option.bind_eq_some_iff, Option.map_eq_some_iff]
    exact ⟨fun ⟨n, h1, s, h2, h3⟩ => ⟨n, s, h1, h2, h3⟩, fun ⟨n, s, h1, h2, h3⟩ => ⟨n, h1, s, h2, h3⟩⟩
  · intro ns h hk
    simp only [taskEntry, h, Option.getD_some]
    clear h
    induction ns with
    | nil => rfl
    | cons m ns ih =>
      obtain ⟨s, hs⟩ := Option.isSome_iff_exists.1 (PyDict.mem_keys.1 (hk m (by simp)))
      simp only [List.filterMap_cons, hs, Option.map_some, List.map_cons]
      rw [ih fun x hx => hk x (by simp [hx])]
  · intro h
    simp [taskEntry, h]

/-- The orders are orders. -/
structure Orders.WF (le : Orders A) : Prop where
  addrTrans : ∀ a b c, le.addr a b = true → le.addr b c = true → le.addr a c = true
  addrTotal : ∀ a b, le.addr a b || le.addr b a
  nameTrans : ∀ a b c, le.name a b = true → le.name b c = true → le.name a c = true
  nameTotal : ∀ a b, le.name a b || le.name b a

theorem entry_describes {le : Orders A} (hle : le.WF) (c : Comp A Y W) (hn : (PyDict.keys c.streams).Nodup) :
    Describes le c (entry le c) := by
  have hfold := fun b k => fold_get b c.streams hn {} k
  refine ⟨rfl, rfl, rfl, ?_, ?_, ?_, ?_⟩
  · intro t y
    simp only [entry]
    cases hs : PyDict.get? c.streams "INPUT_SETTINGS" with
    | none => simp
    | some s =>
      by_cases hi : s.cls = .inputStream
      · simp [Cls.isa_inputStream, hi]
      · simp [Cls.isa_inputStream, hi]
  · intro hk
    simp only [entry, hk]
    refine ⟨_, _, _, rfl, ?_, ?_, ?_, ?_, List.mergeSort_perm .., List.pairwise_mergeSort hle.nameTrans hle.nameTotal _⟩
    · intro n m
      rw [(hfold _ n).1]
      cases hs : PyDict.get? c.streams n with
      | none => simp [PyDict.get?_nil]
      | some s =>
        have := (describe_spec (decide (Kind.unit = Kind.collection)) n s m).1
        have hb : decide (Kind.unit = Kind.collection) = false := rfl
        simp only [hb, true_and] at this ⊢
        simp only [Option.some.injEq, exists_eq_left', ← this]
        rcases hd : describe false n s with ⟨sl, e⟩
        by_cases hsl : sl = .streams <;> simp [hsl, hd, PyDict.get?_nil]
    · refine ((List.mergeSort_perm _ _).map _).trans ?_
      simp [PyDict.keys, List.map_map, Function.comp_def, taskEntry]
    · intro x hx
      rw [List.mem_mergeSort, List.mem_map] at hx
      obtain ⟨y, hy, rfl⟩ := hx
      exact ⟨y.2, hy, taskEntry_says _ _ _⟩
    · rw [List.pairwise_map]
      exact List.pairwise_mergeSort (le := fun x y : TaskEntry A => le.name x.name y.name)
        (fun a b c => hle.nameTrans _ _ _) (fun a b => hle.nameTotal _ _) _
  · intro hk
    simp only [entry, hk]
    refine ⟨_, _, _, rfl, ?_, ?_, List.mergeSort_perm .., List.pairwise_mergeSort hle.addrTrans hle.addrTotal _⟩
    · intro n m
      rw [(hfold _ n).2.1]
      cases hs : PyDict.get? c.streams n with
      | none => simp [PyDict.get?_nil]
      | some s =>
        have := (describe_spec true n s m).2.2
        have hb : decide (Kind.collection = Kind.collection) = true := rfl
        simp only [hb]
        simp only [Option.some.injEq, exists_eq_left', ← this]
        rcases hd : describe true n s with ⟨sl, e⟩
        by_cases hsl : sl = .topics <;> simp [hsl, hd, PyDict.get?_nil]
    · intro n m
      rw [(hfold _ n).2.2]
      cases hs : PyDict.get? c.streams n with
      | none => simp [PyDict.get?_nil]
      | some s =>
        have := (describe_spec true n s m).2.1
        have hb : decide (Kind.collection = Kind.collection) = true := rfl
        simp only [hb]
        simp only [Option.some.injEq, exists_eq_left', ← this]
        rcases hd : describe true n s with ⟨sl, e⟩
        by_cases hsl : sl = .relays <;> simp [hsl, hd, PyDict.get?_nil]
  · intro hk
    simp only [entry, hk]

theorem mem_crawl (l : List (Comp A Y W)) (d : Comp A Y W) : d ∈ crawl l ↔ Inside l d := by
  have mono : ∀ {l l' : List (Comp A Y W)} {d}, Inside l d → (∀ c ∈ l, Inside l' c) → Inside l' d := by
    intro l l' d h hs
    induction h with
    | root h => exact hs _ h
    | child h hd ih => exact .child ih hd
  induction l using crawl.induct with
  | case1 =>
    simp only [crawl, List.not_mem_nil, false_iff]
    intro h
    induction h with
    | root h => cases h
    | child _ _ ih => exact ih
  | case2 c search ih =>
    have ih' : d ∈ crawl (c.children.reverse ++ search) ↔ Inside (c.children.reverse ++ search) d := ih
    rw [crawl, List.mem_cons, ih']
    clear ih ih'
    constructor
    · rintro (rfl | h)
      · exact .root (by simp)
      · refine mono h fun x hx => ?_
        simp only [List.mem_append, List.mem_reverse] at hx
        rcases hx with hx | hx
        · exact .child (.root (by simp)) hx
        · exact .root (by simp [hx])
    · intro h
      induction h with
      | root h =>
        simp only [List.mem_cons] at h
        rcases h with rfl | h
        · exact .inl rfl
        · exact .inr (.root (by simp [h]))
      | child h hd ih =>
        rcases ih with rfl | ih
        · exact .inr (.root (by simp [hd]))
        · exact .inr (.child ih hd)

section
variable [DecidableEq A]

theorem collect_eq (le : Orders A) (roots : List (Comp A Y W)) :
    collect le roots = (roots.flatMap fun r => crawl [r]).foldl (fun d c => PyDict.set d c.addr (entry le c)) [] := by
  unfold collect
  rw [List.foldl_flatMap]

theorem mem_all {roots : List (Comp A Y W)} {d : Comp A Y W} : (d ∈ roots.flatMap fun r => crawl [r]) ↔ Inside roots d := by
  simp only [List.mem_flatMap, mem_crawl]
  constructor
  · rintro ⟨r, hr, h⟩
    induction h with
    | root h => exact .root (by simp only [List.mem_singleton] at h; exact h ▸ hr)
    | child _ hd ih => exact .child ih hd
  · intro h
    induction h with
    | root h => exact ⟨_, h, .root (by simp)⟩
    | child _ hd ih => exact ih.imp fun r hr => ⟨hr.1, .child hr.2 hd⟩

theorem fold_some (le : Orders A) (l : List (Comp A Y W)) (d : PyDict A (CompEntry A Y W)) (a : A) (e : CompEntry A Y W)
    (h : PyDict.get? (l.foldl (fun d c => PyDict.set d c.addr (entry le c)) d) a = some e) :
    (∃ c ∈ l, c.addr = a ∧ e = entry le c) ∨ PyDict.get? d a = some e := by
  induction l generalizing d with
  | nil => exact .inr h
  | cons c l ih =>
    rcases ih _ h with ⟨x, hx, h1⟩ | h'
    · exact .inl ⟨x, by simp [hx], h1⟩
    · rw [PyDict.get?_set] at h'
      split at h'
      · rename_i hac
        cases h'
        exact .inl ⟨c, by simp, hac.symm, rfl⟩
      · exact .inr h'

theorem fold_isSome (le : Orders A) (l : List (Comp A Y W)) (d : PyDict A (CompEntry A Y W)) (a : A)
    (h : (∃ c ∈ l, c.addr = a) ∨ (PyDict.get? d a).isSome) :
    (PyDict.get? (l.foldl (fun d c => PyDict.set d c.addr (entry le c)) d) a).isSome := by
  induction l generalizing d with
  | nil =>
    rcases h with ⟨_, hc, _⟩ | h
    · cases hc
    · exact h
  | cons c l ih =>
    refine ih _ ?_
    rcases h with ⟨x, hx, h1⟩ | h
    · rcases List.mem_cons.1 hx with rfl | hx
      · exact .inr (by rw [PyDict.get?_set]; simp [h1])
      · exact .inl ⟨x, hx, h1⟩
    · refine .inr ?_
      rw [PyDict.get?_set]
      split
      · rfl
      · exact h

theorem sorted_get (d : PyDict A (CompEntry A Y W)) (ks : List A) (a : A) (h : ∀ k, k ∈ PyDict.keys d → k ∈ ks) :
    PyDict.get? (ks.filterMap fun a => (PyDict.get? d a).map fun e => (a, e)) a = PyDict.get? d a := by
  have key : ∀ ks : List A, PyDict.get? (ks.filterMap fun a => (PyDict.get? d a).map fun e => (a, e)) a =
      if a ∈ ks then PyDict.get? d a else none := by
    intro ks
    induction ks with
    | nil => simp [PyDict.get?_nil]
    | cons k ks ih =>
      rw [List.filterMap_cons]
      cases hk : PyDict.get? d k with
      | none =>
        simp only [Option.map_none, ih, List.mem_cons]
        by_cases hak : a = k
        · subst hak
          simp [hk]
        · simp [hak]
      | some e =>
        simp only [Option.map_some, PyDict.get?_cons, ih, List.mem_cons]
        by_cases hak : k = a
        · subst hak
          simp [hk]
        · simp [hak, show ¬ a = k from fun h => hak h.symm]
  rw [key ks]
  split
  · rfl
  · rename_i hn
    exact (PyDict.get?_eq_none.2 fun hk => hn (h a hk)).symm

theorem metadata_get (le : Orders A) (roots : List (Comp A Y W)) (a : A) :
    PyDict.get? (metadata le roots) a = PyDict.get? (collect le roots) a :=
  sorted_get _ _ _ fun _ hk => List.mem_mergeSort.2 hk

/-- The components of a system differ in their addresses, and each has at most one stream of a name. -/
structure WF (roots : List (Comp A Y W)) : Prop where
  addrs : ∀ c d, Inside roots c → Inside roots d → c.addr = d.addr → c = d
  streams : ∀ c, Inside roots c → (PyDict.keys c.streams).Nodup

/-- **C108, entries.** Every component of the system has an entry under its address, the entry describes that component, and there are no
other entries. -/
theorem C108_entries {le : Orders A} (hle : le.WF) {roots : List (Comp A Y W)} (hw : WF roots) :
    (∀ c, Inside roots c → ∃ e, PyDict.get? (metadata le roots) c.addr = some e ∧ Describes le c e) ∧
      ∀ a e, PyDict.get? (metadata le roots) a = some e → ∃ c, Inside roots c ∧ c.addr = a ∧ Describes le c e := by
  have back : ∀ a e, PyDict.get? (metadata le roots) a = some e → ∃ c, Inside roots c ∧ c.addr = a ∧ Describes le c e := by
    intro a e h
    rw [metadata_get, collect_eq] at h
    rcases fold_some le _ _ _ _ h with ⟨c, hc, ha, rfl⟩ | h
    · exact ⟨c, mem_all.1 hc, ha, entry_describes hle c (hw.streams c (mem_all.1 hc))⟩
    · simp [PyDict.get?_nil] at h
  refine ⟨fun c hc => ?_, back⟩
  have := fold_isSome le (roots.flatMap fun r => crawl [r]) ([] : PyDict A (CompEntry A Y W)) c.addr (.inl ⟨c, mem_all.2 hc, rfl⟩)
  rw [← collect_eq, ← metadata_get] at this
  obtain ⟨e, he⟩ := Option.isSome_iff_exists.1 this
  obtain ⟨d, hd, ha, hdesc⟩ := back _ _ he
  cases hw.addrs d c hd hc ha
  exact ⟨e, he, hdesc⟩

theorem keys_nodup (le : Orders A) (l : List (Comp A Y W)) (d : PyDict A (CompEntry A Y W)) (h : (PyDict.keys d).Nodup) :
    (PyDict.keys (l.foldl (fun d c => PyDict.set d c.addr (entry le c)) d)).Nodup := by
  induction l generalizing d with
  | nil => exact h
  | cons c l ih => exact ih _ (PyDict.nodup_set h)

theorem metadata_keys (le : Orders A) (roots : List (Comp A Y W)) :
    PyDict.keys (metadata le roots) = (PyDict.keys (collect le roots)).mergeSort le.addr := by
  have : ∀ ks : List A, (∀ k ∈ ks, k ∈ PyDict.keys (collect le roots)) →
      PyDict.keys (ks.filterMap fun a => (PyDict.get? (collect le roots) a).map fun e => (a, e)) = ks := by
    intro ks
    induction ks with
    | nil => intro; rfl
    | cons k ks ih =>
      intro h
      obtain ⟨e, he⟩ := Option.isSome_iff_exists.1 (PyDict.mem_keys.1 (h k (by simp)))
      rw [List.filterMap_cons, he]
      simp only [Option.map_some, PyDict.keys, List.map_cons]
      exact congrArg (k :: ·) (ih fun x hx => h x (by simp [hx]))
  exact this _ fun k hk => List.mem_mergeSort.1 hk

/-- **C108, order.** The entries are listed by address, each address once. -/
theorem C108_sorted {le : Orders A} (hle : le.WF) (roots : List (Comp A Y W)) :
    (PyDict.keys (metadata le roots)).Pairwise (fun x y => le.addr x y) ∧ (PyDict.keys (metadata le roots)).Nodup := by
  rw [metadata_keys]
  refine ⟨List.pairwise_mergeSort hle.addrTrans hle.addrTotal _, (List.mergeSort_perm _ _).nodup_iff.2 ?_⟩
  rw [collect_eq]
  exact keys_nodup le _ ([] : PyDict A (CompEntry A Y W)) (by simp [PyDict.keys])

/-- **C108, the tree.** The addresses that the entry of a collection lists as its components are those of its components, and have
entries themselves. -/
theorem C108_tree {le : Orders A} (hle : le.WF) {roots : List (Comp A Y W)} (hw : WF roots) {c : Comp A Y W} (hc : Inside roots c)
    (hk : c.kind = .collection) :
    ∃ e topics relays children, PyDict.get? (metadata le roots) c.addr = some e ∧ e.special = .collection topics relays children ∧
      ∀ a, a ∈ children ↔ ∃ d ∈ c.children, d.addr = a ∧ ∃ f, PyDict.get? (metadata le roots) a = some f ∧ Describes le d f := by
  obtain ⟨e, he, hd⟩ := (C108_entries hle hw).1 c hc
  obtain ⟨topics, relays, children, h1, _, _, h2, _⟩ := hd.collection hk
  refine ⟨e, topics, relays, children, he, h1, fun a => ?_⟩
  rw [h2.mem_iff, List.mem_map]
  constructor
  · rintro ⟨d, hd, rfl⟩
    exact ⟨d, hd, rfl, (C108_entries hle hw).1 d (.child hc hd)⟩
  · rintro ⟨d, hd, ha, _⟩
    exact ⟨d, hd, ha⟩

end

/-! ## A system: a collection with a relay, an old-style boundary stream and a unit inside. -/

def exIn : In := ⟨true, some 3⟩
def exOut : Out := ⟨none, some 5, none, none, none⟩

def exUnit : Comp Nat Nat Nat :=
  .mk 2 "U" .unit 7 [("INPUT_SETTINGS", ⟨.inputStream, 20, 1, exIn, exOut, false⟩), ("OUT", ⟨.outputStream, 21, 2, exIn, exOut, false⟩)]
    [("work", ⟨some "INPUT_SETTINGS", some ["OUT"]⟩), ("idle", ⟨none, none⟩)] (some "main") [] []

def exColl : Comp Nat Nat Nat :=
  .mk 1 "C" .collection 8 [("IN", ⟨.inputStream, 10, 1, exIn, exOut, false⟩), ("R", ⟨.inputRelay, 11, 1, exIn, exOut, true⟩)]
    [] none [] [exUnit]

def exOrders : Orders Nat := ⟨fun a b => decide (a ≤ b), fun a b => decide (a.length ≤ b.length)⟩

theorem exOrders_WF : exOrders.WF where
  addrTrans := by simp only [exOrders, decide_eq_true_eq]; omega
  addrTotal := by simp only [exOrders, Bool.or_eq_true, decide_eq_true_eq]; omega
  nameTrans := by simp only [exOrders, decide_eq_true_eq]; omega
  nameTotal := by simp only [exOrders, Bool.or_eq_true, decide_eq_true_eq]; omega

theorem ex_inside {c : Comp Nat Nat Nat} : Inside [exColl] c ↔ c = exColl ∨ c = exUnit := by
  constructor
  · intro h
    induction h with
    | root h => exact .inl (by simpa using h)
    | child _ hd ih =>
      rcases ih with rfl | rfl
      · exact .inr (by simpa [exColl, Comp.children] using hd)
      · simp [exUnit, Comp.children] at hd
  · rintro (rfl | rfl)
    · exact .root (by simp)
    · exact .child (.root (c := exColl) (by simp)) (by simp [exColl, Comp.children])

theorem ex_WF : WF [exColl] where
  addrs := by
    intro c d hc hd h
    rcases ex_inside.1 hc with rfl | rfl <;> rcases ex_inside.1 hd with rfl | rfl
    · rfl
    · exact absurd h (by decide)
    · exact absurd h (by decide)
    · rfl
  streams := by
    intro c hc
    rcases ex_inside.1 hc with rfl | rfl <;> decide

example : ∃ e, PyDict.get? (metadata exOrders [exColl]) 2 = some e ∧ Describes exOrders exUnit e :=
  (C108_entries exOrders_WF ex_WF).1 exUnit (ex_inside.2 (.inr rfl))

example : ∃ e topics relays children, PyDict.get? (metadata exOrders [exColl]) 1 = some e ∧
    e.special = .collection topics relays children ∧
    ∀ a, a ∈ children ↔ ∃ d ∈ exColl.children, d.addr = a ∧ ∃ f, PyDict.get? (metadata exOrders [exColl]) a = some f ∧
      Describes exOrders d f :=
  C108_tree exOrders_WF ex_WF (c := exColl) (ex_inside.2 (.inl rfl)) rfl

example : (PyDict.keys (metadata exOrders [exColl])).Pairwise (fun x y => exOrders.addr x y) ∧
    (PyDict.keys (metadata exOrders [exColl])).Nodup :=
  C108_sorted exOrders_WF [exColl]

end Ez.Meta
