import Verif.Model.Marks

/-!
# C128: what decorators make of a method
-/

namespace Ez
namespace Marks

/-! ## Specification -/

/-- The streams named by the decorators, in the order in which they are applied. -/
def outputs (ds : List Dec) : List Strm := ds.filterMap fun d => match d with | .publisher s => some s | _ => none
def inputs (ds : List Dec) : List Strm := ds.filterMap fun d => match d with | .subscriber s => some s | _ => none

/-- Every function's list exists. -/
def Heap.WF (h : Heap) : Prop := ∀ f l, (h.fn f).publishes = some l → l < h.lists.length

/-! ## Proofs -/

/-- Decorators that make a task. -/
def Dec.makesTask : Dec → Bool
  | .publisher _ | .subscriber _ | .task => true
  | _ => false

theorem published_eq {h : Heap} {f l : Nat} (e : (h.fn f).publishes = some l) : h.published f = h.lists[l]?.getD [] := by
  simp [Heap.published, e]

theorem apply_publisher {h : Heap} {f l : Nat} (s : Strm) (hp : (h.fn f).publishes = some l) : apply h f (.publisher s) =
    .ok ({ h with lists := h.lists.modify l (· ++ [s]) }.setFn f { h.fn f with task := true }, f) := by
  simp only [apply, hp]

theorem fn_set (h : Heap) (f g : Nat) (x : Fn) (hf : f < h.fns.length) :
    (h.setFn f x).fn g = if g = f then x else h.fn g := by
  simp only [Heap.fn, Heap.setFn, List.getElem?_set]
  split
  · rename_i e; subst e; simp
  · rename_i e; rw [if_neg (Ne.symm e)]

/-- What holds between `def` and the last decorator: the function is new, so is its list, it has the marks of the
decorators applied so far, and nothing else has changed. -/
structure Inv (h0 : Heap) (ds : List Dec) (h : Heap) (g : Nat) : Prop where
  new : h0.fns.length ≤ g
  isFn : g < h.fns.length
  oldFns : ∀ f, f < h0.fns.length → h.fn f = h0.fn f
  oldLists : ∀ l, l < h0.lists.length → h.lists[l]? = h0.lists[l]?
  grown : h0.lists.length ≤ h.lists.length
  listNone : (h.fn g).publishes = none → outputs ds = []
  listSome : ∀ l, (h.fn g).publishes = some l → h0.lists.length ≤ l ∧ h.lists[l]? = some (outputs ds)
  task : (h.fn g).task = ds.any Dec.makesTask
  main : (h.fn g).main = decide (Dec.main ∈ ds)
  thread : (h.fn g).thread = decide (Dec.thread ∈ ds)
  process : (h.fn g).process = decide (Dec.process ∈ ds)
  timeit : (h.fn g).timeit = decide (Dec.timeit ∈ ds)
  subs : inputs ds = (h.fn g).subscribes.toList
  leaky : (h.fn g).leaky = (h.fn g).subscribes.map (·.leaky)
  maxQueue : (h.fn g).maxQueue = (h.fn g).subscribes.map (·.maxQueue)

theorem outputs_append (a b : List Dec) : outputs (a ++ b) = outputs a ++ outputs b := by simp [outputs]
theorem inputs_append (a b : List Dec) : inputs (a ++ b) = inputs a ++ inputs b := by simp [inputs]

/-- Decorators that only set an attribute. -/
theorem inv_set {h0 h : Heap} {ds : List Dec} {g : Nat} (i : Inv h0 ds h g) (d : Dec) (x : Fn)
    (ho : outputs [d] = []) (hp : x.publishes = (h.fn g).publishes)
    (ht : x.task = ((h.fn g).task || d.makesTask))
    (hm : x.main = ((h.fn g).main || decide (Dec.main = d))) (hth : x.thread = ((h.fn g).thread || decide (Dec.thread = d)))
    (hpr : x.process = ((h.fn g).process || decide (Dec.process = d))) (hti : x.timeit = ((h.fn g).timeit || decide (Dec.timeit = d)))
    (hs : inputs (ds ++ [d]) = x.subscribes.toList) (hl : x.leaky = x.subscribes.map (·.leaky))
    (hq : x.maxQueue = x.subscribes.map (·.maxQueue)) : Inv h0 (ds ++ [d]) (h.setFn g x) g := by
  have e : (h.setFn g x).fn g = x := by rw [fn_set h g g x i.isFn, if_pos rfl]
  refine ⟨i.new, by simpa [Heap.setFn] using i.isFn, ?_, i.oldLists, i.grown, ?_, ?_, ?_, ?_, ?_, ?_, ?_, ?_, ?_, ?_⟩
  · intro f hf
    rw [fn_set h g f x i.isFn, if_neg (by have := i.new; omega)]
    exact i.oldFns f hf
  · rw [e, hp, outputs_append, ho, List.append_nil]; exact i.listNone
  · rw [e, hp, outputs_append, ho, List.append_nil]; exact i.listSome
  · rw [e, ht, i.task, List.any_append]; simp
  · rw [e, hm, i.main]; simp [Bool.decide_or]
  · rw [e, hth, i.thread]; simp [Bool.decide_or]
  · rw [e, hpr, i.process]; simp [Bool.decide_or]
  · rw [e, hti, i.timeit]; simp [Bool.decide_or]
  · rw [e]; exact hs
  · rw [e]; exact hl
  · rw [e]; exact hq

theorem inv_apply {h0 h h' : Heap} {ds : List Dec} {g g' : Nat} {d : Dec} (i : Inv h0 ds h g)
    (ha : apply h g d = .ok (h', g')) : Inv h0 (ds ++ [d]) h' g' := by
  cases d with
  | publisher s =>
    simp only [apply] at ha
    split at ha
    · rename_i l e
      cases ha
      have hl := i.listSome l e
      have hll : l < h.lists.length := (List.getElem?_eq_some_iff.1 hl.2).1
      let k : Heap := { h with lists := h.lists.modify l (· ++ [s]) }
      have fe : ∀ f, (k.setFn g { h.fn g with task := true }).fn f = if f = g then { h.fn g with task := true } else h.fn f :=
        fun f => fn_set k g f _ i.isFn
      have e' := fe g
      rw [if_pos rfl] at e'
      refine ⟨i.new, by simpa [Heap.setFn] using i.isFn, ?_, ?_, ?_, ?_, ?_, ?_, ?_, ?_, ?_, ?_, ?_, ?_, ?_⟩
      · intro f hf
        rw [fe f, if_neg (by have := i.new; omega)]
        exact i.oldFns f hf
      · intro m hm
        have hne : l ≠ m := by have := hl.1; omega
        simpa [Heap.setFn, hne] using i.oldLists m hm
      · simpa [Heap.setFn] using i.grown
      · rw [e']; simp [e]
      · rw [e']
        intro m hm
        simp only [e, Option.some.injEq] at hm
        subst hm
        refine ⟨hl.1, ?_⟩
        simp [Heap.setFn, hl.2, outputs_append]
        simp [outputs]
      · rw [e']; simp [Dec.makesTask]
      · rw [e']; simp [i.main]
      · rw [e']; simp [i.thread]
      · rw [e']; simp [i.process]
      · rw [e']; simp [i.timeit]
      · rw [e', inputs_append, i.subs]; simp [inputs]
      · rw [e']; exact i.leaky
      · rw [e']; exact i.maxQueue
    · rename_i e
      cases ha
      let k : Heap := { h with lists := h.lists ++ [[s]] }
      let x : Fn := { h.fn g with publishes := some h.lists.length, task := true }
      have fe : ∀ f, (k.setFn g x).fn f = if f = g then x else h.fn f :=
        fun f => fn_set k g f _ i.isFn
      have e' := fe g
      rw [if_pos rfl] at e'
      refine ⟨i.new, by simpa [Heap.setFn] using i.isFn, ?_, ?_, ?_, ?_, ?_, ?_, ?_, ?_, ?_, ?_, ?_, ?_, ?_⟩
      · intro f hf
        refine (fe f).trans ?_
        rw [if_neg (by have := i.new; omega)]
        exact i.oldFns f hf
      · intro m hm
        have := i.grown
        simp only [Heap.setFn]
        rw [List.getElem?_append_left (by omega)]
        exact i.oldLists m hm
      · have := i.grown; simp [Heap.setFn]; omega
      · intro hn; have := hn.symm.trans (congrArg Fn.publishes e'); simp [x] at this
      · intro m hm
        have hm := (congrArg Fn.publishes e').symm.trans hm
        simp only [x, Option.some.injEq] at hm
        subst hm
        refine ⟨i.grown, ?_⟩
        simp [Heap.setFn, outputs_append, i.listNone e]
        simp [outputs]
      · refine (congrArg Fn.task e').trans ?_; simp [x, Dec.makesTask]
      · refine (congrArg Fn.main e').trans ?_; simp [x, i.main]
      · refine (congrArg Fn.thread e').trans ?_; simp [x, i.thread]
      · refine (congrArg Fn.process e').trans ?_; simp [x, i.process]
      · refine (congrArg Fn.timeit e').trans ?_; simp [x, i.timeit]
      · rw [inputs_append, i.subs]
        refine Eq.trans ?_ (congrArg (fun y => y.subscribes.toList) e').symm
        simp [x, inputs]
      · refine (congrArg Fn.leaky e').trans (i.leaky.trans (congrArg (fun y => y.subscribes.map (·.leaky)) e').symm)
      · refine (congrArg Fn.maxQueue e').trans (i.maxQueue.trans (congrArg (fun y => y.subscribes.map (·.maxQueue)) e').symm)
  | subscriber s =>
    simp only [apply] at ha
    split at ha
    · cases ha
    · rename_i e
      cases ha
      have e : (h.fn g).subscribes = none := by simpa using e
      refine inv_set i _ _ rfl rfl ?_ ?_ ?_ ?_ ?_ ?_ rfl rfl <;> simp [inputs_append, i.subs, e, Dec.makesTask]
      simp [inputs]
  | main =>
    cases ha
    refine inv_set i _ _ rfl rfl ?_ ?_ ?_ ?_ ?_ ?_ i.leaky i.maxQueue <;> simp [inputs_append, i.subs, Dec.makesTask]
    simp [inputs]
  | thread =>
    cases ha
    refine inv_set i _ _ rfl rfl ?_ ?_ ?_ ?_ ?_ ?_ i.leaky i.maxQueue <;> simp [inputs_append, i.subs, Dec.makesTask]
    simp [inputs]
  | task =>
    cases ha
    refine inv_set i _ _ rfl rfl ?_ ?_ ?_ ?_ ?_ ?_ i.leaky i.maxQueue <;> simp [inputs_append, i.subs, Dec.makesTask]
    simp [inputs]
  | process =>
    cases ha
    refine inv_set i _ _ rfl rfl ?_ ?_ ?_ ?_ ?_ ?_ i.leaky i.maxQueue <;> simp [inputs_append, i.subs, Dec.makesTask]
    simp [inputs]
  | timeit =>
    have j : Inv h0 (ds ++ [.timeit]) (h.setFn g { h.fn g with timeit := true }) g := by
      refine inv_set i _ _ rfl rfl ?_ ?_ ?_ ?_ ?_ ?_ i.leaky i.maxQueue <;> simp [inputs_append, i.subs, Dec.makesTask]
      simp [inputs]
    simp only [apply, Except.ok.injEq, Prod.mk.injEq] at ha
    obtain ⟨rfl, rfl⟩ := ha
    generalize h.setFn g { h.fn g with timeit := true } = k at j
    have e : ({ k with fns := k.fns ++ [k.fn g] } : Heap).fn k.fns.length = k.fn g := by simp [Heap.fn]
    have old : ∀ f, f < k.fns.length → ({ k with fns := k.fns ++ [k.fn g] } : Heap).fn f = k.fn f := by
      intro f hf; simp [Heap.fn, List.getElem?_append_left hf]
    have hn := j.new
    have hg := j.isFn
    refine ⟨by omega, by simp, ?_, j.oldLists, j.grown, ?_, ?_, ?_, ?_, ?_, ?_, ?_, ?_, ?_, ?_⟩
    · intro f hf; rw [old f (by omega)]; exact j.oldFns f hf
    all_goals rw [e]
    · exact j.listNone
    · exact j.listSome
    · exact j.task
    · exact j.main
    · exact j.thread
    · exact j.process
    · exact j.timeit
    · exact j.subs
    · exact j.leaky
    · exact j.maxQueue

theorem inv_all {h0 : Heap} : ∀ (ds : List Dec) {done : List Dec} {h h' : Heap} {g g' : Nat}, Inv h0 done h g →
    applyAll h g ds = .ok (h', g') → Inv h0 (done ++ ds) h' g'
  | [], done, h, h', g, g', i, ha => by cases ha; simpa using i
  | d :: ds, done, h, h', g, g', i, ha => by
    simp only [applyAll] at ha
    split at ha
    · cases ha
    · rename_i k f e
      have := inv_all ds (inv_apply i e) ha
      simpa using this

theorem inv_start (h0 : Heap) : Inv h0 [] { h0 with fns := h0.fns ++ [{}] } h0.fns.length := by
  have e : ({ h0 with fns := h0.fns ++ [{}] } : Heap).fn h0.fns.length = {} := by simp [Heap.fn]
  refine ⟨Nat.le_refl _, by simp, ?_, fun _ _ => rfl, Nat.le_refl _, ?_, ?_, ?_, ?_, ?_, ?_, ?_, ?_, ?_, ?_⟩
  · intro f hf; simp [Heap.fn, List.getElem?_append_left hf]
  all_goals rw [e]
  all_goals simp [outputs, inputs]

/-- C128: a method decorated in any way publishes to the streams of its `publisher` decorators, in order, subscribes to the
stream of its `subscriber` decorator with its settings, and has the marks of its decorators. A class takes it as a task if it
publishes, subscribes or is declared a task, else as its main function, else as a thread. -/
theorem C128_method (h0 h : Heap) (ds : List Dec) (g : Nat) (hd : define h0 ds = .ok (h, g)) :
    h.published g = outputs ds ∧
    (h.fn g).subscribes.toList = inputs ds ∧
    (∀ s ∈ inputs ds, (h.fn g).leaky = some s.leaky ∧ (h.fn g).maxQueue = some s.maxQueue) ∧
    ((h.fn g).role = .task ↔ outputs ds ≠ [] ∨ inputs ds ≠ [] ∨ Dec.task ∈ ds) ∧
    ((h.fn g).role = .main ↔ (outputs ds = [] ∧ inputs ds = [] ∧ Dec.task ∉ ds) ∧ Dec.main ∈ ds) ∧
    ((h.fn g).role = .thread ↔ (outputs ds = [] ∧ inputs ds = [] ∧ Dec.task ∉ ds) ∧ Dec.main ∉ ds ∧ Dec.thread ∈ ds) ∧
    ((h.fn g).timeit = true ↔ Dec.timeit ∈ ds) ∧ ((h.fn g).process = true ↔ Dec.process ∈ ds) := by
  simp only [define] at hd
  split at hd
  · have i := inv_all ds (inv_start h0) hd
    rw [List.nil_append] at i
    have ht : (h.fn g).task = true ↔ outputs ds ≠ [] ∨ inputs ds ≠ [] ∨ Dec.task ∈ ds := by
      rw [i.task]
      clear hd i
      induction ds with
      | nil => simp [outputs, inputs]
      | cons d ds ih =>
        rename_i hc
        simp only [List.all_cons, Bool.and_eq_true] at hc
        rw [List.any_cons, Bool.or_eq_true, ih hc.2]
        cases d <;> simp [outputs, inputs, Dec.makesTask]
    have hnt : ¬ (h.fn g).task = true ↔ outputs ds = [] ∧ inputs ds = [] ∧ Dec.task ∉ ds := by rw [ht]; grind
    refine ⟨?_, i.subs.symm, ?_, ?_, ?_, ?_, by rw [i.timeit]; simp, by rw [i.process]; simp⟩
    · simp only [Heap.published]
      split
      · rename_i l e; rw [(i.listSome l e).2]; rfl
      · rename_i e; exact (i.listNone e).symm
    · intro s hs
      rw [i.subs] at hs
      rw [i.leaky, i.maxQueue]
      cases e : (h.fn g).subscribes with
      | none => rw [e] at hs; simp at hs
      | some t => rw [e] at hs; simp at hs; subst hs; simp
    · rw [← ht]; simp only [Fn.role]; grind
    · rw [← hnt]; have := i.main; simp only [Fn.role]; grind
    · rw [← hnt]; have := i.main; have := i.thread; simp only [Fn.role]; grind
  · cases hd

/-- C128 (partial): a new method leaves all others as they are. Missing: methods that are decorated again
(`C128_again_fails`, `C128_wrapped_fails`). -/
theorem C128_others_partial (h0 h : Heap) (ds : List Dec) (g : Nat) (hw : h0.WF) (hd : define h0 ds = .ok (h, g)) :
    h0.fns.length ≤ g ∧ ∀ f, f < h0.fns.length → h.fn f = h0.fn f ∧ h.published f = h0.published f := by
  simp only [define] at hd
  split at hd
  · have i := inv_all ds (inv_start h0) hd
    refine ⟨i.new, fun f hf => ⟨i.oldFns f hf, ?_⟩⟩
    simp only [Heap.published, i.oldFns f hf]
    split
    · rename_i l e; rw [i.oldLists l (hw f l e)]
    · rfl
  · cases hd

theorem applyAll_error {h0 : Heap} : ∀ (ds : List Dec) {done : List Dec} {h : Heap} {g : Nat}, Inv h0 done h g → ∀ e,
    applyAll h g ds = .error e ↔ e = .exception ∧ 2 ≤ (inputs (done ++ ds)).length ∧ inputs ds ≠ []
  | [], done, h, g, i, e => by simp [applyAll, inputs]
  | d :: ds, done, h, g, i, e => by
    have hs := congrArg List.length i.subs
    simp only [applyAll]
    split
    · rename_i e' he
      cases d <;> simp only [apply] at he <;> try cases he
      · split at he <;> cases he
      · split at he <;> cases he
        rename_i s hx
        obtain ⟨t, ht⟩ := Option.isSome_iff_exists.1 hx
        rw [ht] at hs
        simp at hs
        have h1 : inputs (Dec.subscriber s :: ds) = s :: inputs ds := by simp [inputs]
        rw [inputs_append, h1, List.length_append, hs]
        simp
        exact ⟨fun h => ⟨h.symm, by omega⟩, fun h => h.1.symm⟩
    · rename_i k f he
      have j := inv_apply i he
      rw [applyAll_error ds j e, List.append_assoc, List.singleton_append]
      have h1 : inputs (d :: ds) = inputs [d] ++ inputs ds := inputs_append [d] ds
      rw [h1]
      have hj := congrArg List.length j.subs
      have hj1 : (inputs (done ++ [d])).length ≤ 1 := by rw [hj]; cases (k.fn f).subscribes <;> simp
      have h2 : inputs (done ++ d :: ds) = inputs (done ++ [d]) ++ inputs ds := by
        rw [← inputs_append]; simp
      constructor
      · rintro ⟨rfl, h3, h4⟩; exact ⟨rfl, h3, by simp [h4]⟩
      · rintro ⟨rfl, h3, _⟩
        refine ⟨rfl, h3, ?_⟩
        intro h4
        rw [h2, h4, List.append_nil] at h3
        omega

/-- C128: a method is refused exactly if a decorator gets a wrong kind of stream (`ValueError`) or if it subscribes to
more than one stream. -/
theorem C128_refused (h0 : Heap) (ds : List Dec) :
    (define h0 ds = .error .valueError ↔ (∃ s ∈ outputs ds, s.kind ≠ .output) ∨ ∃ s ∈ inputs ds, s.kind ≠ .input) ∧
    (define h0 ds = .error .exception ↔
      ¬ ((∃ s ∈ outputs ds, s.kind ≠ .output) ∨ ∃ s ∈ inputs ds, s.kind ≠ .input) ∧ 2 ≤ (inputs ds).length) := by
  have hc : ds.all Dec.check = true ↔ ¬ ((∃ s ∈ outputs ds, s.kind ≠ .output) ∨ ∃ s ∈ inputs ds, s.kind ≠ .input) := by
    induction ds with
    | nil => simp [outputs, inputs]
    | cons d ds ih =>
      rw [List.all_cons, Bool.and_eq_true, ih]
      cases d <;> simp [outputs, inputs, Dec.check] <;> grind
  have ha := applyAll_error ds (inv_start h0)
  simp only [List.nil_append] at ha
  rw [← hc]
  simp only [define]
  by_cases h : ds.all Dec.check = true
  · rw [if_pos h, ha, ha]
    have : 2 ≤ (inputs ds).length → inputs ds ≠ [] := by intro h e; simp [e] at h
    have hn : ¬ ((∃ s ∈ outputs ds, s.kind ≠ .output) ∨ ∃ s ∈ inputs ds, s.kind ≠ .input) := hc.1 h
    simp only [h, hn]
    simp
    exact this
  · have hn := Classical.not_not.1 (mt hc.2 h)
    rw [if_neg h]
    simp only [h]
    simp
    simpa using hn

/-- C128 fails for methods decorated again: a decorator applied to a method that publishes already (say, one of a base class)
changes that method. -/
theorem C128_again_fails (h : Heap) (f l : Nat) (s : Strm) (hf : f < h.fns.length) (hl : l < h.lists.length)
    (hp : (h.fn f).publishes = some l) :
    ∃ h', apply h f (.publisher s) = .ok (h', f) ∧ h'.published f = h.published f ++ [s] := by
  refine ⟨_, apply_publisher s hp, ?_⟩
  have e := fn_set { h with lists := h.lists.modify l (· ++ [s]) } f f { h.fn f with task := true } hf
  rw [if_pos rfl] at e
  rw [published_eq hp, published_eq (l := l) ((congrArg Fn.publishes e).trans hp)]
  simp [Heap.setFn, hl]

/-- C128 fails even with a function in between: the wrapper of `timeit` is another function, but shares the list of streams
with the one it wraps. -/
theorem C128_wrapped_fails (h : Heap) (f l : Nat) (s : Strm) (hf : f < h.fns.length) (hl : l < h.lists.length)
    (hp : (h.fn f).publishes = some l) :
    ∃ h' g, applyAll h f [.timeit, .publisher s] = .ok (h', g) ∧ g ≠ f ∧ h'.published f = h.published f ++ [s] := by
  let k : Heap := h.setFn f { h.fn f with timeit := true }
  have kf : k.fn f = { h.fn f with timeit := true } := by
    have := fn_set h f f { h.fn f with timeit := true } hf; rwa [if_pos rfl] at this
  have klen : k.fns.length = h.fns.length := by simp [k, Heap.setFn]
  let m : Heap := { k with fns := k.fns ++ [k.fn f] }
  have mf : m.fn f = k.fn f := by simp [m, Heap.fn, List.getElem?_append_left (show f < k.fns.length by omega)]
  have mg : m.fn k.fns.length = k.fn f := by simp [m, Heap.fn]
  have mp : (m.fn k.fns.length).publishes = some l := by rw [mg, kf]; exact hp
  let r : Heap := ({ m with lists := m.lists.modify l (· ++ [s]) } : Heap).setFn k.fns.length { m.fn k.fns.length with task := true }
  have ha : apply m k.fns.length (.publisher s) = .ok (r, k.fns.length) := apply_publisher s mp
  have hb : apply h f .timeit = .ok (m, k.fns.length) := rfl
  refine ⟨r, k.fns.length, by simp only [applyAll, hb, ha], by omega, ?_⟩
  have e := fn_set { m with lists := m.lists.modify l (· ++ [s]) } k.fns.length f { m.fn k.fns.length with task := true }
    (by simp [m])
  rw [if_neg (by omega)] at e
  have e2 : (r.fn f).publishes = some l := by
    refine (congrArg Fn.publishes e).trans ?_
    refine (congrArg Fn.publishes (show _ = k.fn f from mf)).trans ?_
    rw [kf]; exact hp
  rw [published_eq hp, published_eq e2]
  simp [r, Heap.setFn, hl, m, k]

/-! ## Examples -/

def out (n : String) : Strm := { kind := .output, name := n }
def inp (n : String) : Strm := { kind := .input, name := n, leaky := true, maxQueue := some 3 }

/-- No functions yet. -/
def nothing : Heap := ⟨[], []⟩

/-- Two outputs and an input, measured. -/
def exampleDecs : List Dec := [.publisher (out "A"), .timeit, .subscriber (inp "I"), .publisher (out "B")]

example : ∃ h g, define nothing exampleDecs = .ok (h, g) ∧ h.published g = [out "A", out "B"] ∧
    (h.fn g).subscribes = some (inp "I") ∧ (h.fn g).role = .task := by
  refine ⟨_, _, rfl, ?_, ?_, ?_⟩ <;> decide +kernel
example : nothing.WF := by intro f l h; simp [nothing, Heap.fn] at h
/-- One method, and then another one. -/
def one : Heap := ⟨[{ task := true, publishes := some 0 }], [[out "A"]]⟩
theorem one_wf : one.WF := by
  intro f l h
  cases f <;> simp [one, Heap.fn] at h
  subst h; simp [one]
example : ∃ h g, define one exampleDecs = .ok (h, g) ∧ h.published 0 = [out "A"] := by
  refine ⟨_, _, rfl, ?_⟩
  exact ((C128_others_partial one _ exampleDecs _ one_wf rfl).2 0 (by decide)).2
example : define nothing [.subscriber (inp "I"), .subscriber (inp "J")] = .error .exception :=
  ((C128_refused nothing _).2).2 ⟨by decide +kernel, by decide +kernel⟩
example : define nothing [.publisher (inp "I")] = .error .valueError :=
  ((C128_refused nothing _).1).2 (by decide +kernel)
/-- A method of a base class that publishes to `A`, and what becomes of it. -/
example : ∃ h, define nothing [.publisher (out "A")] = .ok (h, 0) ∧ h.published 0 = [out "A"] ∧
    ∃ h' g, applyAll h 0 [.timeit, .publisher (out "B")] = .ok (h', g) ∧ g ≠ 0 ∧ h'.published 0 = [out "A", out "B"] := by
  refine ⟨_, rfl, by decide +kernel, _, _, rfl, ?_, ?_⟩ <;> decide +kernel

end Marks
end Ez
