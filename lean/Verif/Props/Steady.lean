import Verif.Model.Steady
import Verif.Lemmas.Py

/-!
# C122: what a steady environment changes, and what is left of it

`stable_perf` is to change the process for the time of a measurement and to leave it as it was.
-/

set_option linter.unusedSimpArgs false
set_option linter.unusedVariables false

namespace Ez.Steady

/-! ### Specification -/

/-- A body that leaves the process as it finds it. -/
def Leaves (body : Code) : Prop := ∀ w, (body w).1 = w

/-- Everything but the environment variables. -/
def SameButEnv (w w' : World) : Prop :=
  w'.nice = w.nice ∧ w'.cls = w.cls ∧ w'.cpus = w.cpus ∧ w'.gc = w.gc ∧ w'.timer = w.timer ∧ w'.awake = w.awake

/-- The priority is lowered to one of the values that are tried and cannot be raised again. -/
def Stuck (h : Host) (w : World) : Prop :=
  h.psutil = true ∧ h.os ≠ .win ∧ h.privileged = false ∧ w.nice < 0 ∧ w.nice ≠ -5 ∧ w.nice ≠ -10

/-- The processors can be set to those picked, and back. -/
def CanMove (h : Host) (w : World) : Prop :=
  h.psutil = true → h.os ≠ .mac → h.mayUse (pick w.cpus) = true ∧ h.mayUse w.cpus = true

/-! ### What the measured code runs in -/

theorem tryNice_fields (h : Host) : ∀ (ns : List Int) (w : World), (tryNice h ns w).env = w.env ∧ (tryNice h ns w).cls = w.cls ∧
    (tryNice h ns w).cpus = w.cpus ∧ (tryNice h ns w).gc = w.gc ∧ (tryNice h ns w).timer = w.timer ∧ (tryNice h ns w).awake = w.awake
  | [], w => by simp [tryNice]
  | n :: ns, w => by
    simp only [tryNice]
    split
    · rename_i w' hw
      simp only [setNice] at hw
      split at hw
      · cases hw; simp
      · cases hw
    · exact tryNice_fields h ns w

theorem tryNice_nice (h : Host) (w : World) : (tryNice h [-10, -5, 0] w).nice =
    if h.privileged = true ∨ w.nice ≤ -10 then -10 else if w.nice ≤ -5 then -5 else if w.nice ≤ 0 then 0 else w.nice := by
  cases hp : h.privileged
  · simp only [tryNice, setNice, hp, Bool.false_eq_true, false_or]
    by_cases h1 : w.nice ≤ -10
    · simp [h1]
    · by_cases h2 : w.nice ≤ -5
      · simp [h1, h2]
      · by_cases h3 : w.nice ≤ 0 <;> simp [h1, h2, h3]
  · simp [tryNice, setNice, hp]


/-- A context manager: entering turns `w` into `v`, leaving applies `l`, and the body decides how it ends. -/
def Around (cm : Code → Code) (w v : World) (l : World → World) : Prop := ∀ k, cm k w = (l (k v).1, (k v).2)

/-- The fields that `priority` does not touch. -/
theorem around_priority (h : Host) (on : Bool) (w : World) : ∃ v l, Around (fun k => if on then priority h k else k) w v l ∧
    (v.env = w.env ∧ v.cpus = w.cpus ∧ v.gc = w.gc ∧ v.timer = w.timer ∧ v.awake = w.awake) ∧
    (∀ b, (l b).env = b.env ∧ (l b).cpus = b.cpus ∧ (l b).gc = b.gc ∧ (l b).timer = b.timer ∧ (l b).awake = b.awake ∧ (l b).cls = b.cls) ∧
    (v.nice = if on = true ∧ h.psutil = true ∧ h.os ≠ .win then
        (if h.privileged = true ∨ w.nice ≤ -10 then -10 else if w.nice ≤ -5 then -5 else if w.nice ≤ 0 then 0 else w.nice)
      else w.nice) ∧
    (v.cls = if on = true ∧ h.psutil = true ∧ h.os = .win then
        (if h.mayHigh = true then .high else if h.mayAbove = true then .aboveNormal else w.cls) else w.cls) ∧
    (∀ b, (l b).nice = if on = true ∧ h.psutil = true ∧ h.os ≠ .win ∧ (h.privileged = true ∨ b.nice ≤ w.nice) then w.nice else b.nice) := by
  by_cases hon : on = true ∧ h.psutil = true
  · obtain ⟨h1, h2⟩ := hon
    by_cases hw : h.os = .win
    · refine ⟨if h.mayHigh then { w with cls := .high } else if h.mayAbove then { w with cls := .aboveNormal } else w, id, ?_, ?_, ?_, ?_, ?_, ?_⟩
      · intro k; simp [h1, priority, h2, hw]
      · cases h.mayHigh <;> cases h.mayAbove <;> simp
      · intro b; simp
      · cases h.mayHigh <;> cases h.mayAbove <;> simp [hw]
      · cases h.mayHigh <;> cases h.mayAbove <;> simp [h1, h2, hw]
      · intro b; simp [hw]
    · obtain ⟨f1, f2, f3, f4, f5, f6⟩ := tryNice_fields h [-10, -5, 0] w
      refine ⟨tryNice h [-10, -5, 0] w, fun b => (setNice h w.nice b).getD b, ?_, ⟨f1, f3, f4, f5, f6⟩, ?_, ?_, ?_, ?_⟩
      · intro k; simp [h1, priority, h2, hw]
      · intro b; simp only [setNice]; split <;> simp
      · rw [tryNice_nice, if_pos (⟨h1, h2, hw⟩ : on = true ∧ h.psutil = true ∧ h.os ≠ .win)]
      · rw [f2, if_neg (fun e => hw e.2.2)]
      · intro b
        simp only [setNice]
        by_cases hc : h.privileged = true ∨ b.nice ≤ w.nice
        · rw [if_pos hc, if_pos ⟨h1, h2, hw, hc⟩]; rfl
        · rw [if_neg hc, if_neg (fun e => hc e.2.2.2)]; rfl
  · refine ⟨w, id, ?_, by simp, by simp, ?_, ?_, ?_⟩
    · intro k
      cases on with
      | false => simp
      | true => simp at hon; simp [priority, hon]
    · rw [if_neg (fun e => hon ⟨e.1, e.2.1⟩)]
    · rw [if_neg (fun e => hon ⟨e.1, e.2.1⟩)]
    · intro b; rw [if_neg (fun e => hon ⟨e.1, e.2.1⟩)]; rfl

theorem around_timer (h : Host) (on : Bool) (w : World) : ∃ v l, Around (fun k => if on then timer h k else k) w v l ∧
    v = { w with timer := w.timer + (if on = true ∧ h.os = .win then 1 else 0) } ∧
    ∀ b, l b = { b with timer := b.timer - (if on = true ∧ h.os = .win then 1 else 0) } := by
  by_cases hc : on = true ∧ h.os = .win
  · refine ⟨{ w with timer := w.timer + 1 }, fun b => { b with timer := b.timer - 1 }, ?_, by simp [hc], by simp [hc]⟩
    intro k; simp [hc, timer]
  · refine ⟨w, id, ?_, by simp [hc], by simp [hc]⟩
    intro k
    cases on with
    | false => simp
    | true => simp at hc; simp [timer, hc]

theorem around_awake (h : Host) (on : Bool) (w : World) : ∃ v l, Around (fun k => if on then keepAwake h k else k) w v l ∧
    v = { w with awake := w.awake + (if on = true ∧ h.os = .mac ∧ h.caffeinate = true then 1 else 0) } ∧
    ∀ b, l b = { b with awake := b.awake - (if on = true ∧ h.os = .mac ∧ h.caffeinate = true then 1 else 0) } := by
  by_cases hc : on = true ∧ h.os = .mac ∧ h.caffeinate = true
  · refine ⟨{ w with awake := w.awake + 1 }, fun b => { b with awake := b.awake - 1 }, ?_, by simp [hc], by simp [hc]⟩
    intro k; simp [hc, keepAwake]
  · refine ⟨w, id, ?_, by simp [hc], by simp [hc]⟩
    intro k
    cases on with
    | false => simp
    | true =>
      simp at hc
      by_cases hm : h.os = .mac
      · simp [keepAwake, hm, hc hm]
      · simp [keepAwake, hm]

theorem around_gc (w : World) : Around gcPause w { w with gc := false } (fun b => if w.gc then { b with gc := true } else b) := by
  intro k; rfl

theorem around_affinity (h : Host) (on : Bool) (w : World)
    (hm : on = true → h.psutil = true → h.os ≠ .mac → h.mayUse (pick w.cpus) = true) :
    ∃ v l, Around (fun k => if on then affinity h k else k) w v l ∧
    v = { w with cpus := if on = true ∧ h.psutil = true ∧ h.os ≠ .mac then pick w.cpus else w.cpus } ∧
    ∀ b, l b = { b with cpus := if on = true ∧ h.psutil = true ∧ h.os ≠ .mac ∧ h.mayUse w.cpus = true then w.cpus else b.cpus } := by
  by_cases hc : on = true ∧ h.psutil = true ∧ h.os ≠ .mac
  · obtain ⟨h1, h2, h3⟩ := hc
    refine ⟨{ w with cpus := pick w.cpus }, fun b => (setCpus h w.cpus b).getD b, ?_, by simp [h1, h2, h3], ?_⟩
    · intro k; simp [h1, affinity, h2, h3, setCpus, hm h1 h2 h3]
    · intro b
      simp only [setCpus]
      by_cases hu : h.mayUse w.cpus = true
      · simp [hu, h1, h2, h3]
      · simp [hu]
  · refine ⟨w, id, ?_, by simp only [if_neg hc], ?_⟩
    · intro k
      cases on with
      | false => simp
      | true =>
        simp at hc
        cases hp : h.psutil with
        | false => simp [affinity, hp]
        | true => simp [affinity, hc hp]
    · intro b
      rw [if_neg (fun e => hc ⟨e.1, e.2.1, e.2.2.1⟩)]; rfl

theorem get?_threads (name : String) : ∀ (vars : List String) (e : PyDict String String),
    PyDict.get? (vars.foldl (fun e v => PyDict.setdefault e v "1") e) name =
      (PyDict.get? e name).or (if name ∈ vars then some "1" else none)
  | [], e => by cases h : PyDict.get? e name <;> simp [h]
  | v :: vars, e => by
    rw [List.foldl_cons, get?_threads name vars, PyDict.get?_setdefault]
    by_cases hv : name = v
    · subst hv
      cases h : PyDict.get? e name <;> simp [h]
    · by_cases hm : name ∈ vars <;> cases h : PyDict.get? e name <;> simp [h, hv, Ne.symm hv, hm]

theorem setEnv_get (single : Bool) (w : World) (name : String) : PyDict.get? (setEnv single w).env name =
    (PyDict.get? w.env name).or
      (if single = true ∧ name ∈ threadVars then some "1" else if name = "PYTHONHASHSEED" then some "0" else none) := by
  have hn : "PYTHONHASHSEED" ∉ threadVars := by decide
  simp only [setEnv]
  rw [PyDict.get?_setdefault]
  cases single with
  | false =>
    simp only [Bool.false_eq_true, false_and, if_false]
    by_cases hv : name = "PYTHONHASHSEED"
    · subst hv; cases h : PyDict.get? w.env "PYTHONHASHSEED" <;> simp [h]
    · cases h : PyDict.get? w.env name <;> simp [h, hv, Ne.symm hv]
  | true =>
    simp only [if_true, true_and, get?_threads]
    by_cases hv : name = "PYTHONHASHSEED"
    · subst hv; simp [hn]
    · by_cases hm : name ∈ threadVars <;> cases h : PyDict.get? w.env name <;> simp [h, hv, Ne.symm hv, hm]

/-- The variables that limit the threads of libraries. -/
def limits : List String :=
  ["OMP_NUM_THREADS", "MKL_NUM_THREADS", "VECLIB_MAXIMUM_THREADS", "OPENBLAS_NUM_THREADS", "NUMEXPR_NUM_THREADS"]

/-- What the measured code finds. -/
structure Finds (h : Host) (o : Options) (w v : World) : Prop where
  env : ∀ name, PyDict.get? v.env name = (PyDict.get? w.env name).or
    (if o.singleThread = true ∧ name ∈ limits then some "1" else if name = "PYTHONHASHSEED" then some "0" else none)
  nice : v.nice = if o.priority = true ∧ h.psutil = true ∧ h.os ≠ .win then
      (if h.privileged = true ∨ w.nice ≤ -10 then -10 else if w.nice ≤ -5 then -5 else if w.nice ≤ 0 then 0 else w.nice)
    else w.nice
  cls : v.cls = if o.priority = true ∧ h.psutil = true ∧ h.os = .win then
      (if h.mayHigh = true then .high else if h.mayAbove = true then .aboveNormal else w.cls) else w.cls
  cpus : v.cpus = if o.isolated = true ∧ h.psutil = true ∧ h.os ≠ .mac then pick w.cpus else w.cpus
  gc : v.gc = false
  timer : v.timer = w.timer + (if o.timer = true ∧ h.os = .win then 1 else 0)
  awake : v.awake = w.awake + (if o.awake = true ∧ h.os = .mac ∧ h.caffeinate = true then 1 else 0)

/-- What is left, when the measured code leaves `b`. -/
structure Left (h : Host) (o : Options) (w b u : World) : Prop where
  env : u.env = b.env
  nice : u.nice = if o.priority = true ∧ h.psutil = true ∧ h.os ≠ .win ∧ (h.privileged = true ∨ b.nice ≤ w.nice) then w.nice else b.nice
  cls : u.cls = b.cls
  cpus : u.cpus = if o.isolated = true ∧ h.psutil = true ∧ h.os ≠ .mac ∧ h.mayUse w.cpus = true then w.cpus else b.cpus
  gc : u.gc = (w.gc || b.gc)
  timer : u.timer = b.timer - (if o.timer = true ∧ h.os = .win then 1 else 0)
  awake : u.awake = b.awake - (if o.awake = true ∧ h.os = .mac ∧ h.caffeinate = true then 1 else 0)

/-- **C122** The measured code runs once, and how it ends is how the whole ends, also when it raises. While it runs, the garbage
collector is off, variables that were not set are set, the priority, the processors, the timer and the machine are as asked
for; afterwards the collector is on if it was, the processors are those from before, and so on. -/
theorem C122_around (h : Host) (o : Options) (w : World)
    (hm : o.isolated = true → h.psutil = true → h.os ≠ .mac → h.mayUse (pick w.cpus) = true) :
    ∃ v, Finds h o w v ∧ ∀ body : Code, (stablePerf h o body w).2 = (body v).2 ∧
      Left h o w (body v).1 (stablePerf h o body w).1 := by
  have he : (setEnv o.singleThread w).nice = w.nice ∧ (setEnv o.singleThread w).cls = w.cls ∧ (setEnv o.singleThread w).cpus = w.cpus ∧
      (setEnv o.singleThread w).gc = w.gc ∧ (setEnv o.singleThread w).timer = w.timer ∧ (setEnv o.singleThread w).awake = w.awake := by
    simp [setEnv]
  obtain ⟨e1, e2, e3, e4, e5, e6⟩ := he
  obtain ⟨v1, l1, a1, ⟨p1, p2, p3, p4, p5⟩, q1, p6, p7, q2⟩ := around_priority h o.priority (setEnv o.singleThread w)
  obtain ⟨v2, l2, a2, t1, t2⟩ := around_timer h o.timer v1
  obtain ⟨v3, l3, a3, c1, c2⟩ := around_affinity h o.isolated v2 (by
    intro x1 x2 x3
    have := hm x1 x2 x3
    rw [t1]
    simpa [p2, e3] using this)
  obtain ⟨v4, l4, a4, w1, w2⟩ := around_awake h o.awake v3
  have a5 := around_gc v4
  refine ⟨{ v4 with gc := false }, ?_, ?_⟩
  · constructor
    · intro name
      rw [w1, c1, t1]
      simp only [p1]
      exact setEnv_get _ _ _
    · rw [w1, c1, t1]; simp only [p6, e1]
    · rw [w1, c1, t1]; simp only [p7, e2]
    · rw [w1, c1, t1]; simp only [p2, e3]
    · rfl
    · rw [w1, c1, t1]; simp only [p4, e5]
    · rw [w1, c1, t1]; simp only [p5, e6]
  · intro body
    have : stablePerf h o body w =
        (l1 (l2 (l3 (l4 ((fun b : World => if v4.gc then { b with gc := true } else b) (body { v4 with gc := false }).1)))),
          (body { v4 with gc := false }).2) := by
      have b4 := a4 (gcPause body)
      rw [a5 body] at b4
      have b3 := a3 (if o.awake then keepAwake h (gcPause body) else gcPause body)
      dsimp only at b4 b3
      rw [b4] at b3
      have b2 := a2 (if o.isolated then affinity h (if o.awake then keepAwake h (gcPause body) else gcPause body)
        else if o.awake then keepAwake h (gcPause body) else gcPause body)
      dsimp only at b2
      rw [b3] at b2
      have b1 := a1 (if o.timer then timer h (if o.isolated then affinity h (if o.awake then keepAwake h (gcPause body) else gcPause body)
        else if o.awake then keepAwake h (gcPause body) else gcPause body) else (if o.isolated then affinity h (if o.awake then
          keepAwake h (gcPause body) else gcPause body) else if o.awake then keepAwake h (gcPause body) else gcPause body))
      dsimp only at b1
      rw [b2] at b1
      exact b1
    rw [this]
    refine ⟨rfl, ?_⟩
    have hv4 : v4.gc = w.gc := by rw [w1, c1, t1]; simp only [p3, e4]
    have hcp : v2.cpus = w.cpus := by rw [t1]; simp only [p2, e3]
    have hx : ∀ b : World, (if v4.gc = true then { b with gc := true } else b) = { b with gc := w.gc || b.gc } := by
      intro b
      rw [hv4]
      cases w.gc <;> simp
    simp only [hx]
    generalize (body { v4 with gc := false }).1 = b
    obtain ⟨r1, r2, r3, r4, r5, r6⟩ := q1 (l2 (l3 (l4 { b with gc := w.gc || b.gc })))
    constructor
    · rw [r1, t2, c2, w2]
    · rw [q2, t2, c2, w2]; simp only [e1]
    · rw [r6, t2, c2, w2]
    · rw [r2, t2, c2, w2]; simp only [hcp]
    · rw [r3, t2, c2, w2]
    · rw [r4, t2, c2, w2]
    · rw [r5, t2, c2, w2]

example :
    let r := stablePerf ⟨.linux, true, true, fun _ => true, false, false, false⟩ {}
      (fun v => (v, if v.nice = -10 ∧ v.cpus = [1, 2] ∧ v.gc = false then .raised else .returned))
      ⟨[("OMP_NUM_THREADS", "4")], 3, .normal, [0, 1, 2, 3], true, 0, 0⟩
    r.2 = .raised ∧ r.1.nice = 3 ∧ r.1.cpus = [0, 1, 2, 3] ∧ r.1.gc = true ∧ r.1.env.get? "OMP_NUM_THREADS" = some "4" := by
  decide +kernel

/-- **C122** If the processors cannot be set, that is raised, the measured code does not run, and nothing but the environment
variables (and on Windows the priority class) is changed, unless the priority is stuck. -/
theorem C122_not_allowed (h : Host) (o : Options) (w : World) (h1 : o.isolated = true) (h2 : h.psutil = true) (h3 : h.os ≠ .mac)
    (h4 : h.mayUse (pick w.cpus) = false) (body : Code) :
    (stablePerf h o body w).2 = .notAllowed ∧ (∀ body', stablePerf h o body' w = stablePerf h o body w) ∧
    (stablePerf h o body w).1.cpus = w.cpus ∧ (stablePerf h o body w).1.gc = w.gc ∧ (stablePerf h o body w).1.timer = w.timer ∧
    (stablePerf h o body w).1.awake = w.awake ∧ (¬ Stuck h w → (stablePerf h o body w).1.nice = w.nice) := by
  have he : (setEnv o.singleThread w).nice = w.nice ∧ (setEnv o.singleThread w).cls = w.cls ∧ (setEnv o.singleThread w).cpus = w.cpus ∧
      (setEnv o.singleThread w).gc = w.gc ∧ (setEnv o.singleThread w).timer = w.timer ∧ (setEnv o.singleThread w).awake = w.awake := by
    simp [setEnv]
  obtain ⟨e1, e2, e3, e4, e5, e6⟩ := he
  obtain ⟨v1, l1, a1, ⟨p1, p2, p3, p4, p5⟩, q1, p6, p7, q2⟩ := around_priority h o.priority (setEnv o.singleThread w)
  obtain ⟨v2, l2, a2, t1, t2⟩ := around_timer h o.timer v1
  have hcp : v2.cpus = w.cpus := by rw [t1]; simp only [p2, e3]
  have haff : ∀ k, affinity h k v2 = (v2, .notAllowed) := by
    intro k
    simp only [affinity, h2, h3, Bool.true_eq_false, or_self, if_false, setCpus, hcp, h4, Bool.false_eq_true]
    split
    · rw [← hcp]; rfl
    · rfl
  have key : ∀ b : Code, stablePerf h o b w = (l1 (l2 v2), .notAllowed) := by
    intro b
    have b2 := a2 (affinity h (if o.awake then keepAwake h (gcPause b) else gcPause b))
    dsimp only at b2
    rw [haff] at b2
    have b1 := a1 (if o.timer then timer h (affinity h (if o.awake then keepAwake h (gcPause b) else gcPause b))
      else affinity h (if o.awake then keepAwake h (gcPause b) else gcPause b))
    dsimp only at b1
    rw [b2] at b1
    simp only [stablePerf, h1, if_true]
    exact b1
  rw [key body]
  obtain ⟨r1, r2, r3, r4, r5, r6⟩ := q1 (l2 v2)
  refine ⟨rfl, fun b => key b, ?_, ?_, ?_, ?_, ?_⟩
  · rw [r2, t2]; simp only [hcp]
  · rw [r3, t2, t1]; simp only [p3, e4]
  · rw [r4, t2, t1]; simp only [p4, e5]; omega
  · rw [r5, t2, t1]; simp only [p5, e6]
  · intro hs
    rw [q2, t2, t1]
    simp only [p6, e1]
    simp only [Stuck, h2, true_and] at hs
    by_cases hc : o.priority = true ∧ h.os ≠ .win
    · cases hp : h.privileged with
      | true => simp [hc, h2]
      | false =>
        simp only [hc, h2, hp, Bool.false_eq_true, false_or, true_and, and_self, ne_eq, not_false_eq_true, if_true]
        simp only [hp, hc.2, ne_eq, not_false_eq_true, true_and] at hs
        (repeat' split) <;> omega
    · have : ¬ (o.priority = true ∧ h.psutil = true ∧ h.os ≠ .win) := fun e => hc ⟨e.1, e.2.2⟩
      rw [if_neg (fun e => this ⟨e.1, e.2.1, e.2.2.1⟩), if_neg this]

example : (stablePerf ⟨.linux, true, true, fun c => c.length > 2, false, false, false⟩ {} (fun v => (v, .returned))
    ⟨[], 3, .normal, [0, 1, 2, 3], true, 0, 0⟩).2 = .notAllowed := by decide +kernel

/-- **C122 (partial)** However the measured code ends, if it leaves the process as it finds it, everything but the environment
variables is as before. Missing: the environment variables, the priority class of Windows, and an unprivileged process with a negative `nice`. -/
theorem C122_restored_partial (h : Host) (o : Options) (w : World) (body : Code) (hb : Leaves body) (hm : CanMove h w)
    (hs : ¬ (o.priority = true ∧ Stuck h w)) (hw : h.os ≠ .win) : SameButEnv w (stablePerf h o body w).1 := by
  obtain ⟨v, hf, hl⟩ := C122_around h o w (fun _ x y => (hm x y).1)
  obtain ⟨_, left⟩ := hl body
  rw [hb v] at left
  refine ⟨?_, ?_, ?_, ?_, ?_, ?_⟩
  · rw [left.nice, hf.nice]
    simp only [Stuck] at hs
    by_cases hc : o.priority = true ∧ h.psutil = true
    · cases hp : h.privileged with
      | true => simp [hc, hw]
      | false =>
        simp only [hc, hw, hp, Bool.false_eq_true, false_or, true_and, and_self, ne_eq, not_false_eq_true, if_true]
        simp only [hp, hc.1, hc.2, hw, ne_eq, not_false_eq_true, true_and] at hs
        (repeat' split) <;> omega
    · rw [if_neg (fun e => hc ⟨e.1, e.2.1⟩), if_neg (fun e => hc ⟨e.1, e.2.1⟩)]
  · rw [left.cls, hf.cls]; simp [hw]
  · rw [left.cpus, hf.cpus]
    by_cases hc : o.isolated = true ∧ h.psutil = true ∧ h.os ≠ .mac
    · rw [if_pos ⟨hc.1, hc.2.1, hc.2.2, (hm hc.2.1 hc.2.2).2⟩]
    · rw [if_neg (fun e => hc ⟨e.1, e.2.1, e.2.2.1⟩), if_neg hc]
  · rw [left.gc, hf.gc]; simp
  · rw [left.timer, hf.timer]; omega
  · rw [left.awake, hf.awake]; omega

example : SameButEnv ⟨[], 5, .normal, [0, 1, 2], true, 0, 0⟩
    (stablePerf ⟨.linux, true, false, fun _ => true, false, false, false⟩ {} (fun v => (v, .raised)) ⟨[], 5, .normal, [0, 1, 2], true, 0, 0⟩).1 := by
  unfold SameButEnv; decide +kernel

/-- **C122 (violation)** An unprivileged process with a negative `nice` loses its priority: it is lower while measuring, against
the purpose, and stays lower afterwards. -/
theorem C122_negation_nice (h : Host) (o : Options) (w : World) (body : Code) (hb : Leaves body) (hm : CanMove h w)
    (ho : o.priority = true) (hs : Stuck h w) :
    w.nice < (stablePerf h o body w).1.nice ∧ ∃ v, Finds h o w v ∧ w.nice < v.nice := by
  obtain ⟨v, hf, hl⟩ := C122_around h o w (fun _ x y => (hm x y).1)
  obtain ⟨_, left⟩ := hl body
  rw [hb v] at left
  obtain ⟨s1, s2, s3, s4, s5, s6⟩ := hs
  have hv : w.nice < v.nice := by
    rw [hf.nice, if_pos ⟨ho, s1, s2⟩]
    simp only [s3, Bool.false_eq_true, false_or]
    split
    · omega
    · split
      · omega
      · split <;> omega
  refine ⟨?_, v, hf, hv⟩
  rw [left.nice, if_neg]
  · exact hv
  · simp only [s3, Bool.false_eq_true, false_or]
    omega

example : (stablePerf ⟨.linux, true, false, fun _ => true, false, false, false⟩ {} (fun v => (v, .returned))
    ⟨[], -3, .normal, [0, 1], true, 0, 0⟩).1.nice = 0 := by decide +kernel

/-- **C122 (violation)** A privileged process whose priority is higher than the one that is set is slower while measuring. -/
theorem C122_negation_lowered (h : Host) (o : Options) (w : World) (ho : o.priority = true) (h1 : h.psutil = true) (h2 : h.os ≠ .win)
    (h3 : h.privileged = true) (h4 : w.nice < -10) : ∀ v, Finds h o w v → w.nice < v.nice := by
  intro v hf
  rw [hf.nice, if_pos ⟨ho, h1, h2⟩, if_pos (Or.inl h3)]
  omega

/-- **C122 (violation)** The environment variables stay: afterwards they are set although they were not. -/
theorem C122_negation_env (h : Host) (o : Options) (w : World) (body : Code) (hb : Leaves body) (hm : CanMove h w)
    (hn : PyDict.get? w.env "PYTHONHASHSEED" = none) :
    PyDict.get? (stablePerf h o body w).1.env "PYTHONHASHSEED" = some "0" := by
  obtain ⟨v, hf, hl⟩ := C122_around h o w (fun _ x y => (hm x y).1)
  obtain ⟨_, left⟩ := hl body
  rw [hb v] at left
  rw [left.env, hf.env, hn]
  have : "PYTHONHASHSEED" ∉ limits := by decide
  simp [this]

/-- **C122 (violation)** On Windows the priority class stays high. -/
theorem C122_negation_windows (h : Host) (o : Options) (w : World) (body : Code) (hb : Leaves body) (hm : CanMove h w)
    (ho : o.priority = true) (h1 : h.psutil = true) (h2 : h.os = .win) (h3 : h.mayHigh = true) :
    (stablePerf h o body w).1.cls = .high := by
  obtain ⟨v, hf, hl⟩ := C122_around h o w (fun _ x y => (hm x y).1)
  obtain ⟨_, left⟩ := hl body
  rw [hb v] at left
  rw [left.cls, hf.cls, if_pos ⟨ho, h1, h2⟩, if_pos h3]

/-- **C122** The processors used are some of those the process may use: all if there are at most two, otherwise two neighbours in the
middle; the first one, which handles interrupts, is avoided if there are at least four. -/
theorem C122_processors (cpus : List Nat) (hn : cpus.Nodup) :
    (∀ c ∈ pick cpus, c ∈ cpus) ∧ (cpus.length ≤ 2 → pick cpus = cpus) ∧
    (2 < cpus.length → ∃ (i : Nat) (a b : Nat), pick cpus = [a, b] ∧ a ≠ b ∧ cpus[i]? = some a ∧ cpus[i + 1]? = some b ∧
      2 * (i + 1) ≤ cpus.length ∧ cpus.length ≤ 2 * (i + 1) + 1) ∧
    (4 ≤ cpus.length → ∀ c, cpus[0]? = some c → c ∉ pick cpus) := by
  have key : 2 < cpus.length → ∃ (i : Nat) (a b : Nat), pick cpus = [a, b] ∧ a ≠ b ∧ cpus[i]? = some a ∧ cpus[i + 1]? = some b ∧
      2 * (i + 1) ≤ cpus.length ∧ cpus.length ≤ 2 * (i + 1) + 1 := by
    intro hl
    have h1 : cpus.length / 2 - 1 < cpus.length := by omega
    have h2 : cpus.length / 2 < cpus.length := by omega
    refine ⟨cpus.length / 2 - 1, cpus[cpus.length / 2 - 1], cpus[cpus.length / 2], ?_, ?_, by simp, ?_, by omega, by omega⟩
    · simp [pick, hl, List.getElem?_eq_getElem h1, List.getElem?_eq_getElem h2]
    · exact List.pairwise_iff_getElem.1 hn _ _ h1 h2 (by omega)
    · have : cpus.length / 2 - 1 + 1 = cpus.length / 2 := by omega
      rw [this, List.getElem?_eq_getElem h2]
  refine ⟨?_, ?_, key, ?_⟩
  · intro c hc
    rcases Nat.lt_or_ge 2 cpus.length with hl | hl
    · obtain ⟨i, a, b, hp, _, ha, hb, _⟩ := key hl
      rw [hp] at hc
      simp at hc
      rcases hc with rfl | rfl
      · exact List.mem_of_getElem? ha
      · exact List.mem_of_getElem? hb
    · simpa [pick, Nat.not_lt.2 hl] using hc
  · intro hl; simp [pick, Nat.not_lt.2 hl]
  · intro hl c hc hin
    obtain ⟨i, a, b, hp, _, ha, hb, h1, h2⟩ := key (by omega)
    rw [hp] at hin
    simp at hin
    have h0 : 0 < cpus.length := by omega
    have hi : i < cpus.length := by omega
    have hi' : i + 1 < cpus.length := by omega
    rw [List.getElem?_eq_getElem h0] at hc
    rw [List.getElem?_eq_getElem hi] at ha
    rw [List.getElem?_eq_getElem hi'] at hb
    simp only [Option.some.injEq] at ha hb hc
    rcases hin with e | e
    · exact List.pairwise_iff_getElem.1 hn _ _ h0 hi (by omega) (hc.trans (e.trans ha.symm))
    · exact List.pairwise_iff_getElem.1 hn _ _ h0 hi' (by omega) (hc.trans (e.trans hb.symm))

example : pick [4, 5, 6, 7] = [5, 6] ∧ pick [4, 5] = [4, 5] := by decide

/-- **C122 (violation)** With three processors the first one is used, which is to be avoided. -/
theorem C122_negation_first : pick [0, 1, 2] = [0, 1] := by decide

end Ez.Steady
