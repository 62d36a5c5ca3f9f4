import Verif.Model.Py

/-!
# Comparing two versions by their speed

`util/perf/ab.py` measures two versions `A` and `B` in pairs of runs and says for every case by how much `B` is slower;
`util/perf/util.py` has the median of means.

Simplifications: floating point numbers are rational numbers (no rounding, `nan` or infinity, except that the value for no
samples is `none`); a run of the benchmark is any dictionary from cases to times; git worktrees, interpreters, the
description of the environments and the unmeasured runs before the first pair are left out. Characters of names and values of
environment variables are any.
-/

namespace Ez.AB

/-- Insertion into a sorted list, after what is not larger: Python's sort is stable. -/
def insert {α : Type} (le : α → α → Bool) (x : α) : List α → List α
  | [] => [x]
  | y :: l => if le x y then x :: y :: l else y :: insert le x l

/-- `sorted(l)` -/
def sort {α : Type} (le : α → α → Bool) : List α → List α
  | [] => []
  | x :: l => insert le x (sort le l)

/-- `<=` of numbers -/
def ratLe (x y : Rat) : Bool := decide (x ≤ y)

deriving instance DecidableEq for Except

/-- What is raised. -/
inductive Err where
  | valueError
  | indexError
  | keyError
  | zeroDivision
  | runtimeError
  deriving DecidableEq, Repr

/-- `_median(values)` (ab.py:189-194): the element in the middle, or the mean of the two in the middle. Of no
values, `ordered[-1]` raises. -/
def median (values : List Rat) : Except Err Rat :=
  let ordered := sort ratLe values
  let mid := ordered.length / 2
  if ordered.length % 2 = 1 then
    match ordered[mid]? with
    | some x => .ok x
    | none => .error .indexError
  else if ordered.length = 0 then .error .indexError
  else
    match ordered[mid - 1]?, ordered[mid]? with
    | some x, some y => .ok ((x + y) / 2)
    | _, _ => .error .indexError

/-- `buckets[j].append(v)` (util.py:224) -/
def put (v : Rat) : Nat → List (List Rat) → List (List Rat)
  | _, [] => []
  | 0, b :: bs => (b ++ [v]) :: bs
  | j + 1, b :: bs => b :: put v j bs

/-- `for i, v in enumerate(samples): buckets[i % k].append(v)` (util.py:223-224), from the index `i` on. -/
def deal (k : Nat) : Nat → List Rat → List (List Rat) → List (List Rat)
  | _, [], bs => bs
  | i, v :: l, bs => deal k (i + 1) l (put v (i % k) bs)

/-- `sum(b) / len(b)` (util.py:225) -/
def mean (b : List Rat) : Rat := b.sum / (b.length : Rat)

/-- `max(1, min(k, len(samples)))` (util.py:221) -/
def bucketCount (k : Int) (n : Nat) : Nat := (max 1 (min k (n : Int))).toNat

/-- `median_of_means(samples, k)` (util.py:214-227); `none` is not a number. -/
def medianOfMeans (samples : List Rat) (k : Int := 5) : Option Rat :=
  if samples = [] then none
  else
    let n := bucketCount k samples.length
    let buckets := deal n 0 samples (List.replicate n [])
    let means := sort ratLe ((buckets.filter (fun b => decide (b ≠ []))).map mean)
    means[means.length / 2]?

/-- The two versions. -/
inductive Side where
  | A
  | B
  deriving DecidableEq, Repr

/-- `base[:rounds]` (ab.py:66-67) for `rounds > 0`; what a shuffle makes of it is any permutation. -/
def baseOrder (rounds : Nat) : List (Side × Side) :=
  ((List.replicate ((rounds + 1) / 2) [(Side.A, Side.B), (Side.B, Side.A)]).flatten).take rounds

/-- What a run of the benchmark says: the median time per message of every case. -/
abbrev Times := PyDict String Rat

/-- The runs of one pair (ab.py:656-668): the two versions in the order of the pair; what is measured may depend on the
order. The pair is refused if the two do not have the same cases. -/
def pair (meas : Bool → Side → Times) (o : Side × Side) : Except Err (Times × Times) :=
  let outputs : PyDict Side Times := PyDict.set (PyDict.set [] o.1 (meas false o.1)) o.2 (meas true o.2)
  match PyDict.get? outputs Side.A, PyDict.get? outputs Side.B with
  | some a, some b =>
    if (∀ k ∈ PyDict.keys a, k ∈ PyDict.keys b) ∧ (∀ k ∈ PyDict.keys b, k ∈ PyDict.keys a) then .ok (a, b)
    else .error .runtimeError
  | _, _ => .error .keyError

/-- All the pairs (ab.py:655-669), from the number `i` on. -/
def pairs (meas : Nat → Bool → Side → Times) : Nat → List (Side × Side) → Except Err (List (Times × Times))
  | _, [] => .ok []
  | i, o :: os =>
    match pair (meas i) o with
    | .error e => .error e
    | .ok p =>
      match pairs meas (i + 1) os with
      | .error e => .error e
      | .ok ps => .ok (p :: ps)

/-- What is said of a case (ab.py:41-50). -/
structure Case where
  caseId : String
  a : Rat
  b : Rat
  deltaMedian : Rat
  deltaMean : Rat
  pairCount : Nat
  bFaster : Nat
  deriving DecidableEq, Repr

/-- `[d[case_id] for d in ds]` (ab.py:146-147) -/
def column (id : String) : List Times → Except Err (List Rat)
  | [] => .ok []
  | d :: ds =>
    match PyDict.get? d id with
    | none => .error .keyError
    | some x =>
      match column id ds with
      | .error e => .error e
      | .ok xs => .ok (x :: xs)

/-- `((b / a) - 1.0) * 100.0` for all the pairs (ab.py:148) -/
def deltas : List (Rat × Rat) → Except Err (List Rat)
  | [] => .ok []
  | (a, b) :: l =>
    if a = 0 then .error .zeroDivision
    else
      match deltas l with
      | .error e => .error e
      | .ok ds => .ok (((b / a) - 1) * 100 :: ds)

/-- One case (ab.py:146-159). -/
def summarizeCase (runs : List (Times × Times)) (id : String) : Except Err Case := do
  let as ← column id (runs.map (·.1))
  let bs ← column id (runs.map (·.2))
  let ds ← deltas (as.zip bs)
  let a ← median as
  let b ← median bs
  let d ← median ds
  return { caseId := id, a := a, b := b, deltaMedian := d, deltaMean := ds.sum / (ds.length : Rat),
           pairCount := ds.length, bFaster := ((as.zip bs).filter (fun p => decide (p.2 < p.1))).length }

/-- All the cases, one after the other (ab.py:145-159). -/
def summarizeCases (runs : List (Times × Times)) : List String → Except Err (List Case)
  | [] => .ok []
  | id :: ids =>
    match summarizeCase runs id with
    | .error e => .error e
    | .ok c =>
      match summarizeCases runs ids with
      | .error e => .error e
      | .ok cs => .ok (c :: cs)

/-- Strings are ordered by their characters, as in Python. -/
def strLe (x y : String) : Bool := decide (x ≤ y)

/-- `summarize_ab_results(...)` (ab.py:132-186): the cases of the first run of `A`, sorted. -/
def summarize (runs : List (Times × Times)) : Except Err (List Case) :=
  match runs with
  | [] => .error .indexError
  | r :: _ => summarizeCases runs (sort strLe (PyDict.keys r.1))

/-- The word printed for a case (ab.py:453). -/
def verdict (c : Case) : String := if c.deltaMedian > 0 then "regression" else "improvement"

/-- `perf_ab(...)` (ab.py:545-546, 569, 655-681): `shuffle` is what `random.Random(seed).shuffle` does. -/
def perfAB (rounds : Int) (shuffle : List (Side × Side) → List (Side × Side)) (meas : Nat → Bool → Side → Times) :
    Except Err (List Case) :=
  if rounds ≤ 0 then .error .valueError
  else
    match pairs meas 1 (shuffle (baseOrder rounds.toNat)) with
    | .error e => .error e
    | .ok runs => summarize runs

/-- `value.split("=", 1)` (ab.py:117) of a value with `=`; `none` without. -/
def splitEq : List Char → Option (List Char × List Char)
  | [] => none
  | c :: l =>
    if c = '=' then some ([], l)
    else
      match splitEq l with
      | none => none
      | some (k, v) => some (c :: k, v)

/-- `parse_env_assignments(values)` (ab.py:112-121), with what is assigned so far. -/
def parseEnv : PyDict (List Char) (List Char) → List (List Char) → Except Err (PyDict (List Char) (List Char))
  | d, [] => .ok d
  | d, x :: xs =>
    match splitEq x with
    | none => .error .valueError
    | some (k, v) => if k = [] then .error .valueError else parseEnv (PyDict.set d k v) xs

/-- `{**shared, **own}` (ab.py:556-557) -/
def merged (shared own : PyDict (List Char) (List Char)) : PyDict (List Char) (List Char) :=
  own.foldl (fun d p => PyDict.set d p.1 p.2) shared

end Ez.AB
