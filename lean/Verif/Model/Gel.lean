/-
Model of `schedcat/sched/edf/gel_pl.py` and of `native/src/edf/gel_pl.cpp`, which
implements the same analysis and replaces it when the native library is loaded.

Costs, periods and deadlines are natural numbers: the Python code builds
`Fraction(cost, period)`, which is defined for integers only.  All other numbers
of the Python analysis are exact fractions; the native ones are GMP rationals.
Priority points are integers.

A list indexed by task is a function on `Fin n`.  The outer `Option` of a result
is `none` if Python raises an exception or a loop does not end within `fuel`
rounds.
-/
import Mathlib.Data.Rat.Floor
import Mathlib.Data.List.FinRange
import Mathlib.Data.List.Sort
import Mathlib.Algebra.BigOperators.Group.Finset.Basic

namespace Verif.Gel

/-- The attributes the analysis reads. -/
structure GTask where
  cost : ℕ
  period : ℕ
  deadline : ℕ
deriving DecidableEq, Repr

/-- `tasks.utilization()`, `tasks.utilization_q()`
(`schedcat/model/tasks.py:34-38`, `184-197`). -/
def utilSum {n : ℕ} (ts : Fin n → GTask) : ℚ := ((List.finRange n).map (fun i => ((ts i).cost : ℚ) / (ts i).period)).sum

/-- `schedcat/sched/edf/gel_pl.py:209-211` (`has_bounded_tardiness`). -/
def hasBoundedTardiness {n : ℕ} (m : ℕ) (ts : Fin n → GTask) : Bool :=
  decide (utilSum ts ≤ m) && (List.finRange n).all (fun i => decide ((ts i).cost ≤ (ts i).period))

/-- `heapq.nlargest(k, xs)`: the first `k` entries in descending order; nothing if
`k` is negative. -/
def nlargest (k : ℤ) (xs : List ℚ) : List ℚ := (xs.insertionSort (fun a b => b ≤ a)).take k.toNat

/-- `heapq.nlargest(k, enumerate(Y), key=lambda p: p[1])`, without the values;
equal values keep their order (`schedcat/sched/edf/gel_pl.py:154-155`). -/
def nlargestIdx {n : ℕ} (k : ℤ) (Y : Fin n → ℚ) : List (Fin n) :=
  ((List.finRange n).insertionSort (fun i j => Y j ≤ Y i)).take k.toNat

/-! ### Binary search -/

/-- `schedcat/sched/edf/gel_pl.py:187-191` (`M`), with `k = util_ceil - 1`.  The
native code computes the same value with `nth_element`
(`native/src/edf/gel_pl.cpp:239-267`). -/
def M {n : ℕ} (m : ℕ) (k : ℤ) (S : ℚ) (Y u : Fin n → ℚ) (s : ℚ) : ℚ :=
  (nlargest k ((List.finRange n).map (fun i => Y i + u i * s))).sum + S - m * s

/-- `schedcat/sched/edf/gel_pl.py:195-197`: the doubling loop.  The native loop
goes on while `M` is not negative (`native/src/edf/gel_pl.cpp:218-221`): `strict`. -/
def doubling (M : ℚ → ℚ) (strict : Bool) : ℕ → ℚ → ℚ → Option (ℚ × ℚ)
  | 0, _, _ => none
  | fuel + 1, minS, maxS =>
    if M maxS > 0 ∨ (strict = true ∧ M maxS = 0) then doubling M strict fuel maxS (maxS * 2)
    else some (minS, maxS)

/-- `schedcat/sched/edf/gel_pl.py:199-204`: the bisection rounds
(`native/src/edf/gel_pl.cpp:223-233`). -/
def bisect (M : ℚ → ℚ) : ℕ → ℚ → ℚ → ℚ × ℚ
  | 0, minS, maxS => (minS, maxS)
  | r + 1, minS, maxS =>
    let middle := (maxS + minS) / 2
    if M middle < 0 then bisect M r minS middle else bisect M r middle maxS

/-- `schedcat/sched/edf/gel_pl.py:185-207` (`compute_binsearch_s`);
`native/src/edf/gel_pl.cpp:213-237` with `strict`. -/
def binsearchS {n : ℕ} (strict : Bool) (fuel m : ℕ) (k : ℤ) (S : ℚ) (Y u : Fin n → ℚ) (rounds : ℕ) : Option ℚ :=
  (doubling (M m k S Y u) strict fuel 0 1).map (fun r => (bisect (M m k S Y u) rounds r.1 r.2).2)

/-! ### Tracing the function -/

/-- A replacement `(intersect, i, j)`: from `intersect` on, line `j` is above line
`i`. -/
structure Repl (n : ℕ) where
  loc : ℚ
  old : Fin n
  new : Fin n
deriving DecidableEq

/-- `schedcat/sched/edf/gel_pl.py:118-128`: the replacement for the pair `(i, j)`. -/
def replOf {n : ℕ} (Y u : Fin n → ℚ) (i j : Fin n) : Option (Repl n) :=
  if u i ≠ u j then
    let intersect := (Y j - Y i) / (u i - u j)
    if 0 ≤ intersect then
      if u i < u j then some ⟨intersect, i, j⟩ else some ⟨intersect, j, i⟩
    else none
  else none

/-- `schedcat/sched/edf/gel_pl.py:115-128` (`native/src/edf/gel_pl.cpp:116-144`):
all replacements, unsorted. -/
def allRepl {n : ℕ} (Y u : Fin n → ℚ) : List (Repl n) :=
  (List.finRange n).flatMap fun i =>
    ((List.finRange n).filter (fun j => i < j)).filterMap fun j => replOf Y u i j

/-- `schedcat/sched/edf/gel_pl.py:139`: the sort key is
`(r[0], utilizations[r[1]])` (`native/include/edf/gel_pl.h:39-43`). -/
def keyLe {n : ℕ} (u : Fin n → ℚ) (a b : Repl n) : Prop :=
  a.loc < b.loc ∨ (a.loc = b.loc ∧ u a.old ≤ u b.old)

instance {n : ℕ} (u : Fin n → ℚ) : DecidableRel (keyLe u) := fun a b => by
  unfold keyLe; infer_instance

/-- `schedcat/sched/edf/gel_pl.py:167-183`: the loop that follows the function
from `s` with the given value and slope until it reaches zero
(`native/src/edf/gel_pl.cpp:182-209`).  A slope of zero is a division by zero. -/
def trace {n : ℕ} (u : Fin n → ℚ) : List (Repl n) → (Fin n → Bool) → ℚ → ℚ → ℚ → Option ℚ
  | [], _, s, value, slope => if slope = 0 then none else some (s - value / slope)
  | r :: rest, pres, s, value, slope =>
    if slope = 0 then none
    else
      let zero := s - value / slope
      let value' := value + (r.loc - s) * slope
      if pres r.old = true ∧ pres r.new = false then
        if zero > r.loc then
          trace u rest (fun i => if i = r.new then true else if i = r.old then false else pres i) r.loc value'
            (slope - u r.old + u r.new)
        else some zero
      else if zero > r.loc then trace u rest pres r.loc value' slope
      else some zero

/-- `schedcat/sched/edf/gel_pl.py:148-183` (`native/src/edf/gel_pl.cpp:147-211`):
start at `s = 0` with the lines `init`. -/
def traceFrom {n : ℕ} (m : ℕ) (S : ℚ) (Y u : Fin n → ℚ) (init : List (Fin n)) (repl : List (Repl n)) : Option ℚ :=
  trace u repl (fun i => decide (i ∈ init)) 0 (S + (init.map Y).sum) (-(m : ℚ) + (init.map u).sum)

/-- `schedcat/sched/edf/gel_pl.py:114-183` (`compute_exact_s`). -/
def exactS {n : ℕ} (m : ℕ) (k : ℤ) (S : ℚ) (Y u : Fin n → ℚ) : Option ℚ :=
  traceFrom m S Y u (nlargestIdx k Y) ((allRepl Y u).insertionSort (keyLe u))

/-- `native/src/edf/gel_pl.cpp:145` and `163-177`: what the unstable `std::sort`
and `std::nth_element` return is a parameter. -/
structure NativeOrder (n : ℕ) where
  init : ℤ → (Fin n → ℚ) → List (Fin n)
  sorted : (Fin n → ℚ) → List (Repl n) → List (Repl n)

/-- What the two library functions guarantee. -/
structure NativeOrder.Legal {n : ℕ} (o : NativeOrder n) : Prop where
  init_nodup : ∀ k Y, (o.init k Y).Nodup
  init_length : ∀ k Y, (o.init k Y).length = min k.toNat n
  init_top : ∀ k Y, ∀ i ∈ o.init k Y, ∀ j ∉ o.init k Y, Y j ≤ Y i
  sorted_perm : ∀ u l, (o.sorted u l).Perm l
  sorted_sorted : ∀ u l, (o.sorted u l).Pairwise (keyLe u)

/-- `native/src/edf/gel_pl.cpp:111-211` (`GELPl::compute_exact_s`). -/
def exactSNative {n : ℕ} (o : NativeOrder n) (m : ℕ) (k : ℤ) (S : ℚ) (Y u : Fin n → ℚ) : Option ℚ :=
  traceFrom m S Y u (o.init k Y) (o.sorted u (allRepl Y u))

/-! ### Response-time bounds -/

/-- `schedcat/sched/edf/gel_pl.py:93-94` (`native/src/edf/gel_pl.cpp:65-73`). -/
def Si (t : GTask) (pp : ℤ) : ℚ := max 0 ((t.cost : ℚ) * (1 - (pp : ℚ) / t.period))

/-- `schedcat/sched/edf/gel_pl.py:95-96` (`native/src/edf/gel_pl.cpp:75-81`). -/
def Yint (m : ℕ) (t : GTask) (pp : ℤ) : ℚ :=
  (0 - (t.cost : ℚ) / m) * ((t.cost : ℚ) / t.period) + t.cost - Si t pp

/-- Which implementation runs. -/
inductive Impl (n : ℕ) where
  | python
  | native (o : NativeOrder n)

/-- `schedcat/sched/edf/gel_pl.py:77-104`: the value `s` for the scheduler's
priority points `pp` (`native/src/edf/gel_pl.cpp:20-90`).  `min` of no tasks is an
exception, and so is the division by `no_cpus` if that is 0. -/
def sValue {n : ℕ} (impl : Impl n) (fuel m : ℕ) (ts : Fin n → GTask) (pp : Fin n → ℤ) (rounds : ℕ) : Option (ℤ × ℚ) :=
  match ((List.finRange n).map pp).min? with
  | none => none
  | some lo =>
    if m = 0 then none
    else
      let k := ⌈utilSum ts⌉ - 1
      let u := fun i => ((ts i).cost : ℚ) / (ts i).period
      let Y := fun i => Yint m (ts i) (pp i - lo)
      let S := ((List.finRange n).map (fun i => Si (ts i) (pp i - lo))).sum
      let s := match impl, rounds with
        | .python, 0 => exactS m k S Y u
        | .native o, 0 => exactSNative o m k S Y u
        | .python, r + 1 => binsearchS false fuel m k S Y u (r + 1)
        | .native _, r + 1 => binsearchS true fuel m k S Y u (r + 1)
      s.map (fun s => (lo, s))

/-- `schedcat/sched/edf/gel_pl.py:68-112` (`compute_response_bounds`), reduced to
`details.bounds`. -/
def responseBounds {n : ℕ} (fuel m : ℕ) (ts : Fin n → GTask) (pp : Fin n → ℤ) (rounds : ℕ) :
    Option (Option (Fin n → ℤ)) :=
  if hasBoundedTardiness m ts = false then some none
  else (sValue .python fuel m ts pp rounds).map fun r =>
    some fun i => ⌈r.2 - ((ts i).cost : ℚ) / m + (ts i).cost + ((pp i - r.1 : ℤ) : ℚ)⌉

/-- `native/src/edf/gel_pl.cpp:16-109` (`GELPl::GELPl`), reduced to `bounds`:
`get_ui` of a negative GMP integer is its absolute value.  Wrapping at `2^64` is
not modelled. -/
def nativeBounds {n : ℕ} (o : NativeOrder n) (fuel m : ℕ) (ts : Fin n → GTask) (pp : Fin n → ℤ) (rounds : ℕ) :
    Option (Option (Fin n → ℤ)) :=
  (sValue (.native o) fuel m ts pp rounds).map fun r =>
    some fun i => (pp i - r.1) + (ts i).cost + (⌈r.2 - ((ts i).cost : ℚ) / m⌉).natAbs

/-- `schedcat/sched/edf/gel_pl.py:54-66` (`compute_response_details`), reduced to
`details.bounds`. -/
def responseDetails {n : ℕ} (impl : Impl n) (fuel m : ℕ) (ts : Fin n → GTask) (pp : Fin n → ℤ) (rounds : ℕ) :
    Option (Option (Fin n → ℤ)) :=
  if m = 1 ∧ (List.finRange n).all (fun i => decide (pp i = (ts i).period)) = true then
    some (some fun i => ((ts i).period : ℤ))
  else
    match impl with
    | .native o => nativeBounds o fuel m ts pp rounds
    | .python => responseBounds fuel m ts pp rounds

/-- `schedcat/sched/edf/gel_pl.py:45-52` and `213-216`, `223-230`
(`bound_gedf_response_times`): `some none` is the result `False`; otherwise the
result is `True` and the tasks get the response times given. -/
def boundGedf {n : ℕ} (impl : Impl n) (fuel m : ℕ) (ts : Fin n → GTask) (rounds : ℕ) :
    Option (Option (Fin n → ℤ)) :=
  responseDetails impl fuel m ts (fun i => (ts i).deadline) rounds

/-- `schedcat/sched/edf/gel_pl.py:35-43`: the priority point of a task under G-FL.
`int` truncates; the product is exact here. -/
def gflPoint (m : ℕ) (t : GTask) : ℤ := (t.deadline : ℤ) - ⌊((m : ℚ) - 1) / m * t.cost⌋

/-- `schedcat/sched/edf/gel_pl.py:35-43` and `218-221`, `223-230`
(`bound_gfl_response_times`). -/
def boundGfl {n : ℕ} (impl : Impl n) (fuel m : ℕ) (ts : Fin n → GTask) (rounds : ℕ) :
    Option (Option (Fin n → ℤ)) :=
  if m = 0 ∧ 0 < n then none
  else responseDetails impl fuel m ts (fun i => gflPoint m (ts i)) rounds

/-- `schedcat/sched/edf/gel_pl.py:31-33` (`max_lateness`). -/
def maxLateness {n : ℕ} (ts : Fin n → GTask) (bounds : Fin n → ℤ) : Option ℤ :=
  ((List.finRange n).map (fun i => bounds i - (ts i).deadline)).max?

end Verif.Gel
