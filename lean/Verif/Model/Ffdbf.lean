/-
Model of the FF-DBF test for global EDF: `schedcat/sched/edf/ffdbf.py` and
`native/src/edf/ffdbf.cpp` (with `native/include/edf/ffdbf.h`).

* Both versions compute with exact fractions, except that Python's `time / ti.period` is
  a float if both numbers are integers; it is taken to be exact.
* The points to be tested are generated for each task separately and merged by a priority
  queue: `heapq` in `imerge` (`schedcat/util/iter.py:17-35`), and `priority_queue` in
  C++.  Both return an element that no other one precedes; which of several such elements
  is returned is left open (`pick`).  `imerge` is called with `<` instead of `<=`; `heapq`
  evaluates its comparison `x < y` as `not le(y, x)`, here `x <= y`, which does not affect
  the property that a smallest element is returned.
* `none` stands for a division by zero, for an access to an empty queue, or for loops that
  have not ended within `fuel` steps each.
-/
import Verif.Model.GlobalEdf
import Verif.Model.NativeTasks
import Mathlib.Data.Rat.Floor

namespace Verif.Ff

/-! ### Merging -/

/-- The sequences are given by `xs i k`: the `k`-th element of the `i`-th one.  The state
consists of the numbers of elements taken from each and of the last element returned. -/
structure Merge where
  idx : ℕ → ℕ
  last : Option ℚ

/-- The start: `iter.py:18-26`, `uniq` has returned no element yet; `ffdbf.cpp:158-171`
(`last = -1` is less than all points). -/
def Merge.start : Merge := ⟨fun _ => 0, none⟩

/-- `imerge` and `uniq`, `iter.py:27-44`; `AllTestPoints::get_next`, `ffdbf.cpp:178-190`:
take the first element from the queue until it differs from the last one. -/
def mergeNext (pick : ℕ → (ℕ → ℚ) → ℕ) (n : ℕ) (xs : ℕ → ℕ → ℚ) : ℕ → Merge → Option (Merge × ℚ)
  | 0, _ => none
  | fuel + 1, p =>
    if n = 0 then none
    else
      let i := pick n (fun i => xs i (p.idx i))
      let t := xs i (p.idx i)
      let idx := Function.update p.idx i (p.idx i + 1)
      if p.last = some t then mergeNext pick n xs fuel ⟨idx, p.last⟩ else some (⟨idx, some t⟩, t)

/-- A queue returns an element that no other one precedes. -/
def IsQueue (pick : ℕ → (ℕ → ℚ) → ℕ) : Prop :=
  ∀ n cur, 0 < n → pick n cur < n ∧ ∀ i < n, cur (pick n cur) ≤ cur i

/-- The loop over the points, `ffdbf.py:107-113` and `ffdbf.cpp:271-281`: the first point
within the bound that does not satisfy the condition, if any. -/
def scan (pick : ℕ → (ℕ → ℚ) → ℕ) (fuel n : ℕ) (xs : ℕ → ℕ → ℚ) (bound : ℚ) (ok : ℚ → Bool) :
    ℕ → Merge → Option (Option ℚ)
  | 0, _ => none
  | rounds + 1, p => do
    let r ← mergeNext pick n xs fuel p
    if bound < r.2 then return none
    else if ok r.2 then scan pick fuel n xs bound ok rounds r.1
    else return some r.2

/-! ### Python -/

/-- `math.trunc`. -/
def trunc (x : ℚ) : ℤ := if 0 ≤ x then ⌊x⌋ else ⌈x⌉

/-- `ffdbf`, `ffdbf.py:22-32`. -/
def pyDemand (t : GEdf.ITask) (time speed : ℚ) : ℚ :=
  let r := time - t.period * ⌊time / t.period⌋
  let q := trunc (time / t.period)
  let demand : ℚ := q * t.cost
  if (t.deadline : ℚ) ≤ r then demand + t.cost
  else if (t.deadline : ℚ) - t.cost / speed ≤ r then demand + (t.cost - (t.deadline - r) * speed)
  else demand

/-- `ts_ffdbf` and `witness_condition`, `ffdbf.py:34-44`. -/
def pyWitness (m : ℕ) (ts : List GEdf.ITask) (time speed : ℚ) : Bool :=
  decide ((ts.map (fun t => pyDemand t time speed)).sum ≤ ((m : ℚ) - ((m : ℚ) - 1) * speed) * time)

/-- `test_points`, `ffdbf.py:46-63`: the `k`-th element yielded. -/
def pyPoint (t : GEdf.ITask) (speed minTime : ℚ) (k : ℕ) : ℚ :=
  let time : ℚ := trunc (minTime / t.period) * t.period + t.deadline
  let offset := min ((t.cost : ℚ) / speed) t.deadline
  let first := [time - offset, time].filter (fun x => decide (minTime < x))
  if h : k < first.length then first[k]
  else
    let j := k - first.length
    let time := time + (j / 2 + 1 : ℕ) * t.period
    if j % 2 = 0 then time - offset else time

/-- The points of all tasks, `testing_set`, `ffdbf.py:65-67`. -/
def pyPoints (ts : List GEdf.ITask) (speed minTime : ℚ) (i k : ℕ) : ℚ :=
  ((ts[i]?).map (fun t => pyPoint t speed minTime k)).getD 0

/-- `max_density_q`, `schedcat/model/tasks.py:235-236`, of a list that is not empty. -/
def maxDensity : TaskSystem → ℚ
  | [] => 0
  | t :: ts => ts.foldl (fun d t => max d t.density) t.density

/-- `brute_force_sigma_values`, `ffdbf.py:69-75`, after the first value. -/
def pySigma (maxd step : ℚ) (k : ℕ) : ℚ := (maxd - (maxd - step * ⌊maxd / step⌋)) + step + k * step

/-- The search for the next value, `ffdbf.py:115-125`; `k` is the position in the list of
values. -/
def pySearch (maxd step bound : ℚ) (ok : ℚ → Bool) : ℕ → ℕ → Option (ℚ × ℕ)
  | 0, _ => none
  | fuel + 1, k =>
    let nxt := pySigma maxd step k
    if ¬ (maxd ≤ nxt ∧ nxt ≤ bound) then some (2, k + 1)
    else if ok nxt then some (nxt, k + 1)
    else pySearch maxd step bound ok fuel (k + 1)

/-- The outer loop, `ffdbf.py:105-129`. -/
def pyLoop (pick : ℕ → (ℕ → ℚ) → ℕ) (fuel m : ℕ) (ts : List GEdf.ITask) (maxd step bound timeBound : ℚ) :
    ℕ → ℚ → ℕ → ℚ → Option Bool
  | 0, _, _, _ => none
  | rounds + 1, sigma, k, tcur =>
    if maxd ≤ sigma ∧ sigma ≤ bound then
      if sigma = 0 then none
      else do
        match ← scan pick fuel ts.length (pyPoints ts sigma tcur) timeBound (fun t => pyWitness m ts t sigma) fuel
            Merge.start with
        | none => return true
        | some t =>
          let r ← pySearch maxd step bound (fun s => pyWitness m ts t s) fuel k
          pyLoop pick fuel m ts maxd step bound timeBound rounds r.1 r.2 t
    else some false

/-- `is_schedulable`, `ffdbf.py:77-131`. -/
def pyFfdbf (pick : ℕ → (ℕ → ℚ) → ℕ) (fuel m : ℕ) (ts : List GEdf.ITask) (epsilon : ℚ := 1 / 10)
    (granularity : ℕ := 50) : Option Bool :=
  if ts.isEmpty then some true
  else if m < 2 then some false
  else if epsilon = 0 ∨ granularity = 0 then none
  else
    let bound := ((m : ℚ) - TaskSystem.utilization (GEdf.system ts)) / ((m : ℚ) - 1) - epsilon
    let timeBound := (ts.map (fun t => (t.cost : ℚ))).sum / epsilon
    let maxd := maxDensity (GEdf.system ts)
    pyLoop pick fuel m ts maxd (1 / granularity) (min 1 bound) timeBound fuel maxd 0 0

/-! ### C++ -/

/-- `get_q_r` and `ffdbf`, `ffdbf.cpp:16-64`. -/
def cppDemand (t : Native.Task) (time speed : ℚ) : ℚ :=
  let q := trunc (time / t.period)
  let r := time - q * t.period
  let demand : ℚ := q * t.wcet
  if -(t.wcet : ℚ) / speed + t.deadline ≤ r then
    let demand := demand + t.wcet
    if r ≤ t.deadline then demand - (t.deadline - r) * speed else demand
  else demand

/-- `ffdbf_ts` and `FFDBFGedf::witness_condition`, `ffdbf.cpp:66-74` and `193-208`. -/
def cppWitness (m : ℕ) (ts : Native.TaskSet) (time speed : ℚ) : Bool :=
  decide ((ts.map (fun t => cppDemand t time speed)).sum ≤ (-((m : ℚ) - 1) * speed + m) * time)

/-- `TestPoints`, `ffdbf.cpp:77-83`. -/
structure TestPoints where
  time : ℚ
  withOffset : ℚ
  period : ℕ
  firstPoint : Bool

/-- `TestPoints::get_cur`, `ffdbf.cpp:110-116`. -/
def TestPoints.cur (p : TestPoints) : ℚ := if p.firstPoint then p.withOffset else p.time

/-- `TestPoints::next`, `ffdbf.cpp:118-128`. -/
def TestPoints.next (p : TestPoints) : TestPoints :=
  if p.firstPoint then { p with firstPoint := false }
  else { p with time := p.time + p.period, withOffset := p.withOffset + p.period, firstPoint := true }

/-- The loop `ffdbf.cpp:106-107`. -/
def TestPoints.skip (minTime : ℚ) : ℕ → TestPoints → Option TestPoints
  | 0, _ => none
  | fuel + 1, p => if p.cur ≤ minTime then TestPoints.skip minTime fuel p.next else some p

/-- `TestPoints::init`, `ffdbf.cpp:86-108`. -/
def TestPoints.init (fuel : ℕ) (t : Native.Task) (speed minTime : ℚ) : Option TestPoints :=
  let offset := if (t.wcet : ℚ) / speed > t.deadline then (t.deadline : ℚ) else (t.wcet : ℚ) / speed
  let time : ℚ := trunc (minTime / t.period) * t.period + t.deadline
  TestPoints.skip minTime fuel ⟨time, offset * -1 + time, t.period, true⟩

/-- The points of all tasks, `ffdbf.cpp:165-170`: the `k`-th point of a task is the one
after `k` calls of `next`. -/
def cppPoints (ps : List TestPoints) (i k : ℕ) : ℚ :=
  ((ps[i]?).map (fun p => (TestPoints.next^[k] p).cur)).getD 0

/-- The search for the next value, `ffdbf.cpp:283-292`: the new values of `sigma_cur` and
`sigma_nxt`. -/
def cppSearch (step bound : ℚ) (ok : ℚ → Bool) : ℕ → ℚ → Option (ℚ × ℚ)
  | 0, _ => none
  | fuel + 1, nxt =>
    if nxt ≤ bound ∧ ok nxt = false then cppSearch step bound ok fuel (nxt + step)
    else some (nxt, nxt + step)

/-- The outer loop, `ffdbf.cpp:266-293`. -/
def cppLoop (pick : ℕ → (ℕ → ℚ) → ℕ) (fuel m : ℕ) (ts : Native.TaskSet) (step bound timeBound : ℚ) :
    ℕ → ℚ → ℚ → ℚ → Option Bool
  | 0, _, _, _ => none
  | rounds + 1, sigma, nxt, tcur =>
    if sigma ≤ bound ∧ tcur ≤ timeBound then
      if sigma = 0 ∧ ts ≠ [] then none
      else do
        let ps ← ts.mapM (fun t => TestPoints.init fuel t sigma tcur)
        match ← scan pick fuel ts.length (cppPoints ps) timeBound (fun t => cppWitness m ts t sigma) fuel
            Merge.start with
        | none => return true
        | some t =>
          let r ← cppSearch step bound (fun s => cppWitness m ts t s) fuel nxt
          cppLoop pick fuel m ts step bound timeBound rounds r.1 r.2 t
    else some false

/-- `FFDBFGedf::is_schedulable` after the checks, `ffdbf.cpp:225-298`. -/
def cppCore (pick : ℕ → (ℕ → ℚ) → ℕ) (fuel m : ℕ) (ts : Native.TaskSet) (epsilonDenom granularity : ℕ) :
    Option Bool :=
  if epsilonDenom = 0 ∨ granularity = 0 then none
  else
    let epsilon : ℚ := 1 / epsilonDenom
    let step : ℚ := 1 / granularity
    let bound := min ((ts.utilization - m) / -((m : ℚ) - 1) - epsilon) 1
    let timeBound := (ts.map (fun t => (t.wcet : ℚ))).sum / epsilon
    let sigma := ts.maxDensity
    cppLoop pick fuel m ts step bound timeBound fuel sigma ((trunc (sigma / step) + 1) * step) 0

/-- `FFDBFGedf::is_schedulable`, `ffdbf.cpp:210-299`. -/
def cppFfdbf (pick : ℕ → (ℕ → ℚ) → ℕ) (fuel m : ℕ) (ts : Native.TaskSet) (check : Bool := true)
    (epsilonDenom : ℕ := 10) (granularity : ℕ := 50) : Option Bool :=
  if m < 2 then some false
  else if check && !(ts.hasOnlyFeasibleTasks && ts.isNotOverutilized m && ts.hasOnlyConstrainedDeadlines &&
      ts.hasNoSelfSuspendingTasks) then some false
  else cppCore pick fuel m ts epsilonDenom granularity

end Verif.Ff
