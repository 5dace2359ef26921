/-
Model of the demand and load approximation of the native task model:
`native/include/tasks.h:126-184` and `native/src/tasks.cpp:137-243`.
-/
import Verif.Model.NativeTasks
import Mathlib.Data.List.Sort

namespace Verif.Native

/-- `Task::bound_load`, `tasks.h:126-138`. -/
def Task.boundLoad (t : Task) (time : ℕ) : ℚ :=
  if 0 < time then (t.boundDemand time : ℚ) / time else 0

/-- `Task::approx_demand`, `tasks.h:154-172` (the `integral_t` overload). -/
def Task.approxDemand (t : Task) (time k : ℕ) : ℤ :=
  if time < k * t.period + t.deadline then t.boundDemand time
  else cdivQ (((time : ℤ) - t.deadline) * t.wcet) t.period + t.wcet

/-- `Task::approx_load`, `tasks.h:174-187`. -/
def Task.approxLoad (t : Task) (time k : ℕ) : ℚ :=
  if 0 < time then (t.approxDemand time k : ℚ) / time else 0

namespace TaskSet

/-- `TaskSet::k_for_epsilon`, `tasks.cpp:137-151`; the final conversion to `double` is
taken as exact. -/
def kForEpsilon (ts : TaskSet) (t : Task) (epsilon : ℚ) : ℕ :=
  ⌈max 0 (t.utilization * ts.length / epsilon - (t.deadline : ℚ) / t.period)⌉₊

/-- The test points of one task, `tasks.cpp:195-203`. -/
def testPointsOf (t : Task) (k : ℕ) : List ℕ :=
  (List.range (k + 1)).map (fun j => t.deadline + j * t.period)

/-- The sorted test points, `tasks.cpp:189-207`. -/
def testPoints (ts : TaskSet) (epsilon : ℚ) : List ℕ :=
  (ts.flatMap (fun t => testPointsOf t (ts.kForEpsilon t epsilon))).insertionSort (· ≤ ·)

/-- `tasks.cpp:217-224`: the approximate load at a point. -/
def approxLoadAt (ts : TaskSet) (epsilon : ℚ) (time : ℕ) : ℚ :=
  (ts.map (fun t => t.approxLoad time (ts.kForEpsilon t epsilon))).sum

/-- The iteration over the test points, `tasks.cpp:210-240`; `at` gives the
approximate load at a point. -/
def loadLoop (loadAt : ℕ → ℚ) (density : ℚ) : ℚ → ℕ → List ℕ → ℚ
  | load, _, [] => load
  | load, last, t :: times =>
    if last < t then
      if density < loadAt t then density
      else if load < loadAt t then loadLoop loadAt density (loadAt t) t times
      else loadLoop loadAt density load t times
    else loadLoop loadAt density load last times

/-- `TaskSet::approx_load`, `tasks.cpp:164-243`.  The vector `k` of line 177 is
reserved but not resized before it is written; the model uses the values written. -/
def approxLoad (ts : TaskSet) (epsilon : ℚ) : ℚ :=
  if utilization ts < density ts then
    loadLoop (approxLoadAt ts epsilon) (density ts) (utilization ts + epsilon) 0
      (testPoints ts epsilon)
  else utilization ts

end TaskSet

end Verif.Native
