/-
Model of the native task model: `native/include/tasks.h`, `native/src/tasks.cpp`
and `native/include/math-helper.h`.

`unsigned long` and `integral_t` (an arbitrary-precision integer) values are
natural numbers where they cannot be negative and integers otherwise;
`fractional_t` (an arbitrary-precision fraction) is ℚ.  Overflow of
`unsigned long` is not modelled.
-/
import Mathlib.Algebra.Order.Ring.Rat
import Mathlib.Algebra.BigOperators.Group.List.Basic
import Mathlib.Data.Rat.Floor

namespace Verif.Native

/-- `Task`, `tasks.h:15-23`. -/
structure Task where
  wcet : ℕ
  period : ℕ
  deadline : ℕ
  prioPt : ℕ
  selfSuspension : ℕ
  tardinessThreshold : ℕ
deriving DecidableEq

/-- `Task::init`, `tasks.cpp:11-31`: a deadline of 0 means an implicit deadline.
Line 25 reads the *parameter* `deadline`, so the default priority point of a task
with an implicit deadline given as 0 is 0. -/
def Task.init (wcet period : ℕ) (deadline prioPt susp maxTardiness : ℕ := 0) : Task where
  wcet := wcet
  period := period
  deadline := if deadline = 0 then period else deadline
  prioPt := if prioPt = 0 then deadline else prioPt
  selfSuspension := susp
  tardinessThreshold := maxTardiness

/-- `Task::has_implicit_deadline`, `tasks.h:63-66`. -/
def Task.hasImplicitDeadline (t : Task) : Bool := t.deadline == t.period

/-- `Task::has_constrained_deadline`, `tasks.h:68-71`. -/
def Task.hasConstrainedDeadline (t : Task) : Bool := decide (t.deadline ≤ t.period)

/-- `Task::is_feasible`, `tasks.h:73-78`. -/
def Task.isFeasible (t : Task) : Bool :=
  decide (t.wcet + t.selfSuspension ≤ t.deadline) &&
  decide (t.wcet + t.selfSuspension ≤ t.period) && decide (0 < t.wcet)

/-- `Task::is_self_suspending`, `tasks.h:80-83`. -/
def Task.isSelfSuspending (t : Task) : Bool := decide (0 < t.selfSuspension)

/-- `Task::get_utilization`, `tasks.cpp:33-38` (assumes a positive period). -/
def Task.utilization (t : Task) : ℚ := (t.wcet : ℚ) / t.period

/-- `Task::get_density`, `tasks.cpp:40-45` (assumes a positive deadline). -/
def Task.density (t : Task) : ℚ := (t.wcet : ℚ) / t.deadline

/-- `Task::bound_demand`, `tasks.h:91-117` (both overloads; the integer
division of line 113 acts on a non-negative number). -/
def Task.boundDemand (t : Task) (time : ℕ) : ℕ :=
  if time < t.deadline then 0 else ((time - t.deadline) / t.period + 1) * t.wcet

/-- `TaskSet`, `tasks.h:192-196`. -/
abbrev TaskSet := List Task

namespace TaskSet

/-- `TaskSet::has_only_implicit_deadlines`, `tasks.cpp:76-79`. -/
def hasOnlyImplicitDeadlines (ts : TaskSet) : Bool := ts.all Task.hasImplicitDeadline

/-- `TaskSet::has_only_constrained_deadlines`, `tasks.cpp:81-84`. -/
def hasOnlyConstrainedDeadlines (ts : TaskSet) : Bool := ts.all Task.hasConstrainedDeadline

/-- `TaskSet::has_only_feasible_tasks`, `tasks.cpp:86-89`. -/
def hasOnlyFeasibleTasks (ts : TaskSet) : Bool := ts.all Task.isFeasible

/-- `TaskSet::has_no_self_suspending_tasks`, `tasks.cpp:91-94`. -/
def hasNoSelfSuspendingTasks (ts : TaskSet) : Bool := ts.all (fun t => !t.isSelfSuspending)

/-- `TaskSet::get_utilization`, `tasks.cpp:96-105`. -/
def utilization (ts : TaskSet) : ℚ := (ts.map Task.utilization).sum

/-- `TaskSet::get_density`, `tasks.cpp:107-116`. -/
def density (ts : TaskSet) : ℚ := (ts.map Task.density).sum

/-- `TaskSet::get_max_density`, `tasks.cpp:118-128`. -/
def maxDensity (ts : TaskSet) : ℚ := ts.foldl (fun d t => max d t.density) 0

/-- `TaskSet::is_not_overutilized`, `tasks.cpp:130-135`. -/
def isNotOverutilized (ts : TaskSet) (m : ℕ) : Bool := decide (utilization ts ≤ m)

/-- `TaskSet::bound_demand`, `tasks.cpp:153-162`. -/
def boundDemand (ts : TaskSet) (time : ℕ) : ℕ := (ts.map (fun t => t.boundDemand time)).sum

end TaskSet

/-- `divide_with_ceil`, `math-helper.h:6-14`. -/
def divideWithCeil (numer denom : ℕ) : ℕ :=
  if numer % denom = 0 then numer / denom else numer / denom + 1

/-- `divide_with_floor`, `math-helper.h:16-21`. -/
def divideWithFloor (numer denom : ℕ) : ℕ := numer / denom

/-- `mpz_cdiv_q` of the GMP library: the quotient rounded towards plus infinity
(the divisor is positive at every call). -/
def cdivQ (a b : ℤ) : ℤ := -((-a) / b)

/-- `divide_with_ceil` on `integral_t`, `math-helper.h:23-29`. -/
def divideWithCeilZ (numer denom : ℤ) : ℤ := cdivQ numer denom

/-- `round_up`, `math-helper.h:32-37`. -/
def roundUp (f : ℚ) : ℤ := cdivQ f.num f.den

theorem roundUp_eq (f : ℚ) : roundUp f = ⌈f⌉ := by
  unfold roundUp cdivQ
  rw [← Rat.ceil_intCast_div_natCast, Rat.num_div_den]

end Verif.Native
