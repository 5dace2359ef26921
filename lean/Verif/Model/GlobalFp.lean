/-
Model of the global fixed-priority tests `schedcat/sched/fp/bertogna.py` and
`schedcat/sched/fp/guan.py`.  Parameters are integers, computations exact.  The
attribute `response_time` of an analysed task is paired with the task.  At least
one processor and positive periods are assumed (the code divides by both).
-/
import Mathlib.Data.Int.Order.Basic
import Mathlib.Data.List.Sort
import Mathlib.Algebra.BigOperators.Group.List.Basic

namespace Verif.GFp

/-- The attributes of a task that the tests read; `blocked` and
`hp_direct_blocked` may be missing. -/
structure FTask where
  cost : ℕ
  period : ℕ
  deadline : ℕ
  blocked : Option ℕ := none
  hpDirect : Option ℕ := none
deriving DecidableEq, Repr

/-! ### `bertogna.py` -/

/-- `workload_function`, `bertogna.py:18-30`. -/
def workloadFunction (t : FTask) (time : ℤ) : ℤ :=
  let njobs := (time - t.cost + t.deadline) / t.period
  let carryIn := min (t.cost : ℤ) (time - t.cost + t.deadline - t.period * njobs)
  t.cost * njobs + carryIn

/-- `slack_aware_workload_function`, `bertogna.py:32-49`. -/
def slackAwareWorkloadFunction (t : FTask × ℤ) (time : ℤ) : ℤ :=
  let slack := max 0 ((t.1.deadline : ℤ) - t.2)
  let njobs := (time - t.1.cost - slack + t.1.deadline) / t.1.period
  let carryIn := min (t.1.cost : ℤ)
    (time - t.1.cost + t.1.deadline - slack - t.1.period * njobs)
  t.1.cost * njobs + carryIn

/-- The interference in the loop body, `bertogna.py:76-102`. -/
def hpInterference (m : ℕ) (dontUseSlack : Bool) (t : FTask) (hp : List (FTask × ℤ)) (time : ℤ) : ℤ :=
  let total := if dontUseSlack then (hp.map (fun ti => workloadFunction ti.1 time)).sum
    else (hp.map (fun ti => slackAwareWorkloadFunction ti time)).sum
  let total := match t.hpDirect with
    | none => total
    | some h => max (total - h) 0
  total / m

/-- The loop of `rta_schedulable`, `bertogna.py:73-116`: the outer `none` means that
it has not ended within `fuel` iterations, `some none` that it returned `False`,
`some (some r)` that it set `response_time` to `r`. -/
def bertognaLoop (m : ℕ) (dontUseSlack : Bool) (t : FTask) (hp : List (FTask × ℤ)) :
    ℕ → ℤ → Option (Option ℤ)
  | 0, _ => none
  | fuel + 1, time =>
    if time ≤ t.deadline then
      let demand := t.cost + (t.blocked.getD 0 : ℕ) + hpInterference m dontUseSlack t hp time
      if demand = time then some (some time) else bertognaLoop m dontUseSlack t hp fuel demand
    else some none

/-- `rta_schedulable`, `bertogna.py:51-116`, of the task at index `hp.length`. -/
def bertognaTask (fuel m : ℕ) (dontUseSlack : Bool) (t : FTask) (hp : List (FTask × ℤ)) :
    Option (Option ℤ) :=
  let own : ℤ := t.cost + (t.blocked.getD 0 : ℕ)
  if hp.length < m then some (if own > t.deadline then none else some own)
  else bertognaLoop m dontUseSlack t hp fuel own

/-- `all(… for k in xrange(len(tasks)))`, which stops at the first task that fails:
the answer and the tasks whose `response_time` was set. -/
def allTasks (test : FTask → List (FTask × ℤ) → Option (Option ℤ)) :
    List (FTask × ℤ) → List FTask → Option (Bool × List (FTask × ℤ))
  | done, [] => some (true, done)
  | done, t :: ts =>
    match test t done with
    | none => none
    | some none => some (false, done)
    | some (some r) => allTasks test (done ++ [(t, r)]) ts

/-- `is_schedulable` and `bound_response_times`, `bertogna.py:13-16`. -/
def bertogna (fuel m : ℕ) (ts : List FTask) (dontUseSlack : Bool := false) :
    Option (Bool × List (FTask × ℤ)) :=
  allTasks (bertognaTask fuel m dontUseSlack) [] ts

/-! ### `guan.py` -/

/-- `interference_with_carry_in`, `guan.py:60-73`. -/
def interferenceWithCarryIn (ti : FTask × ℤ) (tk : FTask) (time : ℤ) : ℤ :=
  let alphaTmp := max 0 (time - ti.1.cost) % ti.1.period - (ti.1.period - ti.2)
  let alpha := min (max alphaTmp 0) ((ti.1.cost : ℤ) - 1)
  let wkCi := max (time - ti.1.cost) 0 / ti.1.period * ti.1.cost + ti.1.cost + alpha
  min (max wkCi 0) (time - tk.cost + 1)

/-- `interference_without_carry_in`, `guan.py:77-86`. -/
def interferenceWithoutCarryIn (ti tk : FTask) (time : ℤ) : ℤ :=
  let wkNc := time / ti.period * ti.cost + min (time % ti.period) (ti.cost : ℤ)
  min (max wkNc 0) (time - tk.cost + 1)

/-- `total_interference`, `guan.py:89-120`. -/
def totalInterference (m : ℕ) (tk : FTask) (hp : List (FTask × ℤ)) (time : ℤ) : ℤ :=
  let interfNc := hp.map (fun ti => interferenceWithoutCarryIn ti.1 tk time)
  let idiff := hp.map (fun ti =>
    interferenceWithCarryIn ti tk time - interferenceWithoutCarryIn ti.1 tk time)
  ((idiff.insertionSort (fun a b => b ≤ a)).take (m - 1)).sum + interfNc.sum

/-- The loop of `rta_schedulable_guan`, `guan.py:38-53`. -/
def guanLoop (m : ℕ) (tk : FTask) (hp : List (FTask × ℤ)) : ℕ → ℤ → Option (Option ℤ)
  | 0, _ => none
  | fuel + 1, time =>
    if time ≤ tk.deadline then
      let demand := tk.cost + totalInterference m tk hp time / m
      if demand = time then some (some time) else guanLoop m tk hp fuel demand
    else some none

/-- `rta_schedulable_guan`, `guan.py:23-53`, after the assertion. -/
def guanTask (fuel m : ℕ) (tk : FTask) (hp : List (FTask × ℤ)) : Option (Option ℤ) :=
  if hp.length < m then
    some (if tk.cost > tk.deadline then none else some (tk.cost : ℤ))
  else guanLoop m tk hp fuel tk.cost

/-- What a call of the test does. -/
inductive Outcome where
  /-- The loop of some task has not ended within the fuel. -/
  | running
  /-- The assertion in `guan.py:29` has failed. -/
  | assertionError
  | returned (answer : Bool) (analysed : List (FTask × ℤ))
deriving DecidableEq

/-- The generator in `is_schedulable`, `guan.py:15-16`, with the assertion of
line 29. -/
def guanAll (fuel m : ℕ) : List (FTask × ℤ) → List FTask → Outcome
  | done, [] => .returned true done
  | done, t :: ts =>
    if t.deadline ≤ t.period then
      match guanTask fuel m t done with
      | none => .running
      | some none => .returned false done
      | some (some r) => guanAll fuel m (done ++ [(t, r)]) ts
    else .assertionError

/-- `is_schedulable` and `bound_response_times`, `guan.py:15-18`. -/
def guan (fuel m : ℕ) (ts : List FTask) : Outcome := guanAll fuel m [] ts

end Verif.GFp
