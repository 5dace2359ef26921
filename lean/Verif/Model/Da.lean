/-
Model of `schedcat/sched/edf/da.py`: tardiness bounds of Devi and Anderson for
global EDF.

* Costs, periods and deadlines are natural numbers; the floating-point numbers of
  the code are exact.
* The outer `Option` is `none` if the code raises an exception, the inner one if it
  returns `None` or `False`.
-/
import Verif.Model.Gel

namespace Verif.Da
open Verif.Gel

/-- `xs[0:k]`: for a negative `k`, all but the last `-k` entries. -/
def slice {α : Type} (k : ℤ) (xs : List α) : List α := if 0 ≤ k then xs.take k.toNat else xs.take (xs.length - (-k).toNat)

/-- `by_util`, `da.py:22-23` and `46-47`: utilizations in descending order. -/
def byUtil {n : ℕ} (ts : Fin n → GTask) : List ℚ :=
  ((List.finRange n).map fun i => ((ts i).cost : ℚ) / (ts i).period).insertionSort (fun a b => b ≤ a)

/-- `by_cost`, `da.py:24-25` and `49-50`: costs in descending order. -/
def byCost {n : ℕ} (ts : Fin n → GTask) : List ℕ := ((List.finRange n).map fun i => (ts i).cost).insertionSort (fun a b => b ≤ a)

/-- `Lambda`, `da.py:27` and `52`. -/
def lambda {n : ℕ} (ts : Fin n → GTask) : ℤ := ⌈utilSum ts⌉ - 1

/-- `reduced_capacity`, `da.py:30` and `55`. -/
def reducedCapacity {n : ℕ} (m : ℕ) (ts : Fin n → GTask) : ℚ := m - (slice (lambda ts - 1) (byUtil ts)).sum

/-- `emin = by_cost[-1]`, `da.py:28` and `53`. -/
def emin {n : ℕ} (ts : Fin n → GTask) : ℕ := (byCost ts).getLastD 0

/-- `da.py:8-36` (`tardiness_x`). -/
def tardinessX {n : ℕ} (m : ℕ) (ts : Fin n → GTask) : Option ℤ :=
  if n = 0 then some 0
  else if m = 1 then (if utilSum ts ≤ 1 then some 0 else none)
  else if reducedCapacity m ts ≤ 0 then none
  else
    let reducedCost : ℤ := max 0 (((slice (lambda ts) (byCost ts)).sum : ℕ) - (emin ts : ℤ))
    some ⌈(reducedCost : ℚ) / reducedCapacity m ts⌉

/-- `da.py:38-62` (`np_tardiness_x`). -/
def npTardinessX {n : ℕ} (m : ℕ) (ts : Fin n → GTask) : Option ℤ :=
  if n = 0 then some 0
  else if reducedCapacity m ts ≤ 0 then none
  else
    let blockIdx : ℤ := (m : ℤ) - lambda ts - 1
    let reducedCost : ℤ := ((slice (lambda ts) (byCost ts)).sum : ℕ) + ((slice blockIdx (byCost ts)).sum : ℕ) - (emin ts : ℤ)
    some ⌈(reducedCost : ℚ) / reducedCapacity m ts⌉

/-- `da.py:64-76` (`task_tardiness_bound`); `has_bounded_tardiness` (`da.py:78-80`)
is the same as in `gel_pl.py`. -/
def taskTardinessBound {n : ℕ} (m : ℕ) (ts : Fin n → GTask) (preemptive : Bool) : Option ℤ :=
  if hasBoundedTardiness m ts = false then none
  else if 1 < m then (if preemptive then tardinessX m ts else npTardinessX m ts)
  else some 0

/-- `da.py:82-92` (`bound_response_times`): the response times that the tasks get. -/
def boundResponseTimes {n : ℕ} (m : ℕ) (ts : Fin n → GTask) (preemptive : Bool) : Option (Option (Fin n → ℤ)) :=
  if (List.finRange n).all (fun i => decide ((ts i).deadline = (ts i).period)) then
    some ((taskTardinessBound m ts preemptive).map fun x => fun i => (ts i).deadline + (ts i).cost + x)
  else none

end Verif.Da
