/-
Model of `schedcat/model/tasks.py`.

Python numbers are exact rationals.  A task is the record of its numeric
attributes; attributes that other modules add (`response_time`, `id`, ...)
are separate arguments of the functions that read them.
-/
import Mathlib.Data.Rat.Floor
import Mathlib.Algebra.Order.BigOperators.Group.List
import Mathlib.Data.List.Sort

namespace Verif

/-- `schedcat/model/tasks.py:14-26` (`SporadicTask.__init__`). -/
structure SporadicTask where
  cost : ℚ
  period : ℚ
  deadline : ℚ
deriving DecidableEq, Repr

namespace SporadicTask

/-- `schedcat/model/tasks.py:15-26`: `SporadicTask(exec_cost, period, deadline=None)`. -/
def mk' (cost period : ℚ) (deadline : Option ℚ := none) : SporadicTask :=
  match deadline with
  | none => ⟨cost, period, period⟩
  | some d => ⟨cost, period, d⟩

/-- `schedcat/model/tasks.py:28-29`. -/
def implicitDeadline (t : SporadicTask) : Bool := t.deadline = t.period

/-- `schedcat/model/tasks.py:31-32`. -/
def constrainedDeadline (t : SporadicTask) : Bool := t.deadline ≤ t.period

/-- `schedcat/model/tasks.py:34-38` (`utilization`, `utilization_q`). -/
def utilization (t : SporadicTask) : ℚ := t.cost / t.period

/-- `schedcat/model/tasks.py:40-44` (`density`, `density_q`). -/
def density (t : SporadicTask) : ℚ := t.cost / min t.period t.deadline

/-- `schedcat/model/tasks.py:46-51`; `R` is the attribute `response_time`. -/
def tardiness (t : SporadicTask) (R : ℚ) : ℚ := max 0 (R - t.deadline)

/-- `schedcat/model/tasks.py:53-58`; `R` is the attribute `response_time`. -/
def slack (t : SporadicTask) (R : ℚ) : ℚ := t.deadline - R

/-- `schedcat/model/tasks.py:60-66`; `R` is the attribute `response_time`. -/
def maxjobs (t : SporadicTask) (R interval : ℚ) : ℤ :=
  ⌈(interval + R) / t.period⌉

/-- `schedcat/model/tasks.py:68-73`. -/
def dbf (tsk : SporadicTask) (t : ℚ) : ℚ :=
  if t ≤ 0 then 0
  else max 0 (((⌊(t - tsk.deadline) / tsk.period⌋ : ℤ) + 1) * tsk.cost)

/-- `schedcat/model/tasks.py:75-79`. -/
def rbf (tsk : SporadicTask) (t : ℚ) : ℚ :=
  if t < 0 then 0
  else ((⌊t / tsk.period⌋ : ℤ) + 1) * tsk.cost

/-- `schedcat/model/tasks.py:99-106` (`period_transform`). -/
def periodTransform (tsk : SporadicTask) (numSubjobs : ℚ) (wantInteger : Bool := true) :
    SporadicTask :=
  let p := tsk.period / numSubjobs
  let c := tsk.cost / numSubjobs
  let d := tsk.deadline / numSubjobs
  if wantInteger then ⟨(⌈c⌉ : ℤ), (⌊p⌋ : ℤ), (⌊d⌋ : ℤ)⟩ else ⟨c, p, d⟩

/-- `schedcat/model/tasks.py:108-109`. -/
def isFeasible (tsk : SporadicTask) : Bool := tsk.cost ≤ min tsk.deadline tsk.period

end SporadicTask

/-! ### Iterators over points of change -/

/-- `takewhile(lambda pt: pt <= max_t, count(start, step))`
(`schedcat/model/tasks.py:83-87`, `92-96`).  For `step <= 0` the Python
iterator is not finite; the model returns `[]` there and every theorem
assumes `0 < step`. -/
def countUpTo (start step maxT : ℚ) : List ℚ :=
  if _h : 0 < step ∧ start ≤ maxT then start :: countUpTo (start + step) step maxT
  else []
termination_by (⌊(maxT - start) / step⌋ + 1).toNat
decreasing_by
  obtain ⟨h1, h2⟩ := _h
  have e : (maxT - (start + step)) / step = (maxT - start) / step - 1 := by
    field_simp; ring
  rw [e, Int.floor_sub_one]
  have : (0 : ℤ) ≤ ⌊(maxT - start) / step⌋ := Int.floor_nonneg.mpr
    (div_nonneg (by linarith) h1.le)
  omega

/-- First element that `dropwhile(lambda pt: pt < 0, count(start, step))`
yields (`schedcat/model/tasks.py:84-85`, `93-94`); the iterator then goes on
in steps of `step`. -/
def dropNegative (start step : ℚ) : ℚ :=
  if _h : 0 < step ∧ start < 0 then dropNegative (start + step) step else start
termination_by (⌈-start / step⌉).toNat
decreasing_by
  obtain ⟨h1, h2⟩ := _h
  have e : -(start + step) / step = -start / step - 1 := by
    field_simp; ring
  rw [e, Int.ceil_sub_one]
  have : (0 : ℤ) < ⌈-start / step⌉ := Int.ceil_pos.mpr
    (div_pos (by linarith) h1)
  omega

namespace SporadicTask

/-- `schedcat/model/tasks.py:81-88` with a given `max_t`. -/
def dbfPointsOfChange (tsk : SporadicTask) (maxT : ℚ) (offset : ℚ := 0) : List ℚ :=
  let start := tsk.deadline - offset
  let start := if offset > 0 then dropNegative start tsk.period else start
  countUpTo start tsk.period maxT

/-- `schedcat/model/tasks.py:90-97` with a given `max_t`. -/
def rbfPointsOfChange (tsk : SporadicTask) (maxT : ℚ) (offset : ℚ := 0) : List ℚ :=
  let start := - offset
  let start := if offset > 0 then dropNegative start tsk.period else start
  countUpTo start tsk.period maxT

end SporadicTask

/-- `schedcat/util/iter.py:37-44` (`uniq`): the loop with the last element
seen. -/
def uniqFrom {α : Type} [DecidableEq α] (last : α) : List α → List α
  | [] => []
  | x :: xs => if x ≠ last then x :: uniqFrom x xs else uniqFrom last xs

/-- `schedcat/util/iter.py:37-44`; on an empty iterator `it.next()` raises
`StopIteration`, which ends the generator. -/
def uniq {α : Type} [DecidableEq α] : List α → List α
  | [] => []
  | x :: xs => x :: uniqFrom x xs

/-- `heapq.merge` of two sorted number streams. -/
def merge2 (a b : List ℚ) : List ℚ := List.merge a b (fun x y => decide (x ≤ y))

/-- `heapq.merge(*iters)` on numbers, as used in `schedcat/model/tasks.py:220`
and `:224`.  Equal numbers are indistinguishable, so the k-way merge of sorted
streams is the iterated two-way merge. -/
def heapqMerge (its : List (List ℚ)) : List ℚ := its.foldr merge2 []

/-- `schedcat/model/tasks.py:117` (`TaskSystem`). -/
abbrev TaskSystem := List SporadicTask

namespace TaskSystem

/-- `schedcat/model/tasks.py:127-128`. -/
def onlyImplicitDeadlines (ts : TaskSystem) : Bool := ts.all (·.implicitDeadline)

/-- `schedcat/model/tasks.py:130-131`. -/
def onlyConstrainedDeadlines (ts : TaskSystem) : Bool := ts.all (·.constrainedDeadline)

/-- Descending stable sort of numbers: `u.sort(reverse=True)`. -/
def sortDesc (u : List ℚ) : List ℚ := u.insertionSort (fun a b => b ≤ a)

/-- `schedcat/model/tasks.py:184-198` (`utilization`, `utilization_q`). -/
def utilization (ts : TaskSystem) (heaviest : Option ℕ := none) : ℚ :=
  let u := ts.map (·.utilization)
  match heaviest with
  | none => u.sum
  | some n => ((sortDesc u).take n).sum

/-- `schedcat/model/tasks.py:200-204`. -/
def density (ts : TaskSystem) : ℚ := (ts.map (·.density)).sum

/-- `schedcat/model/tasks.py:206-210`. -/
def dbf (ts : TaskSystem) (delta : ℚ) : ℚ := (ts.map (·.dbf delta)).sum

/-- `schedcat/model/tasks.py:212-216`. -/
def rbf (ts : TaskSystem) (delta : ℚ) : ℚ := (ts.map (·.rbf delta)).sum

/-- `schedcat/model/tasks.py:218-220`. -/
def dbfPointsOfChange (ts : TaskSystem) (maxT : ℚ) (offset : ℚ := 0) : List ℚ :=
  uniq (heapqMerge (ts.map (fun t => t.dbfPointsOfChange maxT offset)))

/-- `schedcat/model/tasks.py:222-224`. -/
def rbfPointsOfChange (ts : TaskSystem) (maxT : ℚ) (offset : ℚ := 0) : List ℚ :=
  uniq (heapqMerge (ts.map (fun t => t.rbfPointsOfChange maxT offset)))

end TaskSystem

/-- `schedcat/util/math.py:6-7` (`is_integral`).  Python tests the type of the
object; the model tests whether the value is integral. -/
def isIntegral (x : ℚ) : Bool := x.den = 1

/-- `schedcat/util/math.py:9-20` (`lcm`): the loop over `args[1:]`; the raised
exception is `none`.  `//` is floor division. -/
def lcmLoop (a : ℚ) : List ℚ → Option ℚ
  | [] => some a
  | b :: bs =>
    if !isIntegral a || !isIntegral b then none
    else lcmLoop (((a.num / (Int.gcd a.num b.num : ℤ)) * b.num : ℤ) : ℚ) bs

/-- `schedcat/util/math.py:9-20`. -/
def pyLcm : List ℚ → Option ℚ
  | [] => some 0
  | a :: bs => lcmLoop a bs

/-- `schedcat/model/tasks.py:226-227`. -/
def TaskSystem.hyperperiod (ts : TaskSystem) : Option ℚ := pyLcm (ts.map (·.period))

/-- `schedcat/util/math.py:22-26` (`topsum`). -/
def topsum {α : Type} (lst : List α) (fn : α → ℚ) (n : ℕ) : ℚ :=
  ((TaskSystem.sortDesc (lst.map fn)).take n).sum

/-! ### Ordering and identifiers

A task object with its attribute `id`.  (The same object occurring twice in a
task system is not modelled.) -/

/-- `sorted(lst, key=key)` / `lst.sort(key=key)`: Python's stable sort (the
library's algorithm is replaced by insertion sort, also stable). -/
def sortByKey {α : Type} (key : α → ℚ) (l : List α) : List α :=
  l.insertionSort (fun a b => key a ≤ key b)

namespace TaskSystem

/-- `schedcat/model/tasks.py:145-146`. -/
def sortByPeriod (ts : TaskSystem) : TaskSystem := sortByKey (·.period) ts

/-- `schedcat/model/tasks.py:148-149`. -/
def sortByDeadline (ts : TaskSystem) : TaskSystem := sortByKey (·.deadline) ts

/-- `schedcat/model/tasks.py:133-135`: pairs each task with its new `id`. -/
def assignIds (ts : TaskSystem) : List (SporadicTask × ℕ) :=
  ts.zipIdx.map (fun p => (p.1, p.2 + 1))

/-- The ids handed out by a loop `for i, t in enumerate(sorted(self, key)): t.id = i + 1`:
the positions of `self` in sorted order. -/
def sortedPositions (key : SporadicTask → ℚ) (ts : TaskSystem) : List (SporadicTask × ℕ) :=
  sortByKey (fun p => key p.1) ts.zipIdx

/-- `schedcat/model/tasks.py:137-139` and `141-143`: the list keeps its order,
the task at position `j` gets as id one plus its index in the sorted list. -/
def assignIdsBy (key : SporadicTask → ℚ) (ts : TaskSystem) : List (SporadicTask × ℕ) :=
  ts.zipIdx.map (fun p => (p.1, (sortedPositions key ts).idxOf p + 1))

/-- `schedcat/model/tasks.py:137-139`. -/
def assignIdsByPeriod (ts : TaskSystem) : List (SporadicTask × ℕ) := assignIdsBy (·.period) ts

/-- `schedcat/model/tasks.py:141-143`. -/
def assignIdsByDeadline (ts : TaskSystem) : List (SporadicTask × ℕ) := assignIdsBy (·.deadline) ts

/-- `schedcat/model/tasks.py:267-272`. -/
def withHigherPriorityThan (ts : List (SporadicTask × ℕ)) (lower : SporadicTask × ℕ) :
    List (SporadicTask × ℕ) := ts.filter (fun t => t.2 < lower.2)

/-- `schedcat/model/tasks.py:274-279`. -/
def withLowerPriorityThan (ts : List (SporadicTask × ℕ)) (upper : SporadicTask × ℕ) :
    List (SporadicTask × ℕ) := ts.filter (fun t => t.2 > upper.2)

end TaskSystem

end Verif
