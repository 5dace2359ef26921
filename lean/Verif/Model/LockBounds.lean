/-
Model of the helpers in `schedcat/locking/bounds.py:12-50` and `123-132` that
prepare a blocking analysis.  Numbers are exact rationals.
-/
import Mathlib.Algebra.Order.Ring.Rat
import Mathlib.Data.Rat.Floor
import Mathlib.Data.List.Sort
import Mathlib.Data.List.Dedup
import Mathlib.Algebra.Order.Round

namespace Verif.Lock

/-- Python `int(x)` of a number: truncation towards zero. -/
def pyInt (x : ℚ) : ℤ := if 0 ≤ x then ⌊x⌋ else ⌈x⌉

/-- `sorted(set(...))`, `bounds.py:13-15`. -/
def sortedSet (keys : List ℚ) : List ℚ := keys.dedup.insertionSort (· ≤ ·)

/-- The dictionary `prio` of `bounds.py:14-16`: a later assignment to the same key
overwrites an earlier one.  The newest entry comes first. -/
def prioTable (keys : List ℚ) : List (ℤ × ℕ) :=
  (sortedSet keys).zipIdx.foldl (fun d p => (pyInt p.1, p.2) :: d) []

/-- `d[k]`; `none` is a `KeyError`. -/
def dictGet (d : List (ℤ × ℕ)) (k : ℤ) : Option ℕ := (d.find? (fun e => e.1 == k)).map (·.2)

/-- `assign_edf_preemption_levels` (`bounds.py:12-19`, the keys are the deadlines) and
`assign_prio_pt_preemption_levels` (`bounds.py:21-28`, the keys are the priority
points): the level of each task. -/
def preemptionLevels (keys : List ℚ) : List (Option ℕ) :=
  keys.map (fun k => dictGet (prioTable keys) (pyInt k))

/-- `assign_fp_preemption_levels`, `bounds.py:30-33`. -/
def fpPreemptionLevels {α : Type} (tasks : List α) : List (α × ℕ) := tasks.zipIdx

/-- The loop of `is_reasonable_priority_assignment` over `izip(l, l[1:])`,
`bounds.py:46-49`. -/
def adjacentOrdered : List ℚ → Bool
  | a :: b :: l => if b < a then false else adjacentOrdered (b :: l)
  | _ => true

/-- `is_reasonable_priority_assignment`, `bounds.py:35-50`, on the deadlines. -/
def isReasonable (numCpus : ℕ) (deadlines : List ℚ) : Bool :=
  adjacentOrdered (deadlines.drop numCpus)

/-- One entry of `get_round_robin_resource_mapping`, `bounds.py:128-131`.
`cpp.NO_CPU` is -1.  `none`: `ZeroDivisionError`. -/
def rrCpu (numCpus : ℕ) (dedicatedIrq : ℤ) (resId : ℕ) : Option ℕ :=
  if numCpus = 0 then none
  else
    let cpu := resId % numCpus
    some (if (cpu : ℤ) = dedicatedIrq then (cpu + 1) % numCpus else cpu)

/-- `get_round_robin_resource_mapping`, `bounds.py:123-132`: the dictionary as the list
of its values in order of the keys `0 … num_resources - 1`. -/
def roundRobin (numResources numCpus : ℕ) (dedicatedIrq : ℤ := -1) : Option (List ℕ) :=
  (List.range numResources).mapM (rrCpu numCpus dedicatedIrq)

end Verif.Lock
