/-
Model of the example study: `example/mapping.py` and the parts of `example/locking.py` that do not belong to functions
modelled elsewhere.
-/
import Verif.Model.Rollback
import Verif.Model.LockBounds
import Mathlib.Data.Rat.Floor

namespace Verif.Study
open Verif.Rollback

/-- A cluster: the attribute `partition` of its tasks, the attribute `cpus`, and its tasks. -/
structure Cluster (α : Type) where
  partition : ℕ
  cpus : ℤ
  tasks : List α
deriving DecidableEq

/-- The capacity of bin `i`, `example/mapping.py:8-15`, and the attribute `cpus`, `example/mapping.py:20-23`. -/
def binCapacity (clusterSize : ℤ) (dedicatedIrq : Bool) (i : ℕ) : ℤ :=
  if i = 0 ∧ dedicatedIrq = true then clusterSize - 1 else clusterSize

/-- `partition_tasks`, `example/mapping.py:6-28`; `none` is `False`.  The first bin exists even if `clusters` is 0. -/
def partitionTasks {α : Type} (utilization : α → ℚ) (clusterSize : ℤ) (clusters : ℕ) (dedicatedIrq : Bool)
    (taskset : List α) : Option (List (Cluster α)) :=
  let ops := fixedOps utilization (fun i => (binCapacity clusterSize dedicatedIrq i : ℚ)) (fun _ => true)
  let o := binpack (worstFitPlace ops) ops false ⟨List.replicate (1 + (clusters - 1)) [], [], 0⟩ taskset
  if o.state.misfits.isEmpty then
    some ((o.state.bins.zipIdx.map (fun b => (⟨b.2, binCapacity clusterSize dedicatedIrq b.2, b.1⟩ : Cluster α))).filter
      (fun c => decide (c.tasks.length > 0)))
  else none

/-- The priority point of `preprocess_ts`, `example/locking.py:30-31`.  The file does not import `division` from
`__future__`, so that the quotient of two integers is rounded down; `none` is a `ZeroDivisionError`. -/
def prioPt (deadline : ℚ) (cpus : ℤ) (cost : ℚ) : Option ℚ :=
  if cpus = 0 then none else some (deadline - ((Int.fdiv (cpus - 1) cpus : ℤ) : ℚ) * cost)

/-- The test of `example/locking.py:65-67` for all tasks: does a new response time exceed the assumed one? -/
def exceeds (new old : List (List ℚ)) : Bool :=
  (new.zip old).any (fun c => (c.1.zip c.2).any (fun r => decide (r.1 > r.2)))

/-- The loop of `bound_cfl_with_locks`, `example/locking.py:49-68`, with the number of rounds that are left.  `round` is
the analysis of `example/locking.py:53-64`, from the response times in `clusts` to those in `new_clusts`; `none` is
`return False`.  It works on a copy of `clusts`, which the loop does not change. -/
def boundLoop (round : List (List ℚ) → Option (List (List ℚ))) (old : List (List ℚ)) : ℕ → Option (List (List ℚ))
  | 0 => none
  | n + 1 =>
    match round old with
    | none => none
    | some new => if exceeds new old then boundLoop round old n else some new

/-- `bound_cfl_with_locks`, `example/locking.py:47-68`, with the response times assumed by `preprocess_ts`. -/
def boundCfl (round : List (List ℚ) → Option (List (List ℚ))) (old : List (List ℚ)) : Option (List (List ℚ)) :=
  boundLoop round old 100

end Verif.Study
