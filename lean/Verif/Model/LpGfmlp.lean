/-
Model of `native/src/blocking/linprog/lp_gfmlp.cpp`, called from `apply_generalized_fmlp_bounds` in
`schedcat/locking/bounds.py:376-397`.

Floating-point numbers are exact rationals; other numbers are natural numbers, and wrap-around of
`unsigned int` and `unsigned long` is not modelled.
-/
import Verif.Model.LpSem
import Verif.Model.Fmlp

namespace Verif.SR.Lp
open Verif.Spec
open Verif.SR.Fmlp (totalNumRequests)

/-- `edf_get_max_lower_prio_jobs`, `sharedres_types.h:204-222`: how many jobs of `tx` with a later deadline exist while
a job of `ti` is pending. -/
def edfLowerPrioJobs (ti tx : TaskInfo) : ℕ :=
  if ti.response + tx.deadline ≤ ti.deadline then 0 else tx.maxNumJobs (tx.deadline + ti.response - ti.deadline)

/-- `fp_get_max_lower_prio_jobs`, `sharedres_types.h:224-233`. -/
def fpLowerPrioJobs (ti tx : TaskInfo) : ℕ := if ti.priority < tx.priority then tx.maxNumJobs ti.response else 0

/-- `get_max_lower_prio_jobs`, `sharedres_types.h:235-241`. -/
def lowerPrioJobs (usingEdf : Bool) (ti tx : TaskInfo) : ℕ :=
  if usingEdf then edfLowerPrioJobs ti tx else fpLowerPrioJobs ti tx

/-- `add_per_segment_once_constraints`, `lp_gfmlp.cpp:37-74`. -/
def segmentOnce (info : Info) (i : ℕ) (ti : TaskInfo) (lp : Program) : Program :=
  (others info i).foldl (fun lp t =>
    addInequality lp (allTerms ti [.preempt, .indirect, .direct] t) (1 + 2 * totalNumRequests ti : ℕ)) lp

/-- `add_total_preemption_limit_constraints`, `lp_gfmlp.cpp:76-110`. -/
def totalPreemptions (usingEdf : Bool) (info : Info) (i : ℕ) (ti : TaskInfo) (lp : Program) : Program :=
  (others info i).foldl (fun lp t =>
    addInequality lp (allTerms ti [.preempt] t) (lowerPrioJobs usingEdf ti t.2 * totalNumRequests t.2 : ℕ)) lp

/-- `add_resource_preemption_limit_constraints`, `lp_gfmlp.cpp:112-145`. -/
def resourcePreemptions (usingEdf : Bool) (info : Info) (i : ℕ) (ti : TaskInfo) (lp : Program) : Program :=
  (others info i).foldl (fun lp t => t.2.requests.foldl (fun lp r =>
    addInequality lp (terms ti [.preempt] t r 1) (lowerPrioJobs usingEdf ti t.2 * r.num : ℕ)) lp) lp

/-- `add_gfmlp_constraints`, `lp_gfmlp.cpp:147-181`. -/
def gfmlpConstraints (usingEdf : Bool) (clusterSize : ℕ) (info : Info) (i : ℕ) (ti : TaskInfo) (lp : Program) : Program :=
  let lp := semMutex info i ti lp
  let lp := topologyShm info ti lp
  let lp := fifoResource info i ti lp
  let lp := totalFifo info i ti lp
  let lp := fifoCluster info ti lp
  let lp := segmentOnce info i ti lp
  let lp := totalPreemptions usingEdf info i ti lp
  let lp := resourcePreemptions usingEdf info i ti lp
  if clusterSize = 1 then lowerShm info i ti lp else lp

/-- `apply_gfmlp_bounds_for_task`, `lp_gfmlp.cpp:183-236`; `none` is the failing assertion.  `remote` does not wrap
around because `total` is not smaller than `loc`. -/
def gfmlpTask (usingEdf : Bool) (clusterSize : ℕ) (solve : Solver) (info : Info) (i : ℕ) (ti : TaskInfo) :
    Option SemBounds :=
  let lp := gfmlpConstraints usingEdf clusterSize info i ti { objective := partObjective info i ti }
  (solve lp).map (fun x =>
    let total := (lrint (termSum x lp.objective)).toNat
    let loc := (lrint (termSum x (localObjective info i ti))).toNat
    ⟨total, total - loc, loc⟩)

/-- `lp_gfmlp_bounds`, `lp_gfmlp.cpp:239-271`. -/
def lpGfmlpBounds (usingEdf : Bool) (clusterSize : ℕ) (solve : Solver) (info : Info) : Option (List SemBounds) :=
  (tasks info).mapM (fun t => gfmlpTask usingEdf clusterSize solve info t.1 t.2)

end Verif.SR.Lp
