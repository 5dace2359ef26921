/-
Model of `native/src/blocking/linprog/lp_spinlock_unordered.cpp` for preemptive spinning.
-/
import Verif.Model.LpSpinPreemptPrio

namespace Verif.SR.Lp
open Verif.Spec

/-- The requests of other processors for some resources, `lp_spinlock_unordered.cpp:26-37,50-61`. -/
def remoteFor (info : Info) (ti : TaskInfo) (p : ℕ → Bool) : List (TaskInfo × Request) :=
  (info.filter (fun t => t.cluster ≠ ti.cluster)).flatMap (fun t =>
    (t.requests.filter (fun r => p r.resId)).map (fun r => (t, r)))

/-- `bound_wait_time` with `preemptive == true`, `lp_spinlock_unordered.cpp:11-73`, and the use of the response time if it
returns -1, `90-93`. -/
def preemptWaitBound (fuel : ℕ) (info : Info) (ti : TaskInfo) (res : ℕ) : Option ℕ :=
  let qlh := localHpResources info ti
  let init := ((remoteFor info ti (fun q => q ∈ qlh)).map (fun r => r.2.length * r.2.num)).sum +
    hpInterference info ti ti.response
  (prioLoop ti.period (fun e => delayByUrgent (remoteFor info ti (fun q => q ∈ qlh ∨ q = res)) e +
    hpInterference info ti e + 1) fuel 0 init).map (fun e => if e ≤ ti.period then e else ti.response)

/-- The body of the loop over the resources in `add_unordered_direct_blocking_constraints` with `preemptive == true`,
`lp_spinlock_unordered.cpp:95-146`. -/
def preemptUnorderedFor (info : Info) (ti : TaskInfo) (q wait : ℕ) (lp : Program) : Program :=
  (otherClusters info ti).foldl (fun lp c => c.foldl (fun lp t =>
    addInequality lp (varsFor ti .direct q [t]) (numReqsIn t.2 q wait * countLocalHpReqs info ti q : ℕ)) lp) lp

/-- `add_unordered_direct_blocking_constraints` with `preemptive == true`, `lp_spinlock_unordered.cpp:76-149`. -/
def preemptUnorderedConstraints (fuel : ℕ) (info : Info) (ti : TaskInfo) (lp : Program) : Option Program :=
  (allResources info).foldlM (fun lp q =>
    (preemptWaitBound fuel info ti q).map (fun w => preemptUnorderedFor info ti q w lp)) lp

/-- The program of `apply_unordered_bounds_for_task` with `preemptive == true`, `lp_spinlock_unordered.cpp:151-184`;
`noRemoteArrivalConstraints` is `add_common_preemptive_spinlock_constraints`. -/
def preemptUnorderedProgram (fuel : ℕ) (info : Info) (i : ℕ) (ti : TaskInfo) : Option Program :=
  (preemptUnorderedConstraints fuel info ti (noRemoteArrivalConstraints info ti (commonConstraints info i ti {}))).map
    (setObjective info i ti)

/-- `lp_pfp_unordered_spinlock_bounds` with `preemptive == true`, `lp_spinlock_unordered.cpp:202-214`, as used in
`bounds.py:448-453`; `none` is a failing assertion or divergence. -/
def preemptUnorderedBounds (fuel : ℕ) (solve : Solver) (info : Info) : Option (List ℕ) :=
  (tasks info).mapM (fun t => (preemptUnorderedProgram fuel info t.1 t.2).bind (solved solve))

end Verif.SR.Lp
