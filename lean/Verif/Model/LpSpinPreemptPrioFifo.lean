/-
Model of `native/src/blocking/linprog/lp_spinlock_prio_fifo.cpp` for preemptive spinning, and of its use in
`schedcat/locking/bounds.py`.
-/
import Verif.Model.LpSpinPreemptPrio

namespace Verif.SR.Lp
open Verif.Spec

/-- `get_max_lp_csl_from_cluster`, `lp_spinlock_prio_fifo.cpp:86-110`. -/
def maxLowerFrom (pr : LockPrio) (info : Info) (res lockingPrio cluster : ℕ) : ℕ :=
  (((tasks info).filter (fun t => t.2.cluster = cluster)).flatMap (fun t =>
    (t.2.requests.filter (fun r => r.resId = res ∧ pr t.1 r.resId > lockingPrio)).map Request.length)).foldl max 0

/-- `longest_CS_on_cluster`, `lp_spinlock_prio_fifo.cpp:178-192`. -/
def longestSameOn (pr : LockPrio) (res lockingPrio : ℕ) (c : List (ℕ × TaskInfo)) : ℕ :=
  (c.flatMap (fun t =>
    (t.2.requests.filter (fun r => r.resId = res ∧ pr t.1 r.resId = lockingPrio)).map Request.length)).foldl max 0

/-- `get_spin_L_prime`, `lp_spinlock_prio_fifo.cpp:162-198`. -/
def spinLowerFrom (pr : LockPrio) (info : Info) (res lockingPrio pa pl : ℕ) : ℕ :=
  maxLowerFrom pr info res lockingPrio pl +
    (((splitByCluster info).zipIdx.filter (fun c => c.2 ≠ pa ∧ c.2 ≠ pl)).map (fun c =>
      longestSameOn pr res lockingPrio c.1)).sum

/-- `get_spin_LS` with `get_spin_L`, `lp_spinlock_prio_fifo.cpp:201-249`. -/
def spinLowerSame (pr : LockPrio) (info : Info) (res lockingPrio pa : ℕ) : ℕ :=
  max (longestSameOn pr res lockingPrio ((tasks info).filter (fun t => t.2.cluster ≠ pa)))
    ((((List.range (splitByCluster info).length).filter (fun c => c ≠ pa)).map (fun c =>
      spinLowerFrom pr info res lockingPrio pa c)).foldl max 0)

/-- `get_cpp_PFP`, `lp_spinlock_prio_fifo.cpp:252-282`. -/
def costPerPreemptionFifo (pr : LockPrio) (info : Info) (ti : TaskInfo) (res lockingPrio : ℕ) : ℕ :=
  max (spinLowerSame pr info res lockingPrio ti.cluster)
    (((localHigher info ti).flatMap (fun t => (t.2.requests.filter (fun r => r.num > 0)).map (fun r =>
      spinLowerSame pr info r.resId (pr t.1 r.resId) t.2.cluster))).foldl max 0)

/-- `get_pi_r`, `lp_spinlock_prio_fifo.cpp:285-314`. -/
def localMinPrio (pr : LockPrio) (info : Info) (ti : TaskInfo) (res : ℕ) : ℕ :=
  ((localHigher info ti).flatMap (fun t =>
    (t.2.requests.filter (fun r => r.resId = res)).map (fun r => pr t.1 r.resId))).foldl max 0

/-- The requests of other processors that are counted in `HP`, `lp_spinlock_prio_fifo.cpp:328-350,384-406`.  As in the code,
`get_pi_r` is evaluated for the resource `res`, not for the resource of the request. -/
def overtaking (pr : LockPrio) (info : Info) (ti : TaskInfo) (res lockingPrio : ℕ) : List (TaskInfo × Request) :=
  ((tasks info).filter (fun t => t.2.cluster ≠ ti.cluster)).flatMap (fun t =>
    (t.2.requests.filter (fun r => (r.resId ∈ localHpResources info ti ∨ r.resId = res) ∧
      pr t.1 r.resId < max (if r.resId = res then lockingPrio else 0) (localMinPrio pr info ti res))).map (fun r =>
        (t.2, r)))

/-- `LSP_lh`, `lp_spinlock_prio_fifo.cpp:352-366,408-422`, with the number of jobs of each task. -/
def spinOfHigher (pr : LockPrio) (info : Info) (ti : TaskInfo) (jobs : TaskInfo → ℕ) : ℕ :=
  ((localHigher info ti).flatMap (fun t => t.2.requests.map (fun r =>
    jobs t.2 * r.num * spinLowerSame pr info r.resId (pr t.1 r.resId) ti.cluster))).sum

/-- `bound_wait_time_prio_fifo_preemptive`, `lp_spinlock_prio_fifo.cpp:317-437`, and the use of the response time if it
returns -1, `552-553`.  As in the code, the interference is not updated in the loop. -/
def preemptPrioFifoWait (pr : LockPrio) (fuel : ℕ) (info : Info) (ti : TaskInfo) (res lockingPrio : ℕ) : Option ℕ :=
  let rs := overtaking pr info ti res lockingPrio
  let own := spinLowerSame pr info res lockingPrio ti.cluster
  let first := (rs.map (fun r => r.2.length * r.2.num)).sum + spinOfHigher pr info ti (fun _ => 1) + own
  let perPreemption := costPerPreemptionFifo pr info ti res lockingPrio * maxPreemptions info ti
  let init := first + hpInterference info ti first + perPreemption
  (prioLoop ti.period (fun e => delayByUrgent rs e + own + spinOfHigher pr info ti (fun t => t.maxNumJobs e) +
      perPreemption + hpInterference info ti init + 1) fuel 0 init).map
    (fun e => if e ≤ ti.period then e else ti.response)

/-- `add_prio_fifo_direct_blocking_HP_constraints` with `preemptive == true`, `lp_spinlock_prio_fifo.cpp:530-583`. -/
def preemptPrioFifoDirect (pr : LockPrio) (fuel : ℕ) (info : Info) (ti : TaskInfo) (lp : Program) : Option Program :=
  (allResources info).foldlM (fun lp q =>
    (preemptPrioFifoWait pr fuel info ti q (minPrio pr info ti q false)).map (fun w =>
      higherDirectFor pr info ti q (fun p => p < minPrio pr info ti q false) w lp)) lp

/-- `add_prio_fifo_max_direct_blocking_constraints` with `preemptive == true`, `lp_spinlock_prio_fifo.cpp:590-638`. -/
def preemptPrioFifoSame (pr : LockPrio) (info : Info) (ti : TaskInfo) (lp : Program) : Program :=
  (allResources info).foldl (fun lp q => (otherClusters info ti).foldl (fun lp c =>
    addInequality lp (subVar (varsWith pr ti .direct q (fun p => p = minPrio pr info ti q false) c) (preemptionsOf q))
      (countLocalHpReqs info ti q : ℕ)) lp) lp

/-- The program of `apply_prio_fifo_bounds_for_task` with `preemptive == true`, `lp_spinlock_prio_fifo.cpp:747-807`. -/
def preemptPrioFifoProgram (pr : LockPrio) (fuel : ℕ) (info : Info) (i : ℕ) (ti : TaskInfo) : Option Program :=
  (preemptPrioFifoDirect pr fuel info ti (preemptPrioLower pr info ti (preemptionConstraints info ti
    (noRemoteArrivalConstraints info ti (commonConstraints info i ti {}))))).map
    (fun lp => setObjective info i ti (preemptPrioFifoSame pr info ti lp))

/-- `lp_pfp_prio_fifo_spinlock_bounds` with `preemptive == true`, `lp_spinlock_prio_fifo.cpp:810-821`; `none` is a failing
assertion or divergence. -/
def nativePreemptPrioFifoBounds (pr : LockPrio) (fuel : ℕ) (solve : Solver) (info : Info) : Option (List ℕ) :=
  (tasks info).mapM (fun t => (preemptPrioFifoProgram pr fuel info t.1 t.2).bind (solved solve))

/-- `apply_pfp_lp_preemptive_prio_fifo_bounds`, `bounds.py:476-481`, for requests with the given priorities. -/
def preemptPrioFifoBounds (priority : LockPrio) (fuel : ℕ) (solve : Solver) (info : Info) : Option (List ℕ) :=
  nativePreemptPrioFifoBounds (addedPrio priority) fuel solve info

end Verif.SR.Lp
