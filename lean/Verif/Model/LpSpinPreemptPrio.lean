/-
Model of `native/src/blocking/linprog/lp_spinlock_prio.cpp` for preemptive spinning, and of its use in
`schedcat/locking/bounds.py`.
-/
import Verif.Model.LpSpinPrio
import Verif.Model.LpSpinPreempt

namespace Verif.SR.Lp
open Verif.Spec

/-- The tasks of the processor of `ti` that have a higher priority, `lp_spinlock_prio.cpp:65-66,94-95` and
`lp_spinlocks.cpp:106`. -/
def localHigher (info : Info) (ti : TaskInfo) : List (ℕ × TaskInfo) :=
  (tasks info).filter (fun t => t.2.cluster = ti.cluster ∧ t.2.priority < ti.priority)

/-- `get_localHP_resources`, `lp_spinlocks.cpp:148-160`.  The resources of `ti` itself are included. -/
def localHpResources (info : Info) (ti : TaskInfo) : List ℕ :=
  (info.filter (fun t => ¬ (t.cluster ≠ ti.cluster ∨ t.priority > ti.priority))).flatMap (fun t =>
    t.requests.map Request.resId)

/-- `get_hp_interference`, `lp_spinlocks.cpp:97-110`. -/
def hpInterference (info : Info) (ti : TaskInfo) (interval : ℕ) : ℕ :=
  ((localHigher info ti).map (fun t => localJobs t.2 interval * t.2.cost)).sum

/-- `get_max_lp_csl`, `lp_spinlock_prio.cpp:17-35`. -/
def maxLowerLength (pr : LockPrio) (info : Info) (ti : TaskInfo) (res lockingPrio : ℕ) : ℕ :=
  ((remoteRequests pr info ti res (fun p => p > lockingPrio)).map (fun r => r.2.length)).foldl max 0

/-- `get_LPlh`, `lp_spinlock_prio.cpp:53-80`.  The inner loop is over the requests of `ti`, which has number `i`, not over
those of the higher-priority task. -/
def lowerForHigher (pr : LockPrio) (info : Info) (i : ℕ) (ti : TaskInfo) (res w : ℕ) : ℕ :=
  ((localHigher info ti).flatMap (fun t =>
    (ti.requests.filter (fun r => r.resId ∈ localHpResources info ti ∧ r.resId ≠ res)).map (fun r =>
      localJobs t.2 w * r.num * maxLowerLength pr info ti res (pr i r.resId)))).sum

/-- `get_cpp`, `lp_spinlock_prio.cpp:82-110`. -/
def costPerPreemption (pr : LockPrio) (info : Info) (ti : TaskInfo) (res lockingPrio : ℕ) : ℕ :=
  max (maxLowerLength pr info ti res lockingPrio)
    (((localHigher info ti).flatMap (fun t => t.2.requests.map (fun r =>
      maxLowerLength pr info t.2 r.resId (pr t.1 r.resId)))).foldl max 0)

/-- The requests of other processors for some resources whose priority is not lower than `lockingPrio`,
`lp_spinlock_prio.cpp:129-151,195-213`. -/
def urgentRequests (pr : LockPrio) (info : Info) (ti : TaskInfo) (p : ℕ → Bool) (lockingPrio : ℕ) :
    List (TaskInfo × Request) :=
  ((tasks info).filter (fun t => t.2.cluster ≠ ti.cluster)).flatMap (fun t =>
    (t.2.requests.filter (fun r => p r.resId ∧ pr t.1 r.resId ≤ lockingPrio)).map (fun r => (t.2, r)))

/-- `bound_wait_time_prio` with `preemptive == true`, `lp_spinlock_prio.cpp:112-237`, and the use of the response time if
it returns -1, `259-260`. -/
def preemptPrioWait (pr : LockPrio) (fuel : ℕ) (info : Info) (i : ℕ) (ti : TaskInfo) (res lockingPrio : ℕ) : Option ℕ :=
  let qlh := localHpResources info ti
  let lower := longestLower pr info i ti res
  let first := ((urgentRequests pr info ti (fun q => q ∈ qlh) lockingPrio).map (fun r => r.2.length * r.2.num)).sum +
    hpInterference info ti ti.response
  let perPreemption := costPerPreemption pr info ti res lockingPrio * maxPreemptions info ti
  let rs := urgentRequests pr info ti (fun q => q ∈ qlh ∨ q = res) lockingPrio
  (prioLoop ti.period (fun e => lower + perPreemption + lowerForHigher pr info i ti res e +
      (delayByUrgent rs e + hpInterference info ti e) + 1) fuel 0
    (first + lowerForHigher pr info i ti res first + (lower + perPreemption))).map
    (fun e => if e ≤ ti.period then e else ti.response)

/-- `add_prio_direct_blocking_HP_constraints` with `preemptive == true`, `lp_spinlock_prio.cpp:242-290`. -/
def preemptPrioDirect (pr : LockPrio) (fuel : ℕ) (info : Info) (i : ℕ) (ti : TaskInfo) (lp : Program) :
    Option Program :=
  (allResources info).foldlM (fun lp q =>
    (preemptPrioWait pr fuel info i ti q (minPrio pr info ti q false)).map (fun w =>
      higherDirectFor pr info ti q (fun p => p ≤ minPrio pr info ti q false) w lp)) lp

/-- `add_prio_blocking_LP_constraints` with `preemptive == true`, `lp_spinlock_prio.cpp:299-368`. -/
def preemptPrioLower (pr : LockPrio) (info : Info) (ti : TaskInfo) (lp : Program) : Program :=
  (allResources info).foldl (fun lp q =>
    let d := varsWith pr ti .direct q (fun p => p > minPrio pr info ti q false)
      ((tasks info).filter (fun t => t.2.cluster ≠ ti.cluster))
    if d.isEmpty then lp
    else addInequality lp (d ++ [(-1, preemptionsOf q)]) (countLocalHpReqs info ti q : ℕ)) lp

/-- The program of `apply_prio_bounds_for_task` with `preemptive == true`, `lp_spinlock_prio.cpp:425-474`.  The numbers of
preemptions are neither declared as integers nor bounded. -/
def preemptPrioProgram (pr : LockPrio) (fuel : ℕ) (info : Info) (i : ℕ) (ti : TaskInfo) : Option Program := do
  let lp ← preemptPrioDirect pr fuel info i ti (noRemoteArrivalConstraints info ti (commonConstraints info i ti {}))
  pure (setObjective info i ti (preemptPrioLower pr info ti lp))

/-- `lp_pfp_prio_spinlock_bounds` with `preemptive == true`, `lp_spinlock_prio.cpp:476-487`; `none` is a failing
assertion or divergence. -/
def nativePreemptPrioBounds (pr : LockPrio) (fuel : ℕ) (solve : Solver) (info : Info) : Option (List ℕ) :=
  (tasks info).mapM (fun t => (preemptPrioProgram pr fuel info t.1 t.2).bind (solved solve))

/-- `apply_pfp_lp_preemptive_prio_bounds`, `bounds.py:462-467`, for requests with the given priorities. -/
def preemptPrioBounds (priority : LockPrio) (fuel : ℕ) (solve : Solver) (info : Info) : Option (List ℕ) :=
  nativePreemptPrioBounds (addedPrio priority) fuel solve info

end Verif.SR.Lp
