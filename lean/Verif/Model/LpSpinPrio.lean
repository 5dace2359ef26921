/-
Model of `native/src/blocking/linprog/lp_spinlock_prio.cpp` and `lp_spinlock_prio_fifo.cpp` for non-preemptive
spinning, and of their use in `schedcat/locking/bounds.py`.
-/
import Verif.Model.LpSpin

namespace Verif.SR.Lp
open Verif.Spec

/-- `RequestBound::get_request_priority`: the priority of the requests of a task, given by its number, for a resource.
Smaller numbers are higher priorities. -/
abbrev LockPrio := ℕ → ℕ → ℕ

/-- `get_min_prio` for one task, `lp_spinlocks.cpp:27-38`. -/
def ownMinPrio (pr : LockPrio) (t : ℕ × TaskInfo) (res : ℕ) : ℕ :=
  ((t.2.requests.filter (fun r => r.resId = res)).map (fun r => pr t.1 r.resId)).foldl max 0

/-- `get_min_prio` for the tasks of a processor, `lp_spinlocks.cpp:45-73`. -/
def minPrio (pr : LockPrio) (info : Info) (ti : TaskInfo) (res : ℕ) (lp : Bool) : ℕ :=
  let ps := (((splitByCluster info).getD ti.cluster []).filter (fun t =>
    ¬ ((lp ∧ t.2.priority ≤ ti.priority) ∨ (¬ lp ∧ t.2.priority > ti.priority)))).flatMap (fun t =>
      (t.2.requests.filter (fun r => r.resId = res)).map (fun r => pr t.1 r.resId))
  if ps.isEmpty then info.length else ps.foldl max 0

/-- The requests of other processors for a resource whose priority satisfies `p`. -/
def remoteRequests (pr : LockPrio) (info : Info) (ti : TaskInfo) (res : ℕ) (p : ℕ → Bool) : List (TaskInfo × Request) :=
  ((tasks info).filter (fun t => t.2.cluster ≠ ti.cluster)).flatMap (fun t =>
    (t.2.requests.filter (fun r => r.resId = res ∧ p (pr t.1 r.resId))).map (fun r => (t.2, r)))

/-- The longest request of lower priority, `LP_Ti` in `lp_spinlock_prio.cpp:153-159` and
`lp_spinlock_prio_fifo.cpp:452-467`. -/
def longestLower (pr : LockPrio) (info : Info) (i : ℕ) (ti : TaskInfo) (res : ℕ) : ℕ :=
  ((remoteRequests pr info ti res (fun p => p > ownMinPrio pr (i, ti) res)).map (fun r => r.2.length)).foldl max 0

/-- The loops of `bound_wait_time_prio`, `lp_spinlock_prio.cpp:186-232`, and `bound_wait_time_prio_fifo`,
`lp_spinlock_prio_fifo.cpp:483-519`; `none` is divergence. -/
def prioLoop (period : ℕ) (step : ℕ → ℕ) : ℕ → ℕ → ℕ → Option ℕ
  | 0, _, _ => none
  | fuel + 1, estimate, new =>
    if estimate ≤ period ∧ estimate ≠ new then prioLoop period step fuel new (step new) else some estimate

/-- The delay due to requests of higher priority, `delay_by_higher`. -/
def delayByUrgent (rs : List (TaskInfo × Request)) (estimate : ℕ) : ℕ :=
  (rs.map (fun r => r.2.length * (r.1.maxNumJobs estimate * r.2.num))).sum

/-- `bound_wait_time_prio` with `preemptive == false`, `lp_spinlock_prio.cpp:112-237`, and the use of the response
time if it returns -1, `259-260,387-388`. -/
def prioWait (pr : LockPrio) (fuel : ℕ) (info : Info) (i : ℕ) (ti : TaskInfo) (res lockingPrio : ℕ) : Option ℕ :=
  let lower := longestLower pr info i ti res
  let rs := remoteRequests pr info ti res (fun p => p ≤ lockingPrio)
  (prioLoop ti.period (fun e => lower + delayByUrgent rs e + 1) fuel 0 lower).map
    (fun e => if e ≤ ti.period then e else ti.response)

/-- The variables of the requests of a task for a resource whose priority satisfies `p`. -/
def varsWith (pr : LockPrio) (ti : TaskInfo) (ty : BlockingType) (res : ℕ) (p : ℕ → Bool)
    (ts : List (ℕ × TaskInfo)) : Exp :=
  ts.flatMap (fun t => (t.2.requests.filter (fun r => r.resId = res ∧ p (pr t.1 r.resId))).flatMap (vars ti ty t))

/-- `max_num_reqs`, `lp_spinlock_prio.cpp:276,404` and `lp_spinlock_prio_fifo.cpp:568,676`. -/
def numReqsWith (pr : LockPrio) (t : ℕ × TaskInfo) (res : ℕ) (p : ℕ → Bool) (interval : ℕ) : ℕ :=
  ((t.2.requests.filter (fun r => r.resId = res ∧ p (pr t.1 r.resId))).map (fun r =>
    t.2.maxNumJobs interval * r.num)).sum

/-- The body of the loop over the resources in `add_prio_direct_blocking_HP_constraints`,
`lp_spinlock_prio.cpp:262-287`, and in `add_prio_fifo_direct_blocking_HP_constraints`,
`lp_spinlock_prio_fifo.cpp:555-580`. -/
def higherDirectFor (pr : LockPrio) (info : Info) (ti : TaskInfo) (q : ℕ) (p : ℕ → Bool) (wait : ℕ) (lp : Program) :
    Program :=
  (otherClusters info ti).foldl (fun lp c => c.foldl (fun lp t =>
    addInequality lp (varsWith pr ti .direct q p [t])
      (numReqsWith pr t q p wait * countLocalHpReqs info ti q : ℕ)) lp) lp

/-- `add_prio_direct_blocking_HP_constraints` with `preemptive == false`, `lp_spinlock_prio.cpp:242-290`. -/
def prioDirect (pr : LockPrio) (fuel : ℕ) (info : Info) (i : ℕ) (ti : TaskInfo) (lp : Program) : Option Program :=
  (allResources info).foldlM (fun lp q =>
    (prioWait pr fuel info i ti q (minPrio pr info ti q false)).map (fun w =>
      higherDirectFor pr info ti q (fun p => p ≤ minPrio pr info ti q false) w lp)) lp

/-- `add_prio_blocking_LP_constraints` with `preemptive == false`, `lp_spinlock_prio.cpp:299-368`. -/
def prioLower (pr : LockPrio) (info : Info) (ti : TaskInfo) (lp : Program) : Program :=
  (allResources info).foldl (fun lp q =>
    let ts := (tasks info).filter (fun t => t.2.cluster ≠ ti.cluster)
    let d := varsWith pr ti .direct q (fun p => p > minPrio pr info ti q false) ts
    if d.isEmpty then lp
    else
      addInequality (addInequality lp d (countLocalHpReqs info ti q : ℕ))
        (varsWith pr ti arrival q (fun p => p > minPrio pr info ti q false) ts ++ [(-1, arrivalEnabled q)]) 0) lp

/-- The body of the loop over the resources in `add_prio_arrival_blocking_HP_constraints`,
`lp_spinlock_prio.cpp:390-420`, and, with `factor = ncs`, in `add_prio_fifo_arrival_blocking_HP_constraints`,
`lp_spinlock_prio_fifo.cpp:663-693`. -/
def higherArrivalFor (pr : LockPrio) (info : Info) (ti : TaskInfo) (q : ℕ) (p : ℕ → Bool) (wait factor : ℕ)
    (lp : Program) : Program :=
  (otherClusters info ti).foldl (fun lp c => c.foldl (fun lp t =>
    let e := varsWith pr ti arrival q p [t]
    if e.isEmpty then lp
    else addInequality lp (e ++ [(-((numReqsWith pr t q p wait * factor : ℕ) : ℚ), arrivalEnabled q)]) 0) lp) lp

/-- `add_prio_arrival_blocking_HP_constraints`, `lp_spinlock_prio.cpp:372-423`. -/
def prioArrival (pr : LockPrio) (fuel : ℕ) (info : Info) (i : ℕ) (ti : TaskInfo) (lp : Program) : Option Program :=
  (allResources info).foldlM (fun lp q =>
    (prioWait pr fuel info i ti q (minPrio pr info ti q true)).map (fun w =>
      higherArrivalFor pr info ti q (fun p => p ≤ minPrio pr info ti q true) w 1 lp)) lp

/-- The program of `apply_prio_bounds_for_task` with `preemptive == false`, `lp_spinlock_prio.cpp:425-474`. -/
def prioProgram (pr : LockPrio) (fuel : ℕ) (info : Info) (i : ℕ) (ti : TaskInfo) : Option Program := do
  let lp ← prioDirect pr fuel info i ti (commonConstraints info i ti {})
  let lp ← prioArrival pr fuel info i ti (prioLower pr info ti lp)
  pure (setObjective info i ti lp)

/-- `lp_pfp_prio_spinlock_bounds` with `preemptive == false`, `lp_spinlock_prio.cpp:476-487`; `none` is a failing
assertion or divergence. -/
def nativePrioBounds (pr : LockPrio) (fuel : ℕ) (solve : Solver) (info : Info) : Option (List ℕ) :=
  (tasks info).mapM (fun t => (prioProgram pr fuel info t.1 t.2).bind (solved solve))

/-! ### Requests of equal priority in FIFO order -/

/-- `get_max_CS_per_cluster`, `lp_spinlock_prio_fifo.cpp:18-49`. -/
def longestPerCluster (pr : LockPrio) (info : Info) (ti : TaskInfo) (res lockingPrio : ℕ) : ℕ :=
  ((otherClusters info ti).map (fun c => (c.flatMap (fun t =>
    (t.2.requests.filter (fun r => r.resId = res ∧ pr t.1 r.resId = lockingPrio)).map Request.length)).foldl max 0)).sum

/-- `bound_wait_time_prio_fifo`, `lp_spinlock_prio_fifo.cpp:440-525`, and the use of the response time if it returns
-1, `552-553,660-661`. -/
def prioFifoWait (pr : LockPrio) (fuel : ℕ) (info : Info) (i : ℕ) (ti : TaskInfo) (res lockingPrio : ℕ) : Option ℕ :=
  let lower := longestLower pr info i ti res
  let same := longestPerCluster pr info ti res (ownMinPrio pr (i, ti) res)
  let rs := remoteRequests pr info ti res (fun p => p < lockingPrio)
  (prioLoop ti.period (fun e => lower + same + delayByUrgent rs e + 1) fuel 0 (lower + same)).map
    (fun e => if e ≤ ti.period then e else ti.response)

/-- `add_prio_fifo_direct_blocking_HP_constraints` with `preemptive == false`,
`lp_spinlock_prio_fifo.cpp:530-583`. -/
def prioFifoDirect (pr : LockPrio) (fuel : ℕ) (info : Info) (i : ℕ) (ti : TaskInfo) (lp : Program) : Option Program :=
  (allResources info).foldlM (fun lp q =>
    (prioFifoWait pr fuel info i ti q (minPrio pr info ti q false)).map (fun w =>
      higherDirectFor pr info ti q (fun p => p < minPrio pr info ti q false) w lp)) lp

/-- `add_prio_fifo_max_direct_blocking_constraints` with `preemptive == false`,
`lp_spinlock_prio_fifo.cpp:590-638`. -/
def prioFifoSame (pr : LockPrio) (info : Info) (ti : TaskInfo) (lp : Program) : Program :=
  (allResources info).foldl (fun lp q => (otherClusters info ti).foldl (fun lp c =>
    addInequality lp (varsWith pr ti .direct q (fun p => p = minPrio pr info ti q false) c)
      (countLocalHpReqs info ti q : ℕ)) lp) lp

/-- `add_prio_fifo_arrival_blocking_HP_constraints`, `lp_spinlock_prio_fifo.cpp:643-696`. -/
def prioFifoArrival (pr : LockPrio) (fuel : ℕ) (info : Info) (i : ℕ) (ti : TaskInfo) (lp : Program) : Option Program :=
  (allResources info).foldlM (fun lp q =>
    (prioFifoWait pr fuel info i ti q (minPrio pr info ti q true)).map (fun w =>
      higherArrivalFor pr info ti q (fun p => p < minPrio pr info ti q true) w (countLocalHpReqs info ti q) lp)) lp

/-- `add_prio_fifo_atmostonce_remote_arrival_constraints`, `lp_spinlock_prio_fifo.cpp:701-744`. -/
def prioFifoOnce (pr : LockPrio) (info : Info) (ti : TaskInfo) (lp : Program) : Program :=
  (allResources info).foldl (fun lp q => (otherClusters info ti).foldl (fun lp c =>
    let e := varsWith pr ti arrival q (fun p => p = minPrio pr info ti q true) c
    if e.isEmpty then lp
    else addInequality (declareBinary lp (arrivalEnabled q)) (e ++ [(-1, arrivalEnabled q)]) 0) lp) lp

/-- The program of `apply_prio_fifo_bounds_for_task` with `preemptive == false`,
`lp_spinlock_prio_fifo.cpp:747-807`. -/
def prioFifoProgram (pr : LockPrio) (fuel : ℕ) (info : Info) (i : ℕ) (ti : TaskInfo) : Option Program := do
  let lp ← prioFifoDirect pr fuel info i ti (prioLower pr info ti (commonConstraints info i ti {}))
  let lp ← prioFifoArrival pr fuel info i ti (prioFifoSame pr info ti lp)
  pure (setObjective info i ti (prioFifoOnce pr info ti lp))

/-- `lp_pfp_prio_fifo_spinlock_bounds` with `preemptive == false`, `lp_spinlock_prio_fifo.cpp:810-821`; `none` is a
failing assertion or divergence. -/
def nativePrioFifoBounds (pr : LockPrio) (fuel : ℕ) (solve : Solver) (info : Info) : Option (List ℕ) :=
  (tasks info).mapM (fun t => (prioFifoProgram pr fuel info t.1 t.2).bind (solved solve))

/-! ### From Python -/

/-- `ResourceSharingInfo::add_request`, `sharedres_types.h:295-304`, as called in `bounds.py:71-72`: the parameter
`locking_priority` is not used, and the priority of all requests is the default 0 of `TaskInfo::add_request`. -/
def addedPrio (_priority : LockPrio) : LockPrio := fun _ _ => 0

/-- `apply_pfp_lp_prio_bounds`, `bounds.py:455-460`, for requests with the given priorities. -/
def prioBounds (priority : LockPrio) (fuel : ℕ) (solve : Solver) (info : Info) : Option (List ℕ) :=
  nativePrioBounds (addedPrio priority) fuel solve info

/-- `apply_pfp_lp_prio_fifo_bounds`, `bounds.py:469-474`, for requests with the given priorities. -/
def prioFifoBounds (priority : LockPrio) (fuel : ℕ) (solve : Solver) (info : Info) : Option (List ℕ) :=
  nativePrioFifoBounds (addedPrio priority) fuel solve info

end Verif.SR.Lp
