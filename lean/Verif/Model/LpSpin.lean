/-
Model of `native/src/blocking/linprog/lp_spinlocks.cpp`, of the parts of `lp_spinlock_msrp.cpp` and
`lp_spinlock_unordered.cpp` for non-preemptive spinning, and of their use in `schedcat/locking/bounds.py`.
-/
import Verif.Model.LpCommon
import Verif.Model.MsrpHolistic

namespace Verif.SR.Lp
open Verif.Spec

/-- `BLOCKING_ARRIVAL`, `lp_common.h:76-77`. -/
abbrev arrival : BlockingType := .indirect

/-- `lookup_arrival_enabled`, `lp_common.h:84-88`. -/
def arrivalEnabled (res : ℕ) : Key := ⟨.preempt, 0, 0, res⟩

/-- `get_all_resources`, `lp_spinlocks.cpp:135-144`; the order is irrelevant. -/
def allResources (info : Info) : List ℕ := (info.flatMap (fun t => t.requests.map Request.resId)).dedup

/-- `count_local_hp_reqs`, `lp_spinlocks.cpp:188-220`. -/
def countLocalHpReqs (info : Info) (ti : TaskInfo) (res : ℕ) : ℕ :=
  ((ti.requests.filter (fun r => r.resId = res)).map Request.num).sum +
    ((info.filter (fun t => t.cluster = ti.cluster ∧ t.priority < ti.priority)).flatMap (fun t =>
      (t.requests.filter (fun r => r.resId = res)).map (fun r => localJobs t ti.response * r.num))).sum

/-- `set_spinlock_blocking_objective`, `lp_spinlocks.cpp:222-250`. -/
def setObjective (info : Info) (i : ℕ) (ti : TaskInfo) (lp : Program) : Program :=
  { lp with objective := lp.objective ++ (others info i).flatMap (fun t => t.2.requests.flatMap (fun r =>
      (List.range (instances ti t.2 r)).flatMap (fun v =>
        [((r.length : ℚ), ⟨.direct, t.1, v, r.resId⟩), ((r.length : ℚ), ⟨arrival, t.1, v, r.resId⟩)]))) }

/-- `add_common_mutex_constraints`, `lp_spinlocks.cpp:252-280`. -/
def mutexConstraints (info : Info) (i : ℕ) (ti : TaskInfo) (lp : Program) : Program :=
  (others info i).foldl (fun lp t => t.2.requests.foldl (fun lp r =>
    (List.range (instances ti t.2 r)).foldl (fun lp v =>
      addInequality lp [(1, ⟨.direct, t.1, v, r.resId⟩), (1, ⟨arrival, t.1, v, r.resId⟩)] 1) lp) lp) lp

/-- `add_common_conflict_set_constraints`, `lp_spinlocks.cpp:282-305`. -/
def conflictSetConstraints (info : Info) (ti : TaskInfo) (lp : Program) : Program :=
  addEquality lp (((Msrp.localResources info).filter (fun q => Msrp.ceilingOf info q > ti.priority)).map
    (fun q => (1, arrivalEnabled q))) 0

/-- `add_common_atmostone_arrival_blocking_res_constraints`, `lp_spinlocks.cpp:309-327`. -/
def oneArrivalConstraints (info : Info) (lp : Program) : Program :=
  addInequality lp ((allResources info).map (fun q => (1, arrivalEnabled q))) 1

/-- `local_lower_prio_reqs` of the loop in `lp_spinlocks.cpp:344-356`. -/
def lowerPrioReqs (info : Info) (ti : TaskInfo) (res : ℕ) : ℕ :=
  ((info.filter (fun t => t.cluster = ti.cluster ∧ t.priority > ti.priority)).flatMap (fun t =>
    (t.requests.filter (fun r => r.resId = res)).map Request.num)).sum

/-- `add_common_no_arrival_blocking_constraints`, `lp_spinlocks.cpp:329-364`. -/
def noArrivalConstraints (info : Info) (ti : TaskInfo) (lp : Program) : Program :=
  addInequality ((allResources info).foldl (fun lp q => declareBinary lp (arrivalEnabled q)) lp)
    (((allResources info).filter (fun q => lowerPrioReqs info ti q = 0)).map (fun q => (1, arrivalEnabled q))) 0

/-- `add_common_no_local_higher_priority_arrival_constraints`, `lp_spinlocks.cpp:366-396`. -/
def noHigherArrivalConstraints (info : Info) (ti : TaskInfo) (lp : Program) : Program :=
  ((splitByCluster info).getD ti.cluster []).foldl (fun lp t =>
    if t.2.priority < ti.priority then addInequality lp (t.2.requests.flatMap (vars ti arrival t)) 0
    else lp) lp

/-- `add_common_local_direct_blocking_constraints`, `lp_spinlocks.cpp:398-429`. -/
def noLocalDirectConstraints (info : Info) (i : ℕ) (ti : TaskInfo) (lp : Program) : Program :=
  addEquality lp ((((splitByCluster info).getD ti.cluster []).filter (fun t => t.1 ≠ i)).flatMap (fun t =>
    t.2.requests.flatMap (vars ti .direct t))) 0

/-- The requests of some tasks for a resource, as in the nested loops over tasks and requests. -/
def varsFor (ti : TaskInfo) (ty : BlockingType) (res : ℕ) (ts : List (ℕ × TaskInfo)) : Exp :=
  ts.flatMap (fun t => (t.2.requests.filter (fun r => r.resId = res)).flatMap (vars ti ty t))

/-- `if (exp->has_terms()) exp->sub_var(var)`. -/
def subVar (e : Exp) (k : Key) : Exp := if e.isEmpty then e else e ++ [(-1, k)]

/-- `add_common_atmostonce_local_arrival_constraints`, `lp_spinlocks.cpp:431-472`. -/
def localArrivalConstraints (info : Info) (ti : TaskInfo) (lp : Program) : Program :=
  (allResources info).foldl (fun lp q =>
    addInequality lp (subVar (varsFor ti arrival q ((tasks info).filter (fun t =>
      t.2.priority > ti.priority ∧ t.2.cluster = ti.cluster))) (arrivalEnabled q)) 0) lp

/-- `count_requests_in_contention_windows`, `lp_spinlocks.cpp:507-529`. -/
def contentionRequests (info : Info) (i : ℕ) (ti tx : TaskInfo) (res : ℕ) : ℕ :=
  if numRequests tx res = 0 then 0
  else
    (((tasks info).filter (fun t => t.2.cluster = ti.cluster ∧ t.1 ≠ i ∧ t.2.priority ≤ ti.priority ∧
      numRequests t.2 res ≠ 0)).map (fun t => localJobs t.2 ti.response * tx.maxNumJobs t.2.response)).sum *
        numRequests tx res

/-- `add_common_transitive_contention_window_constraints` with
`add_contention_window_constraints_for_resource`, `lp_spinlocks.cpp:531-577`. -/
def contentionConstraints (info : Info) (i : ℕ) (ti : TaskInfo) (lp : Program) : Program :=
  (allResources info).foldl (fun lp q =>
    if numRequests ti q = 0 then
      ((tasks info).filter (fun t => t.2.cluster ≠ ti.cluster)).foldl (fun lp t =>
        addInequality lp (varsFor ti .direct q [t]) (contentionRequests info i ti t.2 q)) lp
    else lp) lp

/-- `add_common_spinlock_constraints`, `lp_spinlocks.cpp:580-608`. -/
def commonConstraints (info : Info) (i : ℕ) (ti : TaskInfo) (lp : Program) : Program :=
  contentionConstraints info i ti (localArrivalConstraints info ti (noLocalDirectConstraints info i ti
    (noHigherArrivalConstraints info ti (noArrivalConstraints info ti (oneArrivalConstraints info
      (conflictSetConstraints info ti (mutexConstraints info i ti lp)))))))

/-- The program of `apply_baseline_bounds_for_task`, `lp_spinlocks.cpp:621-633`. -/
def baselineProgram (info : Info) (i : ℕ) (ti : TaskInfo) : Program :=
  setObjective info i ti (commonConstraints info i ti {})

/-! ### FIFO order -/

/-- The clusters with their numbers, without that of `ti`. -/
def otherClusters (info : Info) (ti : TaskInfo) : List (List (ℕ × TaskInfo)) :=
  ((splitByCluster info).zipIdx.filter (fun c => c.2 ≠ ti.cluster)).map Prod.fst

/-- `add_msrp_max_direct_blocking_constraints` with `preemptive == false`, `lp_spinlock_msrp.cpp:42-87`. -/
def fifoDirectConstraints (info : Info) (ti : TaskInfo) (lp : Program) : Program :=
  (allResources info).foldl (fun lp q => (otherClusters info ti).foldl (fun lp c =>
    addInequality lp (varsFor ti .direct q c) (countLocalHpReqs info ti q)) lp) lp

/-- `add_msrp_atmostonce_remote_arrival_constraints`, `lp_spinlock_msrp.cpp:89-131`. -/
def fifoArrivalConstraints (info : Info) (ti : TaskInfo) (lp : Program) : Program :=
  (otherClusters info ti).foldl (fun lp c => (allResources info).foldl (fun lp q =>
    let e := varsFor ti arrival q c
    if e.isEmpty then lp
    else addInequality (declareBinary lp (arrivalEnabled q)) (e ++ [(-1, arrivalEnabled q)]) 0) lp) lp

/-- The program of `apply_msrp_bounds_for_task` with `preemptive == false`, `lp_spinlock_msrp.cpp:149-186`. -/
def msrpProgram (info : Info) (i : ℕ) (ti : TaskInfo) : Program :=
  setObjective info i ti (fifoArrivalConstraints info ti (fifoDirectConstraints info ti
    (commonConstraints info i ti {})))

/-! ### Any order -/

/-- One evaluation of the requests of other processors in the loop of `bound_wait_time` with
`preemptive == false`, `lp_spinlock_unordered.cpp:50-66`. -/
def waitStep (info : Info) (ti : TaskInfo) (res estimate : ℕ) : ℕ :=
  ((info.filter (fun t => t.cluster ≠ ti.cluster)).flatMap (fun t =>
    (t.requests.filter (fun r => r.resId = res)).map (fun r => r.length * (t.maxNumJobs estimate * r.num)))).sum + 1

/-- The loop of `bound_wait_time`, `lp_spinlock_unordered.cpp:42-67`; `none` is divergence. -/
def waitLoop (info : Info) (ti : TaskInfo) (res : ℕ) : ℕ → ℕ → ℕ → Option ℕ
  | 0, _, _ => none
  | fuel + 1, estimate, new =>
    if estimate ≤ ti.period ∧ estimate ≠ new then waitLoop info ti res fuel new (waitStep info ti res new)
    else some estimate

/-- `bound_wait_time` with `preemptive == false`, `lp_spinlock_unordered.cpp:11-73`, and the use of the response time
if it returns -1, `90-93`. -/
def waitBound (fuel : ℕ) (info : Info) (ti : TaskInfo) (res : ℕ) : Option ℕ :=
  let init := ((info.filter (fun t => t.cluster ≠ ti.cluster)).flatMap (fun t =>
    (t.requests.filter (fun r => r.resId = res)).map (fun r => r.length * r.num))).sum
  (waitLoop info ti res fuel 0 init).map (fun e => if e ≤ ti.period then e else ti.response)

/-- `max_num_reqs` in `lp_spinlock_unordered.cpp:106-111`. -/
def numReqsIn (t : TaskInfo) (res interval : ℕ) : ℕ :=
  ((t.requests.filter (fun r => r.resId = res)).map (fun r => t.maxNumJobs interval * r.num)).sum

/-- The body of the loop over the resources in `add_unordered_direct_blocking_constraints` with
`preemptive == false`, `lp_spinlock_unordered.cpp:95-146`. -/
def unorderedFor (info : Info) (ti : TaskInfo) (q wait : ℕ) (lp : Program) : Program :=
  (otherClusters info ti).foldl (fun lp c => c.foldl (fun lp t =>
    let d := varsFor ti .direct q [t]
    if d.isEmpty then lp
    else
      addInequality (addInequality lp d (numReqsIn t.2 q wait * countLocalHpReqs info ti q : ℕ))
        (varsFor ti arrival q [t] ++ [(-(numReqsIn t.2 q wait : ℚ), arrivalEnabled q)]) 0) lp) lp

/-- `add_unordered_direct_blocking_constraints` with `preemptive == false`, `lp_spinlock_unordered.cpp:76-149`. -/
def unorderedConstraints (fuel : ℕ) (info : Info) (ti : TaskInfo) (lp : Program) : Option Program :=
  (allResources info).foldlM (fun lp q =>
    (waitBound fuel info ti q).map (fun w => unorderedFor info ti q w lp)) lp

/-- The program of `apply_unordered_bounds_for_task` with `preemptive == false`,
`lp_spinlock_unordered.cpp:151-184`. -/
def unorderedProgram (fuel : ℕ) (info : Info) (i : ℕ) (ti : TaskInfo) : Option Program :=
  (unorderedConstraints fuel info ti (commonConstraints info i ti {})).map (setObjective info i ti)

/-! ### The bounds of all tasks -/

/-- `lp_pfp_baseline_spinlock_bounds`, `lp_spinlocks.cpp:659-669`; `none` is a failing assertion. -/
def baselineBounds (solve : Solver) (info : Info) : Option (List ℕ) :=
  (tasks info).mapM (fun t => solved solve (baselineProgram info t.1 t.2))

/-- `lp_pfp_msrp_bounds`, `lp_spinlock_msrp.cpp:255-277`; `none` is a failing assertion. -/
def msrpBounds (solve : Solver) (info : Info) : Option (List ℕ) :=
  (tasks info).mapM (fun t => solved solve (msrpProgram info t.1 t.2))

/-- `lp_pfp_unordered_spinlock_bounds` with `preemptive == false`, `lp_spinlock_unordered.cpp:202-214`; `none` is a
failing assertion or divergence. -/
def unorderedBounds (fuel : ℕ) (solve : Solver) (info : Info) : Option (List ℕ) :=
  (tasks info).mapM (fun t => (unorderedProgram fuel info t.1 t.2).bind (solved solve))

/-- The tasks of processor `k`, in the order of the list of all tasks, after `apply_pfp_lp_msrp_bounds` or a
similar function, `bounds.py:434-446,483-488`, has set `blocked`. -/
def afterLpBounds (info : Info) (bounds : List ℕ) (k : ℕ) : List Fp.FpTask :=
  (info.zip bounds).filterMap (fun t =>
    if t.1.cluster = k then
      some { cost := (t.1.cost : ℚ), period := (t.1.period : ℚ), deadline := (t.1.deadline : ℚ),
             suspended := 0, blocked := some (t.2 : ℚ) }
    else none)

end Verif.SR.Lp
