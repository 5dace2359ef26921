/-
Model of `native/src/blocking/linprog/lp_pedf_lockfree_common.cpp`, `lp_pedf_lockfree_preempt.cpp` and
`lp_pedf_lockfree_NP.cpp`, called from `pedf_lockfree_preempt_is_schedulable` and `pedf_lockfree_NP_is_schedulable` in
`schedcat/locking/bounds.py:599-607`.  Numbers are modelled as in `Verif.Model.LpPedf`; the cast of a difference of
deadlines to `unsigned`, `lp_pedf_lockfree_preempt.cpp:267`, is not modelled.
-/
import Verif.Model.LpPedfPreempt

namespace Verif.SR.Pedf.LockFree
open Verif.Spec Verif.SR.Pedf

/-- The variables, `LockFreeVarMapper`, `lp_pedf_lockfree_common.h:11-87`: retries of a task that are caused by a task of
the same processor, retries that are caused by other processors, and arrival blocking. -/
inductive Var
  | conflict (task other res : ℕ)
  | remote (task res : ℕ)
  | arrival (task res : ℕ)
deriving DecidableEq, Repr

/-- `LinearProgram`, `model.h:87-140`. -/
abbrev Program := MixedProgram Var

/-! ### The common constraints -/

/-- The terms of the objective, `lp_pedf_lockfree_common.cpp:131-172,185-214`. -/
def retryTerms (info : Info) (k : ℕ) : List (ℚ × Var) :=
  (localIds info k).flatMap (fun i => (Lp.allResources info).flatMap (fun q =>
    [((requestLength i.2 q : ℚ), .remote i.1 q), ((requestLength i.2 q : ℚ), .arrival i.1 q)] ++
      (localIds info k).map (fun j => ((requestLength i.2 q : ℚ), .conflict i.1 j.1 q))))

/-- `set_objective`, `lp_pedf_lockfree_common.cpp:129-173`. -/
def setObjective (info : Info) (k : ℕ) (relax : Bool) (lp : Program) : Program :=
  let vars := (retryTerms info k).map Prod.snd
  { lp with
    objective := lp.objective ++ retryTerms info k
    nonneg := vars ++ lp.nonneg
    integers := if relax then lp.integers else vars ++ lp.integers }

/-- `add_no_retries_for_resources_not_accessed`, `lp_pedf_lockfree_common.cpp:227-257`. -/
def notAccessed (info : Info) (k : ℕ) (lp : Program) : Program :=
  addInequality lp ((localIds info k).flatMap (fun i =>
    ((Lp.allResources info).filter (fun q => ¬ Lp.numRequests i.2 q > 0)).flatMap (fun q =>
      (1, .remote i.1 q) :: (localIds info k).map (fun j => (1, .conflict i.1 j.1 q))))) 0

/-- The tasks of other clusters. -/
def remoteTasks (info : Info) (k : ℕ) : List TaskInfo := info.filter (fun t => t.cluster ≠ k)

/-- `add_one_retry_for_at_most_one_remote_commit`, `lp_pedf_lockfree_common.cpp:259-280`. -/
def oneRetryPerCommit (info : Info) (k t : ℕ) (lp : Program) : Program :=
  (Lp.allResources info).foldl (fun lp q =>
    addInequality lp ((localIds info k).map (fun i => (1, .remote i.1 q)))
      (((remoteTasks info k).map (fun x => remoteJobs x t * Lp.numRequests x q)).sum : ℕ)) lp

/-- `add_no_arrival_blocking`, `lp_pedf_lockfree_common.cpp:284-301`. -/
def noArrival (info : Info) (k : ℕ) (lp : Program) : Program :=
  addInequality lp ((localIds info k).flatMap (fun i => (Lp.allResources info).map (fun q => (1, .arrival i.1 q)))) 0

/-- The constructor of `PEDFBlockingAnalysisLP_LockFree`, `lp_pedf_lockfree_common.cpp:57-84`. -/
def commonProgram (info : Info) (mode : Mode) (k t lb ub : ℕ) (relax : Bool) : Program :=
  let lp := oneRetryPerCommit info k t (notAccessed info k (blockingRange (retryTerms info k) lb ub {}))
  setObjective info k relax (match mode with
    | .ac => noArrival info k lp
    | .pdc => lp)

/-! ### Bounds from response times -/

/-- The loops of `compute_preemptive_commit_response_time`, `lp_pedf_lockfree_preempt.cpp:255-283`, and
`compute_NP_commit_response_time`, `lp_pedf_lockfree_NP.cpp:207-226`; `none` is divergence. -/
def commitLoop (step : ℕ → ℕ) (deadline : ℕ) : ℕ → ℕ → Option ℕ
  | 0, _ => none
  | fuel + 1, w => if w = step w ∨ step w > deadline then some (step w) else commitLoop step deadline fuel (step w)

/-- The response times of the commits of all local tasks for all resources,
`lp_pedf_lockfree_preempt.cpp:289-297`, `lp_pedf_lockfree_NP.cpp:232-240`. -/
def commitTimes (info : Info) (k : ℕ) (time : TaskInfo → ℕ → Option ℕ) : Option (List ((ℕ × TaskInfo) × ℕ × ℕ)) :=
  ((localIds info k).flatMap (fun i => (Lp.allResources info).map (fun q => (i, q)))).mapM (fun c =>
    (time c.1.2 c.2).map (fun w => (c.1, c.2, w)))

/-- `add_rta_based_bound_on_remote_conflicts`, `lp_pedf_lockfree_preempt.cpp:286-327`,
`lp_pedf_lockfree_NP.cpp:229-270`. -/
def remoteConflicts (info : Info) (mode : Mode) (k t : ℕ) (times : List ((ℕ × TaskInfo) × ℕ × ℕ)) (lp : Program) :
    Program :=
  times.foldl (fun lp c =>
    if c.2.2 > c.1.2.deadline then lp
    else addInequality lp [(1, .remote c.1.1 c.2.1)]
      (((remoteTasks info k).map (fun x => remoteJobs x c.2.2 * Lp.numRequests x c.2.1 *
        localJobs mode c.1.2 t * Lp.numRequests c.1.2 c.2.1)).sum : ℕ)) lp

/-! ### Preemptive commit loops -/

/-- `add_no_jobs_no_retry_delay`, `lp_pedf_lockfree_preempt.cpp:78-115`. -/
def noJobs (info : Info) (mode : Mode) (k t : ℕ) (lp : Program) : Program :=
  addInequality lp (((localIds info k).filter (fun i => ¬ localJobs mode i.2 t > 0)).flatMap (fun i =>
    (Lp.allResources info).flatMap (fun q =>
      (1, .remote i.1 q) :: (localIds info k).map (fun j => (1, .conflict i.1 j.1 q))))) 0

/-- `add_no_requests_no_cause_local_conflict`, `lp_pedf_lockfree_preempt.cpp:119-146`. -/
def noCause (info : Info) (k : ℕ) (lp : Program) : Program :=
  addInequality lp ((localIds info k).flatMap (fun i => (Lp.allResources info).flatMap (fun q =>
    ((localIds info k).filter (fun j => ¬ Lp.numRequests j.2 q > 0)).map (fun j => (1, .conflict i.1 j.1 q))))) 0

/-- `add_at_most_one_retry_per_preempting_job`, `lp_pedf_lockfree_preempt.cpp:149-184`. -/
def oneRetryPerPreemption (info : Info) (mode : Mode) (k t : ℕ) (lp : Program) : Program :=
  (localIds info k).foldl (fun lp i => (localIds info k).foldl (fun lp j =>
    addInequality lp ((Lp.allResources info).map (fun q => (1, .conflict i.1 j.1 q)))
      (preemptions i.2 j.2 * localJobs mode i.2 t : ℕ)) lp) lp

/-- `add_each_job_causes_at_most_one_retry_per_resource`, `lp_pedf_lockfree_preempt.cpp:187-208`. -/
def oneRetryPerJob (info : Info) (k t : ℕ) (lp : Program) : Program :=
  (localIds info k).foldl (fun lp j => (Lp.allResources info).foldl (fun lp q =>
    addInequality lp ((localIds info k).map (fun i => (1, .conflict i.1 j.1 q)))
      (Native.divideWithCeil t j.2.period : ℕ)) lp) lp

/-- `get_max_commit_length`, `lp_pedf_lockfree_preempt.cpp:212-229`. -/
def maxCommitLength (info : Info) (k res : ℕ) (ti : TaskInfo) (q t : ℕ) : ℕ :=
  let m := (localTasks info k).foldl (fun m x =>
    if t < x.deadline ∧ x.deadline < ti.deadline then (if requestLength x q > m then requestLength x q else m) else m) 0
  if res = q then (if requestLength ti q > m then requestLength ti q else m) else m

/-- `get_effective_demand`, `lp_pedf_lockfree_preempt.cpp:233-247`. -/
def effectiveDemand (info : Info) (k : ℕ) (th ti : TaskInfo) (q : ℕ) : ℕ :=
  th.cost + (((Lp.allResources info).filter (fun r => Lp.numRequests th r > 0)).map
    (fun r => maxCommitLength info k r ti q th.deadline)).sum

/-- One iteration, `lp_pedf_lockfree_preempt.cpp:259-276`. -/
def preemptStep (info : Info) (k : ℕ) (ti : TaskInfo) (q w : ℕ) : ℕ :=
  requestLength ti q +
    ((shorterTasks info k ti.deadline).map (fun th =>
      Native.divideWithCeil (if ti.deadline - th.deadline < w then ti.deadline - th.deadline else w) th.period *
        effectiveDemand info k th ti q)).sum +
    ((remoteTasks info k).flatMap (fun x => (Lp.allResources info).map (fun r =>
      remoteJobs x w * Lp.numRequests x r * maxCommitLength info k r ti q 0))).sum

/-- `compute_preemptive_commit_response_time`, `lp_pedf_lockfree_preempt.cpp:249-284`. -/
def preemptTime (fuel : ℕ) (info : Info) (k : ℕ) (ti : TaskInfo) (q : ℕ) : Option ℕ :=
  commitLoop (preemptStep info k ti q) ti.deadline fuel (requestLength ti q)

/-- The program of `LockFree_Preemptive`, `lp_pedf_lockfree_preempt.cpp:48-70`. -/
def preemptProgram (fuel : ℕ) (info : Info) (mode : Mode) (k t lb ub : ℕ) (relax : Bool) : Option Program :=
  (commitTimes info k (preemptTime fuel info k)).map (fun times =>
    remoteConflicts info mode k t times (oneRetryPerJob info k t (oneRetryPerPreemption info mode k t (noCause info k
      (noJobs info mode k t (noArrival info k (commonProgram info mode k t lb ub relax)))))))

/-! ### Non-preemptive commit loops -/

/-- `add_arrival_blocking_max_one_local_commit`, `lp_pedf_lockfree_NP.cpp:69-86`. -/
def oneArrival (info : Info) (k : ℕ) (lp : Program) : Program :=
  addInequality lp ((localIds info k).flatMap (fun i => (Lp.allResources info).map (fun q => (1, .arrival i.1 q)))) 1

/-- `add_no_arrival_blocking_dline_inside_interval`, `lp_pedf_lockfree_NP.cpp:89-108`. -/
def noArrivalInside (info : Info) (k t : ℕ) (lp : Program) : Program :=
  addInequality lp (((localIds info k).filter (fun i => i.2.deadline ≤ t)).flatMap (fun i =>
    i.2.requests.map (fun r => (1, .arrival i.1 r.resId)))) 0

/-- `add_no_commit_no_arrival_blocking`, `lp_pedf_lockfree_NP.cpp:112-131`. -/
def noCommit (info : Info) (k t : ℕ) (lp : Program) : Program :=
  ((localIds info k).filter (fun i => i.2.deadline ≤ t)).foldl (fun lp i => i.2.requests.foldl (fun lp r =>
    addInequality lp [(1, .arrival i.1 r.resId)] (Lp.numRequests i.2 r.resId)) lp) lp

/-- `bigM`, `lp_pedf_lockfree_NP.cpp:136-140`. -/
def bigM (info : Info) (k t : ℕ) : ℕ :=
  ((remoteTasks info k).flatMap (fun x => (Lp.allResources info).map (fun q =>
    remoteJobs x t * Lp.numRequests x q))).sum

/-- `add_transitive_arrival_blocking_max_one_local_commit`, `lp_pedf_lockfree_NP.cpp:134-174`. -/
def transitiveArrival (info : Info) (mode : Mode) (k t : ℕ) (lp : Program) : Program :=
  ((localIds info k).filter (fun i => ¬ localJobs mode i.2 t > 0)).foldl (fun lp i =>
    (Lp.allResources info).foldl (fun lp q =>
      addInequality lp [(1, .remote i.1 q), (-(bigM info k t : ℚ), .arrival i.1 q)] 0) lp) lp

/-- `add_no_local_conflicts`, `lp_pedf_lockfree_NP.cpp:177-200`. -/
def noLocalConflicts (info : Info) (k : ℕ) (lp : Program) : Program :=
  addInequality lp ((localIds info k).flatMap (fun i => (Lp.allResources info).flatMap (fun q =>
    (localIds info k).map (fun j => (1, .conflict i.1 j.1 q))))) 0

/-- One iteration, `lp_pedf_lockfree_NP.cpp:211-217`. -/
def npStep (info : Info) (k : ℕ) (ti : TaskInfo) (q w : ℕ) : ℕ :=
  requestLength ti q +
    ((remoteTasks info k).map (fun x => remoteJobs x w * Lp.numRequests x q * requestLength ti q)).sum

/-- `compute_NP_commit_response_time`, `lp_pedf_lockfree_NP.cpp:202-227`. -/
def npTime (fuel : ℕ) (info : Info) (k : ℕ) (ti : TaskInfo) (q : ℕ) : Option ℕ :=
  commitLoop (npStep info k ti q) ti.deadline fuel (requestLength ti q)

/-- The program of `LockFree_NP`, `lp_pedf_lockfree_NP.cpp:40-61`. -/
def npProgram (fuel : ℕ) (info : Info) (mode : Mode) (k t lb ub : ℕ) (relax : Bool) : Option Program :=
  (commitTimes info k (npTime fuel info k)).map (fun times =>
    remoteConflicts info mode k t times (noLocalConflicts info k (transitiveArrival info mode k t (noCommit info k t
      (noArrivalInside info k t (oneArrival info k (commonProgram info mode k t lb ub relax)))))))

/-! ### The tests -/

/-- `PEDFBlockingAnalysisLockFree_Preemptive`, `lp_pedf_lockfree_preempt.cpp:333-389`, and
`PEDFBlockingAnalysisLockFree_NP`, `lp_pedf_lockfree_NP.cpp:276-330`. -/
def blocking (solve : Solver Var) (info : Info) (k : ℕ)
    (program : Mode → ℕ → ℕ → ℕ → Bool → Option Program) : Blocking where
  pdc t := (program .pdc t 0 0 true).bind (solved solve)
  ac t lb := (program .ac t lb 0 false).bind (solved solve)
  tighter t ub lb :=
    (program .pdc t (if t ≤ maxDeadline info k then 0 else lb) ub false).bind (solved solve)

/-- `lp_pedf_lockfree_preempt_is_schedulable`, `lp_pedf_lockfree_preempt.cpp:395-410`; `none` is divergence or a
crash. -/
def preemptIsSchedulable (fuel : ℕ) (solve : Solver Var) (info : Info) : Option Bool :=
  allClusters (fun k => isSchedulable fuel info k (blocking solve info k (fun mode => preemptProgram fuel info mode k)))
    (List.range (splitByCluster info).length)

/-- `lp_pedf_lockfree_NP_is_schedulable`, `lp_pedf_lockfree_NP.cpp:336-351`; `none` is divergence or a crash. -/
def npIsSchedulable (fuel : ℕ) (solve : Solver Var) (info : Info) : Option Bool :=
  allClusters (fun k => isSchedulable fuel info k (blocking solve info k (fun mode => npProgram fuel info mode k)))
    (List.range (splitByCluster info).length)

end Verif.SR.Pedf.LockFree
