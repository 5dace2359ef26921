/-
Model of `native/src/blocking/linprog/lp_pedf_fifo_preempt.cpp`, called from `pedf_fifo_preempt_is_schedulable` in
`schedcat/locking/bounds.py:594-597`.  Numbers are modelled as in `Verif.Model.LpPedf`.
-/
import Verif.Model.LpPedf

namespace Verif.SR.Pedf
open Verif.Spec

/-- `add_no_transitive_arrival_blocking`, `lp_pedf_fifo_preempt.cpp:68-83`. -/
def noTransitiveArrival (info : Info) (k : ℕ) (lp : Program) : Program :=
  addInequality lp ((remoteIds info k).flatMap (fun x => (Lp.allResources info).map (fun q => (1, .arrival x.1 q)))) 0

/-- The largest number of times that jobs of one task preempt a job of another, `lp_pedf_fifo_preempt.cpp:117-119`,
`lp_pedf_lockfree_preempt.cpp:170-173`; there are none if the difference of the deadlines is negative. -/
def preemptions (ti th : TaskInfo) : ℕ := Native.divideWithCeil (ti.deadline - th.deadline) th.period

/-- The tasks of a cluster with shorter deadlines, `foreach_task_in_cluster_having_lt_dline`, `iter-helper.h:87-89`. -/
def shorterTasks (info : Info) (k d : ℕ) : List TaskInfo := (localTasks info k).filter (fun t => t.deadline < d)

/-- `add_max_number_of_cancellations`, `lp_pedf_fifo_preempt.cpp:88-140`. -/
def maxCancellations (info : Info) (mode : Mode) (k t : ℕ) (relax : Bool) (lp : Program) : Program :=
  let lp := (localIds info k).foldl (fun lp i =>
    let vars := (Lp.allResources info).map (fun q => Var.cancelled i.1 q)
    addInequality
      { lp with nonneg := vars ++ lp.nonneg, integers := if relax then lp.integers else vars ++ lp.integers }
      (vars.map (fun v => (1, v)))
      (((shorterTasks info k i.2.deadline).map (preemptions i.2)).sum * localJobs mode i.2 t : ℕ)) lp
  addInequality lp ((localIds info k).flatMap (fun i =>
    ((Lp.allResources info).filter (fun q => Lp.numRequests i.2 q = 0)).map (fun q => (1, .cancelled i.1 q)))) 0

/-- `add_max_overall_number_of_preemptions`, `lp_pedf_fifo_preempt.cpp:143-173`. -/
def maxPreemptions (info : Info) (k t : ℕ) (lp : Program) : Program :=
  (localIds info k).foldl (fun lp i =>
    addInequality lp (((localIds info k).filter (fun j => j.2.deadline ≤ i.2.deadline)).flatMap (fun j =>
        (Lp.allResources info).map (fun q => (1, .cancelled j.1 q))))
      (((shorterTasks info k i.2.deadline).map (fun x => Native.divideWithCeil t x.period)).sum : ℕ)) lp

/-- `add_at_max_one_request_per_processor_spin`, `lp_pedf_fifo_preempt.cpp:177-217`. -/
def oneSpinOrCancellation (info : Info) (mode : Mode) (k t : ℕ) (lp : Program) : Program :=
  (otherClusters info k).foldl (fun lp c => (Lp.allResources info).foldl (fun lp q =>
    addInequality lp ((localIds info c).map (fun x => (1, .spin x.1 q)) ++
        (localIds info k).map (fun i => (-1, .cancelled i.1 q)))
      (((localTasks info k).map (fun ti => localJobs mode ti t * Lp.numRequests ti q)).sum : ℕ)) lp) lp

/-- The terms of the objective, `lp_pedf_fifo_preempt.cpp:226-246`. -/
def blockingTerms (info : Info) : List (ℚ × Var) :=
  (Lp.tasks info).flatMap (fun x => (Lp.allResources info).flatMap (fun q =>
    if requestLength x.2 q > 0 then
      [((requestLength x.2 q : ℚ), .spin x.1 q), ((requestLength x.2 q : ℚ), .arrival x.1 q)]
    else []))

/-- `lb`, `lp_pedf_fifo_preempt.cpp:248`, `lp_pedf_lockfree_common.cpp:217`. -/
def lowerBound (lb : ℕ) : ℚ := if (lb : ℚ) - 1 > 0 then 0 else (lb : ℚ) - 1

/-- `add_inequality(obj_minus, -lb); if (blocking_UB > 0) add_inequality(obj_plus, blocking_UB);`,
`lp_pedf_fifo_preempt.cpp:248-255`, `lp_pedf_lockfree_common.cpp:217-224`. -/
def blockingRange {V : Type} (terms : List (ℚ × V)) (lb ub : ℕ) (lp : MixedProgram V) : MixedProgram V :=
  let lp := addInequality lp (terms.map (fun t => (-t.1, t.2))) (-lowerBound lb)
  if ub > 0 then addInequality lp terms ub else lp

/-- The program of `FIFO_Preemptive`, `lp_pedf_fifo_preempt.cpp:40-60`. -/
def fifoPreemptProgram (info : Info) (mode : Mode) (k t lb ub : ℕ) (relax : Bool) : Program :=
  blockingRange (blockingTerms info) lb ub (oneSpinOrCancellation info mode k t (maxPreemptions info k t
    (maxCancellations info mode k t relax (noTransitiveArrival info k (commonProgram info mode k t)))))

/-- `PEDFBlockingAnalysisFIFO_Preemptive`, `lp_pedf_fifo_preempt.cpp:262-319`. -/
def fifoPreemptBlocking (solve : Solver) (info : Info) (k : ℕ) : Blocking where
  pdc t := solved solve (fifoPreemptProgram info .pdc k t 0 0 true)
  ac t lb := solved solve (fifoPreemptProgram info .ac k t lb 0 false)
  tighter t ub lb :=
    solved solve (fifoPreemptProgram info .pdc k t (if t ≤ maxDeadline info k then 0 else lb) ub false)

/-- `lp_pedf_fifo_preempt_is_schedulable`, `lp_pedf_fifo_preempt.cpp:325-340`; `none` is divergence or a crash. -/
def fifoPreemptIsSchedulable (fuel : ℕ) (solve : Solver) (info : Info) : Option Bool :=
  allClusters (fun k => isSchedulable fuel info k (fifoPreemptBlocking solve info k))
    (List.range (splitByCluster info).length)

end Verif.SR.Pedf
