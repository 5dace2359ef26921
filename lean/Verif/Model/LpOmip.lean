/-
Model of `native/src/blocking/linprog/lp_omip.cpp`, called from `apply_omip_bounds` in
`schedcat/locking/bounds.py:400-404`, `490-494`.

Floating-point numbers are exact rationals; other numbers are natural numbers, and wrap-around of
`unsigned int` and `unsigned long` is not modelled.  The order of the constraints and of the terms is irrelevant.
-/
import Verif.Model.LpSpin

namespace Verif.SR.Lp.Omip
open Verif.Spec

/-- `count_accesses`, `lp_omip.cpp:16-33`: the request entries for a resource in a cluster. -/
def accessCount (info : Info) (cluster q : ℕ) : ℕ :=
  ((info.filter (fun t => t.cluster = cluster)).map
    (fun t => (t.requests.filter (fun r => r.resId = q)).length)).sum

/-- `set_blocking_objective_sob`, `lp_common.cpp:157-185`; `BLOCKING_SOB` is `BLOCKING_DIRECT`, `lp_common.h:24`. -/
def objective (info : Info) (i : ℕ) (ti : TaskInfo) : Exp :=
  (others info i).flatMap (fun t => t.2.requests.flatMap (fun r =>
    (vars ti .direct t r).map (fun v => ((r.length : ℚ), v.2))))

/-- The variables of the requests of some tasks for a resource. -/
def resourceVars (ti : TaskInfo) (q : ℕ) (ts : List (ℕ × TaskInfo)) : Exp :=
  ts.flatMap (fun t => (t.2.requests.filter (fun r => r.resId = q)).flatMap (vars ti .direct t))

/-- `add_total_constraints`, `lp_omip.cpp:35-72`. -/
def totalConstraints (info : Info) (i : ℕ) (ti : TaskInfo) (numProcs : ℕ) (lp : Program) : Program :=
  (allResources info).foldl (fun lp q => addInequality lp (resourceVars ti q (others info i))
    (numRequests ti q * (2 * numProcs - 1) : ℕ)) lp

/-- `foreach_remote_task`, `iter-helper.h:61-63`, restricted to a cluster. -/
def tasksOf (info : Info) (cluster : ℕ) : List (ℕ × TaskInfo) := (tasks info).filter (fun t => t.2.cluster = cluster)

/-- `add_remote_cluster_constraints`, `lp_omip.cpp:75-130`. -/
def remoteConstraints (info : Info) (ti : TaskInfo) (numProcs clusterSize : ℕ) (lp : Program) : Program :=
  ((info.map (·.cluster)).dedup.filter (fun c => c ≠ ti.cluster)).foldl (fun lp c =>
    (allResources info).foldl (fun lp q => addInequality lp (resourceVars ti q (tasksOf info c))
      (numRequests ti q * (if accessCount info ti.cluster q ≤ 2 * clusterSize then accessCount info ti.cluster q
        else clusterSize + numProcs) : ℕ)) lp) lp

/-- `add_local_cluster_constraints`, `lp_omip.cpp:132-164`. -/
def localConstraints (info : Info) (i : ℕ) (ti : TaskInfo) (clusterSize : ℕ) (lp : Program) : Program :=
  ((others info i).filter (fun t => t.2.cluster = ti.cluster)).foldl (fun lp t =>
    t.2.requests.foldl (fun lp r => addInequality lp (vars ti .direct t r)
      (if accessCount info ti.cluster r.resId > 2 * clusterSize then numRequests ti r.resId * 2
        else numRequests ti r.resId : ℕ)) lp) lp

/-- The program of a task, `apply_omip_bounds_for_task` with `add_omip_constraints`, `lp_omip.cpp:167-208`.  The number
of processors is passed as the size of the clusters to `add_local_cluster_constraints`, line 178. -/
def program (info : Info) (i : ℕ) (ti : TaskInfo) (numProcs clusterSize : ℕ) : Program :=
  let lp : Program := { objective := objective info i ti }
  let lp := totalConstraints info i ti numProcs lp
  let lp := remoteConstraints info ti numProcs clusterSize lp
  localConstraints info i ti numProcs lp

/-- `lp_omip_bounds`, `lp_omip.cpp:216-267`: the bound for each task; `none` is a failing assertion (or a division
by zero). -/
def bounds (solve : Solver) (info : Info) (numProcs clusterSize : ℕ) : Option (List ℕ) :=
  if clusterSize = 0 ∨ numProcs < clusterSize ∨ numProcs % clusterSize ≠ 0 then none
  else (tasks info).mapM (fun t => solved solve (program info t.1 t.2 numProcs clusterSize))

end Verif.SR.Lp.Omip
