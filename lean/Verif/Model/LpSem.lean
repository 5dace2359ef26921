/-
Model of `native/src/blocking/linprog/lp_common.cpp` as far as it is used by the LP-based analyses of
semaphore protocols for shared memory, of `lp_fmlp.cpp`, and of their use in `schedcat/locking/bounds.py`.
-/
import Verif.Model.LpCommon
import Verif.Model.FpRta

namespace Verif.SR.Lp
open Verif.Spec

/-! ### Partitioned scheduling with shared memory, `lp_common.cpp` -/

/-- The terms for one request, with the kinds of blocking `tys`:
`foreach_request_instance(*request, ti, v) { for each kind: exp->add_term(length, vars.lookup(t, q, v, ty)) }`. -/
def terms (ti : TaskInfo) (tys : List BlockingType) (t : ℕ × TaskInfo) (r : Request) (length : ℚ) : Exp :=
  (List.range (instances ti t.2 r)).flatMap (fun v => tys.map (fun ty => (length, ⟨ty, t.1, v, r.resId⟩)))

/-- The terms for all requests of a task, each with coefficient 1. -/
def allTerms (ti : TaskInfo) (tys : List BlockingType) (t : ℕ × TaskInfo) : Exp :=
  t.2.requests.flatMap (fun r => terms ti tys t r 1)

/-- The terms that `set_blocking_objective_part_shm`, `lp_common.cpp:103-152`, adds for some tasks. -/
def blockingTerms (ti : TaskInfo) (ts : List (ℕ × TaskInfo)) : Exp :=
  ts.flatMap (fun t => t.2.requests.flatMap (fun r => terms ti [.direct, .indirect, .preempt] t r r.length))

/-- The objective set by `set_blocking_objective_part_shm`, `lp_common.cpp:103-152`. -/
def partObjective (info : Info) (i : ℕ) (ti : TaskInfo) : Exp := blockingTerms ti (others info i)

/-- `local_obj` of `set_blocking_objective_part_shm`, `lp_common.cpp:103-152`. -/
def localObjective (info : Info) (i : ℕ) (ti : TaskInfo) : Exp :=
  blockingTerms ti ((others info i).filter (fun t => t.2.cluster = ti.cluster))

/-- `remote_obj` of `set_blocking_objective_part_shm`, `lp_common.cpp:103-152`. -/
def remoteObjective (info : Info) (i : ℕ) (ti : TaskInfo) : Exp :=
  blockingTerms ti ((others info i).filter (fun t => ¬ t.2.cluster = ti.cluster))

/-- `add_mutex_constraints`, `lp_common.cpp:188-220`. -/
def semMutex (info : Info) (i : ℕ) (ti : TaskInfo) (lp : Program) : Program :=
  (others info i).foldl (fun lp t => t.2.requests.foldl (fun lp r =>
    (List.range (instances ti t.2 r)).foldl (fun lp v =>
      addInequality lp [(1, ⟨.direct, t.1, v, r.resId⟩), (1, ⟨.indirect, t.1, v, r.resId⟩),
        (1, ⟨.preempt, t.1, v, r.resId⟩)] 1) lp) lp) lp

/-- `add_topology_constraints_shm`, `lp_common.cpp:303-330`. -/
def topologyShm (info : Info) (ti : TaskInfo) (lp : Program) : Program :=
  addEquality lp (((tasks info).filter (fun t => t.2.cluster ≠ ti.cluster)).flatMap (allTerms ti [.preempt])) 0

/-- `add_local_higher_priority_constraints_shm`, `lp_common.cpp:332-370`. -/
def higherShm (info : Info) (ti : TaskInfo) (lp : Program) : Program :=
  addEquality lp (((tasks info).filter (fun t => t.2.cluster = ti.cluster ∧ t.2.priority < ti.priority)).flatMap
    (allTerms ti [.preempt, .indirect, .direct])) 0

/-- How many requests of the tasks `ts` for a resource are counted in the hash maps of e.g. `max_num_arrivals_shm`,
`lp_common.cpp:381-389`. -/
def requestsOf (ti : TaskInfo) (ts : List (ℕ × TaskInfo)) (res : ℕ) : ℕ :=
  (ts.flatMap (fun t => (t.2.requests.filter (fun r => r.resId = res)).map (instances ti t.2))).sum

/-- The sum of the minima in e.g. `max_num_arrivals_shm`, `lp_common.cpp:394-396`: how often the requests of a job of
`ti` conflict with requests of the tasks `ts`. -/
def conflicts (ti : TaskInfo) (ts : List (ℕ × TaskInfo)) : ℕ :=
  (ti.requests.map (fun r => min r.num (requestsOf ti ts r.resId))).sum

/-- `max_num_arrivals_shm`, `lp_common.cpp:372-400`. -/
def arrivalsShm (info : Info) (ti : TaskInfo) : ℕ :=
  1 + conflicts ti ((tasks info).filter (fun t => t.2.cluster ≠ ti.cluster))

/-- `add_local_lower_priority_constraints_shm`, `lp_common.cpp:402-438`. -/
def lowerShm (info : Info) (i : ℕ) (ti : TaskInfo) (lp : Program) : Program :=
  ((tasks info).filter (fun t => t.2.cluster = ti.cluster ∧ t.1 ≠ i ∧ t.2.priority ≥ ti.priority)).foldl (fun lp t =>
    addInequality lp (allTerms ti [.preempt, .indirect, .direct] t) (arrivalsShm info ti)) lp

/-! ### The FMLP+, `lp_fmlp.cpp` -/

/-- `add_fifo_cluster_constraints`, `lp_fmlp.cpp:14-66`. -/
def fifoCluster (info : Info) (ti : TaskInfo) (lp : Program) : Program :=
  ((tasks info).filter (fun t => t.2.cluster ≠ ti.cluster)).foldl (fun lp t =>
    addInequality lp (allTerms ti [.indirect] t)
      (conflicts ti ((tasks info).filter (fun y => y.2.cluster = t.2.cluster ∧ y.1 ≠ t.1)))) lp

/-- `count_blocking_opportunities`, `lp_fmlp.cpp:140-185`. -/
def opportunities (info : Info) (i : ℕ) (ti : TaskInfo) (c : ℕ) : ℕ :=
  conflicts ti ((tasks info).filter (fun y => y.2.cluster = c ∧ y.1 ≠ i))

/-- `add_total_fifo_constraints`, `lp_fmlp.cpp:68-105`. -/
def totalFifo (info : Info) (i : ℕ) (ti : TaskInfo) (lp : Program) : Program :=
  (others info i).foldl (fun lp t =>
    addInequality lp (allTerms ti [.direct, .indirect] t) (opportunities info i ti t.2.cluster)) lp

/-- `per_resource_counts` of `add_fifo_resource_constraints`, `lp_fmlp.cpp:114-117`: the last entry for a resource
counts. -/
def perResource (ti : TaskInfo) (res : ℕ) : ℕ :=
  ti.requests.foldl (fun c r => if r.resId = res then r.num else c) 0

/-- `add_fifo_resource_constraints`, `lp_fmlp.cpp:107-138`. -/
def fifoResource (info : Info) (i : ℕ) (ti : TaskInfo) (lp : Program) : Program :=
  (others info i).foldl (fun lp t => t.2.requests.foldl (fun lp r =>
    addInequality lp (terms ti [.direct] t r 1) (perResource ti r.resId)) lp) lp

/-- `add_fmlp_constraints`, `lp_fmlp.cpp:187-211`. -/
def fmlpConstraints (info : Info) (i : ℕ) (ti : TaskInfo) (lp : Program) : Program :=
  let lp := semMutex info i ti lp
  let lp := higherShm info ti lp
  let lp := topologyShm info ti lp
  let lp := lowerShm info i ti lp
  let lp := fifoResource info i ti lp
  let lp := totalFifo info i ti lp
  fifoCluster info ti lp

/-- The results for a task. -/
structure SemBounds where
  total : ℕ
  remote : ℕ
  loc : ℕ
deriving DecidableEq, Repr

/-- `apply_fmlp_bounds_for_task`, `lp_fmlp.cpp:213-263`; `none` is the failing assertion.  `remote` does not wrap
around because `total` is not smaller than `loc`. -/
def fmlpTask (solve : Solver) (info : Info) (i : ℕ) (ti : TaskInfo) : Option SemBounds :=
  let lp := fmlpConstraints info i ti { objective := partObjective info i ti }
  (solve lp).map (fun x =>
    let total := (lrint (termSum x lp.objective)).toNat
    let loc := (lrint (termSum x (localObjective info i ti))).toNat
    ⟨total, total - loc, loc⟩)

/-- `lp_part_fmlp_bounds`, `lp_fmlp.cpp:266-292`. -/
def lpFmlpBounds (solve : Solver) (info : Info) : Option (List SemBounds) :=
  (tasks info).mapM (fun t => fmlpTask solve info t.1 t.2)

/-- The tasks of processor `k`, in the order of the list of all tasks, after `apply_lp_part_fmlp_bounds`,
`bounds.py:362-374`, or `apply_lp_mpcp_bounds`, `bounds.py:349-360`. -/
def afterSemBounds (info : Info) (bounds : List SemBounds) (k : ℕ) : List Fp.FpTask :=
  (info.zip bounds).filterMap (fun t =>
    if t.1.cluster = k then
      some { cost := (t.1.cost : ℚ), period := (t.1.period : ℚ), deadline := (t.1.deadline : ℚ),
             suspended := (t.2.remote : ℚ), blocked := some (t.2.total : ℚ) }
    else none)

end Verif.SR.Lp
