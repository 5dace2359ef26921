/-
Model of `native/src/blocking/linprog/lp_dpcp.cpp`, of the parts of `lp_common.cpp` for distributed semaphore
protocols, and of `apply_lp_dpcp_bounds` in `schedcat/locking/bounds.py`.  All numbers are natural numbers: wrap-around
of `unsigned int` and `unsigned long` is not modelled.  Linear programs are built per task, i.e., without
`CONFIG_MERGED_LINPROGS`.
-/
import Verif.Model.LpSem
import Verif.Model.Dpcp
import Mathlib.Data.List.Dedup

namespace Verif.SR.Lp
open Verif.Spec
open Verif.SR.Msrp (ceilingOf)
open Verif.SR.Dpcp (Locality topology)

/-! ### Distributed semaphore protocols, `lp_common.cpp` -/

/-- `locality[q] == (int) ti.get_cluster()`, e.g., `lp_common.cpp:58`. -/
def IsLocal (l : Locality) (ti : TaskInfo) (r : Request) : Prop := l.at r.resId = some ti.cluster

instance (l : Locality) (ti : TaskInfo) (r : Request) : Decidable (IsLocal l ti r) :=
  inferInstanceAs (Decidable (_ = _))

/-- The terms for some requests of some tasks, each with coefficient 1. -/
def termsFor (ti : TaskInfo) (tys : List BlockingType) (ts : List (ℕ × TaskInfo)) (p : ℕ × TaskInfo → Request → Bool) :
    Exp :=
  ts.flatMap (fun t => (t.2.requests.filter (p t)).flatMap (fun r => terms ti tys t r 1))

/-- The assertion of `set_blocking_objective`, `lp_common.cpp:61-62`. -/
def located (info : Info) (l : Locality) (i : ℕ) : Bool :=
  (others info i).all (fun t => t.2.requests.all (fun r => (l.at r.resId).isSome))

/-- `local_obj` of `set_blocking_objective`, `lp_common.cpp:41-98`; the objective is `partObjective`. -/
def distLocalObjective (info : Info) (l : Locality) (i : ℕ) (ti : TaskInfo) : Exp :=
  (others info i).flatMap (fun t => (t.2.requests.filter (fun r => IsLocal l ti r)).flatMap (fun r =>
    terms ti [.direct, .indirect, .preempt] t r r.length))

/-- `add_topology_constraints`, `lp_common.cpp:223-247`. -/
def distTopology (info : Info) (l : Locality) (i : ℕ) (ti : TaskInfo) (lp : Program) : Program :=
  addEquality lp (termsFor ti [.preempt] (others info i) (fun _ r => ¬ IsLocal l ti r)) 0

/-- `max_num_arrivals_remote`, `lp_common.cpp:249-262`. -/
def distArrivals (l : Locality) (ti : TaskInfo) : ℕ :=
  1 + ((ti.requests.filter (fun r => ¬ IsLocal l ti r)).map Request.num).sum

/-- `add_local_lower_priority_constraints`, `lp_common.cpp:268-300`. -/
def distLower (info : Info) (l : Locality) (i : ℕ) (ti : TaskInfo) (lp : Program) : Program :=
  ((tasks info).filter (fun t => t.2.cluster = ti.cluster ∧ t.1 ≠ i ∧ t.2.priority ≥ ti.priority)).foldl (fun lp t =>
    addInequality lp (termsFor ti [.preempt] [t] (fun _ r => IsLocal l ti r)) (distArrivals l ti)) lp

/-! ### The DPCP, `lp_dpcp.cpp` -/

/-- `own_length`, `lp_dpcp.cpp:48-52`. -/
def ownLength (ti : TaskInfo) (q : ℕ) : ℕ :=
  ((ti.requests.filter (fun r => r.resId = q)).map Request.length).foldl max 0

/-- `delay_by_lower`, `lp_dpcp.cpp:54-67`: the tasks include `ti` itself. -/
def waitLower (info : Info) (l : Locality) (ti : TaskInfo) (c : Option ℕ) : ℕ :=
  (((tasks info).filter (fun t => t.2.priority ≥ ti.priority)).flatMap (fun t =>
    (t.2.requests.filter (fun r => l.at r.resId = c ∧ ceilingOf info r.resId ≤ ti.priority)).map
      Request.length)).foldl max 0

/-- `delay_by_higher`, `lp_dpcp.cpp:76-89`. -/
def waitHigher (info : Info) (l : Locality) (ti : TaskInfo) (c : Option ℕ) (estimate : ℕ) : ℕ :=
  (((tasks info).filter (fun t => t.2.priority < ti.priority)).map (fun t =>
    ((t.2.requests.filter (fun r => l.at r.resId = c)).map (fun r =>
      t.2.maxNumJobs estimate * r.num * r.length)).sum)).sum

/-- The right-hand side of `lp_dpcp.cpp:91`. -/
def nextWait (info : Info) (l : Locality) (ti : TaskInfo) (q estimate : ℕ) : ℕ :=
  ownLength ti q + waitLower info l ti (l.at q) + waitHigher info l ti (l.at q) estimate

/-- The loop of `bound_wait_time`, `lp_dpcp.cpp:74-92`; `none` if the fuel is used up. -/
def agentLoop (info : Info) (l : Locality) (ti : TaskInfo) (q : ℕ) : ℕ → ℕ → ℕ → Option ℕ
  | 0, _, _ => none
  | fuel + 1, estimate, next =>
    if next ≤ ti.response ∧ next ≠ estimate then agentLoop info l ti q fuel next (nextWait info l ti q next)
    else some estimate

/-- `bound_wait_time`, `lp_dpcp.cpp:42-98`; the inner `none` is `NO_WAIT_TIME_BOUND`. -/
def waitTime (info : Info) (l : Locality) (fuel : ℕ) (ti : TaskInfo) (q : ℕ) : Option (Option ℕ) :=
  (agentLoop info l ti q fuel 0 (ownLength ti q + waitLower info l ti (l.at q))).map (fun e =>
    if e ≤ ti.response then some e else none)

/-- `MaxWaitTimes`, `lp_dpcp.cpp:14-40`, for the resources of a task; the map is computed in advance. -/
def waitTimes (info : Info) (l : Locality) (fuel : ℕ) (ti : TaskInfo) : Option (List (ℕ × Option ℕ)) :=
  ti.requests.mapM (fun r => (waitTime info l fuel ti r.resId).map (fun w => (r.resId, w)))

/-- A value of the map. -/
def waitOf (ws : List (ℕ × Option ℕ)) (q : ℕ) : Option ℕ := (ws.lookup q).getD none

/-- `max_num_reqs`, `lp_dpcp.cpp:121-142`; `none` if it is not bounded. -/
def waitLimit (l : Locality) (ws : List (ℕ × Option ℕ)) (ti tx : TaskInfo) (r : Request) : Option ℕ :=
  ((ti.requests.filter (fun y => l.at y.resId = l.at r.resId)).mapM (fun y =>
    (waitOf ws y.resId).map (fun w => tx.maxNumJobs w * r.num * y.num))).map List.sum

/-- Constraint 8: `add_max_wait_time_constraints`, `lp_dpcp.cpp:103-160`. -/
def dpcpWait (info : Info) (l : Locality) (ws : List (ℕ × Option ℕ)) (ti : TaskInfo) (lp : Program) : Program :=
  ((tasks info).filter (fun t => t.2.priority < ti.priority)).foldl (fun lp t => t.2.requests.foldl (fun lp r =>
    match waitLimit l ws ti t.2 r with
    | some n => addInequality lp (terms ti [.direct, .indirect] t r 1) n
    | none => lp) lp) lp

/-- The substitute for constraint 8: `add_independent_cluster_constraints`, `lp_dpcp.cpp:165-204`. -/
def dpcpIndependent (info : Info) (l : Locality) (i : ℕ) (ti : TaskInfo) (lp : Program) : Program :=
  addEquality lp (termsFor ti [.direct, .indirect] (others info i) (fun _ r =>
    l.at r.resId ∉ ti.requests.map (fun y => l.at y.resId))) 0

/-- Constraint 6: `add_conflict_set_constraints`, `lp_dpcp.cpp:207-242`. -/
def dpcpConflict (info : Info) (i : ℕ) (ti : TaskInfo) (lp : Program) : Program :=
  addEquality lp (termsFor ti [.direct, .indirect] (others info i) (fun _ r => ceilingOf info r.resId > ti.priority)) 0

/-- `per_cluster_counts`, `lp_dpcp.cpp:255-258`. -/
def clusterCount (l : Locality) (ti : TaskInfo) (c : Option ℕ) : ℕ :=
  ((ti.requests.filter (fun r => l.at r.resId = c)).map Request.num).sum

/-- Constraint 7: `add_atmostonce_lower_prio_constraints`, `lp_dpcp.cpp:247-295`.  The order of the hash map, i.e., of
the constraints, does not matter. -/
def dpcpOnce (info : Info) (l : Locality) (i : ℕ) (ti : TaskInfo) (lp : Program) : Program :=
  let ts := (tasks info).filter (fun t => t.1 ≠ i ∧ t.2.priority ≥ ti.priority)
  let cs := (ts.flatMap (fun t => (t.2.requests.filter (fun r => ceilingOf info r.resId ≤ ti.priority)).map (fun r =>
    l.at r.resId))).dedup
  cs.foldl (fun lp c =>
    addInequality lp (termsFor ti [.direct] ts (fun _ r => ceilingOf info r.resId ≤ ti.priority ∧ l.at r.resId = c))
      (clusterCount l ti c)) lp

/-- `add_dpcp_constraints`, `lp_dpcp.cpp:297-325`; `ws` is `none` if `use_rta` is not set. -/
def dpcpConstraints (info : Info) (l : Locality) (ws : Option (List (ℕ × Option ℕ))) (i : ℕ) (ti : TaskInfo)
    (lp : Program) : Program :=
  let lp := semMutex info i ti lp
  let lp := distTopology info l i ti lp
  let lp := distLower info l i ti lp
  let lp := dpcpOnce info l i ti lp
  let lp := dpcpConflict info i ti lp
  match ws with
  | some ws => dpcpWait info l ws ti lp
  | none => dpcpIndependent info l i ti lp

/-- The wait times if they are needed. -/
def rtaTimes (info : Info) (l : Locality) (useRta : Bool) (fuel : ℕ) (ti : TaskInfo) :
    Option (Option (List (ℕ × Option ℕ))) :=
  if useRta then (waitTimes info l fuel ti).map some else some none

/-- `apply_dpcp_bounds_for_task`, `lp_dpcp.cpp:416-469`; `none` is a failing assertion or too little fuel.  `remote` does
not wrap around because `total` is not smaller than `loc`. -/
def dpcpTask (solve : Solver) (info : Info) (l : Locality) (useRta : Bool) (fuel i : ℕ) (ti : TaskInfo) :
    Option SemBounds :=
  if located info l i then do
    let ws ← rtaTimes info l useRta fuel ti
    let lp := dpcpConstraints info l ws i ti { objective := partObjective info i ti }
    let x ← solve lp
    let total := (lrint (termSum x lp.objective)).toNat
    let loc := (lrint (termSum x (distLocalObjective info l i ti))).toNat
    some ⟨total, total - loc, loc⟩
  else none

/-- `lp_dpcp_bounds`, `lp_dpcp.cpp:472-507`, with the topology made by `apply_lp_dpcp_bounds`, `bounds.py:339-346`; the
tasks are changed as by the other LP-based analyses, see `afterSemBounds`. -/
def lpDpcpBounds (solve : Solver) (info : Info) (mapping : List (ℕ × ℕ)) (useRta : Bool) (fuel : ℕ) :
    Option (List SemBounds) :=
  (tasks info).mapM (fun t => dpcpTask solve info (topology mapping) useRta fuel t.1 t.2)

end Verif.SR.Lp
