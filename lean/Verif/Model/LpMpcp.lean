/-
Model of `native/src/blocking/linprog/lp_mpcp.cpp`.  All numbers are natural numbers: wrap-around of `unsigned int`
and `unsigned long` is not modelled.
-/
import Verif.Model.LpSem
import Verif.Model.Mpcp

namespace Verif.SR.Lp
open Verif.Spec
open Verif.SR.Mpcp (clusterTimes mpcpCeilings ceilingAt)

/-- `get_gcs_response`, `lp_mpcp.cpp:61-75`, with the map filled by `bound_gcs_response_times`, `lp_mpcp.cpp:79-105`:
the last request of a task for the resource counts.  The resource is one of the task's in all calls. -/
def gcsResponse (info : Info) (t q : ℕ) : ℕ :=
  ((clusterTimes info).flatten.filter (fun x => x.1.1 = t)).foldl (fun c x =>
    (x.1.2.requests.zip x.2).foldl (fun c r => if r.1.resId = q then r.2 else c) c) 0

/-- The tasks of higher priority. -/
def higherTasks (info : Info) (ti : TaskInfo) : List (ℕ × TaskInfo) :=
  (tasks info).filter (fun t => t.2.priority < ti.priority)

/-- `delay_by_lower + delay_by_equal`, `lp_mpcp.cpp:111-131`. -/
def delayByLower (info : Info) (i : ℕ) (ti : TaskInfo) (q : ℕ) : ℕ :=
  let d := ((others info i).filter (fun t => t.2.priority ≥ ti.priority)).foldl (fun d t =>
    (t.2.requests.filter (fun r => r.resId = q)).foldl (fun (d : ℕ × ℕ) _ =>
      if t.2.priority > ti.priority then (max d.1 (gcsResponse info t.1 q), d.2)
      else (d.1, d.2 + gcsResponse info t.1 q)) d) (0, 0)
  d.1 + d.2

/-- `delay_by_higher`, `lp_mpcp.cpp:143-156`. -/
def delayByHigher (info : Info) (ti : TaskInfo) (q estimate : ℕ) : ℕ :=
  ((higherTasks info ti).map (fun t => ((t.2.requests.filter (fun r => r.resId = q)).map (fun r =>
    t.2.maxNumJobs estimate * r.num * gcsResponse info t.1 q)).sum)).sum

/-- The right-hand side of `lp_mpcp.cpp:158`. -/
def nextDelay (info : Info) (i : ℕ) (ti : TaskInfo) (q estimate : ℕ) : ℕ :=
  delayByLower info i ti q + delayByHigher info ti q estimate

/-- The loop of `bound_remote_delay`, `lp_mpcp.cpp:138-159`; `none` if the fuel is used up. -/
def delayLoop (info : Info) (i : ℕ) (ti : TaskInfo) (q : ℕ) : ℕ → ℕ → ℕ → Option ℕ
  | 0, _, _ => none
  | fuel + 1, estimate, next =>
    if next ≤ ti.response ∧ next ≠ estimate then delayLoop info i ti q fuel next (nextDelay info i ti q next)
    else some estimate

/-- `bound_remote_delay`, `lp_mpcp.cpp:109-165`; the inner `none` is `NO_BOUND`. -/
def remoteDelay (info : Info) (fuel i : ℕ) (ti : TaskInfo) (q : ℕ) : Option (Option ℕ) :=
  (delayLoop info i ti q fuel 1 (delayByLower info i ti q)).map (fun e => if e ≤ ti.response then some e else none)

/-- `get_max_remote_delay`, `lp_mpcp.cpp:48-59`, for the resources of a task; the map is computed in advance. -/
def remoteDelays (info : Info) (fuel i : ℕ) (ti : TaskInfo) : Option (List (ℕ × Option ℕ)) :=
  ti.requests.mapM (fun r => (remoteDelay info fuel i ti r.resId).map (fun d => (r.resId, d)))

/-- A value of the map. -/
def delayOf (ds : List (ℕ × Option ℕ)) (q : ℕ) : Option ℕ := (ds.lookup q).getD none

/-- `get_per_resource_counts`, `lp_mpcp.cpp:303-311`. -/
def resourceCount (ti : TaskInfo) (q : ℕ) : ℕ := ((ti.requests.filter (fun r => r.resId = q)).map Request.num).sum

/-- Whether a resource is in the map of `get_per_resource_counts`. -/
def accessed (ti : TaskInfo) (q : ℕ) : Bool := ti.requests.any (fun r => r.resId = q)

/-- `request_count`, `lp_mpcp.cpp:375-383`. -/
def requestCount (ti tx : TaskInfo) (r : Request) (interval : ℕ) : ℕ :=
  tx.maxNumJobs interval * r.num * resourceCount ti r.resId

/-- `db_bounds[t][q]` for a request, as set in `add_direct_blocking_constraints`, `lp_mpcp.cpp:336-397`. -/
def directBound (ds : List (ℕ × Option ℕ)) (ti tx : TaskInfo) (r : Request) : ℕ :=
  if accessed ti r.resId then
    if tx.priority < ti.priority then
      match delayOf ds r.resId with
      | some interval => min (instances ti tx r) (requestCount ti tx r interval)
      | none => 0
    else min (instances ti tx r) (resourceCount ti r.resId)
  else 0

/-- `db_bounds[t][q]`, `lp_mpcp.cpp:336-397`: the last request for a resource counts. -/
def dbBound (ds : List (ℕ × Option ℕ)) (ti tx : TaskInfo) (q : ℕ) : ℕ :=
  tx.requests.foldl (fun c r => if r.resId = q then directBound ds ti tx r else c) 0

/-- The requests of a task that are subject to the constraints per resource, `lp_mpcp.cpp:340-350`. -/
def perResourceRequests (ti tx : TaskInfo) : List Request :=
  tx.requests.filter (fun r => ¬ tx.priority < ti.priority ∨ ¬ accessed ti r.resId)

/-- The keys of `constraints` in `add_direct_blocking_constraints`, `lp_mpcp.cpp:352-355`.  The order in which the hash
map enumerates them is not specified. -/
def directResources (info : Info) (i : ℕ) (ti : TaskInfo) : List ℕ :=
  ((others info i).flatMap (fun t => (perResourceRequests ti t.2).map Request.resId)).dedup

/-- The expression for a resource, `lp_mpcp.cpp:352-364`. -/
def directExp (info : Info) (i : ℕ) (ti : TaskInfo) (q : ℕ) : Exp :=
  (others info i).flatMap (fun t => ((perResourceRequests ti t.2).filter (fun r => r.resId = q)).flatMap (fun r =>
    terms ti [.direct] t r 1))

/-- `add_direct_blocking_constraints`, `lp_mpcp.cpp:313-410`: constraints 15, 16 and 19. -/
def directConstraints (info : Info) (ds : List (ℕ × Option ℕ)) (i : ℕ) (ti : TaskInfo) (lp : Program) : Program :=
  let lp := (others info i).foldl (fun lp t => t.2.requests.foldl (fun lp r =>
    if t.2.priority < ti.priority ∧ accessed ti r.resId then
      match delayOf ds r.resId with
      | some interval => addInequality lp (terms ti [.direct] t r 1) (requestCount ti t.2 r interval)
      | none => lp
    else lp) lp) lp
  (directResources info i ti).foldl (fun lp q => addInequality lp (directExp info i ti q) (resourceCount ti q)) lp

/-- `count_gcs_preemption_opportunities`, `lp_mpcp.cpp:166-207`. -/
def preemptionOpportunities (info : Info) (ds : List (ℕ × Option ℕ)) (i : ℕ) (ti : TaskInfo) (t : ℕ × TaskInfo)
    (q : ℕ) : ℕ :=
  (((tasks info).filter (fun x => x.2.cluster = t.2.cluster ∧ x.1 ≠ t.1 ∧ x.1 ≠ i)).map (fun x =>
    ((x.2.requests.filter (fun r => r.resId ≠ q ∧ dbBound ds ti x.2 r.resId > 0 ∧
      ceilingAt (mpcpCeilings info) x.2.cluster r.resId ≥ ceilingAt (mpcpCeilings info) t.2.cluster q)).map
      (fun r => dbBound ds ti x.2 r.resId)).sum)).sum

/-- `foreach_remote_task`. -/
def remoteTasks (info : Info) (ti : TaskInfo) : List (ℕ × TaskInfo) :=
  (tasks info).filter (fun t => t.2.cluster ≠ ti.cluster)

/-- `add_per_request_indirect_constraints`, `lp_mpcp.cpp:209-239`: constraint 18. -/
def requestIndirect (info : Info) (ds : List (ℕ × Option ℕ)) (i : ℕ) (ti : TaskInfo) (lp : Program) : Program :=
  (remoteTasks info ti).foldl (fun lp t => t.2.requests.foldl (fun lp r =>
    addInequality lp (terms ti [.indirect] t r 1) (preemptionOpportunities info ds i ti t r.resId)) lp) lp

/-- `bounds[tl]` in `add_per_task_indirect_constraints`, `lp_mpcp.cpp:252-284`. -/
def taskIndirectBound (info : Info) (ds : List (ℕ × Option ℕ)) (ti : TaskInfo) (tl : ℕ × TaskInfo) : ℕ :=
  ((remoteTasks info ti).map (fun x =>
    if tl.2.cluster = x.2.cluster ∧ tl.1 ≠ x.1 then
      ((x.2.requests.filter (fun r => dbBound ds ti x.2 r.resId > 0 ∧ tl.2.requests.any (fun l =>
        ceilingAt (mpcpCeilings info) tl.2.cluster l.resId ≤ ceilingAt (mpcpCeilings info) x.2.cluster r.resId))).map
        (fun r => dbBound ds ti x.2 r.resId)).sum
    else 0)).sum

/-- `add_per_task_indirect_constraints`, `lp_mpcp.cpp:241-303`: constraint 17. -/
def taskIndirect (info : Info) (ds : List (ℕ × Option ℕ)) (ti : TaskInfo) (lp : Program) : Program :=
  (remoteTasks info ti).foldl (fun lp t =>
    addInequality lp (allTerms ti [.indirect] t) (taskIndirectBound info ds ti t)) lp

/-- `remote_blocking_bound`, `lp_mpcp.cpp:420-429`; `NO_BOUND` is converted to `unsigned long`. -/
def remoteBound (ds : List (ℕ × Option ℕ)) (ti : TaskInfo) : ℕ :=
  (ti.requests.map (fun r => (delayOf ds r.resId).getD (2 ^ 64 - 1) * r.num)).sum

/-- `add_remote_blocking_constraint`, `lp_mpcp.cpp:412-454`: constraint 20. -/
def remoteConstraint (info : Info) (ds : List (ℕ × Option ℕ)) (ti : TaskInfo) (lp : Program) : Program :=
  addInequality lp ((remoteTasks info ti).flatMap (fun t => t.2.requests.flatMap (fun r =>
    terms ti [.direct, .indirect] t r r.length))) (remoteBound ds ti)

/-- `add_mpcp_constraints`, `lp_mpcp.cpp:456-484`. -/
def mpcpConstraints (info : Info) (ds : List (ℕ × Option ℕ)) (i : ℕ) (ti : TaskInfo) (lp : Program) : Program :=
  let lp := semMutex info i ti lp
  let lp := higherShm info ti lp
  let lp := topologyShm info ti lp
  let lp := lowerShm info i ti lp
  let lp := directConstraints info ds i ti lp
  let lp := taskIndirect info ds ti lp
  let lp := requestIndirect info ds i ti lp
  remoteConstraint info ds ti lp

/-- `apply_mpcp_bounds_for_task`, `lp_mpcp.cpp:485-558`; `none` if an assertion fails or a loop does not end within the
fuel. -/
def lpMpcpTask (solve : Solver) (info : Info) (fuel i : ℕ) (ti : TaskInfo) : Option SemBounds := do
  let ds ← remoteDelays info fuel i ti
  let lp := mpcpConstraints info ds i ti { objective := partObjective info i ti }
  let x ← solve lp
  let y ← solve { lp with objective := remoteObjective info i ti }
  some ⟨(lrint (termSum x lp.objective)).toNat, (lrint (termSum y (remoteObjective info i ti))).toNat,
    (lrint (termSum x (localObjective info i ti))).toNat⟩

/-- `lp_mpcp_bounds`, `lp_mpcp.cpp:561-592`. -/
def lpMpcpBounds (solve : Solver) (info : Info) (fuel : ℕ) : Option (List SemBounds) :=
  (tasks info).mapM (fun t => lpMpcpTask solve info fuel t.1 t.2)

end Verif.SR.Lp
