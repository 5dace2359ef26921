/-
Model of the LP-based response-time analyses of global fixed-priority scheduling with semaphores:
`native/include/lp_global.h` and `native/src/blocking/linprog/{lp_global,lp_global_no,lp_global_fifo,lp_global_prio,
lp_global_pi,lp_global_pip,lp_sa_gfmlp,lp_no_progress_fifo,lp_no_progress_priority}.cpp`.

Floating-point numbers are exact rationals; other numbers are natural numbers, and wrap-around of
`unsigned int` and `unsigned long` is not modelled.  The order of the terms in an expression is irrelevant.
-/
import Verif.Model.LpSpin
import Verif.Model.Fmlp
import Verif.Model.Msrp
import Verif.Model.LpPedf
import Verif.Spec.BoxLp

namespace Verif.SR.Lp.Glob
open Verif.Spec
open Verif.SR.Fmlp (totalNumRequests)

/-! ### Variables and programs -/

/-- The kinds of interference, `lp_global.h:21-23`. -/
inductive IntfType
  | regular
  | coBoosting
  | stalling
deriving DecidableEq, Repr

/-- `GlobalVarMapper::lookup_key_t`, `lp_global.h:26-72`: a fraction of a critical section (the blocking types are those
of `Key`; `EXPELLING_BLOCKING` is not used) or the interference by a task. -/
inductive Var
  | frac (k : Key)
  | intf (ty : IntfType) (task : ℕ)
deriving DecidableEq, Repr

/-- `LinearExpression`, `model.h:15-67`. -/
abbrev Exp := List (ℚ × Var)

/-- `LinearProgram`, `model.h:87-140`: variables are between 0 and 1 unless other bounds are declared. -/
abbrev Program := BoxLp Var

/-- `add_inequality`, `model.h:148-154`. -/
def addInequality (lp : Program) (e : Exp) (b : ℚ) : Program :=
  if e.isEmpty then lp else { lp with inequalities := lp.inequalities ++ [(e, b)] }

/-- `foreach_request_instance(*request, ti, v) exp->add_term(c, vars.direct(t, q, v))` etc. -/
def terms (c : ℚ) (ti : TaskInfo) (ty : BlockingType) (t : ℕ × TaskInfo) (r : Request) : Exp :=
  (List.range (instances ti t.2 r)).map (fun v => (c, .frac ⟨ty, t.1, v, r.resId⟩))

/-- `foreach_lower_priority_task`, `iter-helper.h:46-49`. -/
def lowerTasks (info : Info) (ti : TaskInfo) : List (ℕ × TaskInfo) :=
  (tasks info).filter (fun t => t.2.priority > ti.priority)

/-- `foreach_higher_priority_task`, `iter-helper.h:41-44`. -/
def higherTasks (info : Info) (ti : TaskInfo) : List (ℕ × TaskInfo) :=
  (tasks info).filter (fun t => t.2.priority < ti.priority)

/-- `TaskInfo::workload_bound`, `sharedres_types.h:243-258`. -/
def workloadBound (t : TaskInfo) (interval : ℕ) : ℕ :=
  let slack := if t.deadline > t.response then t.deadline - t.response else 0
  let n := (interval + t.deadline - t.cost - slack) / t.period
  n * t.cost + min t.cost (interval + t.deadline - t.cost - slack - n * t.period)

/-! ### Generic part: `lp_global.cpp` -/

/-- `set_objective`, `lp_global.cpp:208-250`. -/
def objective (info : Info) (i : ℕ) (ti : TaskInfo) (m : ℕ) : Exp :=
  (others info i).flatMap (fun t =>
    (if t.1 < i then [(1 / (m : ℚ), Var.intf .regular t.1)] else []) ++
    (if t.1 > i then [(1 / (m : ℚ), Var.intf .coBoosting t.1), (1 / (m : ℚ), Var.intf .stalling t.1)] else []) ++
    t.2.requests.flatMap (fun r =>
      terms r.length ti .direct t r ++
      if t.1 > i then terms (r.length / m) ti .indirect t r ++ terms (r.length / m) ti .preempt t r else []))

/-- Constraint 1, `add_workload_constraints`, `lp_global.cpp:254-291`. -/
def workloadConstraints (info : Info) (i : ℕ) (ti : TaskInfo) (lp : Program) : Program :=
  (others info i).foldl (fun lp t => addInequality lp
    ((if t.1 < i then [((1 : ℚ), Var.intf .regular t.1)]
      else [(1, Var.intf .coBoosting t.1), (1, Var.intf .stalling t.1)]) ++
    t.2.requests.flatMap (fun r =>
      terms r.length ti .direct t r ++
      if t.1 > i then terms r.length ti .indirect t r ++ terms r.length ti .preempt t r else []))
    (workloadBound t.2 ti.response)) lp

/-- The terms of one task in constraint 2, with a common factor. -/
def slackTerms (i : ℕ) (ti : TaskInfo) (c : ℚ) (t : ℕ × TaskInfo) : Exp :=
  if t.1 < i then [(c, Var.intf .regular t.1)]
  else [(c, Var.intf .coBoosting t.1), (c, Var.intf .stalling t.1)] ++
    t.2.requests.flatMap (fun r => terms (c * r.length) ti .indirect t r ++ terms (c * r.length) ti .preempt t r)

/-- Constraint 2, `add_slack_constraints`, `lp_global.cpp:296-366`. -/
def slackConstraints (info : Info) (i : ℕ) (ti : TaskInfo) (m : ℕ) (lp : Program) : Program :=
  (others info i).foldl (fun lp t => addInequality lp
    (slackTerms i ti (1 - 1 / m) t ++
      ((others info i).filter (fun y => t.1 ≠ y.1)).flatMap (slackTerms i ti (-(1 / m)))) 0) lp

/-- Constraint 3, `add_generic_mutex_pi_blocking_constraints`, `lp_global.cpp:369-396`. -/
def mutexConstraints (info : Info) (i : ℕ) (ti : TaskInfo) (lp : Program) : Program :=
  (others info i).foldl (fun lp t => t.2.requests.foldl (fun lp r =>
    (List.range (instances ti t.2 r)).foldl (fun lp v => addInequality lp
      ([((1 : ℚ), Var.frac ⟨.direct, t.1, v, r.resId⟩)] ++
        if t.1 > i then [(1, .frac ⟨.indirect, t.1, v, r.resId⟩), (1, .frac ⟨.preempt, t.1, v, r.resId⟩)] else [])
      1) lp) lp) lp

/-- Constraint 4, `add_stalling_interference_for_independent_tasks`, `lp_global.cpp:400-417`. -/
def independentConstraint (info : Info) (ti : TaskInfo) (lp : Program) : Program :=
  if totalNumRequests ti = 0 then
    addInequality lp ((lowerTasks info ti).map (fun t => ((1 : ℚ), Var.intf .stalling t.1))) 0
  else lp

/-- Constraint 5, `add_generic_non_access_direct_constraints`, `lp_global.cpp:421-463`. -/
def nonAccessConstraints (info : Info) (i : ℕ) (ti : TaskInfo) (lp : Program) : Program :=
  (allResources info).foldl (fun lp q =>
    if ti.requests.any (fun r => r.resId = q) then lp
    else addInequality lp ((others info i).flatMap (fun t =>
      (t.2.requests.filter (fun r => r.resId = q)).flatMap (terms 1 ti .direct t))) 0) lp

/-- The assertions about the tasks, `lp_global.cpp:92-96`. -/
def indexIsPriority (info : Info) : Bool := (tasks info).all (fun t => t.2.priority = t.1)

/-- The constructor, `lp_global.cpp:78-113`, with `declare_interference_variables`, `117-132`. -/
def generic (info : Info) (i : ℕ) (ti : TaskInfo) (m : ℕ) : Program :=
  let lp : Program :=
    { objective := objective info i ti m
      unbounded := (others info i).flatMap (fun t =>
        [.intf .regular t.1, .intf .coBoosting t.1, .intf .stalling t.1]) }
  let lp := workloadConstraints info i ti lp
  let lp := slackConstraints info i ti m lp
  let lp := mutexConstraints info i ti lp
  let lp := independentConstraint info ti lp
  nonAccessConstraints info i ti lp

/-- A solver, `linprog_solve`, `solver.h:36-49`: `none` is `NULL`. -/
abbrev Solver := Program → Option (Var → ℚ)

/-- `ULONG_MAX`. -/
def ulongMax : ℕ := 2 ^ 64 - 1

/-- `solve`, `lp_global.cpp:164-201`: `none` is the failing assertion, and `EPSILON` is `10⁻⁶`. -/
def solved (solve : Solver) (ti : TaskInfo) (lp : Program) : Option ℕ :=
  match solve lp with
  | none => some ulongMax
  | some x =>
    let result := termSum x lp.objective
    if ti.response < ti.cost then none
    else
      let assumed := ti.response - ti.cost
      if result < assumed ∧ (assumed : ℚ) - result < 1 / 1000000 then some assumed
      else some ⌊result⌋.toNat

/-! ### No progress mechanism: `lp_global_no.cpp` -/

/-- Constraint 14, `add_no_progress_constraints`, `lp_global_no.cpp:85-106`. -/
def noProgressConstraint (info : Info) (ti : TaskInfo) (lp : Program) : Program :=
  addInequality lp ((lowerTasks info ti).flatMap (fun t => (1, Var.intf .coBoosting t.1) ::
    t.2.requests.flatMap (fun r => terms 1 ti .indirect t r ++ terms 1 ti .preempt t r))) 0

/-- The loop of constraint 15, `lp_global_no.cpp:117-134`: the largest `h > i` such that task `h` has a request entry for
a resource that the task requests, or `i`. -/
def lowestSharing (info : Info) (i : ℕ) (ti : TaskInfo) : ℕ → ℕ
  | 0 => i
  | h + 1 =>
    if h > i then
      if (info.getD h ⟨0, 0, 0, 0, 0, 0, []⟩).requests.any (fun r => numRequests ti r.resId > 0) then h
      else lowestSharing info i ti h
    else h

/-- Constraint 15, `add_no_progress_no_stalling_interference`, `lp_global_no.cpp:111-149`. -/
def noStallingConstraint (info : Info) (i : ℕ) (ti : TaskInfo) (lp : Program) : Program :=
  addInequality lp (((lowerTasks info ti).filter
    (fun t => t.1 ≥ lowestSharing info i ti info.length)).map (fun t => ((1 : ℚ), Var.intf .stalling t.1))) 0

/-! ### FIFO queues: `lp_global_fifo.cpp` -/

/-- Constraint 8, `add_fifo_direct_constraints`, `lp_global_fifo.cpp:32-54`. -/
def fifoConstraints (info : Info) (i : ℕ) (ti : TaskInfo) (lp : Program) : Program :=
  (allResources info).foldl (fun lp q => (others info i).foldl (fun lp t =>
    (t.2.requests.filter (fun r => r.resId = q)).foldl (fun lp r =>
      addInequality lp (terms 1 ti .direct t r) (numRequests ti q)) lp) lp) lp

/-! ### Priority inheritance: `lp_global_pi.cpp`, `lp_sa_gfmlp.cpp` -/

/-- Constraint 6, `add_pi_no_co_boosting_interference`, `lp_global_pi.cpp:117-129`. -/
def noCoBoostingConstraint (info : Info) (ti : TaskInfo) (lp : Program) : Program :=
  addInequality lp ((lowerTasks info ti).map (fun t => ((1 : ℚ), Var.intf .coBoosting t.1))) 0

/-- Constraint 7, `add_pi_m_highest_constraint`, `lp_global_pi.cpp:133-166`. -/
def mHighestConstraint (info : Info) (i : ℕ) (ti : TaskInfo) (m : ℕ) (lp : Program) : Program :=
  if i < m then
    addInequality lp ((others info i).flatMap (fun t =>
      (if t.1 < i then [((1 : ℚ), Var.intf .regular t.1)] else []) ++
      (if t.1 > i then [((1 : ℚ), Var.intf .coBoosting t.1), (1, Var.intf .stalling t.1)] ++
        t.2.requests.flatMap (fun r => terms 1 ti .indirect t r ++ terms 1 ti .preempt t r) else []))) 0
  else lp

/-- Constraint 11, `add_pip_fmlp_no_stalling_interference`, `lp_global_pi.cpp:175-187`. -/
def inheritNoStallingConstraint (info : Info) (ti : TaskInfo) (lp : Program) : Program :=
  addInequality lp ((lowerTasks info ti).map (fun t => ((1 : ℚ), Var.intf .stalling t.1))) 0

/-- `request_count`, `lp_global_pi.cpp:198-204` and `lp_sa_gfmlp.cpp:56-62`; `get_max_num_requests(ti.get_response())`
is the number of instances. -/
def higherRequests (info : Info) (ti : TaskInfo) (q : ℕ) : ℕ :=
  ((higherTasks info ti).map (fun t =>
    ((t.2.requests.filter (fun r => r.resId = q)).map (fun r => instances ti t.2 r)).sum)).sum

/-- Constraint 12, `add_pip_ppcp_indirect_preemption_constraints`, `lp_global_pi.cpp:194-225`. -/
def pipIndirectConstraints (info : Info) (ti : TaskInfo) (lp : Program) : Program :=
  (allResources info).foldl (fun lp q => addInequality lp ((lowerTasks info ti).flatMap (fun t =>
    (t.2.requests.filter (fun r => r.resId = q)).flatMap (fun r => terms 1 ti .indirect t r ++ terms 1 ti .preempt t r)))
    (higherRequests info ti q)) lp

/-- Constraint 13, `add_fmlp_indirect_preemption_constraints`, `lp_sa_gfmlp.cpp:52-82`. -/
def fmlpIndirectConstraints (info : Info) (ti : TaskInfo) (lp : Program) : Program :=
  (allResources info).foldl (fun lp q => (lowerTasks info ti).foldl (fun lp t =>
    (t.2.requests.filter (fun r => r.resId = q)).foldl (fun lp r =>
      addInequality lp (terms 1 ti .indirect t r ++ terms 1 ti .preempt t r) (higherRequests info ti q)) lp) lp) lp

/-! ### Priority queues: `lp_global_prio.cpp` -/

/-- The loop of `resource_hold_time`, `lp_global_no.cpp:56-76` and `lp_global_pi.cpp:68-113`, from `interval` on, where
`interf` is the interference in an interval; `none` is more than `fuel` iterations. -/
def holdLoop (m len deadline : ℕ) (interf : ℕ → ℕ) : ℕ → ℕ → Option ℕ
  | 0, _ => none
  | fuel + 1, interval =>
    if interval > deadline then some Msrp.uintMax
    else
      let maxHold := len + Native.divideWithCeil (interf interval) m
      if interval ≠ maxHold then holdLoop m len deadline interf fuel maxHold else some maxHold

/-- `interf` without a progress mechanism, `lp_global_no.cpp:66-69`. -/
def interfNo (info : Info) (i : ℕ) (tx : ℕ × TaskInfo) (interval : ℕ) : ℕ :=
  (((tasks info).filter (fun t => t.2.priority < tx.2.priority ∧ t.1 ≠ i)).map
    (fun t => workloadBound t.2 interval)).sum

/-- `interf` with priority inheritance, `lp_global_pi.cpp:57-66, 78-106`. -/
def interfPi (info : Info) (i : ℕ) (tx : ℕ × TaskInfo) (interval : ℕ) : ℕ :=
  let lower := if tx.1 > i then tx.1 else i
  let higher := if tx.1 > i then i else tx.1
  ((tasks info).map (fun t =>
    (if t.1 < higher then workloadBound t.2 interval else 0) +
    (if t.1 > higher ∧ t.1 ≠ lower then
      (t.2.requests.map (fun r => if Msrp.ceilingOf info r.resId < higher then
        t.2.maxNumJobs interval * numRequests t.2 r.resId * r.length else 0)).sum else 0))).sum

/-- `resource_hold_time`, `lp_global_no.cpp:38-77` and `lp_global_pi.cpp:38-114`. -/
def holdTime (m fuel : ℕ) (interf : ℕ × TaskInfo → ℕ → ℕ) (tx : ℕ × TaskInfo) (q : ℕ) : Option ℕ :=
  let len := Pedf.requestLength tx.2 q
  if len = 0 then some 0
  else if tx.1 < m then some len
  else holdLoop m len tx.2.deadline (interf tx) fuel len

/-- `wait_lower_prio`, `lp_global_prio.cpp:44-58`. -/
def waitLower (info : Info) (ti : TaskInfo) (hold : ℕ × TaskInfo → ℕ → Option ℕ) (q : ℕ) : Option ℕ :=
  (lowerTasks info ti).foldlM (fun maxh t => (hold t q).map (fun h => max maxh h)) 0

/-- The loops of `wait_higher_prio`, `lp_global_prio.cpp:66-86`. -/
def waitHigherLoop (hold : ℕ × TaskInfo → ℕ → Option ℕ) (q interval : ℕ) : List (ℕ × TaskInfo) → ℕ → Option ℕ
  | [], sum => some sum
  | th :: l, sum => (hold th q).bind (fun h =>
    if h = Msrp.uintMax then some Msrp.uintMax
    else waitHigherLoop hold q interval l (sum + th.2.maxNumJobs interval * numRequests th.2 q * h))

/-- `wait_higher_prio`, `lp_global_prio.cpp:63-86`. -/
def waitHigher (info : Info) (ti : TaskInfo) (hold : ℕ × TaskInfo → ℕ → Option ℕ) (q interval : ℕ) : Option ℕ :=
  waitHigherLoop hold q interval ((higherTasks info ti).flatMap (fun t =>
    (t.2.requests.filter (fun r => r.resId = q)).map (fun _ => t))) 0

/-- The loop of `resource_wait_time`, `lp_global_prio.cpp:102-121`, from `interval` on. -/
def waitLoop (deadline lower : ℕ) (higher : ℕ → Option ℕ) : ℕ → ℕ → Option ℕ
  | 0, _ => none
  | fuel + 1, interval =>
    if interval > deadline then some Msrp.uintMax
    else (higher interval).bind (fun whp =>
      if whp = Msrp.uintMax then some Msrp.uintMax
      else
        let maxWait := lower + whp + 1
        if interval ≠ maxWait then waitLoop deadline lower higher fuel maxWait else some maxWait)

/-- `resource_wait_time`, `lp_global_prio.cpp:90-122`. -/
def waitTime (info : Info) (ti : TaskInfo) (fuel : ℕ) (hold : ℕ × TaskInfo → ℕ → Option ℕ) (q : ℕ) : Option ℕ :=
  (waitLower info ti hold q).bind (fun lower =>
    if lower = Msrp.uintMax then some Msrp.uintMax
    else waitLoop ti.deadline lower (waitHigher info ti hold q) fuel (lower + 1))

/-- `higher_direc_num_req`, `lp_global_prio.cpp:127-144`. -/
def higherDirect (info : Info) (ti : TaskInfo) (fuel : ℕ) (hold : ℕ × TaskInfo → ℕ → Option ℕ) (tx : ℕ × TaskInfo)
    (q : ℕ) : Option ℕ :=
  (waitTime info ti fuel hold q).map (fun wait =>
    if wait = Msrp.uintMax then Msrp.uintMax
    else tx.2.maxNumJobs wait * numRequests tx.2 q * numRequests ti q)

/-- Constraint 9, `add_prio_lower_direct_constraints`, `lp_global_prio.cpp:148-170`. -/
def prioLowerConstraints (info : Info) (ti : TaskInfo) (lp : Program) : Program :=
  (allResources info).foldl (fun lp q => addInequality lp ((lowerTasks info ti).flatMap (fun t =>
    (t.2.requests.filter (fun r => r.resId = q)).flatMap (terms 1 ti .direct t))) (numRequests ti q)) lp

/-- Constraint 10, `add_prio_higher_direct_constraints`, `lp_global_prio.cpp:174-202`. -/
def prioHigherConstraints (info : Info) (ti : TaskInfo) (fuel : ℕ) (hold : ℕ × TaskInfo → ℕ → Option ℕ)
    (lp : Program) : Option Program :=
  (higherTasks info ti).foldlM (fun lp t => (allResources info).foldlM (fun lp q =>
    (t.2.requests.filter (fun r => r.resId = q)).foldlM (fun lp r =>
      (higherDirect info ti fuel hold t q).map (fun maxNum =>
        if maxNum ≠ Msrp.uintMax then addInequality lp (terms 1 ti .direct t r) maxNum else lp)) lp) lp) lp

/-! ### Results -/

/-- The loop over all tasks, e.g. `lp_no_progress_fifo.cpp:40-51`: the list of results, with `none` for a failing
assertion. -/
def bounds (solve : Solver) (info : Info) (program : ℕ → TaskInfo → Option Program) : Option (List ℕ) :=
  (tasks info).mapM (fun t =>
    if indexIsPriority info then (program t.1 t.2).bind (solved solve t.2) else none)

/-- `lp_no_progress_fifo_bounds`, `lp_no_progress_fifo.cpp:23-52`. -/
def noProgressFifoBounds (solve : Solver) (info : Info) (m : ℕ) : Option (List ℕ) :=
  bounds solve info (fun i ti =>
    let lp := generic info i ti m
    let lp := noProgressConstraint info ti lp
    let lp := noStallingConstraint info i ti lp
    some (fifoConstraints info i ti lp))

/-- `lp_sa_gfmlp_bounds`, `lp_sa_gfmlp.cpp:24-46, 84-97`. -/
def saGfmlpBounds (solve : Solver) (info : Info) (m : ℕ) : Option (List ℕ) :=
  bounds solve info (fun i ti =>
    let lp := generic info i ti m
    let lp := noCoBoostingConstraint info ti lp
    let lp := mHighestConstraint info i ti m lp
    let lp := fifoConstraints info i ti lp
    let lp := inheritNoStallingConstraint info ti lp
    some (fmlpIndirectConstraints info ti lp))

/-- `lp_no_progress_priority_bounds`, `lp_no_progress_priority.cpp:24-52`; constraint 10 is added last, by
`add_constraints_post_ctor`, `lp_global_prio.cpp:34-39`, called by `solve`, `lp_global.cpp:174`. -/
def noProgressPriorityBounds (solve : Solver) (fuel : ℕ) (info : Info) (m : ℕ) : Option (List ℕ) :=
  bounds solve info (fun i ti =>
    let lp := generic info i ti m
    let lp := noProgressConstraint info ti lp
    let lp := noStallingConstraint info i ti lp
    let lp := prioLowerConstraints info ti lp
    prioHigherConstraints info ti fuel (holdTime m fuel (interfNo info i)) lp)

/-- `lp_global_pip_bounds`, `lp_global_pip.cpp:24-58`; constraint 10 is added last. -/
def pipBounds (solve : Solver) (fuel : ℕ) (info : Info) (m : ℕ) : Option (List ℕ) :=
  bounds solve info (fun i ti =>
    let lp := generic info i ti m
    let lp := noCoBoostingConstraint info ti lp
    let lp := mHighestConstraint info i ti m lp
    let lp := prioLowerConstraints info ti lp
    let lp := inheritNoStallingConstraint info ti lp
    let lp := pipIndirectConstraints info ti lp
    prioHigherConstraints info ti fuel (holdTime m fuel (interfPi info i)) lp)

end Verif.SR.Lp.Glob
