/-
Model of the LP-based response-time analyses of global fixed-priority scheduling with restricted segment boosting:
`native/src/blocking/linprog/{lp_global_rsb,lp_global_fmlpp,lp_prsb}.cpp`.

See `Verif.Model.LpGlobal` for simplifications.
-/
import Verif.Model.LpGlobal

namespace Verif.SR.Lp.Glob
open Verif.Spec
open Verif.SR.Fmlp (totalNumRequests)

/-! ### Restricted segment boosting: `lp_global_rsb.cpp` -/

/-- The longest critical section of a task for another resource than `q`, `lp_global_rsb.cpp:63-69`. -/
def longestOther (t : TaskInfo) (q : ℕ) : ℕ :=
  t.requests.foldl (fun s r => if r.resId ≠ q then (if r.length > s then r.length else s) else s) 0

/-- `resource_hold_time`, `lp_global_rsb.cpp:47-75`. -/
def rsbHold (info : Info) (i : ℕ) (tx : ℕ × TaskInfo) (q : ℕ) : ℕ :=
  let rht := Pedf.requestLength tx.2 q
  if rht = 0 then 0
  else (others info i).foldl (fun s t => if t.1 ≠ tx.1 then s + longestOther t.2 q else s) rht

/-- `hp_csl`, `lp_global_rsb.cpp:87-101` and `146-161`. -/
def higherSections (info : Info) (ti : TaskInfo) : ℕ :=
  ((higherTasks info ti).map (fun t => (t.2.requests.map (fun r =>
    t.2.maxNumJobs ti.response * numRequests t.2 r.resId * r.length)).sum)).sum

/-- Indirect and preemption blocking by a task on the left-hand side, with a negative sign. -/
def minusBlocking (ti : TaskInfo) (t : ℕ × TaskInfo) : Exp :=
  t.2.requests.flatMap (fun r => terms (-(r.length : ℚ)) ti .indirect t r ++ terms (-(r.length : ℚ)) ti .preempt t r)

/-- Direct blocking by a task on the left-hand side. -/
def plusDirect (ti : TaskInfo) (t : ℕ × TaskInfo) : Exp :=
  t.2.requests.flatMap (fun r => terms r.length ti .direct t r)

/-- Constraint 16, `add_rsb_co_boosting_stalling_interference_to_csl`, `lp_global_rsb.cpp:85-140`. -/
def rsbPerTaskConstraints (info : Info) (i : ℕ) (ti : TaskInfo) (lp : Program) : Program :=
  (lowerTasks info ti).foldl (fun lp x => addInequality lp
    ([((1 : ℚ), Var.intf .coBoosting x.1), (1, Var.intf .stalling x.1)] ++
      (others info i).flatMap (fun a =>
        (if a.1 < i then plusDirect ti a else []) ++
        (if a.1 > i ∧ a.1 ≠ x.1 then minusBlocking ti a else [])))
    (higherSections info ti)) lp

/-- `m_inv`, `lp_global_rsb.cpp:147` and `233`: `none` is an infinite coefficient.  (`m = 0` is not modelled.) -/
def inversePred (m : ℕ) : Option ℚ := if m = 1 then none else some (1 / ((m : ℚ) - 1))

/-- Constraint 17, `add_rsb_total_co_boosting_stalling_interference`, `lp_global_rsb.cpp:144-193`; `none` if an infinite
coefficient is used. -/
def rsbTotalConstraint (info : Info) (i : ℕ) (ti : TaskInfo) (m : ℕ) (lp : Program) : Option Program :=
  if (others info i).any (fun x => x.1 > i) ∧ inversePred m = none then none
  else
    let c := (inversePred m).getD 0
    some (addInequality lp ((others info i).flatMap (fun x =>
      (if x.1 > i then [(c, Var.intf .coBoosting x.1), (c, Var.intf .stalling x.1)] else []) ++
      (if x.1 < i then plusDirect ti x else []) ++
      (if x.1 > i then minusBlocking ti x else []))) (higherSections info ti))

/-- Constraint 18, `add_rsb_co_boosting_interference`, `lp_global_rsb.cpp:197-227`. -/
def rsbCoBoostingConstraints (info : Info) (ti : TaskInfo) (lp : Program) : Program :=
  (lowerTasks info ti).foldl (fun lp x => addInequality lp
    ((1, Var.intf .coBoosting x.1) :: (lowerTasks info x.2).flatMap (minusBlocking ti)) 0) lp

/-- Constraint 19, `add_rsb_total_co_boosting_interference`, `lp_global_rsb.cpp:231-254`; `none` if an infinite
coefficient is used. -/
def rsbTotalCoBoostingConstraint (info : Info) (ti : TaskInfo) (m : ℕ) (lp : Program) : Option Program :=
  if lowerTasks info ti ≠ [] ∧ inversePred m = none then none
  else
    some (addInequality lp ((lowerTasks info ti).flatMap (fun x =>
      ((inversePred m).getD 0, Var.intf .coBoosting x.1) :: minusBlocking ti x)) 0)

/-- Constraint 20, `add_rsb_no_stalling_interference`, `lp_global_rsb.cpp:259-297`; this is constraint 15 of
`lp_global_no.cpp`. -/
def rsbNoStallingConstraint (info : Info) (i : ℕ) (ti : TaskInfo) (lp : Program) : Program :=
  noStallingConstraint info i ti lp

/-- Constraint 21, `add_rsb_m_highest_constraint`, `lp_global_rsb.cpp:301-324`. -/
def rsbHighestConstraint (info : Info) (i : ℕ) (ti : TaskInfo) (m : ℕ) (lp : Program) : Program :=
  if i < m - 1 then
    addInequality lp ((lowerTasks info ti).flatMap (fun x =>
      if x.1 < m then x.2.requests.flatMap (terms 1 ti .preempt x) else [])) 0
  else lp

/-- The requests by other tasks than `i` and `x` for a resource, `lp_global_rsb.cpp:344-351`. -/
def thirdRequests (info : Info) (i : ℕ) (ti : TaskInfo) (x q : ℕ) : ℕ :=
  (((others info i).filter (fun y => y.1 ≠ x)).map (fun y => y.2.maxNumJobs ti.response * numRequests y.2 q)).sum

/-- Constraint 22, `add_rsb_indirect_constraint`, `lp_global_rsb.cpp:329-366`. -/
def rsbIndirectConstraints (info : Info) (i : ℕ) (ti : TaskInfo) (lp : Program) : Program :=
  (lowerTasks info ti).foldl (fun lp x => addInequality lp (x.2.requests.flatMap (terms 1 ti .indirect x))
    (((ti.requests.filter (fun r => r.num > 0)).map (fun r => thirdRequests info i ti x.1 r.resId)).sum : ℕ)) lp

/-- The constructor, `lp_global_rsb.cpp:23-43`. -/
def rsbConstraints (info : Info) (i : ℕ) (ti : TaskInfo) (m : ℕ) (lp : Program) : Option Program :=
  let lp := rsbPerTaskConstraints info i ti lp
  (rsbTotalConstraint info i ti m lp).bind (fun lp =>
    let lp := rsbCoBoostingConstraints info ti lp
    (rsbTotalCoBoostingConstraint info ti m lp).map (fun lp =>
      let lp := rsbNoStallingConstraint info i ti lp
      let lp := rsbHighestConstraint info i ti m lp
      rsbIndirectConstraints info i ti lp))

/-! ### FIFO queues: `lp_global_fmlpp.cpp` -/

/-- Constraint 23, `add_fmlpp_per_segment_constraints`, `lp_global_fmlpp.cpp:57-81`. -/
def segmentConstraints (info : Info) (i : ℕ) (ti : TaskInfo) (lp : Program) : Program :=
  (others info i).foldl (fun lp x => addInequality lp
    (x.2.requests.flatMap (fun r => terms 1 ti .direct x r ++
      if x.1 > i then terms 1 ti .indirect x r ++ terms 1 ti .preempt x r else []))
    (1 + 2 * totalNumRequests ti : ℕ)) lp

/-- The requests by all other tasks for a resource, `lp_global_fmlpp.cpp:94-99`. -/
def otherRequests (info : Info) (i : ℕ) (ti : TaskInfo) (q : ℕ) : ℕ :=
  ((others info i).map (fun y => y.2.maxNumJobs ti.response * numRequests y.2 q)).sum

/-- Constraint 24, `add_fmlpp_direct_indirect_constraints`, `lp_global_fmlpp.cpp:85-125`. -/
def directIndirectConstraints (info : Info) (i : ℕ) (ti : TaskInfo) (lp : Program) : Program :=
  (others info i).foldl (fun lp x => addInequality lp
    (x.2.requests.flatMap (fun r => terms 1 ti .direct x r ++ if x.1 > i then terms 1 ti .indirect x r else []))
    ((ti.requests.map (fun r => min r.num (otherRequests info i ti r.resId))).sum : ℕ)) lp

/-- Constraint 25, `add_fmlpp_indirect_constraints`, `lp_global_fmlpp.cpp:129-165`. -/
def fmlppIndirectConstraints (info : Info) (i : ℕ) (ti : TaskInfo) (lp : Program) : Program :=
  (lowerTasks info ti).foldl (fun lp x => addInequality lp (x.2.requests.flatMap (terms 1 ti .indirect x))
    ((ti.requests.map (fun r => min r.num (thirdRequests info i ti x.1 r.resId))).sum : ℕ)) lp

/-- The program of `GlobalFMLPPlusAnalysis`, `lp_global_fmlpp.cpp:37-52`. -/
def fmlppProgram (info : Info) (m i : ℕ) (ti : TaskInfo) : Option Program :=
  (rsbConstraints info i ti m (generic info i ti m)).map (fun lp =>
    let lp := fifoConstraints info i ti lp
    let lp := segmentConstraints info i ti lp
    let lp := directIndirectConstraints info i ti lp
    fmlppIndirectConstraints info i ti lp)

/-- `lp_global_fmlpp_bounds`, `lp_global_fmlpp.cpp:167-179`; `none` also stands for an infinite coefficient. -/
def fmlppBounds (solve : Solver) (info : Info) (m : ℕ) : Option (List ℕ) :=
  bounds solve info (fmlppProgram info m)

/-! ### Priority queues: `lp_prsb.cpp` -/

/-- `num_direc_bloc` for one resource, `lp_prsb.cpp:57-67, 81-85`, for a waiting time. -/
def directBlockings (info : Info) (ti : TaskInfo) (q wait : ℕ) : ℕ :=
  (if (lowerTasks info ti).any (fun t => numRequests t.2 q > 0) then 1 else 0) +
    ((higherTasks info ti).map (fun t =>
      ((t.2.requests.filter (fun r => r.resId = q)).map (fun r => t.2.maxNumJobs wait * r.num)).sum)).sum

/-- The loop over the resources of `add_prsb_indirect_constraints`, `lp_prsb.cpp:53-88`; `some none` is the early return,
`none` is a loop that does not end within the fuel. -/
def directBlockingLoop (info : Info) (ti : TaskInfo) (wait : ℕ → Option ℕ) : List ℕ → ℕ → Option (Option ℕ)
  | [], total => some (some total)
  | q :: l, total => (wait q).bind (fun w =>
    if w = Msrp.uintMax then some none
    else directBlockingLoop info ti wait l (total + directBlockings info ti q w * numRequests ti q))

/-- Constraint 26, `add_prsb_indirect_constraints`, `lp_prsb.cpp:47-105`. -/
def prsbIndirectConstraints (info : Info) (ti : TaskInfo) (fuel : ℕ) (hold : ℕ × TaskInfo → ℕ → Option ℕ)
    (lp : Program) : Option Program :=
  (directBlockingLoop info ti (waitTime info ti fuel hold) (allResources info) 0).map (fun total =>
    match total with
    | none => lp
    | some total => (lowerTasks info ti).foldl (fun lp x =>
      addInequality lp (x.2.requests.flatMap (terms 1 ti .indirect x)) (total : ℕ)) lp)

/-- The program of `GlobalPRSBAnalysis`, `lp_prsb.cpp:31-41`; constraint 10 is added last, by
`add_constraints_post_ctor`, `lp_global_prio.cpp:34-39`. -/
def prsbProgram (fuel : ℕ) (info : Info) (m i : ℕ) (ti : TaskInfo) : Option Program :=
  let hold : ℕ × TaskInfo → ℕ → Option ℕ := fun tx q => some (rsbHold info i tx q)
  (rsbConstraints info i ti m (generic info i ti m)).bind (fun lp =>
    let lp := prioLowerConstraints info ti lp
    (prsbIndirectConstraints info ti fuel hold lp).bind (prioHigherConstraints info ti fuel hold))

/-- `lp_prsb_bounds`, `lp_prsb.cpp:108-121`; `none` also stands for an infinite coefficient. -/
def prsbBounds (solve : Solver) (fuel : ℕ) (info : Info) (m : ℕ) : Option (List ℕ) :=
  bounds solve info (prsbProgram fuel info m)

end Verif.SR.Lp.Glob
