/-
Model of `native/src/blocking/linprog/lp_ppcp.cpp`, called from `apply_ppcp_bounds` in
`schedcat/locking/bounds.py:508-519`.

Floating-point numbers are exact rationals; other numbers are natural numbers.  Differences of type `unsigned long` wrap
around (`Native.ulSub`); other overflows and the conversions to `unsigned int` are not modelled.
-/
import Verif.Model.LpGlobal
import Verif.Model.NativeGedf

namespace Verif.SR.Lp.Glob
open Verif.Spec
open Verif.SR.Fmlp (totalNumRequests)

/-- `theta_iq_per_task` for resource `q`, sorted with the largest value first, `lp_ppcp.cpp:98-121` and `175-195`: for
each lower-priority task the length of its longest request for another resource, if the ceiling of `q` is higher than
the priority of the task. -/
def thetas (info : Info) (i : ℕ) (ti : TaskInfo) (q : ℕ) : List ℕ :=
  ((lowerTasks info ti).map (fun t => t.2.requests.foldl (fun acc r =>
    if Msrp.ceilingOf info q < i ∧ q ≠ r.resId then max acc r.length else acc) 0)).insertionSort (· ≥ ·)

/-- `total` of constraint 27, `lp_ppcp.cpp:81-134`. -/
def stallingTotal (info : Info) (i : ℕ) (ti : TaskInfo) (m : ℕ) : ℕ :=
  ((allResources info).map (fun q => ((thetas info i ti q).take (m - 1)).sum * numRequests ti q)).sum

/-- Constraint 27, `add_ppcp_stalling_interference`, `lp_ppcp.cpp:75-147`. -/
def stallingConstraints (info : Info) (i : ℕ) (ti : TaskInfo) (m : ℕ) (lp : Program) : Program :=
  if i < m then lp
  else (lowerTasks info ti).foldl (fun lp t =>
    addInequality lp [(1, .intf .stalling t.1)] (min (stallingTotal info i ti m) ti.deadline : ℕ)) lp

/-- `total` of constraint 28, `lp_ppcp.cpp:156-208`: the largest value is multiplied by `m`, the next one by `m - 1`, and
so on. -/
def totalStallingTotal (info : Info) (i : ℕ) (ti : TaskInfo) (m : ℕ) : ℕ :=
  ((allResources info).map (fun q =>
    ((((thetas info i ti q).take m).zipIdx).map (fun p => p.1 * (m - p.2))).sum * numRequests ti q)).sum

/-- Constraint 28, `add_ppcp_total_stalling_interference`, `lp_ppcp.cpp:149-221`. -/
def totalStallingConstraint (info : Info) (i : ℕ) (ti : TaskInfo) (m : ℕ) (lp : Program) : Program :=
  if i < m then lp
  else addInequality lp ((lowerTasks info ti).map (fun t => ((1 : ℚ), Var.intf .stalling t.1)))
    (min (totalStallingTotal info i ti m) ti.deadline : ℕ)

/-- Constraint 29, `add_ppcp_no_stalling_interference`, `lp_ppcp.cpp:223-254`. -/
def idleStallingConstraints (info : Info) (ti : TaskInfo) (lp : Program) : Program :=
  let lowest := (lowerTasks info ti).foldl (fun acc t =>
    if totalNumRequests t.2 > 0 ∧ t.1 > acc then t.1 else acc) 0
  ((lowerTasks info ti).filter (fun t => t.1 > lowest)).foldl (fun lp t =>
    addInequality lp [(1, .intf .stalling t.1)] 0) lp

/-- `compute_e_i_l_prime`, `lp_ppcp.cpp:256-289`, and `total_pc_req_length`, `383-392`. -/
def ceilingLength (info : Info) (i : ℕ) (tl : TaskInfo) : ℕ :=
  ((tl.requests.filter (fun r => Msrp.ceilingOf info r.resId < i)).map (fun r => r.length * r.num)).sum

/-- `compute_beta`, `lp_ppcp.cpp:292-316`. -/
def beta (info : Info) (i : ℕ) (ti tl : TaskInfo) : ℕ :=
  let e := ceilingLength info i tl
  if ti.response > (Native.ulSub tl.period tl.response + 2 * e) % 2 ^ 64 then
    Native.ulSub (Native.ulSub (ti.response + tl.response) tl.period) (2 * e)
  else if ti.response > e ∧ ti.response ≤ (Native.ulSub tl.period tl.response + e) % 2 ^ 64 then ti.response - e
  else 0

/-- `gamma`, `lp_ppcp.cpp:354-376`; the order of tasks with the same value is unspecified, here they stay in order. -/
def gamma (info : Info) (i : ℕ) (ti : TaskInfo) (m : ℕ) : List ℕ :=
  ((((lowerTasks info ti).map (fun t => (t.1, beta info i ti t.2))).insertionSort (fun a b => a.2 ≤ b.2)).take
    (max m 1)).map Prod.fst

/-- `R_i_prime`, `lp_ppcp.cpp:378-400`. -/
def shortResponse (info : Info) (i : ℕ) (ti : TaskInfo) : ℕ :=
  Native.ulSub ti.response
    ((((lowerTasks info ti).map (fun t => ceilingLength info i t.2)).min?).getD 0)

/-- Constraint 31, `add_ppcp_beta_constraints`, `lp_ppcp.cpp:349-427`, with `N_i_l_prime` and `N_i_l_q_prime`,
`319-336`. -/
def betaConstraints (info : Info) (i : ℕ) (ti : TaskInfo) (m : ℕ) (lp : Program) : Program :=
  ((lowerTasks info ti).filter (fun t => !(gamma info i ti m).contains t.1)).foldl (fun lp t =>
    (t.2.requests.filter (fun r => Msrp.ceilingOf info r.resId < i)).foldl (fun lp r =>
      addInequality lp (terms 1 ti .indirect t r ++ terms 1 ti .preempt t r)
        (Native.divideWithCeil ((shortResponse info i ti + t.2.response) % 2 ^ 64) t.2.period *
          numRequests t.2 r.resId : ℕ)) lp) lp

/-- The program of a task, `lp_ppcp.cpp:47-72`; constraint 10 is added last. -/
def ppcpProgram (reasonable : Bool) (fuel : ℕ) (info : Info) (m : ℕ) (i : ℕ) (ti : TaskInfo) : Option Program :=
  let lp := generic info i ti m
  let lp := noCoBoostingConstraint info ti lp
  let lp := mHighestConstraint info i ti m lp
  let lp := prioLowerConstraints info ti lp
  let lp := stallingConstraints info i ti m lp
  let lp := totalStallingConstraint info i ti m lp
  let lp := idleStallingConstraints info ti lp
  let lp := pipIndirectConstraints info ti lp
  let lp := if reasonable then betaConstraints info i ti m lp else lp
  prioHigherConstraints info ti fuel (holdTime m fuel (interfPi info i)) lp

/-- `lp_ppcp_bounds`, `lp_ppcp.cpp:429-443`. -/
def lpPpcpBounds (solve : Solver) (reasonable : Bool) (fuel : ℕ) (info : Info) (m : ℕ) : Option (List ℕ) :=
  bounds solve info (ppcpProgram reasonable fuel info m)

end Verif.SR.Lp.Glob
