/-
Model of the parts of `native/src/blocking/linprog/lp_spinlock_msrp.cpp` and `lp_spinlocks.cpp` for preemptive FIFO spin
locks, and of the numbering of variables by `lp_common.h`.
-/
import Verif.Model.LpSpin
import Verif.Spec.SolverProblem

namespace Verif.SR.Lp
open Verif.Spec

/-- `lookup_max_preemptions`, `lp_common.h:89-92`. -/
def preemptionsOf (res : ℕ) : Key := ⟨.other, 0, 0, res⟩

/-- `max_preemptions`, `lp_spinlocks.cpp:79-93`.  The parameter `interval` has no effect on the result. -/
def maxPreemptions (info : Info) (ti : TaskInfo) : ℕ :=
  ((info.filter (fun t => t.cluster = ti.cluster ∧ t.priority < ti.priority)).map (fun t =>
    localJobs t ti.response)).sum

/-- `add_common_preemptive_no_remote_arrival_blocking_constraints`, `lp_spinlocks.cpp:474-504`. -/
def noRemoteArrivalConstraints (info : Info) (ti : TaskInfo) (lp : Program) : Program :=
  (allResources info).foldl (fun lp q => (tasks info).foldl (fun lp t =>
    addInequality lp (if t.2.cluster ≠ ti.cluster then varsFor ti arrival q [t] else []) 0) lp) lp

/-- `add_preemptive_fifo_max_preempt_constraints`, `lp_spinlock_msrp.cpp:10-40`. -/
def preemptionConstraints (info : Info) (ti : TaskInfo) (lp : Program) : Program :=
  addInequality ((allResources info).foldl (fun lp q =>
    let lp := declareInteger lp (preemptionsOf q)
    if countLocalHpReqs info ti q = 0 then addInequality lp [(1, preemptionsOf q)] 0 else lp) lp)
    ((allResources info).map (fun q => (1, preemptionsOf q))) (maxPreemptions info ti)

/-- `add_msrp_max_direct_blocking_constraints` with `preemptive == true`, `lp_spinlock_msrp.cpp:42-87`. -/
def preemptDirectConstraints (info : Info) (ti : TaskInfo) (lp : Program) : Program :=
  (allResources info).foldl (fun lp q => (otherClusters info ti).foldl (fun lp c =>
    addInequality lp (subVar (varsFor ti .direct q c) (preemptionsOf q)) (countLocalHpReqs info ti q)) lp) lp

/-- `add_preemptive_fifo_constraints`, `lp_spinlock_msrp.cpp:134-148`. -/
def preemptFifoConstraints (info : Info) (i : ℕ) (ti : TaskInfo) (lp : Program) : Program :=
  preemptDirectConstraints info ti (preemptionConstraints info ti (noRemoteArrivalConstraints info ti
    (commonConstraints info i ti lp)))

/-- The program of `apply_msrp_bounds_for_task` with `preemptive == true`, `lp_spinlock_msrp.cpp:165-186`. -/
def preemptFifoProgram (info : Info) (i : ℕ) (ti : TaskInfo) : Program :=
  setObjective info i ti (preemptFifoConstraints info i ti {})

/-- `lp_pfp_preemptive_fifo_spinlock_bounds`, `lp_spinlock_msrp.cpp:229-238`; `none` is a failing assertion. -/
def preemptFifoBounds (solve : Solver) (info : Info) : Option (List ℕ) :=
  (tasks info).mapM (fun t => solved solve (preemptFifoProgram info t.1 t.2))

/-- The program with numbers for variables, as `VarMapper::lookup`, `lp_common.h:66-71`, provides them. -/
def numbered (f : Key → ℕ) (lp : Program) : RangedMilp :=
  let exp := fun e : Exp => e.map (fun t => (t.1, f t.2))
  { objective := exp lp.objective
    equalities := lp.equalities.map (fun c => (exp c.1, c.2))
    inequalities := lp.inequalities.map (fun c => (exp c.1, c.2))
    integers := lp.integers.map f
    binaries := lp.binaries.map f }

end Verif.SR.Lp
