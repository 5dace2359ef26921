/-
Model of `native/src/blocking/linprog/lp_dflp.cpp` and of `apply_lp_dflp_bounds` in `schedcat/locking/bounds.py`, as in
`LpDpcp.lean`.  Linear programs are built per task, i.e., without `CONFIG_MERGED_LINPROGS`.
-/
import Verif.Model.LpDpcp

namespace Verif.SR.Lp
open Verif.Spec
open Verif.SR.Dpcp (Locality topology)

/-- `per_resource_counts`, `lp_dflp.cpp:68-71`: the last entry for a resource counts. -/
def lastCount (ti : TaskInfo) (q : ℕ) : ℕ :=
  (((ti.requests.filter (fun r => r.resId = q)).map Request.num).getLast?).getD 0

/-- Constraint 4: `add_fifo_resource_constraints`, `lp_dflp.cpp:58-92`. -/
def dflpResource (info : Info) (i : ℕ) (ti : TaskInfo) (lp : Program) : Program :=
  (others info i).foldl (fun lp t => t.2.requests.foldl (fun lp r =>
    addInequality lp (terms ti [.direct] t r 1) (lastCount ti r.resId)) lp) lp

/-- Constraint 5: `add_fifo_cluster_constraints`, `lp_dflp.cpp:9-56`.  The order of the hash map, i.e., of the constraints
of a task, does not matter. -/
def dflpCluster (info : Info) (l : Locality) (i : ℕ) (ti : TaskInfo) (lp : Program) : Program :=
  (others info i).foldl (fun lp t => ((t.2.requests.map (fun r => l.at r.resId)).dedup).foldl (fun lp c =>
    addInequality lp (termsFor ti [.direct, .indirect] [t] (fun _ r => l.at r.resId = c)) (clusterCount l ti c)) lp) lp

/-- `add_dflp_constraints`, `lp_dflp.cpp:94-111`. -/
def dflpConstraints (info : Info) (l : Locality) (i : ℕ) (ti : TaskInfo) (lp : Program) : Program :=
  let lp := semMutex info i ti lp
  let lp := distTopology info l i ti lp
  let lp := distLower info l i ti lp
  let lp := dflpResource info i ti lp
  dflpCluster info l i ti lp

/-- `apply_dflp_bounds_for_task`, `lp_dflp.cpp:188-242`; `none` is a failing assertion.  Values are truncated when they are
stored.  `remote` does not wrap around because `total` is not smaller than `loc`. -/
def dflpTask (solve : Solver) (info : Info) (l : Locality) (i : ℕ) (ti : TaskInfo) : Option SemBounds :=
  if located info l i then do
    let lp := dflpConstraints info l i ti { objective := partObjective info i ti }
    let x ← solve lp
    let total := ⌊termSum x lp.objective⌋.toNat
    let loc := ⌊termSum x (distLocalObjective info l i ti)⌋.toNat
    some ⟨total, total - loc, loc⟩
  else none

/-- `lp_dflp_bounds`, `lp_dflp.cpp:244-282`, with the topology made by `apply_lp_dflp_bounds`, `bounds.py:330-337`; the
tasks are changed as by the other LP-based analyses, see `afterSemBounds`. -/
def lpDflpBounds (solve : Solver) (info : Info) (mapping : List (ℕ × ℕ)) : Option (List SemBounds) :=
  (tasks info).mapM (fun t => dflpTask solve info (topology mapping) t.1 t.2)

end Verif.SR.Lp
