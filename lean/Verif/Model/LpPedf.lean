/-
Model of `native/src/blocking/linprog/lp_pedf_analysis.cpp`, `lp_pedf_spinlocks_common.cpp` and `lp_pedf_msrp.cpp`, called
from `pedf_msrp_is_schedulable` in `schedcat/locking/bounds.py:589-592`.

Numbers are natural numbers; wrap-around of `unsigned int` and `unsigned long` is modelled for subtractions only.  Floating-point
numbers are exact rationals.  None of the macros `__PEDF_BLK_ANALYSIS_ENABLE_TIMEOUT__`,
`__PEDF_BLK_ANALYSIS_ENABLE_HP_STOP__` and `__DEBUG_PEDF_BLK_ANALYSIS__` is defined, `lp_pedf_analysis.h:10-19`.
-/
import Verif.Model.LpSpin
import Verif.Spec.MixedProgram

namespace Verif.SR.Pedf
open Verif.Spec

/-! ### Numbers of jobs -/

/-- Subtraction of values of type `unsigned long`. -/
def wsub (a b : ℕ) : ℕ := if b ≤ a then a - b else a + 2 ^ 64 - b

/-- `get_pedf_max_num_remote_jobs`, `sharedres_types.h:180-185`. -/
def remoteJobs (t : TaskInfo) (interval : ℕ) : ℕ := Native.divideWithCeil (interval + t.deadline) t.period

/-- `get_pedf_PDC_max_num_local_jobs`, `sharedres_types.h:187-192`. -/
def pdcJobs (t : TaskInfo) (interval : ℕ) : ℕ := wsub (interval + t.period) t.deadline / t.period

/-- `get_pedf_AC_max_num_local_jobs`, `sharedres_types.h:194-199`. -/
def acJobs (t : TaskInfo) (interval : ℕ) : ℕ := Native.divideWithCeil interval t.period

/-- `get_request_length`, `sharedres_types.h:170-176`. -/
def requestLength (t : TaskInfo) (res : ℕ) : ℕ :=
  match t.requests.find? (fun r => r.resId = res) with
  | some r => r.length
  | none => 0

/-! ### The analysis of one processor -/

/-- The virtual functions of `PEDFBlockingAnalysis`, `lp_pedf_analysis.h:34-43`; `none` is a crash.  The second argument
of `ac` is the result of the previous call, initially 0: `ac_blocking_LB`, `lp_pedf_fifo_preempt.cpp:272-281,308-319`. -/
structure Blocking where
  pdc : ℕ → Option ℕ
  ac : ℕ → ℕ → Option ℕ
  tighter : ℕ → ℕ → ℕ → Option ℕ := fun _ ub _ => some ub

/-- The tasks of a cluster. -/
def localTasks (info : Info) (k : ℕ) : List TaskInfo := info.filter (fun t => t.cluster = k)

/-- `max_deadline`, `lp_pedf_analysis.cpp:60-63`. -/
def maxDeadline (info : Info) (k : ℕ) : ℕ :=
  (localTasks info k).foldl (fun m t => if m > t.deadline then m else t.deadline) 0

/-- `min_deadline`, `lp_pedf_analysis.cpp:65-68`. -/
def minDeadline (info : Info) (k : ℕ) : ℕ :=
  (localTasks info k).foldl (fun m t => if t.deadline < m then t.deadline else m) (maxDeadline info k)

/-- `DBF`, `lp_pedf_analysis.cpp:71-78`. -/
def dbf (info : Info) (k t : ℕ) : ℕ := ((localTasks info k).map (fun ti => pdcJobs ti t * ti.cost)).sum

/-- `arrival_curve`, `lp_pedf_analysis.cpp:80-87`. -/
def arrivalCurve (info : Info) (k t : ℕ) : ℕ := ((localTasks info k).map (fun ti => acJobs ti t * ti.cost)).sum

/-- `if (d == interval_length) d = d - T_i->get_period();`. -/
def stepBack (d interval period : ℕ) : ℕ := if d = interval then wsub d period else d

/-- The body of the loop of `last_check_point_before` for local tasks, `lp_pedf_analysis.cpp:172-189`. -/
def localCheckPoint (t : TaskInfo) (interval last : ℕ) : ℕ :=
  let d := stepBack ((interval - t.deadline) / t.period * t.period + t.deadline) interval t.period
  let last := if d > last then d else last
  let njobs := Native.divideWithCeil interval t.period
  let d := stepBack (wsub njobs 1 * t.period + 1) interval t.period
  if d > last then d else last

/-- The body of the loop of `last_check_point_before` for remote tasks, `lp_pedf_analysis.cpp:192-205`.  The last term of
`(njobs - 1) * T_i->get_period() - T_i->get_deadline() + 1` is added first. -/
def remoteCheckPoint (t : TaskInfo) (interval last : ℕ) : ℕ :=
  let njobs := Native.divideWithCeil (interval + t.deadline) t.period
  if njobs > 1 then
    let d := stepBack (wsub ((njobs - 1) * t.period + 1) t.deadline) interval t.period
    if d > last then d else last
  else last

/-- `last_check_point_before`, `lp_pedf_analysis.cpp:165-209`. -/
def lastCheckPointBefore (info : Info) (k interval : ℕ) : ℕ :=
  info.foldl (fun last t =>
    let last := if t.cluster = k ∧ t.deadline < interval then localCheckPoint t interval last else last
    if t.cluster ≠ k then remoteCheckPoint t interval last else last) 0

/-- The loop of `QPA`, `lp_pedf_analysis.cpp:229-285`: the result and `blk_LB_out`; `found` is `found_blk_LB`.  The
outer `none` is divergence or a crash. -/
def qpaLoop (info : Info) (k : ℕ) (b : Blocking) (tLB lbIn : ℕ) : ℕ → ℕ → ℕ → Bool → Option (Bool × ℕ)
  | 0, _, _, _ => none
  | fuel + 1, cp, lbOut, found =>
    if cp < tLB then some (true, lbOut)
    else
      match b.pdc cp with
      | none => none
      | some blk =>
        let total := dbf info k cp + blk
        if total < tLB then some (true, lbOut)
        else if total > cp then
          match b.tighter cp blk lbIn with
          | none => none
          | some blk =>
            let total := dbf info k cp + blk
            let lbOut := if found then lbOut else blk
            if total > cp then some (false, lbOut)
            else if total < cp then qpaLoop info k b tLB lbIn fuel total lbOut true
            else qpaLoop info k b tLB lbIn fuel (lastCheckPointBefore info k cp) lbOut true
        else if total < cp then qpaLoop info k b tLB lbIn fuel total lbOut found
        else qpaLoop info k b tLB lbIn fuel (lastCheckPointBefore info k cp) lbOut found

/-- `QPA`, `lp_pedf_analysis.cpp:217-288`. -/
def qpa (fuel : ℕ) (info : Info) (k : ℕ) (b : Blocking) (tLB tUB lbIn : ℕ) : Option (Bool × ℕ) :=
  qpaLoop info k b tLB lbIn fuel (lastCheckPointBefore info k tUB) lbIn false

/-- The loop of `is_schedulable`, `lp_pedf_analysis.cpp:125-153`; `none` is divergence or a crash. -/
def scheduleLoop (qfuel : ℕ) (info : Info) (k : ℕ) (b : Blocking) : ℕ → ℕ → ℕ → ℕ → Option Bool
  | 0, _, _, _ => none
  | fuel + 1, last, lbIn, acLB =>
    match b.ac last acLB with
    | none => none
    | some blk =>
      let new := arrivalCurve info k last + blk
      if new = last then some true
      else
        let tLB := if last > minDeadline info k then last else minDeadline info k
        match qpa qfuel info k b tLB new lbIn with
        | none => none
        | some (false, _) => some false
        | some (true, lbOut) => scheduleLoop qfuel info k b fuel new lbOut blk

/-- `PEDFBlockingAnalysis::is_schedulable`, `lp_pedf_analysis.cpp:96-168`. -/
def isSchedulable (fuel : ℕ) (info : Info) (k : ℕ) (b : Blocking) : Option Bool :=
  scheduleLoop fuel info k b fuel 1 0 0

/-! ### Linear programs -/

/-- The variables, `SpinVarMapper`, `lp_pedf_spinlocks_common.h:11-88`. -/
inductive Var
  | spin (task res : ℕ)
  | arrival (task res : ℕ)
  | enabled (res : ℕ)
  | cancelled (task res : ℕ)
deriving DecidableEq, Repr

/-- `LinearProgram`, `model.h:87-140`, with the variables that are declared to be non-negative,
`declare_variable_bounds(X, true, 0, false, 0)`. -/
abbrev Program := MixedProgram Var

/-- `analysis_type_t`, `lp_pedf_analysis.h:62-66`. -/
inductive Mode
  | ac
  | pdc
deriving DecidableEq, Repr

/-- `add_inequality`, `model.h:148-154`. -/
def addInequality {V : Type} (lp : MixedProgram V) (e : List (ℚ × V)) (b : ℚ) : MixedProgram V :=
  if e.isEmpty then lp else { lp with inequalities := lp.inequalities ++ [(e, b)] }

/-- `declare_variable_binary`, `model.h:125-128`. -/
def declareBinary (lp : Program) (v : Var) : Program := { lp with binaries := v :: lp.binaries }

/-- The tasks of a cluster with their ids. -/
def localIds (info : Info) (k : ℕ) : List (ℕ × TaskInfo) := (Lp.tasks info).filter (fun t => t.2.cluster = k)

/-- The tasks of other clusters with their ids. -/
def remoteIds (info : Info) (k : ℕ) : List (ℕ × TaskInfo) := (Lp.tasks info).filter (fun t => t.2.cluster ≠ k)

/-- `add_no_arrival_blocking_dline_inside_interval`, `lp_pedf_spinlocks_common.cpp:158-176`. -/
def noArrivalInside (info : Info) (k t : ℕ) (lp : Program) : Program :=
  ((localIds info k).filter (fun i => i.2.deadline ≤ t)).foldl (fun lp i =>
    i.2.requests.foldl (fun lp r => addInequality lp [(1, .arrival i.1 r.resId)] 0) lp) lp

/-- `add_no_spin_delay_local_requests`, `lp_pedf_spinlocks_common.cpp:179-199`. -/
def noLocalSpin (info : Info) (k : ℕ) (lp : Program) : Program :=
  addInequality lp ((localIds info k).flatMap (fun i => i.2.requests.map (fun r => (1, .spin i.1 r.resId)))) 0

/-- `add_joint_upper_bound_remote_requests`, `lp_pedf_spinlocks_common.cpp:202-225`. -/
def jointBound (info : Info) (k t : ℕ) (lp : Program) : Program :=
  (remoteIds info k).foldl (fun lp i => i.2.requests.foldl (fun lp r =>
    addInequality lp [(1, .arrival i.1 r.resId), (1, .spin i.1 r.resId)] (remoteJobs i.2 t * r.num : ℕ)) lp) lp

/-- `add_no_arrival_blocking` (at most 0) and `add_arrival_blocking_single_resource` (at most 1),
`lp_pedf_spinlocks_common.cpp:228-260`. -/
def atMostArrival (info : Info) (m : ℚ) (lp : Program) : Program :=
  addInequality ((Lp.allResources info).foldl (fun lp q => declareBinary lp (.enabled q)) lp)
    ((Lp.allResources info).map (fun q => (1, .enabled q))) m

/-- `max_preemption_level`, `lp_pedf_spinlocks_common.cpp:269-276`. -/
def maxLevel (info : Info) (k t : ℕ) : ℕ :=
  (localTasks info k).foldl (fun m ti => if ti.deadline ≤ t then (if ti.priority > m then ti.priority else m) else m) 0

/-- `add_exclude_non_conflicting_local_resources`, `lp_pedf_spinlocks_common.cpp:263-295`. -/
def excludeLocal (info : Info) (k t : ℕ) (lp : Program) : Program :=
  addInequality lp (((Msrp.localResources info).filter (fun q => Msrp.ceilingOf info q ≥ maxLevel info k t)).map
    (fun q => (1, .enabled q))) 0

/-- `n_reqs`, `lp_pedf_spinlocks_common.cpp:304-307`. -/
def laterRequests (info : Info) (k t q : ℕ) : ℕ :=
  (((localTasks info k).filter (fun ti => ti.deadline > t)).map (fun ti => Lp.numRequests ti q)).sum

/-- `add_no_requests_no_arrival_blocking`, `lp_pedf_spinlocks_common.cpp:299-318`. -/
def noRequests (info : Info) (k t : ℕ) (lp : Program) : Program :=
  (Lp.allResources info).foldl (fun lp q =>
    addInequality (declareBinary lp (.enabled q)) [(1, .enabled q)] (laterRequests info k t q)) lp

/-- `add_arrival_blocking_max_one_local_request`, `lp_pedf_spinlocks_common.cpp:321-342`. -/
def oneLocalRequest (info : Info) (k : ℕ) (lp : Program) : Program :=
  (Lp.allResources info).foldl (fun lp q =>
    addInequality lp ((localIds info k).map (fun i => (1, .arrival i.1 q)) ++ [(-1, .enabled q)]) 0) lp

/-- `set_objective`, `lp_pedf_spinlocks_common.cpp:125-150`. -/
def setObjective (info : Info) (lp : Program) : Program :=
  (Lp.tasks info).foldl (fun lp x => (Lp.allResources info).foldl (fun lp q =>
    let lp := { lp with nonneg := .arrival x.1 q :: .spin x.1 q :: lp.nonneg }
    if requestLength x.2 q > 0 then
      { lp with
        objective := lp.objective ++ [((requestLength x.2 q : ℚ), .spin x.1 q),
          ((requestLength x.2 q : ℚ), .arrival x.1 q)] }
    else lp) lp) lp

/-- The number of resources that may cause arrival blocking, `lp_pedf_spinlocks_common.cpp:76-79`. -/
def arrivals : Mode → ℚ
  | .ac => 0
  | .pdc => 1

/-- The constructor of `PEDFBlockingAnalysisLP_Spinlocks`, `lp_pedf_spinlocks_common.cpp:59-84`. -/
def commonProgram (info : Info) (mode : Mode) (k t : ℕ) : Program :=
  setObjective info (excludeLocal info k t (oneLocalRequest info k (noRequests info k t
    (atMostArrival info (arrivals mode)
      (jointBound info k t (noLocalSpin info k (noArrivalInside info k t {})))))))

/-- The numbers of jobs of local tasks, `lp_pedf_msrp.cpp:78-83`. -/
def localJobs (mode : Mode) (ti : TaskInfo) (t : ℕ) : ℕ :=
  match mode with
  | .ac => acJobs ti t
  | .pdc => pdcJobs ti t

/-- The clusters except one, `iter-helper.h:126-130`. -/
def otherClusters (info : Info) (k : ℕ) : List ℕ :=
  (List.range (splitByCluster info).length).filter (fun c => c ≠ k)

/-- `add_at_max_one_request_per_processor_spin`, `lp_pedf_msrp.cpp:53-90`. -/
def oneSpinPerProcessor (info : Info) (mode : Mode) (k t : ℕ) (lp : Program) : Program :=
  (otherClusters info k).foldl (fun lp c => (Lp.allResources info).foldl (fun lp q =>
    addInequality lp ((localIds info c).map (fun x => (1, .spin x.1 q)))
      (((localTasks info k).map (fun ti => localJobs mode ti t * Lp.numRequests ti q)).sum : ℕ)) lp) lp

/-- `add_per_task_bound_spin_delay`, `lp_pedf_msrp.cpp:93-119`. -/
def spinPerTask (info : Info) (k t : ℕ) (lp : Program) : Program :=
  (remoteIds info k).foldl (fun lp x => (Lp.allResources info).foldl (fun lp q =>
    addInequality lp [(1, .spin x.1 q)]
      (((localTasks info k).map (fun ti => remoteJobs ti x.2.deadline * Lp.numRequests ti q * remoteJobs x.2 t)).sum : ℕ)) lp) lp

/-- `add_at_max_one_request_per_processor_arrival`, `lp_pedf_msrp.cpp:122-148`. -/
def oneArrivalPerProcessor (info : Info) (k : ℕ) (lp : Program) : Program :=
  (otherClusters info k).foldl (fun lp c => (Lp.allResources info).foldl (fun lp q =>
    addInequality lp ((localIds info c).map (fun x => (1, .arrival x.1 q)) ++ [(-1, .enabled q)]) 0) lp) lp

/-- The program of `MSRP_LP`, `lp_pedf_msrp.cpp:24-48`. -/
def msrpProgram (info : Info) (mode : Mode) (k t : ℕ) : Program :=
  oneArrivalPerProcessor info k (spinPerTask info k t (oneSpinPerProcessor info mode k t (commonProgram info mode k t)))

/-- A solver, `linprog_solve`, `solver.h:36-49`; `none` is `NULL`. -/
abbrev Solver (V : Type := Var) := MixedProgram V → Option (V → ℚ)

/-- `solve`, `lp_pedf_spinlocks_common.cpp:85-122`, `lp_pedf_lockfree_common.cpp:84-121`; `none` is the crash if the solver returns `NULL`. -/
def solved {V : Type} (solve : Solver V) (lp : MixedProgram V) : Option ℕ :=
  (solve lp).map (fun x => ⌊valueOf x lp.objective⌋.toNat)

/-- `PEDFBlockingAnalysisMSRP`, `lp_pedf_msrp.cpp:154-181`. -/
def msrpBlocking (solve : Solver) (info : Info) (k : ℕ) : Blocking where
  pdc t := solved solve (msrpProgram info .pdc k t)
  ac t _ := solved solve (msrpProgram info .ac k t)

/-- The loop of `lp_pedf_msrp_is_schedulable`, `lp_pedf_msrp.cpp:189-200`. -/
def allClusters (test : ℕ → Option Bool) : List ℕ → Option Bool
  | [] => some true
  | k :: ks =>
    match test k with
    | none => none
    | some false => some false
    | some true => allClusters test ks

/-- `lp_pedf_msrp_is_schedulable`, `lp_pedf_msrp.cpp:187-203`; `none` is divergence or a crash. -/
def msrpIsSchedulable (fuel : ℕ) (solve : Solver) (info : Info) : Option Bool :=
  allClusters (fun k => isSchedulable fuel info k (msrpBlocking solve info k)) (List.range (splitByCluster info).length)

end Verif.SR.Pedf
