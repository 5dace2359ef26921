/-
Model of `native/src/blocking/linprog/lp_spinlock_nested_fifo.cpp`, which bounds the blocking due to nested
non-preemptive FIFO spin locks with integer linear programs.

* The task infos are passed without requests (`schedcat/locking/bounds.py:581-587`), and nothing below reads their
  requests.  Task `x` has the critical sections `css[x]`.
* The 10-bit fields of `NestedVarMapper` are not modelled: variables are `Key`s, with `req` the number of the instance
  of a critical section, and with `.direct` for `vertex_direct` and `.indirect` for `vertex_nested`
  (`lp_spinlock_nested_fifo.cpp:62-156`; its assertions reject more than 1022 instances).
* A `LockSet` is a `Finset`.  The order of constraints is that of the code, except that `std::set<LockSet>` is a list in
  the order of insertion.
* `none` stands for undefined behaviour: an access outside of `guaranteed_held_on_path`.
-/
import Verif.Model.LpCommon
import Verif.Model.NestedCs

namespace Verif.SR.Lp
open Verif.Spec
open Verif.Nested (CritSec TaskCs outerLocks)

/-- `taskset_cs[x].get_cs()`. -/
def csOf (css : List TaskCs) (x : ℕ) : TaskCs := css.getD x []

/-- A critical section with its task and its index. -/
abbrev TaskSec := (ℕ × TaskInfo) × CritSec × ℕ

/-- The loops `foreach(taskset, tx) … enumerate(tx_cs, cs, cs_index)`. -/
def taskSecs (css : List TaskCs) (ts : List (ℕ × TaskInfo)) : List TaskSec :=
  ts.flatMap (fun t => (csOf css t.1).zipIdx.map (fun c => (t, c)))

/-- `num_jobs_to_consider`, `lp_spinlock_nested_fifo.cpp:259-274`. -/
def jobsToConsider (ti tx : TaskInfo) : ℕ :=
  if tx.cluster ≠ ti.cluster then tx.maxNumJobs ti.response
  else if tx.priority < ti.priority then localJobs tx ti.response
  else 1

/-- `enumerate_cs_instances`, `lp_spinlock_nested_fifo.cpp:348-354`. -/
def csInstances (css : List TaskCs) (ti : TaskInfo) (s : TaskSec) : List ℕ :=
  (List.range (jobsToConsider ti s.1.2)).map (fun j => s.2.2 + j * (csOf css s.1.1).length)

/-- The variables of all instances of a critical section, with a coefficient. -/
def csVars (css : List TaskCs) (ti : TaskInfo) (a : ℚ) (ty : BlockingType) (s : TaskSec) : Exp :=
  (csInstances css ti s).map (fun v => (a, ⟨ty, s.1.1, v, s.2.1.res⟩))

/-- `set_objective`, `lp_spinlock_nested_fifo.cpp:358-394`. -/
def nestedObjective (info : Info) (css : List TaskCs) (ti : TaskInfo) (lp : Program) : Program :=
  { lp with objective := lp.objective ++ (taskSecs css ((tasks info).filter (fun t =>
      t.2.priority > ti.priority ∨ t.2.cluster ≠ ti.cluster))).flatMap (fun s =>
        (csInstances css ti s).flatMap (fun v =>
          [((s.2.1.len : ℚ), ⟨.direct, s.1.1, v, s.2.1.res⟩), ((s.2.1.len : ℚ), ⟨.indirect, s.1.1, v, s.2.1.res⟩)])) }

/-- `add_type_constraints`, `lp_spinlock_nested_fifo.cpp:396-426`. -/
def typeConstraints (info : Info) (css : List TaskCs) (ti : TaskInfo) (lp : Program) : Program :=
  (taskSecs css (tasks info)).foldl (fun lp s => (csInstances css ti s).foldl (fun lp v =>
    addInequality (declareBinary (declareBinary lp ⟨.direct, s.1.1, v, s.2.1.res⟩) ⟨.indirect, s.1.1, v, s.2.1.res⟩)
      [(1, ⟨.direct, s.1.1, v, s.2.1.res⟩), (1, ⟨.indirect, s.1.1, v, s.2.1.res⟩)] 1) lp) lp

/-- `add_nesting_constraints`, `lp_spinlock_nested_fifo.cpp:428-487`.  `CriticalSectionsOfTask::add` asserts that the
index of the outer critical section is in range. -/
def nestingConstraints (info : Info) (css : List TaskCs) (ti : TaskInfo) (lp : Program) : Program :=
  (taskSecs css (tasks info)).foldl (fun lp s => (csInstances css ti s).foldl (fun lp v =>
    match s.2.1.outer with
    | some o =>
      match (csOf css s.1.1)[o]? with
      | some ocs => addInequality lp [(1, ⟨.indirect, s.1.1, v, s.2.1.res⟩),
          (-1, ⟨.direct, s.1.1, v - (s.2.2 - o), ocs.res⟩), (-1, ⟨.indirect, s.1.1, v - (s.2.2 - o), ocs.res⟩)] 0
      | none => lp
    | none => addEquality lp [(1, ⟨.indirect, s.1.1, v, s.2.1.res⟩)] 0) lp) lp

/-- `accessed_from` and `prio_ceiling`, `lp_spinlock_nested_fifo.cpp:203-207` and `672-676`: the tasks with a critical
section for a resource. -/
def accessing (info : Info) (css : List TaskCs) (q : ℕ) : List TaskInfo :=
  ((tasks info).filter (fun t => (csOf css t.1).any (fun c => c.res = q))).map Prod.snd

/-- `is_local_resource_with_lower_prio_ceiling`, `lp_spinlock_nested_fifo.cpp:246-251`. -/
def isLocalLower (info : Info) (css : List TaskCs) (ti : TaskInfo) (q : ℕ) : Bool :=
  decide (ti.cluster ∈ (accessing info css q).map TaskInfo.cluster) &&
    decide ((((accessing info css q).map TaskInfo.cluster).dedup).length = 1) &&
    decide ((((accessing info css q).map TaskInfo.priority).min?).getD 0 > ti.priority)

/-- `foreach_local_lowereq_priority_task_except`, `iter-helper.h:104-108`. -/
def localLowerEq (info : Info) (i : ℕ) (ti : TaskInfo) : List (ℕ × TaskInfo) :=
  (tasks info).filter (fun t => t.2.cluster = ti.cluster ∧ t.1 ≠ i ∧ t.2.priority ≥ ti.priority)

/-- `add_local_resource_constraints`, `lp_spinlock_nested_fifo.cpp:799-828`. -/
def localResourceConstraints (info : Info) (css : List TaskCs) (i : ℕ) (ti : TaskInfo) (lp : Program) : Program :=
  addEquality lp (((taskSecs css (localLowerEq info i ti)).filter (fun s =>
    isLocalLower info css ti s.2.1.res)).flatMap (csVars css ti 1 .direct)) 0

/-- `add_arrival_blocking_constraints`, `lp_spinlock_nested_fifo.cpp:768-797`. -/
def arrivalBlockingConstraints (info : Info) (css : List TaskCs) (i : ℕ) (ti : TaskInfo) (lp : Program) : Program :=
  addInequality lp ((taskSecs css (localLowerEq info i ti)).flatMap (csVars css ti 1 .direct)) 1

/-- `outer_locks[x][cs_index]`, `lp_spinlock_nested_fifo.cpp:678-680`. -/
def outerSet (css : List TaskCs) (s : TaskSec) : Finset ℕ :=
  ((outerLocks s.2.1 (csOf css s.1.1)).getD []).toFinset

/-- `max_resource`, `lp_spinlock_nested_fifo.cpp:669-670`. -/
def maxResource (info : Info) (css : List TaskCs) : ℕ :=
  ((taskSecs css (tasks info)).map (fun s => s.2.1.res)).foldl max 0

/-- `max_cpu`, `lp_spinlock_nested_fifo.cpp:657-658`. -/
def maxCpu (info : Info) : ℕ := (info.map TaskInfo.cluster).foldl max 0

/-- `determine_implicit_serialization_lock_sets`, `lp_spinlock_nested_fifo.cpp:490-522`. -/
def serializationSets (info : Info) (css : List TaskCs) : List (Finset ℕ) :=
  (∅ :: ((List.range (maxResource info css)).map (fun q => {q}) ++
    (taskSecs css (tasks info)).map (outerSet css))).dedup

/-- The loop that walks up the chain, `lp_spinlock_nested_fifo.cpp:746-753`, for at most as many rounds as there are
critical sections. -/
def guaranteedLoop (gh : List (Finset ℕ)) (cs : TaskCs) : ℕ → Option ℕ → Finset ℕ → Option (Finset ℕ)
  | _, none, acc => some acc
  | 0, some _, _ => none
  | n + 1, some p, acc =>
    match cs[p]? with
    | none => none
    | some pcs =>
      match gh[pcs.res]? with
      | none => none
      | some g => guaranteedLoop gh cs n pcs.outer (acc ∩ g)

/-- `update_guaranteed_lock_set`, `lp_spinlock_nested_fifo.cpp:730-766`: the new set and the entry of
`guaranteed_held_cs_path`, if it is written. -/
def updateGuaranteed (css : List TaskCs) (ti : TaskInfo) (gh : List (Finset ℕ)) (ghq : Finset ℕ) (s : TaskSec) :
    Option (Finset ℕ × Option (Finset ℕ)) :=
  if s.1.2.cluster = ti.cluster then some (ghq ∩ outerSet css s, none)
  else
    match s.2.1.outer with
    | none => some (ghq, none)
    | some o =>
      match (csOf css s.1.1)[o]? with
      | none => none
      | some pcs =>
        match (gh ++ [ghq])[pcs.res]? with
        | none => none
        | some g =>
          match guaranteedLoop (gh ++ [ghq]) (csOf css s.1.1) (csOf css s.1.1).length pcs.outer g with
          | none => none
          | some per => some (ghq ∩ (per ∪ outerSet css s), some (per ∪ outerSet css s))

/-- `guaranteed_held_cs_path`: the sets that were written, by task and index; other entries are empty. -/
abbrev CsPaths := List ((ℕ × ℕ) × Finset ℕ)

/-- The loops over the critical sections for resource `q`, `lp_spinlock_nested_fifo.cpp:699-715`. -/
def guaranteedFor (css : List TaskCs) (ti : TaskInfo) (gh : List (Finset ℕ)) :
    List TaskSec → Finset ℕ × CsPaths → Option (Finset ℕ × CsPaths)
  | [], st => some st
  | s :: ss, st =>
    match updateGuaranteed css ti gh st.1 s with
    | none => none
    | some (ghq, none) => guaranteedFor css ti gh ss (ghq, st.2)
    | some (ghq, some per) => guaranteedFor css ti gh ss (ghq, ((s.1.1, s.2.2), per) :: st.2)

/-- `precompute_guaranteed_held`, `lp_spinlock_nested_fifo.cpp:687-719`: the first `n` resources. -/
def guaranteedHeld (info : Info) (css : List TaskCs) (ti : TaskInfo) : ℕ → Option (List (Finset ℕ) × CsPaths)
  | 0 => some ([], [])
  | q + 1 =>
    match guaranteedHeld info css ti q with
    | none => none
    | some (gh, paths) =>
      match guaranteedFor css ti gh ((taskSecs css (tasks info)).filter (fun s => s.2.1.res = q))
          (Finset.range q, paths) with
      | none => none
      | some (ghq, paths) => some (gh ++ [ghq], paths)

/-- `guaranteed_held_cs_path[x][cs_index]`. -/
def pathSet (paths : CsPaths) (s : TaskSec) : Finset ℕ := (paths.lookup (s.1.1, s.2.2)).getD ∅

/-- `add_remote_blocking_constraints_for_resource`, `lp_spinlock_nested_fifo.cpp:546-644`. -/
def remoteForResource (info : Info) (css : List TaskCs) (ti : TaskInfo) (paths : CsPaths) (k q : ℕ) (sr : Finset ℕ)
    (lp : Program) : Program :=
  let lhs := ((taskSecs css ((tasks info).filter (fun t => t.2.cluster = k))).filter (fun s =>
    s.2.1.res = q ∧ sr ⊆ outerSet css s)).flatMap (csVars css ti 1 .direct)
  if lhs.isEmpty then lp
  else addInequality lp (lhs ++
    ((taskSecs css ((tasks info).filter (fun t => t.2.cluster = ti.cluster))).filter (fun s =>
      s.2.1.res = q ∧ sr ∩ outerSet css s = ∅)).flatMap (csVars css ti (-1) .direct) ++
    ((taskSecs css ((tasks info).filter (fun t => t.2.cluster ≠ k))).filter (fun s =>
      s.2.1.res = q ∧ sr ∩ outerSet css s = ∅ ∧ sr ∩ pathSet paths s = ∅)).flatMap (csVars css ti (-1) .indirect)) 0

/-- `add_remote_blocking_constraints`, `lp_spinlock_nested_fifo.cpp:524-544`. -/
def remoteConstraints (info : Info) (css : List TaskCs) (ti : TaskInfo) (paths : CsPaths) (lp : Program) : Program :=
  ((List.range (maxCpu info + 1)).filter (fun k => k ≠ ti.cluster)).foldl (fun lp k =>
    (List.range (maxResource info css + 1)).foldl (fun lp q =>
      ((serializationSets info css).filter (fun sr => sr = ∅ ∨ ∀ l ∈ sr, l < q)).foldl (fun lp sr =>
        remoteForResource info css ti paths k q sr lp) lp) lp) lp

/-- The constructor of `NestedFifoILP`, `lp_spinlock_nested_fifo.cpp:299-327`. -/
def nestedProgram (info : Info) (css : List TaskCs) (i : ℕ) (ti : TaskInfo) : Option Program :=
  (guaranteedHeld info css ti (maxResource info css + 1)).map (fun g =>
    remoteConstraints info css ti g.2 (arrivalBlockingConstraints info css i ti
      (localResourceConstraints info css i ti (nestingConstraints info css ti (typeConstraints info css ti
        (nestedObjective info css ti {}))))))

/-- `NestedFifoILP::solve`, `lp_spinlock_nested_fifo.cpp:329-346`; `none` is a use of the pointer `NULL`. -/
def nestedSolve (solve : Solver) (P : Program) : Option ℕ :=
  (solve P).map (fun x => ⌈termSum x P.objective⌉.toNat)

/-- `lp_nested_fifo_spinlock_bounds`, `lp_spinlock_nested_fifo.cpp:830-843`. -/
def nestedBounds (solve : Solver) (info : Info) (css : List TaskCs) : Option (List ℕ) :=
  (tasks info).mapM (fun t => (nestedProgram info css t.1 t.2).bind (nestedSolve solve))

end Verif.SR.Lp
