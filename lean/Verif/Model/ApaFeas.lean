/-
Model of the feasibility test for arbitrary processor affinities in
`native/src/apa_feas.cpp` and `native/include/apa_feas.h`.

* Task parameters and processor numbers are natural numbers; utilizations and the values
  of variables are exact rational numbers instead of floating-point numbers.
* Hash sets of processors are duplicate-free lists.  The order of constraints and terms
  (in the code, the order of iteration over hash sets) is the order of insertion; the
  theorems hold for every exact solver, whatever it does with the order.
* The linear program is a `Milp` whose variables are pairs of a task and a processor
  (`CPUFractionVarMapper`).
-/
import Verif.Spec.Milp
import Mathlib.Data.List.Dedup

namespace Verif.ApaFeas
open Verif.Spec

/-- `native/include/tasks.h:14-60`: the attributes of a task that the test uses. -/
structure Tsk where
  wcet : ℕ
  period : ℕ
  deadline : ℕ
  suspension : ℕ := 0
deriving DecidableEq, Repr

/-- `native/include/tasks.h:73-78`: `is_feasible`. -/
def Tsk.isFeasible (t : Tsk) : Bool :=
  decide (t.deadline ≥ t.wcet + t.suspension) && decide (t.period ≥ t.wcet + t.suspension) &&
    decide (t.wcet > 0)

/-- `native/src/tasks.cpp:33-38`: `get_utilization`. -/
def Tsk.utilization (t : Tsk) : ℚ := (t.wcet : ℚ) / t.period

/-- `native/include/apa_feas.h:13-14`: `Affinities`. -/
abbrev Affinities := List (List ℕ)

/-- `native/include/apa_feas.h:30-36`: `add_cpu`. -/
def addCpu (a : Affinities) (call : ℕ × ℕ) : Affinities :=
  let a := a ++ List.replicate (call.1 + 1 - a.length) []
  a.modify call.1 (fun s => if call.2 ∈ s then s else s ++ [call.2])

/-- `schedcat/sched/__init__.py:42-49`, `native/include/apa_feas.h:18-37`: the affinities
after a sequence of calls of `add_cpu`. -/
def addCpus (calls : List (ℕ × ℕ)) : Affinities := calls.foldl addCpu []

/-- `native/src/apa_feas.cpp:16-26`: `get_all_cpus`. -/
def allCpus (a : Affinities) : List ℕ := a.flatten.dedup

/-- `native/src/apa_feas.cpp:127-142`: `add_task_service_constraints`. -/
def serviceConstraints (n : ℕ) (a : Affinities) : List (List (ℚ × (ℕ × ℕ)) × ℚ) :=
  (List.range n).map fun i => ((a.getD i []).map fun cpu => (1, (i, cpu)), 1)

/-- `native/src/apa_feas.cpp:144-159`: `add_cpu_capacity_constraints`. -/
def capacityConstraints (ts : List Tsk) (a : Affinities) : List (List (ℚ × (ℕ × ℕ)) × ℚ) :=
  (allCpus a).map fun cpu =>
    (ts.zipIdx.map fun t => (t.1.utilization, (t.2, cpu)), 1)

/-- The linear program built in `native/src/apa_feas.cpp:108-114`. -/
def program (ts : List Tsk) (a : Affinities) : Milp (ℕ × ℕ) where
  equalities := serviceConstraints ts.length a
  inequalities := capacityConstraints ts a

abbrev Solver := Milp (ℕ × ℕ) → Option (ℕ × ℕ → ℚ)

/-- `linprog_solve`, `native/src/linprog/glpk.cpp:52-71,330-354`: without any variable, the
program counts as solved; the values of variables are then never asked for. -/
def linprogSolve (solve : Solver) (P : Milp (ℕ × ℕ)) : Option (ℕ × ℕ → ℚ) :=
  if (P.equalities ++ P.inequalities).all (fun c => c.1.isEmpty) then some (fun _ => 0)
  else solve P

/-- `native/src/apa_feas.cpp:72-119`: the constructor of
`APAImplicitDeadlineFeasibilityLP`.  `none` is the call of `abort`; `some none` means that
`solution` is `NULL`. -/
def construct (solve : Solver) (ts : List Tsk) (a : Affinities) :
    Option (Option (ℕ × ℕ → ℚ)) :=
  if ts.all (fun t => t.deadline = t.period) = false then none
  else if ts.all (fun t => t.suspension = 0) = false then none
  else if ts.length ≠ a.length then none
  else if ts.all Tsk.isFeasible then some (linprogSolve solve (program ts a))
  else some none

/-- `native/include/apa_feas.h:45-78`, `native/src/apa_feas.cpp:166-182`: `get_solution`,
as the function `get_fraction` of the result. -/
def getSolution (n : ℕ) (a : Affinities) (x : ℕ × ℕ → ℚ) : ℕ → ℕ → ℚ :=
  fun i cpu => if i < n ∧ cpu ∈ a.getD i [] then x (i, cpu) else 0

/-- `native/src/apa_feas.cpp:184-190`: `apa_implicit_deadline_feasible`. -/
def apaFeasible (solve : Solver) (ts : List Tsk) (a : Affinities) :
    Option (Option (ℕ → ℕ → ℚ)) :=
  (construct solve ts a).map fun sol => sol.map (getSolution ts.length a)

end Verif.ApaFeas
