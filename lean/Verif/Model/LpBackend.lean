/-
Model of `native/src/linprog/glpk.cpp` and `native/src/linprog/cpx.cpp`: how linear programs (`linprog/model.h`) are
handed over to the solvers GLPK and CPLEX.

The library functions are modelled by their contracts.  `none` stands for an assertion, an abort or an error of the
library, or for an index that is out of range.  The solvers themselves are not modelled.
-/
import Verif.Spec.SolverProblem
import Mathlib.Logic.Function.Basic

namespace Verif.LpBackend
open Verif.Spec

/-- Coefficients set one after the other: `glp_set_obj_coef`, `glpk.cpp:150-156`; `vals[term->second] = term->first`,
`cpx.cpp:175-177`; `CPXchgcoef`, `cpx.cpp:263-291`. -/
def setCoeffs (terms : List (ℚ × ℕ)) : ℕ → ℚ := terms.foldl (fun f t => Function.update f t.2 t.1) (fun _ => 0)

/-- All variables of an expression have a column. -/
def inRange (n : ℕ) (terms : List (ℚ × ℕ)) : Bool := terms.all (fun t => decide (t.2 < n))

/-- No variable occurs twice; `glp_load_matrix` aborts otherwise. -/
def noDuplicates (terms : List (ℚ × ℕ)) : Bool := decide ((terms.map (·.2)).Nodup)

/-- `set_bounds`, `glpk.cpp:177-199`, and `setup_objective`, `cpx.cpp:163-191`: the default bounds, then the declared
ranges. -/
def setRanges (ranges : List (ℕ × Option ℚ × Option ℚ)) : ℕ → Column :=
  ranges.foldl (fun f r => Function.update f r.1 ⟨r.2.1, r.2.2, .continuous⟩)
    (fun _ => ⟨some 0, some 1, .continuous⟩)

/-- `set_column_types`, `glpk.cpp:251-268`: an integer variable has the lower bound 0 and no upper bound; `GLP_BV` sets
the bounds 0 and 1. -/
def glpkTypes (integers binaries : List ℕ) (f : ℕ → Column) : ℕ → Column :=
  let f := integers.foldl (fun f v => Function.update f v ⟨some 0, none, .integer⟩) f
  binaries.foldl (fun f v => Function.update f v ⟨some 0, some 1, .binary⟩) f

/-- `set_column_types`, `cpx.cpp:202-227`: only the type is changed. -/
def cpxTypes (integers binaries : List ℕ) (f : ℕ → Column) : ℕ → Column :=
  let f := integers.foldl (fun f v => Function.update f v { f v with kind := .integer }) f
  binaries.foldl (fun f v => Function.update f v { f v with kind := .binary }) f

/-- The rows: `glpk.cpp:159-175, 202-249` and `cpx.cpp:229-291`. -/
def rows (P : RangedMilp) : List Row :=
  P.equalities.map (fun c => ⟨setCoeffs c.1, c.2, true⟩) ++ P.inequalities.map (fun c => ⟨setCoeffs c.1, c.2, false⟩)

/-- The variables of all expressions and declarations have columns. -/
def allInRange (P : RangedMilp) (n : ℕ) : Bool :=
  inRange n P.objective && P.equalities.all (fun c => inRange n c.1) && P.inequalities.all (fun c => inRange n c.1) &&
    P.integers.all (fun v => decide (v < n)) && P.binaries.all (fun v => decide (v < n)) &&
    P.ranges.all (fun r => decide (r.1 < n))

/-- The problem of `GLPKSolution`, `glpk.cpp:52-143`. -/
def glpk (P : RangedMilp) (n : ℕ) : Option SolverProblem :=
  if n = 0 then some ⟨0, fun _ => 0, fun _ => ⟨none, none, .continuous⟩, []⟩
  else if ¬ P.objective.length ≤ n then none
  else if ¬ allInRange P n then none
  else if ¬ (P.equalities.all (fun c => noDuplicates c.1) && P.inequalities.all (fun c => noDuplicates c.1)) then none
  else
    let cols := setRanges P.ranges
    let isMip := !P.binaries.isEmpty || !P.integers.isEmpty
    some ⟨n, setCoeffs P.objective, if isMip then glpkTypes P.integers P.binaries cols else cols, rows P⟩

/-- The problem of `CPXSolution`, `cpx.cpp:47-128`. -/
def cpx (P : RangedMilp) (n : ℕ) : Option SolverProblem :=
  if n = 0 then some ⟨0, fun _ => 0, fun _ => ⟨none, none, .continuous⟩, []⟩
  else if ¬ P.objective.length ≤ n then none
  else if ¬ allInRange P n then none
  else some ⟨n, setCoeffs P.objective, cpxTypes P.integers P.binaries (setRanges P.ranges), rows P⟩

end Verif.LpBackend
