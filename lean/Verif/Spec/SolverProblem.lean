/-
Specification: linear programs with declared ranges of variables, and the problems that LP solvers accept.  This file does
not depend on the model.
-/
import Verif.Spec.Milp
import Mathlib.Algebra.BigOperators.Group.Finset.Basic

namespace Verif.Spec

/-- A maximisation problem whose variables are numbers.  A range consists of a variable, an optional lower and an optional
upper bound. -/
structure RangedMilp where
  objective : List (ℚ × ℕ) := []
  equalities : List (List (ℚ × ℕ) × ℚ) := []
  inequalities : List (List (ℚ × ℕ) × ℚ) := []
  integers : List ℕ := []
  binaries : List ℕ := []
  ranges : List (ℕ × Option ℚ × Option ℚ) := []

/-- A number respects optional bounds. -/
def Within (lower upper : Option ℚ) (x : ℚ) : Prop := (∀ a ∈ lower, a ≤ x) ∧ (∀ b ∈ upper, x ≤ b)

/-- An assignment of values to the variables `0, …, n - 1` that respects all constraints.  By default, variables are
between 0 and 1, and integer variables are non-negative. -/
structure RangedMilp.Feasible (P : RangedMilp) (n : ℕ) (x : ℕ → ℚ) : Prop where
  eq : ∀ c ∈ P.equalities, termSum x c.1 = c.2
  le : ∀ c ∈ P.inequalities, termSum x c.1 ≤ c.2
  integer : ∀ v ∈ P.integers, ∃ z : ℤ, x v = z
  binary : ∀ v ∈ P.binaries, x v = 0 ∨ x v = 1
  declared : ∀ r ∈ P.ranges, Within r.2.1 r.2.2 (x r.1)
  default : ∀ v < n, (∀ r ∈ P.ranges, r.1 ≠ v) → 0 ≤ x v ∧ (v ∉ P.integers → x v ≤ 1)

/-- The kinds of columns of a solver. -/
inductive ColumnKind
  | continuous
  | integer
  | binary
deriving DecidableEq

/-- A column (variable) of a solver. -/
structure Column where
  lower : Option ℚ
  upper : Option ℚ
  kind : ColumnKind
deriving DecidableEq

/-- A row (constraint) of a solver: a coefficient for each column, a bound, and whether the bound is exact. -/
structure Row where
  coeff : ℕ → ℚ
  bound : ℚ
  exact : Bool

/-- A maximisation problem of a solver with columns `0, …, cols - 1`. -/
structure SolverProblem where
  cols : ℕ
  objective : ℕ → ℚ
  column : ℕ → Column
  rows : List Row

/-- The value of a row of coefficients. -/
def rowValue (n : ℕ) (f : ℕ → ℚ) (x : ℕ → ℚ) : ℚ := ∑ c ∈ Finset.range n, f c * x c

/-- A value that a column admits. -/
def Column.Admits (c : Column) (x : ℚ) : Prop :=
  Within c.lower c.upper x ∧
    match c.kind with
    | .continuous => True
    | .integer => ∃ z : ℤ, x = z
    | .binary => x = 0 ∨ x = 1

/-- An assignment that a solver accepts. -/
structure SolverProblem.Feasible (Q : SolverProblem) (x : ℕ → ℚ) : Prop where
  column : ∀ c < Q.cols, (Q.column c).Admits (x c)
  row : ∀ r ∈ Q.rows, if r.exact then rowValue Q.cols r.coeff x = r.bound else rowValue Q.cols r.coeff x ≤ r.bound

end Verif.Spec
