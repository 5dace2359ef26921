/-
Specification: mixed-integer linear programs and their optimal solutions.  This file does not depend on the model.
-/
import Mathlib.Algebra.BigOperators.Group.List.Basic
import Mathlib.Algebra.Order.Ring.Rat

namespace Verif.Spec

/-- A maximisation problem with variables `V`.  Terms are pairs of a coefficient and a variable.  Integer
variables are non-negative, binary variables are 0 or 1, and all other variables are between 0 and 1. -/
structure Milp (V : Type) where
  objective : List (ℚ × V) := []
  equalities : List (List (ℚ × V) × ℚ) := []
  inequalities : List (List (ℚ × V) × ℚ) := []
  integers : List V := []
  binaries : List V := []

/-- The value of a sum of terms. -/
def termSum {V : Type} (x : V → ℚ) (e : List (ℚ × V)) : ℚ := (e.map (fun t => t.1 * x t.2)).sum

/-- An assignment of values to the variables that respects all constraints. -/
structure Milp.Feasible {V : Type} (P : Milp V) (x : V → ℚ) : Prop where
  eq : ∀ c ∈ P.equalities, termSum x c.1 = c.2
  le : ∀ c ∈ P.inequalities, termSum x c.1 ≤ c.2
  integer : ∀ v ∈ P.integers, ∃ n : ℕ, x v = n
  binary : ∀ v ∈ P.binaries, x v = 0 ∨ x v = 1
  range : ∀ v, v ∉ P.integers → 0 ≤ x v ∧ x v ≤ 1

/-- An optimal assignment. -/
structure Milp.Maximum {V : Type} (P : Milp V) (x : V → ℚ) : Prop where
  feasible : P.Feasible x
  best : ∀ y, P.Feasible y → termSum y P.objective ≤ termSum x P.objective

end Verif.Spec
