/-
Specification: mixed-integer linear programs with non-negative, integer and binary variables.  This file does not depend on the
model.
-/
import Mathlib.Algebra.BigOperators.Group.List.Basic
import Mathlib.Algebra.Order.Ring.Rat

namespace Verif.Spec

/-- A maximisation problem with variables `V`.  Terms are pairs of a coefficient and a variable; inequalities are pairs
of a sum of terms and the largest value that it may have.  Binary variables are 0 or 1. -/
structure MixedProgram (V : Type) where
  objective : List (ℚ × V) := []
  inequalities : List (List (ℚ × V) × ℚ) := []
  nonneg : List V := []
  binaries : List V := []
  integers : List V := []

/-- The value of a sum of terms. -/
def valueOf {V : Type} (x : V → ℚ) (e : List (ℚ × V)) : ℚ := (e.map (fun t => t.1 * x t.2)).sum

/-- An assignment of values to the variables that respects all constraints. -/
structure MixedProgram.Feasible {V : Type} (P : MixedProgram V) (x : V → ℚ) : Prop where
  le : ∀ c ∈ P.inequalities, valueOf x c.1 ≤ c.2
  nonneg : ∀ v ∈ P.nonneg, 0 ≤ x v
  binary : ∀ v ∈ P.binaries, x v = 0 ∨ x v = 1
  integer : ∀ v ∈ P.integers, ∃ z : ℤ, x v = z

/-- An optimal assignment. -/
structure MixedProgram.Maximum {V : Type} (P : MixedProgram V) (x : V → ℚ) : Prop where
  feasible : P.Feasible x
  best : ∀ y, P.Feasible y → valueOf y P.objective ≤ valueOf x P.objective

end Verif.Spec
