/-
Specification: linear programs in which some variables have no upper bound, and their optimal solutions.  This file
does not depend on the model.
-/
import Verif.Spec.Milp

namespace Verif.Spec

/-- A maximisation problem with variables `V`.  All variables are non-negative, and at most 1 unless they are
unbounded. -/
structure BoxLp (V : Type) where
  objective : List (ℚ × V) := []
  inequalities : List (List (ℚ × V) × ℚ) := []
  unbounded : List V := []

/-- An assignment of values to the variables that respects all constraints. -/
structure BoxLp.Feasible {V : Type} (P : BoxLp V) (x : V → ℚ) : Prop where
  le : ∀ c ∈ P.inequalities, termSum x c.1 ≤ c.2
  nonneg : ∀ v, 0 ≤ x v
  le_one : ∀ v, v ∉ P.unbounded → x v ≤ 1

/-- An optimal assignment. -/
structure BoxLp.Maximum {V : Type} (P : BoxLp V) (x : V → ℚ) : Prop where
  feasible : P.Feasible x
  best : ∀ y, P.Feasible y → termSum y P.objective ≤ termSum x P.objective

end Verif.Spec
