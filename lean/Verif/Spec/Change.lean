/-
Specification: points at which a step function changes its value.
-/
import Mathlib.Algebra.Order.Field.Rat

namespace Verif.Spec

/-- `f` changes its value at `x`: arbitrarily close below `x` it has another
value than at `x`. -/
def ChangesAt (f : ℚ → ℚ) (x : ℚ) : Prop :=
  ∀ ε > 0, ∃ y, x - ε < y ∧ y < x ∧ f y ≠ f x

end Verif.Spec
