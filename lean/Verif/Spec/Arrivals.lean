/-
Specification: sporadic arrival sequences.

This file does not refer to the code.  A sporadic task with minimum
inter-arrival time `T` releases its `k`-th job at time `r k`, and consecutive
releases are at least `T` apart.  Time is rational.
-/
import Mathlib.Data.Rat.Defs
import Mathlib.Algebra.Order.Field.Rat

namespace Verif.Spec

/-- `r` is a legal arrival sequence of a sporadic task with period `T`. -/
def SporadicArrivals (T : ℚ) (r : ℕ → ℚ) : Prop :=
  ∀ k, r k + T ≤ r (k + 1)

/-- Job `k` of the arrival sequence `r` is released and has its absolute
deadline within the closed window `[a, a + t]`. -/
def InsideWindow (r : ℕ → ℚ) (D a t : ℚ) (k : ℕ) : Prop :=
  a ≤ r k ∧ r k + D ≤ a + t

/-- Job `k` of the arrival sequence `r` is released within `[a, a + t]`. -/
def ReleasedInWindow (r : ℕ → ℚ) (a t : ℚ) (k : ℕ) : Prop :=
  a ≤ r k ∧ r k ≤ a + t

end Verif.Spec
