/-
Specification: the processor demand of sporadic tasks.  This file does not
depend on the model.
-/
import Mathlib.Algebra.BigOperators.Group.Finset.Basic
import Mathlib.Data.Rat.Defs
import Mathlib.Algebra.Field.Rat
import Mathlib.Data.Fintype.Basic

namespace Verif.Spec
open Finset

/-- Total cost of all jobs released at or after time 0 whose deadline is at most
`t`, if every task releases its jobs periodically from time 0 on. -/
def demand {n : ℕ} (C T D : Fin n → ℕ) (t : ℕ) : ℕ :=
  ∑ i, ((range (t + 1)).filter (fun k => k * T i + D i ≤ t)).card * C i

/-- Fraction of a processor needed in the long run. -/
def totalUtilization {n : ℕ} (C T : Fin n → ℕ) : ℚ := ∑ i, (C i : ℚ) / T i

end Verif.Spec
