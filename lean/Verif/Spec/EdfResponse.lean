/-
Specification: response times under uniprocessor EDF.  This file does not depend
on the model.
-/
import Verif.Spec.Schedule
import Mathlib.Algebra.Order.Field.Rat
import Mathlib.Data.Rat.Cast.Order

namespace Verif.Spec

/-- In every uniprocessor EDF schedule of the sporadic tasks, every job of task `i`
finishes within `R` time units after its release. -/
def RespondsWithin {n : ℕ} (C T D : Fin n → ℕ) (i : Fin n) (R : ℚ) : Prop :=
  ∀ (w : Workload n) (σ : Schedule n), w.Sporadic C T → ValidSchedule 1 w σ → EDF 1 w D σ →
    ∀ k t : ℕ, (w.release (i, k) : ℚ) + R ≤ t → Completed w σ (i, k) t

end Verif.Spec
