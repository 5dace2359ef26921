/-
Specification: completion times of jobs.  This file does not depend on the
model.
-/
import Verif.Spec.Schedule

namespace Verif.Spec

/-- Job `j` finishes at time `t`: it is complete at `t` and not before. -/
def FinishesAt {n : ℕ} (w : Workload n) (σ : Schedule n) (j : Job n) (t : ℕ) : Prop :=
  Completed w σ j t ∧ ∀ u < t, ¬ Completed w σ j u

end Verif.Spec
