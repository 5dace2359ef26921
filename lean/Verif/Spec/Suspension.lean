/-
Specification: global EDF scheduling of jobs that suspend themselves.
-/
import Verif.Spec.Schedule

namespace Verif.Spec

/-- In which slots each job is suspended. -/
abbrev Suspensions (n : ℕ) := Job n → Finset ℕ

/-- Job `j` can execute in slot `t`. -/
def Available {n : ℕ} (w : Workload n) (susp : Suspensions n) (σ : Schedule n) (j : Job n) (t : ℕ) : Prop :=
  Ready w σ j t ∧ t ∉ susp j

/-- The sporadic tasks, whose jobs suspend themselves for at most `S i` slots each, never
miss a deadline under global EDF. -/
def SuspensionSchedulable {n : ℕ} (m : ℕ) (C S T D : Fin n → ℕ) : Prop :=
  ∀ (w : Workload n) (susp : Suspensions n) (σ : Schedule n), w.Sporadic C T →
    (∀ i k, (susp (i, k)).card ≤ S i) →
    (∀ t, (σ t).card ≤ m ∧ ∀ j ∈ σ t, Available w susp σ j t) →
    (∀ t j, Available w susp σ j t → j ∉ σ t →
      (σ t).card = m ∧ ∀ j' ∈ σ t, w.deadline D j' ≤ w.deadline D j) →
    MeetsDeadlines w D σ

end Verif.Spec
