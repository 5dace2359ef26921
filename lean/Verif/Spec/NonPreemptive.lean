/-
Specification: non-preemptive global EDF.  This file does not depend on the model.
-/
import Verif.Spec.Gel

namespace Verif.Spec

/-- A job that has begun executes until it is finished. -/
def NonPreemptive {n : ℕ} (w : Workload n) (σ : Schedule n) : Prop :=
  ∀ t j, 0 < service σ j t → ¬ Completed w σ j t → j ∈ σ t

/-- Non-preemptive global EDF: a ready job waits only while `m` jobs execute each of
which has begun earlier or has no later deadline. -/
def NpEDF {n : ℕ} (m : ℕ) (w : Workload n) (D : Fin n → ℕ) (σ : Schedule n) : Prop :=
  NonPreemptive w σ ∧ ∀ t j, Ready w σ j t → j ∉ σ t →
    (σ t).card = m ∧ ∀ j' ∈ σ t, 0 < service σ j' t ∨ w.deadline D j' ≤ w.deadline D j

/-- Under non-preemptive global EDF, every job of task `i` finishes within `B i` of
its release, for every legal arrival sequence and behaviour. -/
def NpResponseTimesBounded {n : ℕ} (m : ℕ) (C T D : Fin n → ℕ) (B : Fin n → ℤ) : Prop :=
  ∀ (w : Workload n) (σ : Schedule n), w.Sporadic C T → ValidSchedule m w σ → NpEDF m w D σ →
    ∀ (j : Job n) (t : ℕ), (w.release j : ℤ) + B j.1 ≤ t → Completed w σ j t

/-- Under preemptive global EDF, every job of task `i` finishes within `B i` of its
release. -/
def EdfResponseTimesBounded {n : ℕ} (m : ℕ) (C T D : Fin n → ℕ) (B : Fin n → ℤ) : Prop :=
  ∀ (w : Workload n) (σ : Schedule n), w.Sporadic C T → ValidSchedule m w σ → EDF m w D σ →
    ∀ (j : Job n) (t : ℕ), (w.release j : ℤ) + B j.1 ≤ t → Completed w σ j t

end Verif.Spec
