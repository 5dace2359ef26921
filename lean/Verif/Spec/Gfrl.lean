/-
Specification: global schedulers with fractional priority points, and the points that make the relative response times of
all tasks equal (G-FRL).  This file does not depend on the model.
-/
import Verif.Spec.Gel

namespace Verif.Spec

/-- `GEL` with fractional priority points. -/
def GELQ {n : ℕ} (m : ℕ) (w : Workload n) (Y : Fin n → ℚ) (σ : Schedule n) : Prop :=
  ∀ t j, Ready w σ j t → j ∉ σ t →
    (σ t).card = m ∧ ∀ j' ∈ σ t, (w.release j' : ℚ) + Y j'.1 ≤ w.release j + Y j.1

/-- Under the scheduler with priority points `Y`, every job of task `i` finishes within `B i` of its release. -/
def ResponseTimesBoundedQ {n : ℕ} (m : ℕ) (C T : Fin n → ℕ) (Y B : Fin n → ℚ) : Prop :=
  ∀ (w : Workload n) (σ : Schedule n), w.Sporadic C T → ValidSchedule m w σ → GELQ m w Y σ →
    ∀ (j : Job n) (t : ℕ), (w.release j : ℚ) + B j.1 ≤ t → Completed w σ j t

/-- `gelS` for a fractional priority point. -/
def gelSQ (C T : ℕ) (p : ℚ) : ℚ := max 0 ((C : ℚ) * (1 - p / T))

/-- `gelG` for a fractional priority point. -/
def gelGQ (m C T : ℕ) (p s : ℚ) : ℚ := (s - (C : ℚ) / m) * ((C : ℚ) / T) + C - gelSQ C T p

/-- `GelRoot` for fractional priority points. -/
def GelRootQ {n : ℕ} (m : ℕ) (C T : Fin n → ℕ) (p : Fin n → ℚ) (s : ℚ) : Prop :=
  ∃ Q, Largest (fun i => gelGQ m (C i) (T i) (p i) s) (⌈totalUtilization C T⌉ - 1).toNat Q ∧
    ∑ i ∈ Q, gelGQ m (C i) (T i) (p i) s + ∑ i, gelSQ (C i) (T i) (p i) = m * s

/-- The priority points for the relative response time `L` and the value `s`, for which the bound of each task is `L` times
its deadline. -/
def fairPoint (m C D : ℕ) (L s : ℚ) : ℚ := L * D - ((m : ℚ) - 1) / m * C - s

/-- `L` is the common ratio of the bounds on response times and the deadlines: the smallest priority point is 0, and `s` is
the root for the priority points. -/
structure FairRatio {n : ℕ} (m : ℕ) (C T D : Fin n → ℕ) (L s : ℚ) : Prop where
  nonneg : ∀ i, 0 ≤ fairPoint m (C i) (D i) L s
  smallest : ∃ i, fairPoint m (C i) (D i) L s = 0
  root : GelRootQ m C T (fun i => fairPoint m (C i) (D i) L s) s

end Verif.Spec
