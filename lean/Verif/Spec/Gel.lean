/-
Specification: global schedulers with a fixed priority point per job, bounds on
response times, and "the `k` largest".  This file does not depend on the model.
-/
import Verif.Spec.Schedule
import Mathlib.Data.Rat.Defs
import Verif.Spec.Demand
import Mathlib.Algebra.Order.Ring.Unbundled.Rat
import Mathlib.Data.Rat.Floor

namespace Verif.Spec

/-- A job of task `i` has its priority point `Y i` after its release (before it,
if `Y i` is negative).  A ready job waits only while `m` jobs of no later priority
point execute; ties may be broken in any way. -/
def GEL {n : ℕ} (m : ℕ) (w : Workload n) (Y : Fin n → ℤ) (σ : Schedule n) : Prop :=
  ∀ t j, Ready w σ j t → j ∉ σ t →
    (σ t).card = m ∧ ∀ j' ∈ σ t, (w.release j' : ℤ) + Y j'.1 ≤ w.release j + Y j.1

/-- Under the scheduler with priority points `Y`, every job of task `i` finishes
within `B i` of its release, for every legal arrival sequence and behaviour. -/
def ResponseTimesBounded {n : ℕ} (m : ℕ) (C T : Fin n → ℕ) (Y B : Fin n → ℤ) : Prop :=
  ∀ (w : Workload n) (σ : Schedule n), w.Sporadic C T → ValidSchedule m w σ → GEL m w Y σ →
    ∀ (j : Job n) (t : ℕ), (w.release j : ℤ) + B j.1 ≤ t → Completed w σ j t

/-- `Q` consists of `k` positions of largest value (all, if there are fewer). -/
structure Largest {n : ℕ} (v : Fin n → ℚ) (k : ℕ) (Q : Finset (Fin n)) : Prop where
  card : Q.card = min k n
  top : ∀ i ∈ Q, ∀ j ∉ Q, v j ≤ v i

/-- `S_i` of Erickson and Anderson: the part of the cost that a task executing at
its utilization from the release on leaves for after its priority point `p`. -/
def gelS (C T : ℕ) (p : ℤ) : ℚ := max 0 ((C : ℚ) * (1 - (p : ℚ) / T))

/-- The contribution `x_i U_i + C_i - S_i` of a task, with `x_i = s - C_i / m`. -/
def gelG (m C T : ℕ) (p : ℤ) (s : ℚ) : ℚ := (s - (C : ℚ) / m) * ((C : ℚ) / T) + C - gelS C T p

/-- `s` is a root of the function: `m s` is the sum of the `⌈U⌉ - 1` largest
contributions at `s` and of all `S_i`. -/
def GelRoot {n : ℕ} (m : ℕ) (C T : Fin n → ℕ) (p : Fin n → ℤ) (s : ℚ) : Prop :=
  ∃ Q, Largest (fun i => gelG m (C i) (T i) (p i) s) (⌈totalUtilization C T⌉ - 1).toNat Q ∧
    ∑ i ∈ Q, gelG m (C i) (T i) (p i) s + ∑ i, gelS (C i) (T i) (p i) = m * s

/-- `s` is legal: `m s` is at least that sum. -/
def GelLegal {n : ℕ} (m : ℕ) (C T : Fin n → ℕ) (p : Fin n → ℤ) (s : ℚ) : Prop :=
  ∃ Q, Largest (fun i => gelG m (C i) (T i) (p i) s) (⌈totalUtilization C T⌉ - 1).toNat Q ∧
    ∑ i ∈ Q, gelG m (C i) (T i) (p i) s + ∑ i, gelS (C i) (T i) (p i) ≤ m * s

end Verif.Spec
