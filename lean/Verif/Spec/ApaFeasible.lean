/-
Specification: feasibility of sporadic tasks with implicit deadlines under arbitrary
processor affinities, and exact solvers of linear programs.  This file does not depend on
the model.
-/
import Verif.Spec.Milp
import Mathlib.Data.Finset.Card
import Mathlib.Data.Finset.Range
import Mathlib.Data.Fintype.Basic

namespace Verif.Spec

/-- Sporadic tasks; the relative deadline of a task is its period.  `may i p`: task `i`
may execute on processor `p`. -/
structure AffinityTasks (n : ℕ) where
  cost : Fin n → ℕ
  period : Fin n → ℕ
  may : Fin n → ℕ → Prop

/-- Release times and execution requirements of the jobs of each task (a requirement of
0 stands for a job that does not exist). -/
structure JobArrivals (n : ℕ) where
  rel : Fin n → ℕ → ℕ
  need : Fin n → ℕ → ℕ

/-- Releases of a task are separated by its period and jobs do not exceed its cost. -/
structure AffinityTasks.Legal {n : ℕ} (S : AffinityTasks n) (A : JobArrivals n) : Prop where
  apart : ∀ i k, A.rel i k + S.period i ≤ A.rel i (k + 1)
  need : ∀ i k, A.need i k ≤ S.cost i

/-- A preemptive schedule, with `q` slots per time unit: which job (task and number)
executes in a slot on a processor.  Jobs execute only on permitted processors, on at most
one at a time, and not before their release. -/
structure AffinityTasks.Schedule {n : ℕ} (S : AffinityTasks n) (A : JobArrivals n) (q : ℕ)
    (σ : ℕ → ℕ → Option (Fin n × ℕ)) : Prop where
  may : ∀ s p i k, σ s p = some (i, k) → S.may i p
  once : ∀ s p p' j, σ s p = some j → σ s p' = some j → p = p'
  started : ∀ s p i k, σ s p = some (i, k) → A.rel i k * q ≤ s

open Classical in
/-- Each job executes for as long as it needs before its deadline. -/
def AffinityTasks.MeetsAll {n : ℕ} (S : AffinityTasks n) (A : JobArrivals n) (q : ℕ)
    (σ : ℕ → ℕ → Option (Fin n × ℕ)) : Prop :=
  ∀ i k, A.need i k * q ≤
    ((Finset.range ((A.rel i k + S.period i) * q)).filter
      fun s => ∃ p, σ s p = some (i, k)).card

/-- A solver that finds a feasible assignment whenever there is one. -/
def ExactSolver {V : Type} (solve : Milp V → Option (V → ℚ)) : Prop :=
  ∀ P, (∀ x, solve P = some x → P.Feasible x) ∧
    ((∃ x, P.Feasible x) → (solve P).isSome)

end Verif.Spec
