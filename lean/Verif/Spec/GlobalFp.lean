/-
Specification: preemptive global fixed-priority scheduling of sporadic tasks with
blocking, in discrete time.  This file does not depend on the model.

Task 0 has the highest priority.
-/
import Verif.Spec.Schedule

namespace Verif.Spec

/-- Global fixed-priority scheduling without blocking: a ready job waits only
while `m` jobs of higher-priority tasks execute (jobs of one task execute one
after the other). -/
def GlobalFp {n : ℕ} (m : ℕ) (w : Workload n) (σ : Schedule n) : Prop :=
  PriorityDriven m w (fun j => j.1) σ

open Classical in
/-- Global fixed-priority scheduling with blocking.  A ready job waits only while
`m` jobs of higher-priority tasks execute, or while it is blocked: `high j t` is
blocking by a job of a higher-priority task that executes in slot `t`, and
`low j t` is any other kind of blocking.  A job of task `i` is blocked in at most
`H i` and `L i` slots, respectively. -/
structure BlockedFp {n : ℕ} (m : ℕ) (C T L H : Fin n → ℕ) (w : Workload n) (σ : Schedule n)
    (low high : Job n → ℕ → Prop) : Prop where
  sporadic : w.Sporadic C T
  valid : ValidSchedule m w σ
  waits : ∀ t j, Ready w σ j t → j ∉ σ t →
    low j t ∨ high j t ∨ ((σ t).card = m ∧ ∀ j' ∈ σ t, j'.1 < j.1)
  high_exec : ∀ t j, high j t → ∃ j' ∈ σ t, j'.1 < j.1
  low_le : ∀ j t, ((Finset.range t).filter (low j)).card ≤ L j.1
  high_le : ∀ j t, ((Finset.range t).filter (high j)).card ≤ H j.1

end Verif.Spec
