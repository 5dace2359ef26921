/-
Specification: uniprocessor fixed-priority scheduling of sporadic tasks with
release jitter, self-suspensions and priority inversion, in discrete time.  This
file does not depend on the model.

Task 0 has the highest priority.
-/
import Verif.Spec.Schedule
import Mathlib.Order.Interval.Finset.Nat

namespace Verif.Spec

/-- Parameters of the tasks: cost, period, maximum release jitter, maximum
self-suspension, maximum priority inversion. -/
structure FpParams (n : ℕ) where
  C : Fin n → ℕ
  T : Fin n → ℕ
  J : Fin n → ℕ
  S : Fin n → ℕ
  B : Fin n → ℕ

/-- A concrete behaviour: arrival times, release times and execution times of the
jobs, the slots in which a job is suspended, and the schedule. -/
structure FpBehaviour (n : ℕ) where
  arrival : Job n → ℕ
  work : Workload n
  suspended : Job n → ℕ → Prop
  sched : Schedule n

namespace FpBehaviour
variable {n : ℕ}

/-- Job `j` is pending at the head of the queue of its task (it may be
suspended). -/
def Active (b : FpBehaviour n) (j : Job n) (t : ℕ) : Prop := Ready b.work b.sched j t

/-- Slot `t` is a priority inversion for task `k`: a job of priority at least
`k` is active and not suspended, but no job of priority at least `k` executes. -/
def Inversion (b : FpBehaviour n) (k : Fin n) (t : ℕ) : Prop :=
  (∃ j : Job n, j.1 ≤ k ∧ b.Active j t ∧ ¬ b.suspended j t) ∧ ∀ j ∈ b.sched t, k < j.1

/-- Throughout `[s, e)`, task `k` or a higher-priority task that never suspends
has a pending job. -/
def Busy (b : FpBehaviour n) (p : FpParams n) (k : Fin n) (s e : ℕ) : Prop :=
  ∀ t, s ≤ t → t < e → ∃ j : Job n, (j.1 = k ∨ j.1 < k ∧ p.S j.1 = 0) ∧ Pending b.work b.sched j t

open Classical in
/-- The behaviour respects the task parameters. -/
structure Legal (b : FpBehaviour n) (p : FpParams n) : Prop where
  /-- arrivals are sporadic -/
  separated : ∀ i k, b.arrival (i, k) + p.T i ≤ b.arrival (i, k + 1)
  /-- a job is released between its arrival and `J` time units later -/
  not_early : ∀ j, b.arrival j ≤ b.work.release j
  jitter : ∀ j : Job n, b.work.release j ≤ b.arrival j + p.J j.1
  /-- the jobs of a task are released in order -/
  in_order : ∀ i k, b.work.release (i, k) ≤ b.work.release (i, k + 1)
  wcet : ∀ j : Job n, b.work.exec j ≤ p.C j.1
  /-- while active, a job is suspended in at most `S` slots -/
  suspension : ∀ (j : Job n) (t : ℕ),
    ((Finset.range t).filter (fun s => b.Active j s ∧ b.suspended j s)).card ≤ p.S j.1
  /-- one processor, sequential tasks; suspended jobs do not execute -/
  valid : ValidSchedule 1 b.work b.sched
  not_suspended : ∀ t, ∀ j ∈ b.sched t, ¬ b.suspended j t
  /-- fixed-priority scheduling with bounded priority inversion: within a busy
  window of task `k` there are at most `B` inversions (none if `B = 0`) -/
  inversion : ∀ k s e, b.Busy p k s e →
    ((Finset.Ico s e).filter (fun t => b.Inversion k t)).card ≤ p.B k

end FpBehaviour
end Verif.Spec
