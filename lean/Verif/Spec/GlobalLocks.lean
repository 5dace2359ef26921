/-
Specification: sporadic tasks that share resources under preemptive global fixed-priority scheduling, with
different orders of the waiting requests and with or without priority inheritance.  This file does not depend on
the model.

Task 0 has the highest priority.  A job that requests a resource suspends until it owns it.  Requests are not nested.
-/
import Verif.Spec.Pip

namespace Verif.Spec

/-- Requests are served in FIFO order: the owner of a resource has requested it no later than those who wait. -/
def FifoQueues {n : ℕ} (S : LockSystem n) (R : LockRun n) : Prop :=
  ∀ s s' r t, R.Waits s t → R.Owns s' t → S.For s r → S.For s' r → R.enter s' ≤ R.enter s

/-- A resource is not granted to a job while one of a higher-priority task waits for it. -/
def PriorityQueues {n : ℕ} (S : LockSystem n) (R : LockRun n) : Prop :=
  ∀ s s' r, R.issued s → R.issued s' → S.For s r → S.For s' r →
    R.enter s < R.acquire s' → R.acquire s' < R.acquire s → s'.job.1 ≤ s.job.1

/-- A resource is released by an executing job. -/
def ExecutesUntilRelease {n : ℕ} (R : LockRun n) : Prop :=
  ∀ s, R.issued s → R.acquire s < R.leave s → s.job ∈ R.sched (R.leave s - 1)

/-- The runs of the tasks `S` under global fixed-priority scheduling on `m` processors without any provision for
jobs that own resources: a ready job that does not wait for a resource is delayed only while `m` jobs of
higher-priority tasks execute. -/
structure PlainLocks {n : ℕ} (m : ℕ) (S : LockSystem n) (R : LockRun n) : Prop extends SuspendRun m S R where
  dispatch : ∀ t j, Ready R.work R.sched j t → j ∉ R.sched t → (∀ s, R.Waits s t → s.job ≠ j) →
    (R.sched t).card = m ∧ ∀ j' ∈ R.sched t, j'.1 < j.1

/-- The runs of the tasks `S` under global fixed-priority scheduling on `m` processors with priority inheritance: a
ready job that does not wait for a resource is delayed only while `m` jobs execute whose (inherited) priority is no
lower. -/
structure InheritLocks {n : ℕ} (m : ℕ) (S : LockSystem n) (R : LockRun n) : Prop extends SuspendRun m S R where
  dispatch : ∀ t j, Ready R.work R.sched j t → j ∉ R.sched t → (∀ s, R.Waits s t → s.job ≠ j) →
    (R.sched t).card = m ∧ ∀ j' ∈ R.sched t, ∃ a, R.ActsFor S j' a t ∧ ∀ b, R.ActsFor S j b t → a ≤ b

end Verif.Spec
