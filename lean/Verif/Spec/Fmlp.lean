/-
Specification: sporadic tasks that share resources under partitioned fixed-priority scheduling with the
preemptive FIFO multiprocessor locking protocol (FMLP+).  This file does not depend on the model.

Each task is assigned to a processor; smaller numbers are higher priorities.  A job that requests a
resource suspends until it owns it.  Requests for a resource are served in FIFO order.  A job that
owns a resource has priority over all jobs of its processor that own none (it is boosted); among such
jobs, the one whose request was issued first has priority.  Requests are not nested.
-/
import Verif.Spec.Pip

namespace Verif.Spec
open Finset

namespace LockRun
variable {n : ℕ} (R : LockRun n)

/-- The resource that the job of section `s` waits for is, in slot `t`, owned by a job on the same
processor. -/
def LocalWait (S : LockSystem n) (s : Section n) (t : ℕ) : Prop :=
  ∃ s' r, R.Owns s' t ∧ S.For s r ∧ S.For s' r ∧ S.proc s'.job.1 = S.proc s.job.1

/-- In slot `t`, the processor of job `j` has no time for jobs without a resource whose priority is
lower than that of `j`: `j` is ready and either does not wait or waits for a resource owned by a job on the
same processor. -/
def Occupies (S : LockSystem n) (j : Job n) (t : ℕ) : Prop :=
  Ready R.work R.sched j t ∧ ∀ s, s.job = j → R.Waits s t → R.LocalWait S s t

end LockRun

/-- Runs of partitioned systems in which jobs suspend while they wait for a resource.  (The jobs of a
task execute one after the other, so at most `n` jobs execute at a time anyway.) -/
structure PartRun {n : ℕ} (S : LockSystem n) (R : LockRun n) : Prop extends SuspendRun n S R where
  /-- A processor executes one job at a time. -/
  one : ∀ t, ∀ j ∈ R.sched t, ∀ j' ∈ R.sched t, S.proc j.1 = S.proc j'.1 → j = j'
  /-- The intervals in which a resource is owned do not overlap. -/
  mutex : ∀ s s' r, R.issued s → R.issued s' → S.For s r → S.For s' r → s ≠ s' →
    R.leave s ≤ R.acquire s' ∨ R.leave s' ≤ R.acquire s

/-- The runs of the tasks `S` under partitioned fixed-priority scheduling with the FMLP+.  `ticket` is the
order in which the requests are issued. -/
structure FmlpPlus {n : ℕ} (S : LockSystem n) (prio : Fin n → ℕ) (ticket : Section n → ℕ) (R : LockRun n) : Prop
    extends PartRun S R where
  /-- Requests issued earlier have smaller tickets. -/
  tickets : ∀ s s', R.issued s → R.issued s' → R.enter s < R.enter s' → ticket s < ticket s'
  /-- Requests are served in FIFO order: the owner of a resource has requested it before those who wait. -/
  fifo : ∀ s s' r t, R.Waits s t → R.Owns s' t → S.For s r → S.For s' r → ticket s' < ticket s
  /-- A ready job that does not wait for a resource is delayed only while its processor executes
  another one that is boosted and has issued its request no later or, if the delayed job is not
  boosted, whose priority is no lower. -/
  dispatch : ∀ t j, Ready R.work R.sched j t → j ∉ R.sched t → (∀ s, s.job = j → ¬ R.Waits s t) →
    ∃ j' ∈ R.sched t, S.proc j'.1 = S.proc j.1 ∧
      ((∃ s', s'.job = j' ∧ R.Owns s' t ∧ ∀ s, s.job = j → R.Owns s t → ticket s' ≤ ticket s) ∨
        (∀ s, s.job = j → ¬ R.Owns s t) ∧ prio j'.1 ≤ prio j.1)
  /-- A job issues a request only if no higher-priority job occupies the processor.  If job `j` occupies
  the processor in the slot before the request and is still unfinished, it has
  suspended in between, and its own request was issued first. -/
  issue : ∀ s j, R.issued s → 0 < R.enter s → S.proc j.1 = S.proc s.job.1 → prio j.1 < prio s.job.1 →
    R.Occupies S j (R.enter s - 1) → Ready R.work R.sched j (R.enter s) →
    ¬ R.Occupies S j (R.enter s) ∧ ∀ s', s'.job = j → R.Waits s' (R.enter s) → ticket s' < ticket s

end Verif.Spec
