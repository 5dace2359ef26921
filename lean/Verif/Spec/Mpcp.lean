/-
Specification: sporadic tasks that share resources under partitioned fixed-priority scheduling with the
multiprocessor priority ceiling protocol (MPCP).  This file does not depend on the model.

Each task is assigned to a processor; smaller numbers are higher priorities.  A job that requests a
resource suspends until it owns it.  Requests for a resource are served in the order of the priorities of
the jobs.  A job that owns a resource has priority over all jobs of its processor that own none; among
such jobs, the order is given by the highest priority of a task on another processor that uses the
resource (the remote ceiling).  Requests are not nested.
-/
import Verif.Spec.Fmlp

namespace Verif.Spec
open Finset

/-- On processor `c`, the remote ceiling of resource `r` is at least that of `r'`. -/
def LockSystem.CeilingGe {n : ℕ} (S : LockSystem n) (prio : Fin n → ℕ) (c r r' : ℕ) : Prop :=
  ∀ x, S.proc x ≠ c → S.Uses x r' → ∃ y, S.proc y ≠ c ∧ S.Uses y r ∧ prio y ≤ prio x

/-- The runs of the tasks `S` under partitioned fixed-priority scheduling with the MPCP. -/
structure Mpcp {n : ℕ} (S : LockSystem n) (prio : Fin n → ℕ) (R : LockRun n) : Prop extends PartRun S R where
  /-- A resource is not granted to a job while one of higher priority waits for it. -/
  queue : ∀ s s' r, R.issued s → R.issued s' → S.For s r → S.For s' r →
    R.enter s < R.acquire s' → R.acquire s' < R.acquire s → prio s'.job.1 ≤ prio s.job.1
  /-- A ready job that does not wait for a resource is delayed only while its processor executes
  another one that owns a resource with a remote ceiling no lower than that of a resource owned by the
  delayed job or, if the delayed job owns none, whose priority is no lower. -/
  dispatch : ∀ t j, Ready R.work R.sched j t → j ∉ R.sched t → (∀ s, s.job = j → ¬ R.Waits s t) →
    ∃ j' ∈ R.sched t, S.proc j'.1 = S.proc j.1 ∧
      ((∃ s' r', s'.job = j' ∧ R.Owns s' t ∧ S.For s' r' ∧
          ∀ s r, s.job = j → R.Owns s t → S.For s r → S.CeilingGe prio (S.proc j.1) r' r) ∨
        (∀ s, s.job = j → ¬ R.Owns s t) ∧ prio j'.1 ≤ prio j.1)
  /-- A job issues a request only if no higher-priority job occupies the processor: one that is ready
  and does not wait in the slot before the request, and is still unfinished, has suspended in between. -/
  issue : ∀ s j, R.issued s → 0 < R.enter s → S.proc j.1 = S.proc s.job.1 → prio j.1 < prio s.job.1 →
    Ready R.work R.sched j (R.enter s - 1) → (∀ s', s'.job = j → ¬ R.Waits s' (R.enter s - 1)) →
    Ready R.work R.sched j (R.enter s) → ∃ s', s'.job = j ∧ R.Waits s' (R.enter s)
  /-- A job issues no request while another job on its processor owns a resource. -/
  boosted : ∀ s s', R.issued s → 0 < R.enter s → S.proc s'.job.1 = S.proc s.job.1 → s'.job ≠ s.job →
    R.Owns s' (R.enter s - 1) → ¬ R.Owns s' (R.enter s)

end Verif.Spec
