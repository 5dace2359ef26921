/-
Specification: sporadic tasks that share resources under partitioned fixed-priority scheduling and preemptable
priority-ordered spin locks.  This file does not depend on the model.

A job that requests a global resource spins until it is its turn and remains preemptable while it spins.  If it is
preempted, its request is cancelled, and it is issued anew when the job executes again.  A job that owns a global resource
is not preempted.  Local resources are managed by the stack resource policy.  Requests are not nested.
-/
import Verif.Spec.FifoPreempt

namespace Verif.Spec
open Finset

variable {n : ℕ}

/-- The runs of the tasks `S` under partitioned fixed-priority scheduling with preemptable spin locks that serve waiting
requests in the order of the priorities `lockPrio` of the requests of a task for a resource; smaller numbers are higher
priorities.  Requests of equal priority are served in any order. -/
structure PreemptPrioFp (S : LockSystem n) (prio : Fin n → ℕ) (lockPrio : Fin n → ℕ → ℕ) (R : LockRun n) : Prop where
  /-- Arrivals are sporadic. -/
  separated : ∀ i k, R.work.release (i, k) + S.period i ≤ R.work.release (i, k + 1)
  /-- A job that has executed for its cost, apart from spinning, is complete. -/
  cost : ∀ j t, ¬ Completed R.work R.sched j t → R.progress j t < S.cost j.1
  /-- A processor executes one job at a time. -/
  one : ∀ t, ∀ j ∈ R.sched t, ∀ j' ∈ R.sched t, S.proc j.1 = S.proc j'.1 → j = j'
  /-- Only ready jobs execute. -/
  ready : ∀ t, ∀ j ∈ R.sched t, Ready R.work R.sched j t
  /-- Jobs issue only declared requests. -/
  declared : ∀ s, R.issued s → ∃ q, (S.reqs s.job.1)[s.idx]? = some q ∧ s.inst < q.num
  /-- Events happen in this order. -/
  order : ∀ s, R.issued s → R.enter s ≤ R.acquire s ∧ R.acquire s ≤ R.leave s
  /-- A request is issued by an executing job. -/
  starts : ∀ s, R.issued s → R.enter s < R.leave s → s.job ∈ R.sched (R.enter s)
  /-- A resource is not used longer than declared. -/
  length : ∀ s q, R.issued s → (S.reqs s.job.1)[s.idx]? = some q →
    ((Ico (R.acquire s) (R.leave s)).filter (fun t => s.job ∈ R.sched t)).card ≤ q.len
  /-- Requests are not nested. -/
  serial : ∀ s s', R.issued s → R.issued s' → s.job = s'.job → s ≠ s' →
    R.leave s ≤ R.enter s' ∨ R.leave s' ≤ R.enter s
  /-- Local resources are acquired at once. -/
  immediate : ∀ s q, R.issued s → (S.reqs s.job.1)[s.idx]? = some q → ¬ S.Global q.res →
    R.acquire s = R.enter s
  /-- A job is not preempted while it uses a global resource. -/
  nonpreemptive : ∀ s q t, R.issued s → (S.reqs s.job.1)[s.idx]? = some q → S.Global q.res →
    R.acquire s ≤ t → t < R.leave s → s.job ∈ R.sched t
  /-- A global resource is used by one job at a time. -/
  exclusive : ∀ s s' q q' t, R.issued s → R.issued s' → (S.reqs s.job.1)[s.idx]? = some q →
    (S.reqs s'.job.1)[s'.idx]? = some q' → q.res = q'.res → S.Global q.res → R.acquire s ≤ t → t < R.leave s →
    R.acquire s' ≤ t → t < R.leave s' → s = s'
  /-- A job spins only while a request for the same resource is being served whose priority is no lower or which was being
  served when the job issued its request for the last time. -/
  byPrio : ∀ s q t, R.issued s → (S.reqs s.job.1)[s.idx]? = some q → S.Global q.res →
    R.enter s ≤ t → t < R.acquire s → s.job ∈ R.sched t →
    ∃ s' q', R.issued s' ∧ (S.reqs s'.job.1)[s'.idx]? = some q' ∧ q'.res = q.res ∧
      (lockPrio s'.job.1 q.res ≤ lockPrio s.job.1 q.res ∨ R.acquire s' < R.since s t) ∧
      R.acquire s' ≤ t ∧ t < R.leave s'
  /-- While a local resource is in use, only jobs with a priority higher than that of every user of the resource may
  execute on the processor. -/
  ceiling : ∀ s q t, R.issued s → (S.reqs s.job.1)[s.idx]? = some q → ¬ S.Global q.res →
    R.enter s ≤ t → t < R.leave s → ∀ j ∈ R.sched t, S.proc j.1 = S.proc s.job.1 → j ≠ s.job →
    ∀ k, S.Uses k q.res → prio j.1 < prio k
  /-- A ready job waits only while its processor executes a job with no lower priority or one that has, in an earlier slot,
  acquired a resource which is global or has a user whose priority is no lower than that of the waiting job. -/
  fp : ∀ t j, Ready R.work R.sched j t → j ∉ R.sched t →
    ∃ j' ∈ R.sched t, S.proc j'.1 = S.proc j.1 ∧ (prio j'.1 ≤ prio j.1 ∨
      ∃ s q, R.issued s ∧ s.job = j' ∧ (S.reqs s.job.1)[s.idx]? = some q ∧
        R.acquire s < t ∧ t < R.leave s ∧
        (S.Global q.res ∨ ∃ k, S.Uses k q.res ∧ prio k ≤ prio j.1))

/-- The same, with requests of equal priority served in the order in which they were issued for the last time. -/
structure PreemptPrioFifoFp (S : LockSystem n) (prio : Fin n → ℕ) (lockPrio : Fin n → ℕ → ℕ) (R : LockRun n) : Prop
    extends PreemptPrioFp S prio lockPrio R where
  /-- A job spins only while a request for the same resource is being served whose priority is higher, which has the same
  priority and was not issued later, or which was being served when the job issued its request for the last time. -/
  byPrioFifo : ∀ s q t, R.issued s → (S.reqs s.job.1)[s.idx]? = some q → S.Global q.res →
    R.enter s ≤ t → t < R.acquire s → s.job ∈ R.sched t →
    ∃ s' q', R.issued s' ∧ (S.reqs s'.job.1)[s'.idx]? = some q' ∧ q'.res = q.res ∧
      (lockPrio s'.job.1 q.res < lockPrio s.job.1 q.res ∨
        (lockPrio s'.job.1 q.res = lockPrio s.job.1 q.res ∧ R.since s' (R.acquire s') ≤ R.since s t) ∨
        R.acquire s' < R.since s t) ∧
      R.acquire s' ≤ t ∧ t < R.leave s'

end Verif.Spec
