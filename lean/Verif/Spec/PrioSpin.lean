/-
Specification: priority-ordered non-preemptive spin locks.  This file does not depend on the model.
-/
import Verif.Spec.Msrp

namespace Verif.Spec

/-- The runs of the tasks `S` under partitioned fixed-priority scheduling with non-preemptive spin locks that serve
waiting requests in the order of the priorities `lockPrio` of the requests of a task for a resource; smaller numbers are
higher priorities.  Requests of equal priority are served in any order. -/
structure PrioFp {n : ℕ} (S : LockSystem n) (prio : Fin n → ℕ) (lockPrio : Fin n → ℕ → ℕ) (R : LockRun n) : Prop
    extends NpSpinFp S prio R where
  /-- A job spins only while a request for the same resource is being served whose priority is no lower or
  which was being served when the job issued its request. -/
  byPrio : ∀ s q t, R.issued s → (S.reqs s.job.1)[s.idx]? = some q → S.Global q.res →
    R.enter s ≤ t → t < R.acquire s →
    ∃ s' q', R.issued s' ∧ (S.reqs s'.job.1)[s'.idx]? = some q' ∧ q'.res = q.res ∧
      (lockPrio s'.job.1 q.res ≤ lockPrio s.job.1 q.res ∨ R.acquire s' < R.enter s) ∧
      R.acquire s' ≤ t ∧ t < R.leave s'

/-- The same, with requests of equal priority served in FIFO order. -/
structure PrioFifoFp {n : ℕ} (S : LockSystem n) (prio : Fin n → ℕ) (lockPrio : Fin n → ℕ → ℕ) (R : LockRun n) : Prop
    extends NpSpinFp S prio R where
  /-- A job spins only while a request for the same resource is being served whose priority is higher, which has the
  same priority and was not issued later, or which was being served when the job issued its request. -/
  byPrio : ∀ s q t, R.issued s → (S.reqs s.job.1)[s.idx]? = some q → S.Global q.res →
    R.enter s ≤ t → t < R.acquire s →
    ∃ s' q', R.issued s' ∧ (S.reqs s'.job.1)[s'.idx]? = some q' ∧ q'.res = q.res ∧
      (lockPrio s'.job.1 q.res < lockPrio s.job.1 q.res ∨
        (lockPrio s'.job.1 q.res = lockPrio s.job.1 q.res ∧ R.enter s' ≤ R.enter s) ∨ R.acquire s' < R.enter s) ∧
      R.acquire s' ≤ t ∧ t < R.leave s'

end Verif.Spec
