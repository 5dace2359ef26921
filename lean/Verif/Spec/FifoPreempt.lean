/-
Specification: sporadic tasks that share resources under partitioned EDF scheduling and preemptable FIFO spin locks.
This file does not depend on the model.

A job that requests a global resource spins in a FIFO queue and remains preemptable while it spins.  If it is preempted,
its request is cancelled, and it is issued anew, at the end of the queue, when the job executes again.  A job that owns a
global resource is not preempted.  Local resources are managed by the stack resource policy.  Requests are not nested.
-/
import Verif.Spec.Msrp

namespace Verif.Spec
open Finset

variable {n : ℕ}

/-- Job `j` waits for a resource at time `t`: if it executes, it spins. -/
def LockRun.Waiting (R : LockRun n) (j : Job n) (t : ℕ) : Prop :=
  ∃ s, R.issued s ∧ s.job = j ∧ R.enter s ≤ t ∧ t < R.acquire s

open Classical in
/-- How long job `j` has executed until time `t`, not counting the time it has spun. -/
noncomputable def LockRun.progress (R : LockRun n) (j : Job n) (t : ℕ) : ℕ :=
  ((range t).filter (fun u => j ∈ R.sched u ∧ ¬ R.Waiting j u)).card

/-- When the request that is pending in slot `t` was issued for the last time: the first slot since which the job has
executed without a break. -/
def LockRun.since (R : LockRun n) (s : Section n) : ℕ → ℕ
  | 0 => 0
  | t + 1 => if R.enter s ≤ t ∧ s.job ∈ R.sched t then R.since s t else t + 1

/-- Job `j'` has an earlier deadline than `j`; ties among tasks are broken by `tie`. -/
def LockRun.Precedes (R : LockRun n) (S : LockSystem n) (tie : Fin n → ℕ) (j' j : Job n) : Prop :=
  R.work.deadline S.deadline j' < R.work.deadline S.deadline j ∨
    R.work.deadline S.deadline j' = R.work.deadline S.deadline j ∧ tie j'.1 < tie j.1

/-- The runs of the tasks `S` under partitioned EDF with preemptable FIFO spin locks. -/
structure FifoPreempt (S : LockSystem n) (tie : Fin n → ℕ) (R : LockRun n) : Prop where
  /-- Arrivals are sporadic. -/
  separated : ∀ i k, R.work.release (i, k) + S.period i ≤ R.work.release (i, k + 1)
  /-- A job that has executed for its cost, apart from spinning, is complete. -/
  cost : ∀ j t, ¬ Completed R.work R.sched j t → R.progress j t < S.cost j.1
  /-- A processor executes one job at a time. -/
  one : ∀ t, ∀ j ∈ R.sched t, ∀ j' ∈ R.sched t, S.proc j.1 = S.proc j'.1 → j = j'
  /-- Only ready jobs execute. -/
  ready : ∀ t, ∀ j ∈ R.sched t, Ready R.work R.sched j t
  /-- Jobs issue only declared requests. -/
  declared : ∀ s, R.issued s → ∃ q, (S.reqs s.job.1)[s.idx]? = some q ∧ s.inst < q.num
  /-- Events happen in this order. -/
  order : ∀ s, R.issued s → R.enter s ≤ R.acquire s ∧ R.acquire s ≤ R.leave s
  /-- A request is issued by an executing job. -/
  starts : ∀ s, R.issued s → R.enter s < R.leave s → s.job ∈ R.sched (R.enter s)
  /-- A resource is not used longer than declared. -/
  length : ∀ s q, R.issued s → (S.reqs s.job.1)[s.idx]? = some q →
    ((Ico (R.acquire s) (R.leave s)).filter (fun t => s.job ∈ R.sched t)).card ≤ q.len
  /-- Requests are not nested. -/
  serial : ∀ s s', R.issued s → R.issued s' → s.job = s'.job → s ≠ s' →
    R.leave s ≤ R.enter s' ∨ R.leave s' ≤ R.enter s
  /-- Local resources are acquired at once. -/
  immediate : ∀ s q, R.issued s → (S.reqs s.job.1)[s.idx]? = some q → ¬ S.Global q.res →
    R.acquire s = R.enter s
  /-- A job is not preempted while it uses a global resource. -/
  nonpreemptive : ∀ s q t, R.issued s → (S.reqs s.job.1)[s.idx]? = some q → S.Global q.res →
    R.acquire s ≤ t → t < R.leave s → s.job ∈ R.sched t
  /-- A job spins only while a request for the same resource is being served that was not issued, for the last time, later
  than the request of the job. -/
  fifo : ∀ s q t, R.issued s → (S.reqs s.job.1)[s.idx]? = some q → S.Global q.res →
    R.enter s ≤ t → t < R.acquire s → s.job ∈ R.sched t →
    ∃ s' q', R.issued s' ∧ (S.reqs s'.job.1)[s'.idx]? = some q' ∧ q'.res = q.res ∧
      R.since s' (R.acquire s') ≤ R.since s t ∧ R.acquire s' ≤ t ∧ t < R.leave s'
  /-- While a local resource is in use, only jobs with a relative deadline shorter than that of every user of the resource
  may execute on the processor. -/
  ceiling : ∀ s q t, R.issued s → (S.reqs s.job.1)[s.idx]? = some q → ¬ S.Global q.res →
    R.enter s ≤ t → t < R.leave s → ∀ j ∈ R.sched t, S.proc j.1 = S.proc s.job.1 → j ≠ s.job →
    ∀ k, S.Uses k q.res → S.deadline j.1 < S.deadline k
  /-- A ready job waits only while its processor executes a job that precedes it or one that has, in an earlier slot,
  acquired a resource which is global or has a user whose relative deadline is no longer than that of the waiting job. -/
  edf : ∀ t j, Ready R.work R.sched j t → j ∉ R.sched t →
    ∃ j' ∈ R.sched t, S.proc j'.1 = S.proc j.1 ∧ (R.Precedes S tie j' j ∨
      ∃ s q, R.issued s ∧ s.job = j' ∧ (S.reqs s.job.1)[s.idx]? = some q ∧
        R.acquire s < t ∧ t < R.leave s ∧
        (S.Global q.res ∨ ∃ k, S.Uses k q.res ∧ S.deadline k ≤ S.deadline j.1))

end Verif.Spec
