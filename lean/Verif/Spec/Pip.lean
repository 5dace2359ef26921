/-
Specification: sporadic tasks that share resources under preemptive global fixed-priority
scheduling with the priority inheritance protocol (PIP).  This file does not depend on the
model.

Task 0 has the highest priority.  A job that requests a resource suspends until it owns it;
a job that owns a resource inherits the priorities of the jobs that wait for it.  Requests are
not nested.  Processors of tasks (`LockSystem.proc`) play no role.
-/
import Verif.Spec.Msrp

namespace Verif.Spec
open Finset

namespace LockRun
variable {n : ℕ} (R : LockRun n)

/-- In slot `t`, the job of section `s` waits for the resource. -/
def Waits (s : Section n) (t : ℕ) : Prop := R.issued s ∧ R.enter s ≤ t ∧ t < R.acquire s

/-- In slot `t`, the job of section `s` owns the resource. -/
def Owns (s : Section n) (t : ℕ) : Prop := R.issued s ∧ R.acquire s ≤ t ∧ t < R.leave s

/-- Section `s` is for resource `r`. -/
def _root_.Verif.Spec.LockSystem.For (S : LockSystem n) (s : Section n) (r : ℕ) : Prop :=
  ∃ q, (S.reqs s.job.1)[s.idx]? = some q ∧ q.res = r

/-- In slot `t`, job `j` has the priority of task `a`: its own, or an inherited one. -/
def ActsFor (S : LockSystem n) (j : Job n) (a : Fin n) (t : ℕ) : Prop :=
  j.1 = a ∨ ∃ s s' r, R.Waits s t ∧ R.Owns s' t ∧ S.For s r ∧ S.For s' r ∧ s.job.1 = a ∧ s'.job = j

end LockRun

/-- Runs in which jobs suspend while they wait for a resource, whatever the scheduler and the locking
protocol. -/
structure RequestRun {n : ℕ} (m : ℕ) (S : LockSystem n) (R : LockRun n) : Prop where
  /-- Arrivals are sporadic, and costs respected. -/
  sporadic : R.work.Sporadic S.cost S.period
  /-- At most `m` jobs execute at a time, and only ready ones. -/
  valid : ValidSchedule m R.work R.sched
  /-- Jobs issue only declared requests. -/
  declared : ∀ s, R.issued s → ∃ q, (S.reqs s.job.1)[s.idx]? = some q ∧ s.inst < q.num
  /-- Events happen in this order. -/
  order : ∀ s, R.issued s → R.enter s ≤ R.acquire s ∧ R.acquire s ≤ R.leave s
  /-- A job requests a resource when it is its turn, and releases it before it finishes. -/
  active : ∀ s t, R.issued s → R.enter s ≤ t → t < R.leave s → Ready R.work R.sched s.job t
  /-- A resource is not used longer than declared. -/
  length : ∀ s q, R.issued s → (S.reqs s.job.1)[s.idx]? = some q →
    ((Ico (R.acquire s) (R.leave s)).filter (fun t => s.job ∈ R.sched t)).card ≤ q.len
  /-- Requests are not nested. -/
  serial : ∀ s s', R.issued s → R.issued s' → s.job = s'.job → s ≠ s' →
    R.leave s ≤ R.enter s' ∨ R.leave s' ≤ R.enter s
  /-- A waiting job does not execute. -/
  suspends : ∀ s t, R.Waits s t → s.job ∉ R.sched t

/-- Runs in which jobs wait only for resources that are in use. -/
structure SuspendRun {n : ℕ} (m : ℕ) (S : LockSystem n) (R : LockRun n) : Prop extends RequestRun m S R where
  /-- A resource has at most one owner. -/
  exclusive : ∀ s s' r t, R.Owns s t → R.Owns s' t → S.For s r → S.For s' r → s = s'
  /-- A job waits only for a resource that is owned. -/
  owned : ∀ s r t, R.Waits s t → S.For s r → ∃ s', R.Owns s' t ∧ S.For s' r

/-- The runs of the tasks `S` under global fixed-priority scheduling on `m` processors with the
PIP. -/
structure Pip {n : ℕ} (m : ℕ) (S : LockSystem n) (R : LockRun n) : Prop extends SuspendRun m S R where
  /-- A resource is not granted to a job while one of a higher-priority task waits for it. -/
  queue : ∀ s s' r, R.issued s → R.issued s' → S.For s r → S.For s' r →
    R.enter s < R.acquire s' → R.acquire s' < R.acquire s → s'.job.1 ≤ s.job.1
  /-- A ready job that does not wait for a resource is delayed only while `m` jobs execute whose
  (inherited) priority is no lower. -/
  dispatch : ∀ t j, Ready R.work R.sched j t → j ∉ R.sched t → (∀ s, R.Waits s t → s.job ≠ j) →
    (R.sched t).card = m ∧ ∀ j' ∈ R.sched t, ∃ a, R.ActsFor S j' a t ∧ ∀ b, R.ActsFor S j b t → a ≤ b

/-- The runs of the parallel priority ceiling protocol (P-PCP) in which its limits have no effect.
The P-PCP is the PIP, except that a free resource may be withheld from a job while a certain number
of lower-priority jobs (the parameter of the task, here at least `m`) own resources.  If never more
than `m` resources are owned, none is withheld. -/
structure UnlimitedPpcp {n : ℕ} (m : ℕ) (S : LockSystem n) (R : LockRun n) : Prop extends Pip m S R where
  owners : ∀ t (F : Finset (Section n)), (∀ s ∈ F, R.Owns s t) → F.card ≤ m

end Verif.Spec
