/-
Specification: sporadic tasks that share resources under partitioned EDF or fixed-priority
scheduling and the multiprocessor stack resource policy (MSRP).  This file does not depend on the model.

Each task is assigned to a processor.  A resource used on one processor only is local and is
managed by the stack resource policy; any other resource is global: a job that requests it
becomes non-preemptable, spins until it is its turn in FIFO order, uses the resource
and only then becomes preemptable again.  Requests are not nested.
-/
import Verif.Spec.Schedule
import Verif.Spec.Demand
import Mathlib.Data.Finset.Lattice.Fold
import Mathlib.Algebra.BigOperators.Group.Finset.Basic
import Mathlib.Order.Interval.Finset.Nat

namespace Verif.Spec
open Finset

/-- A job of the task may request resource `res` up to `num` times, each time for at most
`len` time units. -/
structure Req where
  res : ℕ
  num : ℕ
  len : ℕ

/-- Sporadic tasks with shared resources; `proc i` is the processor of task `i`. -/
structure LockSystem (n : ℕ) where
  proc : Fin n → ℕ
  cost : Fin n → ℕ
  period : Fin n → ℕ
  deadline : Fin n → ℕ
  reqs : Fin n → List Req

namespace LockSystem
variable {n : ℕ} (S : LockSystem n)

/-- Task `i` uses resource `r`. -/
def Uses (i : Fin n) (r : ℕ) : Prop := ∃ q ∈ S.reqs i, q.res = r

/-- Resource `r` is used on more than one processor. -/
def Global (r : ℕ) : Prop := ∃ i k, S.Uses i r ∧ S.Uses k r ∧ S.proc i ≠ S.proc k

end LockSystem

/-- Occurrence number `inst` of the request with index `idx` of a job. -/
structure Section (n : ℕ) where
  job : Job n
  idx : ℕ
  inst : ℕ
deriving DecidableEq

/-- What happens in a run: which jobs execute in which slot, which requests are issued, and
when: slot `enter` is the first in which the job waits for or uses the resource,
`acquire` the first in which it owns it and `leave` the first after the release.  `exec`
counts the processor time of a job including the time it spins. -/
structure LockRun (n : ℕ) where
  work : Workload n
  sched : Schedule n
  issued : Section n → Prop
  enter : Section n → ℕ
  acquire : Section n → ℕ
  leave : Section n → ℕ

/-- Time that job `j` spins in a run. -/
noncomputable def LockRun.spin {n : ℕ} (R : LockRun n) (S : LockSystem n) (j : Job n) : ℕ :=
  open Classical in
  ∑ q : Fin (S.reqs j.1).length, ∑ a ∈ range ((S.reqs j.1).get q).num,
    if R.issued ⟨j, q, a⟩ then R.acquire ⟨j, q, a⟩ - R.enter ⟨j, q, a⟩ else 0

/-- What the runs have in common for all schedulers and all kinds of spin locks. -/
structure SpinBase {n : ℕ} (S : LockSystem n) (R : LockRun n) : Prop where
  /-- Arrivals are sporadic. -/
  separated : ∀ i k, R.work.release (i, k) + S.period i ≤ R.work.release (i, k + 1)
  /-- A job needs the processor for its own computations and for spinning. -/
  cost : ∀ j, R.work.exec j ≤ S.cost j.1 + R.spin S j
  /-- A processor executes one job at a time. -/
  one : ∀ t, ∀ j ∈ R.sched t, ∀ j' ∈ R.sched t, S.proc j.1 = S.proc j'.1 → j = j'
  /-- Only ready jobs execute. -/
  ready : ∀ t, ∀ j ∈ R.sched t, Ready R.work R.sched j t
  /-- Jobs issue only declared requests. -/
  declared : ∀ s, R.issued s → ∃ q, (S.reqs s.job.1)[s.idx]? = some q ∧ s.inst < q.num
  /-- Events happen in this order. -/
  order : ∀ s, R.issued s → R.enter s ≤ R.acquire s ∧ R.acquire s ≤ R.leave s
  /-- A request is issued by an executing job. -/
  starts : ∀ s, R.issued s → R.enter s < R.leave s → s.job ∈ R.sched (R.enter s)
  /-- A resource is not used longer than declared. -/
  length : ∀ s q, R.issued s → (S.reqs s.job.1)[s.idx]? = some q →
    ((Ico (R.acquire s) (R.leave s)).filter (fun t => s.job ∈ R.sched t)).card ≤ q.len
  /-- Requests are not nested. -/
  serial : ∀ s s', R.issued s → R.issued s' → s.job = s'.job → s ≠ s' →
    R.leave s ≤ R.enter s' ∨ R.leave s' ≤ R.enter s
  /-- Local resources are acquired at once. -/
  immediate : ∀ s q, R.issued s → (S.reqs s.job.1)[s.idx]? = some q → ¬ S.Global q.res →
    R.acquire s = R.enter s
  /-- A job is not preempted while it waits for or uses a global resource. -/
  nonpreemptive : ∀ s q t, R.issued s → (S.reqs s.job.1)[s.idx]? = some q → S.Global q.res →
    R.enter s ≤ t → t < R.leave s → s.job ∈ R.sched t

/-- What the runs with FIFO spin locks have in common for all schedulers. -/
structure SpinRun {n : ℕ} (S : LockSystem n) (R : LockRun n) : Prop extends SpinBase S R where
  /-- A job spins only while a request for the same resource that was not issued later is
  being served. -/
  fifo : ∀ s q t, R.issued s → (S.reqs s.job.1)[s.idx]? = some q → S.Global q.res →
    R.enter s ≤ t → t < R.acquire s →
    ∃ s' q', R.issued s' ∧ (S.reqs s'.job.1)[s'.idx]? = some q' ∧ q'.res = q.res ∧
      R.enter s' ≤ R.enter s ∧ R.acquire s' ≤ t ∧ t < R.leave s'

/-- The runs of the tasks `S` under partitioned EDF with the MSRP. -/
structure Msrp {n : ℕ} (S : LockSystem n) (R : LockRun n) : Prop extends SpinRun S R where
  /-- While a local resource is in use, only jobs with a relative deadline shorter than
  that of every user of the resource may execute on the processor. -/
  ceiling : ∀ s q t, R.issued s → (S.reqs s.job.1)[s.idx]? = some q → ¬ S.Global q.res →
    R.enter s ≤ t → t < R.leave s → ∀ j ∈ R.sched t, S.proc j.1 = S.proc s.job.1 → j ≠ s.job →
    ∀ k, S.Uses k q.res → S.deadline j.1 < S.deadline k
  /-- A ready job waits only while its processor executes a job with no later deadline or one
  that has, in an earlier slot, requested a resource which is global or has a user
  whose relative deadline is no longer than that of the waiting job. -/
  edf : ∀ t j, Ready R.work R.sched j t → j ∉ R.sched t →
    ∃ j' ∈ R.sched t, S.proc j'.1 = S.proc j.1 ∧
      (R.work.deadline S.deadline j' ≤ R.work.deadline S.deadline j ∨
        ∃ s q, R.issued s ∧ s.job = j' ∧ (S.reqs s.job.1)[s.idx]? = some q ∧
          R.enter s < t ∧ t < R.leave s ∧
          (S.Global q.res ∨ ∃ k, S.Uses k q.res ∧ S.deadline k ≤ S.deadline j.1))

/-- What the runs of the tasks `S` under partitioned fixed-priority scheduling have in common
for all kinds of non-preemptive spin locks; smaller numbers are higher priorities. -/
structure NpSpinFp {n : ℕ} (S : LockSystem n) (prio : Fin n → ℕ) (R : LockRun n) : Prop
    extends SpinBase S R where
  /-- While a local resource is in use, only jobs with a priority higher than that of every
  user of the resource may execute on the processor. -/
  ceiling : ∀ s q t, R.issued s → (S.reqs s.job.1)[s.idx]? = some q → ¬ S.Global q.res →
    R.enter s ≤ t → t < R.leave s → ∀ j ∈ R.sched t, S.proc j.1 = S.proc s.job.1 → j ≠ s.job →
    ∀ k, S.Uses k q.res → prio j.1 < prio k
  /-- A ready job waits only while its processor executes a job with no lower priority or one
  that has, in an earlier slot, requested a resource which is global or has a user
  whose priority is no lower than that of the waiting job. -/
  fp : ∀ t j, Ready R.work R.sched j t → j ∉ R.sched t →
    ∃ j' ∈ R.sched t, S.proc j'.1 = S.proc j.1 ∧
      (prio j'.1 ≤ prio j.1 ∨
        ∃ s q, R.issued s ∧ s.job = j' ∧ (S.reqs s.job.1)[s.idx]? = some q ∧
          R.enter s < t ∧ t < R.leave s ∧
          (S.Global q.res ∨ ∃ k, S.Uses k q.res ∧ prio k ≤ prio j.1))

/-- The runs of the tasks `S` under partitioned fixed-priority scheduling with non-preemptive spin
locks that serve waiting requests in any order. -/
structure UnorderedFp {n : ℕ} (S : LockSystem n) (prio : Fin n → ℕ) (R : LockRun n) : Prop
    extends NpSpinFp S prio R where
  /-- A job spins only while a request for the same resource is being served. -/
  waits : ∀ s q t, R.issued s → (S.reqs s.job.1)[s.idx]? = some q → S.Global q.res →
    R.enter s ≤ t → t < R.acquire s →
    ∃ s' q', R.issued s' ∧ (S.reqs s'.job.1)[s'.idx]? = some q' ∧ q'.res = q.res ∧
      R.acquire s' ≤ t ∧ t < R.leave s'

/-- The runs of the tasks `S` under partitioned fixed-priority scheduling with the MSRP. -/
structure MsrpFp {n : ℕ} (S : LockSystem n) (prio : Fin n → ℕ) (R : LockRun n) : Prop
    extends SpinRun S R, NpSpinFp S prio R

/-- No run misses a deadline. -/
def MsrpSchedulable {n : ℕ} (S : LockSystem n) : Prop :=
  ∀ R : LockRun n, Msrp S R → MeetsDeadlines R.work S.deadline R.sched

/-! ### The processor demand criterion with blocking

Baruah, "Resource sharing in EDF-scheduled systems: a closer look" (RTSS 2006), with costs
inflated by the worst-case spinning times. -/

namespace LockSystem
variable {n : ℕ} (S : LockSystem n)

/-- The longest request for resource `r` on processor `p`. -/
def longest (p r : ℕ) : ℕ :=
  univ.sup (fun i => if S.proc i = p then
    ((S.reqs i).map (fun q => if q.res = r then q.len else 0)).foldr max 0 else 0)

/-- Longest time that a request of task `i` for `r` spins if there are `m` processors: one
request of each other processor. -/
def spinBound (m : ℕ) (i : Fin n) (r : ℕ) : ℕ := ∑ p ∈ (range m).erase (S.proc i), S.longest p r

open Classical in
/-- Longest time from the beginning of a request until the resource is released, not counting
preemptions. -/
noncomputable def sectionBound (m : ℕ) (i : Fin n) (q : Req) : ℕ :=
  if S.Global q.res then S.spinBound m i q.res + q.len else q.len

open Classical in
/-- Cost of a task including spinning. -/
noncomputable def inflated (m : ℕ) (i : Fin n) : ℕ :=
  S.cost i + ((S.reqs i).map (fun q => if S.Global q.res then q.num * S.spinBound m i q.res else 0)).sum

/-- The demand of the tasks of processor `p` in an interval of length `t`. -/
noncomputable def procDemand (m p t : ℕ) : ℕ :=
  demand (fun i => if S.proc i = p then S.inflated m i else 0) S.period S.deadline t

/-- For every processor and every interval, the demand and, if a task with a deadline beyond
the interval can block one with a deadline within, its section fit into the interval. -/
def Criterion (m : ℕ) : Prop :=
  ∀ p t, S.procDemand m p t ≤ t ∧
    ∀ i a, S.proc i = p → S.proc a = p → S.deadline i ≤ t → t < S.deadline a →
    ∀ q ∈ S.reqs a, (S.Global q.res ∨ ∃ k, S.Uses k q.res ∧ S.deadline k ≤ S.deadline i) →
    S.procDemand m p t + S.sectionBound m a q ≤ t

end LockSystem

end Verif.Spec
