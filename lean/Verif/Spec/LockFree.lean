/-
Specification: sporadic tasks that share objects without locks under partitioned EDF scheduling.  This file does not depend
on the model.

A job that accesses an object executes a commit loop: it computes a new state of the object and tries to commit it.  An
attempt fails if the state of the object was changed by another commit since the attempt began, and is repeated until it
succeeds.
-/
import Verif.Spec.Msrp

namespace Verif.Spec
open Finset

/-- What happens in a run: attempt `a` of a commit loop begins in slot `start s a` and ends before slot `start s (a + 1)`;
the attempts before attempt number `retries s` fail. -/
structure CommitRun (n : ℕ) where
  work : Workload n
  sched : Schedule n
  issued : Section n → Prop
  retries : Section n → ℕ
  start : Section n → ℕ → ℕ

namespace CommitRun
variable {n : ℕ} (R : CommitRun n)

/-- The time of the commit. -/
def commit (s : Section n) : ℕ := R.start s (R.retries s + 1)

/-- Processor time of the job for an attempt. -/
def attempt (s : Section n) (a : ℕ) : ℕ :=
  ((Ico (R.start s a) (R.start s (a + 1))).filter (fun t => s.job ∈ R.sched t)).card

/-- Processor time of a job for attempts that fail. -/
noncomputable def wasted (S : LockSystem n) (j : Job n) : ℕ :=
  open Classical in
  ∑ q : Fin (S.reqs j.1).length, ∑ i ∈ range ((S.reqs j.1).get q).num,
    if R.issued ⟨j, q, i⟩ then ∑ a ∈ range (R.retries ⟨j, q, i⟩), R.attempt ⟨j, q, i⟩ a else 0

end CommitRun

/-- What the runs with preemptive and non-preemptive commit loops have in common. -/
structure LockFreeBase {n : ℕ} (S : LockSystem n) (R : CommitRun n) : Prop where
  /-- Arrivals are sporadic. -/
  separated : ∀ i k, R.work.release (i, k) + S.period i ≤ R.work.release (i, k + 1)
  /-- A job needs the processor for its own computations and for attempts that fail. -/
  cost : ∀ j, R.work.exec j ≤ S.cost j.1 + R.wasted S j
  /-- A processor executes one job at a time. -/
  one : ∀ t, ∀ j ∈ R.sched t, ∀ j' ∈ R.sched t, S.proc j.1 = S.proc j'.1 → j = j'
  /-- Only ready jobs execute. -/
  ready : ∀ t, ∀ j ∈ R.sched t, Ready R.work R.sched j t
  /-- Jobs access only declared objects. -/
  declared : ∀ s, R.issued s → ∃ q, (S.reqs s.job.1)[s.idx]? = some q ∧ s.inst < q.num
  /-- An attempt begins after the previous one. -/
  order : ∀ s, R.issued s → ∀ a ≤ R.retries s, R.start s a < R.start s (a + 1)
  /-- The job executes when an attempt begins. -/
  starts : ∀ s, R.issued s → ∀ a ≤ R.retries s, s.job ∈ R.sched (R.start s a)
  /-- No attempt takes longer than declared. -/
  length : ∀ s q, R.issued s → (S.reqs s.job.1)[s.idx]? = some q → ∀ a ≤ R.retries s, R.attempt s a ≤ q.len
  /-- Commit loops are not nested. -/
  serial : ∀ s s', R.issued s → R.issued s' → s.job = s'.job → s ≠ s' →
    R.commit s ≤ R.start s' 0 ∨ R.commit s' ≤ R.start s 0
  /-- An attempt fails only if there was another commit to the same object since it began. -/
  conflict : ∀ s q, R.issued s → (S.reqs s.job.1)[s.idx]? = some q → ∀ a < R.retries s,
    ∃ s' q', s' ≠ s ∧ R.issued s' ∧ (S.reqs s'.job.1)[s'.idx]? = some q' ∧ q'.res = q.res ∧
      R.start s a < R.commit s' ∧ R.commit s' ≤ R.start s (a + 1)

/-- The runs of the tasks `S` under partitioned EDF with preemptive commit loops. -/
structure PreemptiveCommits {n : ℕ} (S : LockSystem n) (R : CommitRun n) : Prop extends LockFreeBase S R where
  /-- A ready job waits only while its processor executes a job with no later deadline. -/
  edf : ∀ t j, Ready R.work R.sched j t → j ∉ R.sched t →
    ∃ j' ∈ R.sched t, S.proc j'.1 = S.proc j.1 ∧ R.work.deadline S.deadline j' ≤ R.work.deadline S.deadline j

/-- The runs of the tasks `S` under partitioned EDF with non-preemptive commit loops. -/
structure NonPreemptiveCommits {n : ℕ} (S : LockSystem n) (R : CommitRun n) : Prop extends LockFreeBase S R where
  /-- Commit loops are not preempted. -/
  nonpreemptive : ∀ s t, R.issued s → R.start s 0 ≤ t → t < R.commit s → s.job ∈ R.sched t
  /-- A ready job waits only while its processor executes a job with no later deadline or one that has begun a commit
  loop in an earlier slot. -/
  edf : ∀ t j, Ready R.work R.sched j t → j ∉ R.sched t →
    ∃ j' ∈ R.sched t, S.proc j'.1 = S.proc j.1 ∧
      (R.work.deadline S.deadline j' ≤ R.work.deadline S.deadline j ∨
        ∃ s, R.issued s ∧ s.job = j' ∧ R.start s 0 < t ∧ t < R.commit s)

end Verif.Spec
