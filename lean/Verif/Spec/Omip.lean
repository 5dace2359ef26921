/-
Specification: sporadic tasks that share resources under preemptive global fixed-priority scheduling with the O(m)
independence-preserving protocol (OMIP), for a single cluster of `m` processors, and suspension-oblivious blocking.
This file does not depend on the model.

Task 0 has the highest priority.  For each resource there is a FIFO queue of at most `m` requests, whose head owns the
resource, and a queue for further requests, which is ordered by priority.  A job that owns a resource inherits the
priorities of the jobs that wait for it.
-/
import Verif.Spec.GlobalLocks

namespace Verif.Spec

/-- In slot `t`, section `s` for resource `r` is in the FIFO queue, which it has entered at time `queued s`. -/
def InFifo {n : ℕ} (S : LockSystem n) (R : LockRun n) (queued : Section n → ℕ) (r : ℕ) (s : Section n) (t : ℕ) : Prop :=
  R.issued s ∧ S.For s r ∧ queued s ≤ t ∧ t < R.leave s

/-- The runs of the tasks `S` with the OMIP on `m` processors; `queued s` is the time at which section `s` enters the
FIFO queue of the resource. -/
structure Omip {n : ℕ} (m : ℕ) (S : LockSystem n) (R : LockRun n) (queued : Section n → ℕ) : Prop
    extends InheritLocks m S R where
  between : ∀ s, R.issued s → R.enter s ≤ queued s ∧ queued s ≤ R.acquire s
  /-- The FIFO queue of a resource holds at most `m` requests. -/
  capacity : ∀ r t (F : Finset (Section n)), (∀ s ∈ F, InFifo S R queued r s t) → F.card ≤ m
  /-- A request enters the FIFO queue as soon as there is room. -/
  room : ∀ s r t, R.issued s → S.For s r → R.enter s ≤ t → t < queued s →
    ∃ F : Finset (Section n), F.card = m ∧ ∀ s' ∈ F, InFifo S R queued r s' t
  /-- No request enters the FIFO queue while a job of a higher-priority task waits to enter it. -/
  priority : ∀ s s' r, R.issued s → R.issued s' → S.For s r → S.For s' r →
    R.enter s < queued s' → queued s' < queued s → s'.job.1 ≤ s.job.1
  /-- The requests in the FIFO queue are served in FIFO order. -/
  fifo : ∀ s s' r t, R.Waits s t → queued s ≤ t → R.Owns s' t → S.For s r → S.For s' r → queued s' ≤ queued s

open Classical in
/-- The higher-priority tasks with a pending job. -/
noncomputable def pendingHigher {n : ℕ} (R : LockRun n) (i : Fin n) (t : ℕ) : Finset (Fin n) :=
  Finset.univ.filter (fun h => h < i ∧ ∃ k, Pending R.work R.sched (h, k) t)

/-- Suspension-oblivious blocking: job `j` does not execute although it is ready and fewer than `m` tasks of higher
priority have pending jobs. -/
def ObliviousBlocked {n : ℕ} (m : ℕ) (R : LockRun n) (j : Job n) (t : ℕ) : Prop :=
  Ready R.work R.sched j t ∧ j ∉ R.sched t ∧ (pendingHigher R j.1 t).card < m

open Classical in
/-- The number of slots before time `t` in which job `j` is blocked. -/
noncomputable def obliviousBlocking {n : ℕ} (m : ℕ) (R : LockRun n) (j : Job n) (t : ℕ) : ℕ :=
  ((Finset.range t).filter (ObliviousBlocked m R j)).card

end Verif.Spec
