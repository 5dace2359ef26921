/-
Specification: sporadic tasks that share resources under partitioned fixed-priority scheduling with the
distributed priority ceiling protocol (DPCP).  This file does not depend on the model.

Each task and each resource is assigned to a processor; smaller numbers are higher priorities.  A request is
executed by an agent on the processor of the resource, while the job itself is suspended.  Agents have
priority over all jobs.  The agents of a processor are scheduled by the uniprocessor priority ceiling
protocol (PCP): an agent has the priority of its job, the ceiling of a resource is the highest priority of
its users, a request is granted only if its priority is higher than the ceilings of all resources
owned by other agents on the processor, and an agent that owns a resource inherits the priorities of those it
blocks.  Requests are not nested.

The time in which an agent executes is part of the cost of the job.
-/
import Verif.Spec.Pip

namespace Verif.Spec
open Finset

/-- In slot `t`, job `j` executes on processor `c`, if it executes at all: on the processor of the resource if
it owns one, and otherwise on its own. -/
def LockRun.On {n : ℕ} (R : LockRun n) (S : LockSystem n) (loc : ℕ → ℕ) (j : Job n) (t c : ℕ) : Prop :=
  (∃ s r, s.job = j ∧ R.Owns s t ∧ S.For s r ∧ loc r = c) ∨ ((∀ s, s.job = j → ¬ R.Owns s t) ∧ S.proc j.1 = c)

/-- The runs of the tasks `S` under partitioned fixed-priority scheduling with the DPCP; `loc r` is the processor
of resource `r`. -/
structure Dpcp {n : ℕ} (S : LockSystem n) (prio : Fin n → ℕ) (loc : ℕ → ℕ) (R : LockRun n) : Prop
    extends RequestRun n S R where
  /-- A processor executes one job or agent at a time. -/
  one : ∀ t c, ∀ j ∈ R.sched t, ∀ j' ∈ R.sched t, R.On S loc j t c → R.On S loc j' t c → j = j'
  /-- A request is granted when its agent executes. -/
  granted : ∀ s, R.issued s → R.acquire s < R.leave s → s.job ∈ R.sched (R.acquire s)
  /-- A request is granted only if its priority is higher than the ceilings of all resources that other agents
  on the same processor own. -/
  ceiling : ∀ s s' r r', R.issued s → R.acquire s < R.leave s → s'.job ≠ s.job → R.Owns s' (R.acquire s) →
    S.For s r → S.For s' r' → loc r' = loc r → ∀ x, S.Uses x r' → prio s.job.1 < prio x
  /-- An agent is delayed only while the processor executes another one whose priority is no lower or
  one that has been granted, before, a resource with a ceiling no lower than that priority. -/
  agents : ∀ s r t, R.issued s → R.enter s ≤ t → t < R.leave s → s.job ∉ R.sched t → S.For s r →
    ∃ s' r', s'.job ∈ R.sched t ∧ R.Owns s' t ∧ S.For s' r' ∧ loc r' = loc r ∧
      (prio s'.job.1 ≤ prio s.job.1 ∨
        R.acquire s' < t ∧ ∃ x, S.Uses x r' ∧ prio x ≤ prio s.job.1)
  /-- A ready job without a request is delayed only while its processor executes an agent or a job whose
  priority is no lower. -/
  jobs : ∀ t j, Ready R.work R.sched j t → j ∉ R.sched t →
    (∀ s, s.job = j → R.issued s → R.enter s ≤ t → R.leave s ≤ t) →
    ∃ j' ∈ R.sched t, R.On S loc j' t (S.proc j.1) ∧
      ((∃ s, s.job = j' ∧ R.Owns s t) ∨ prio j'.1 ≤ prio j.1)

/-- At time `t`, job `j` has a request for a resource on another processor that has not been completed. -/
def LockRun.Away {n : ℕ} (R : LockRun n) (S : LockSystem n) (loc : ℕ → ℕ) (j : Job n) (t : ℕ) : Prop :=
  ∃ s r, s.job = j ∧ R.issued s ∧ R.enter s ≤ t ∧ t < R.leave s ∧ S.For s r ∧ loc r ≠ S.proc j.1

/-- The same, with two facts about when requests are issued and completed. -/
structure DpcpPrompt {n : ℕ} (S : LockSystem n) (prio : Fin n → ℕ) (loc : ℕ → ℕ) (R : LockRun n) : Prop
    extends Dpcp S prio loc R where
  /-- A job issues a request only if no higher-priority job occupies the processor: one that is ready and has no
  request on another processor in the slot before, and is still unfinished, has suspended in between. -/
  issue : ∀ s j, R.issued s → 0 < R.enter s → S.proc j.1 = S.proc s.job.1 → prio j.1 < prio s.job.1 →
    Ready R.work R.sched j (R.enter s - 1) → ¬ R.Away S loc j (R.enter s - 1) →
    Ready R.work R.sched j (R.enter s) → R.Away S loc j (R.enter s)
  /-- A request is complete as soon as its agent has executed. -/
  finish : ∀ s, R.issued s → R.enter s < R.leave s → s.job ∈ R.sched (R.leave s - 1)

end Verif.Spec
