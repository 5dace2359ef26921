/-
Specification: sporadic tasks that share resources under partitioned fixed-priority scheduling with the
distributed FIFO locking protocol (DFLP).  This file does not depend on the model.

Each task and each resource is assigned to a processor; smaller numbers are higher priorities.  A request is
executed by an agent on the processor of the resource, while the job itself is suspended.  Agents have
priority over all jobs; of the agents of a processor, the one whose request was issued first is executed.
Requests are not nested.

The time in which an agent executes is part of the cost of the job.
-/
import Verif.Spec.Dpcp

namespace Verif.Spec

/-- The runs of the tasks `S` under partitioned fixed-priority scheduling with the DFLP; `loc r` is the processor
of resource `r`, and `ticket` is the order in which the requests are issued. -/
structure Dflp {n : ℕ} (S : LockSystem n) (prio : Fin n → ℕ) (loc : ℕ → ℕ) (ticket : Section n → ℕ) (R : LockRun n) : Prop
    extends RequestRun n S R where
  /-- A processor executes one job or agent at a time. -/
  one : ∀ t c, ∀ j ∈ R.sched t, ∀ j' ∈ R.sched t, R.On S loc j t c → R.On S loc j' t c → j = j'
  /-- Requests issued earlier have smaller tickets. -/
  tickets : ∀ s s', R.issued s → R.issued s' → R.enter s < R.enter s' → ticket s < ticket s'
  /-- An agent is delayed only while the processor executes another one whose request was issued before. -/
  agents : ∀ s r t, R.issued s → R.enter s ≤ t → t < R.leave s → s.job ∉ R.sched t → S.For s r →
    ∃ s' r', s'.job ∈ R.sched t ∧ R.Owns s' t ∧ S.For s' r' ∧ loc r' = loc r ∧ ticket s' < ticket s
  /-- A ready job without a request is delayed only while its processor executes an agent or a job whose
  priority is no lower. -/
  jobs : ∀ t j, Ready R.work R.sched j t → j ∉ R.sched t →
    (∀ s, s.job = j → R.issued s → R.enter s ≤ t → R.leave s ≤ t) →
    ∃ j' ∈ R.sched t, R.On S loc j' t (S.proc j.1) ∧
      ((∃ s, s.job = j' ∧ R.Owns s t) ∨ prio j'.1 ≤ prio j.1)
  /-- A job issues a request only if no higher-priority job occupies the processor: one that is ready and has no
  request on another processor in the slot before, and is still unfinished, has suspended in between. -/
  issue : ∀ s j, R.issued s → 0 < R.enter s → S.proc j.1 = S.proc s.job.1 → prio j.1 < prio s.job.1 →
    Ready R.work R.sched j (R.enter s - 1) → ¬ R.Away S loc j (R.enter s - 1) →
    Ready R.work R.sched j (R.enter s) → R.Away S loc j (R.enter s)

end Verif.Spec
