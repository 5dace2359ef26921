/-
Specification: sporadic tasks that share resources under preemptive global fixed-priority scheduling with the parallel
priority ceiling protocol (P-PCP).  This file does not depend on the model.

Task 0 has the highest priority.  The protocol is the priority inheritance protocol, except that a job does not get a
free resource while `α` jobs of lower-priority tasks own resources that are also used by tasks of higher priority than
its own.  Meanwhile these jobs inherit its priority.
-/
import Verif.Spec.Pip

namespace Verif.Spec
open Finset

namespace LockRun
variable {n : ℕ} (R : LockRun n)

/-- In slot `t`, the job of section `s` is a job of a lower-priority task than `i`, and it owns a resource that is also
used by a task of higher priority than `i`. -/
def Limits (S : LockSystem n) (i : Fin n) (s : Section n) (t : ℕ) : Prop :=
  R.Owns s t ∧ i < s.job.1 ∧ ∃ r, S.For s r ∧ ∃ h < i, ∃ q ∈ S.reqs h, q.res = r

/-- In slot `t`, the job of section `s` waits for a free resource. -/
def Withheld (S : LockSystem n) (s : Section n) (t : ℕ) : Prop :=
  R.Waits s t ∧ ∀ r, S.For s r → ¬ ∃ s', R.Owns s' t ∧ S.For s' r

/-- In slot `t`, job `j` has the priority of task `a`: its own, or one inherited from a job that waits for its resource
or from which a free resource is withheld because of `j`. -/
def ActsUnderCeiling (S : LockSystem n) (j : Job n) (a : Fin n) (t : ℕ) : Prop :=
  R.ActsFor S j a t ∨ ∃ s s', R.Withheld S s t ∧ R.Limits S s.job.1 s' t ∧ s.job.1 = a ∧ s'.job = j

end LockRun

/-- The runs of the tasks `S` under global fixed-priority scheduling on `m` processors with the P-PCP, where the
parameter of all tasks is `α`. -/
structure Ppcp {n : ℕ} (m α : ℕ) (S : LockSystem n) (R : LockRun n) : Prop extends RequestRun m S R where
  /-- A resource has at most one owner. -/
  exclusive : ∀ s s' r t, R.Owns s t → R.Owns s' t → S.For s r → S.For s' r → s = s'
  /-- A job waits only for a resource that is owned, or while `α` lower-priority jobs own resources with higher
  ceilings. -/
  waiting : ∀ s r t, R.Waits s t → S.For s r → (∃ s', R.Owns s' t ∧ S.For s' r) ∨
    ∃ F : Finset (Section n), F.card = α ∧ ∀ s' ∈ F, R.Limits S s.job.1 s' t
  /-- A resource is granted only while fewer than `α` lower-priority jobs own resources with higher ceilings.  If several
  requests are granted at the same time, those of higher-priority jobs come first. -/
  granted : ∀ s, R.issued s → ∀ F : Finset (Section n),
    (∀ s' ∈ F, R.acquire s' < R.acquire s ∧ R.Limits S s.job.1 s' (R.acquire s)) → F.card < α
  /-- A resource is not granted to a job while one of a higher-priority task waits for it. -/
  queue : ∀ s s' r, R.issued s → R.issued s' → S.For s r → S.For s' r →
    R.enter s < R.acquire s' → R.acquire s' < R.acquire s → s'.job.1 ≤ s.job.1
  /-- A ready job that does not wait for a resource is delayed only while `m` jobs execute whose
  (inherited) priority is no lower. -/
  dispatch : ∀ t j, Ready R.work R.sched j t → j ∉ R.sched t → (∀ s, R.Waits s t → s.job ≠ j) →
    (R.sched t).card = m ∧
      ∀ j' ∈ R.sched t, ∃ a, R.ActsUnderCeiling S j' a t ∧ ∀ b, R.ActsUnderCeiling S j b t → a ≤ b

end Verif.Spec
