/-
Specification: sporadic tasks that share resources under work-conserving global scheduling, whatever the priorities of
jobs.  This file does not depend on the model.
-/
import Verif.Spec.GlobalLocks

namespace Verif.Spec

/-- The runs of the tasks `S` on `m` processors under any work-conserving global scheduler: a ready job that does not
wait for a resource is delayed only while `m` jobs execute.  Among others, these are all runs with restricted segment
boosting. -/
structure ConservingLocks {n : ℕ} (m : ℕ) (S : LockSystem n) (R : LockRun n) : Prop extends SuspendRun m S R where
  dispatch : ∀ t j, Ready R.work R.sched j t → j ∉ R.sched t → (∀ s, R.Waits s t → s.job ≠ j) →
    (R.sched t).card = m

end Verif.Spec
