/-
C92: a run of the priority inheritance protocol.
-/
import Verif.Props.Pip
import Verif.Lemmas.LockTable
import Mathlib.Data.Fin.VecNotation
import Mathlib.Tactic.FinCases

namespace Verif.SR.Pip
open Verif.Spec Verif.SR.Msrp

/-- Tasks 0 and 3 share a resource. -/
def exInfo : Info :=
  [⟨0, 20, 20, 20, 0, 2, [⟨0, 1, 1, false⟩]⟩, ⟨1, 20, 20, 20, 0, 2, []⟩, ⟨2, 20, 20, 20, 0, 1, []⟩,
    ⟨3, 20, 20, 20, 0, 3, [⟨0, 1, 3, false⟩]⟩]

/-- The same tasks, written as functions. -/
def exSys : LockSystem 4 where
  proc := ![0, 0, 0, 0]
  cost := ![2, 2, 1, 3]
  period := ![20, 20, 20, 20]
  deadline := ![20, 20, 20, 20]
  reqs := ![[⟨0, 1, 1⟩], [], [], [⟨0, 1, 3⟩]]

theorem system_exInfo : system exInfo = exSys := by
  unfold system exSys
  congr 1 <;>
  · funext (i : Fin 4)
    fin_cases i <;> rfl

/-- Task 3 acquires the resource at time 0.  The other jobs are released at time 1; task 0 waits
for the resource until time 3, and task 2 is delayed because task 3 has inherited its priority. -/
def exTable : Table 4 where
  off := ![1, 1, 1, 0]
  exec := ![2, 2, 1, 3]
  slots := [{3}, {3, 1}, {3, 1}, {0, 2}, {0}]
  secs := [⟨3, 0, 0, 0, 0, 3⟩, ⟨0, 0, 0, 1, 3, 4⟩]

/-- The tasks are accepted for two processors, with these response times, and the run above is one
of their runs. -/
example : (GFp.bertogna 10 2 (afterPip exInfo 2)).map (fun r => (r.1, r.2.map (·.2))) =
      some (true, [5, 2, 6, 6]) ∧
    (∃ R, Spec.Pip 2 (system exInfo) R) ∧
    ∀ R, Spec.Pip 2 (system exInfo) R → MeetsDeadlines R.work (system exInfo).deadline R.sched := by
  refine ⟨by decide +kernel, ⟨exTable.run exSys, ?_⟩, fun R hR => ?_⟩
  · rw [system_exInfo]
    exact (show exTable.Ok 2 exSys by decide +kernel).pip (by decide +kernel)
  · exact C92_pip_schedulable exInfo 2 (by decide) 10 false (by decide) (by decide)
      (by decide) (by decide) ((GFp.bertogna 10 2 (afterPip exInfo 2)).getD (true, [])).2
      (by decide +kernel) R hR

end Verif.SR.Pip
