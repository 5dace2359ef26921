/-
C97: a run of the FMLP+.
-/
import Verif.Props.Fmlp
import Verif.Lemmas.LockTableFmlp
import Mathlib.Data.Fin.VecNotation
import Mathlib.Tactic.FinCases

namespace Verif.SR.Fmlp
open Verif.Spec
open Verif.SR.Msrp (system)

/-- Two processors with two tasks each; both resources are shared by both processors. -/
def exInfo : Info :=
  [⟨0, 30, 30, 30, 0, 3, [⟨0, 1, 1, false⟩]⟩, ⟨1, 30, 30, 30, 0, 4, [⟨1, 1, 2, false⟩]⟩,
    ⟨0, 30, 30, 30, 1, 3, [⟨0, 1, 2, false⟩]⟩, ⟨1, 30, 30, 30, 1, 3, [⟨1, 1, 1, false⟩]⟩]

/-- The same tasks, written as functions. -/
def exSys : LockSystem 4 where
  proc := ![0, 0, 1, 1]
  cost := ![3, 4, 3, 3]
  period := ![30, 30, 30, 30]
  deadline := ![30, 30, 30, 30]
  reqs := ![[⟨0, 1, 1⟩], [⟨1, 1, 2⟩], [⟨0, 1, 2⟩], [⟨1, 1, 1⟩]]

theorem system_exInfo : system exInfo = exSys := by
  unfold system exSys
  congr 1 <;>
  · funext (i : Fin 4)
    fin_cases i <;> rfl

/-- Task 0 arrives at time 1, while task 1 is boosted; from time 2 to 3 it waits for task 2 on the other
processor. -/
def exTable : Table 4 where
  off := ![1, 0, 0, 0]
  exec := ![3, 4, 3, 3]
  slots := [{1, 2}, {1, 2}, {1, 2}, {0, 3}, {0, 3}, {0, 3}, {1}]
  secs := [⟨1, 0, 0, 0, 0, 2⟩, ⟨2, 0, 0, 1, 1, 3⟩, ⟨0, 0, 0, 2, 3, 4⟩, ⟨3, 0, 0, 3, 3, 4⟩]

/-- The tasks of both processors are accepted, with these response times, and the run above is one
of their runs. -/
example : (Fp.boundResponseTimes 10 1 (afterFmlpBounds exInfo true 0)).map (fun r => (r.1, r.2.map (·.2))) =
      some (true, [10, 10]) ∧
    (Fp.boundResponseTimes 10 1 (afterFmlpBounds exInfo true 1)).map (fun r => (r.1, r.2.map (·.2))) =
      some (true, [8, 9]) ∧
    (∃ ticket R, FmlpPlus (system exInfo) (fun i => (exInfo.get i).priority) ticket R) ∧
    ∀ ticket R, FmlpPlus (system exInfo) (fun i => (exInfo.get i).priority) ticket R →
      MeetsDeadlines R.work (system exInfo).deadline R.sched := by
  refine ⟨by decide +kernel, by decide +kernel, ⟨exTable.ticket, exTable.run exSys, ?_⟩, fun ticket R hR => ?_⟩
  · rw [system_exInfo]
    have hp : (fun i : Fin 4 => (exInfo.get i).priority) = ![0, 1, 0, 1] := by
      funext i
      fin_cases i <;> rfl
    change FmlpPlus exSys (fun i : Fin 4 => (exInfo.get i).priority) _ _
    rw [hp]
    exact (show exTable.Ok 4 exSys by decide +kernel).fmlp (by decide +kernel) (by decide +kernel)
  · exact C97_pfp_fmlp_schedulable exInfo 10 (by decide) (by decide) (by decide +kernel)
      (by decide +kernel) ticket R hR

end Verif.SR.Fmlp
