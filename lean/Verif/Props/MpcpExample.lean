/-
C98: a run of the MPCP.
-/
import Verif.Props.Mpcp
import Verif.Lemmas.LockTableMpcp
import Mathlib.Data.Fin.VecNotation
import Mathlib.Tactic.FinCases

namespace Verif.SR.Mpcp
open Verif.Spec
open Verif.SR.Msrp (system)

/-- Two processors with two tasks each; both resources are shared by both processors. -/
def exInfo : Info :=
  [⟨0, 40, 40, 40, 0, 3, [⟨0, 1, 1, false⟩]⟩, ⟨1, 40, 40, 40, 0, 4, [⟨1, 1, 2, false⟩]⟩,
    ⟨2, 40, 40, 40, 1, 3, [⟨0, 1, 2, false⟩]⟩, ⟨3, 40, 40, 40, 1, 3, [⟨1, 1, 1, false⟩]⟩]

/-- The same tasks, written as functions. -/
def exSys : LockSystem 4 where
  proc := ![0, 0, 1, 1]
  cost := ![3, 4, 3, 3]
  period := ![40, 40, 40, 40]
  deadline := ![40, 40, 40, 40]
  reqs := ![[⟨0, 1, 1⟩], [⟨1, 1, 2⟩], [⟨0, 1, 2⟩], [⟨1, 1, 1⟩]]

theorem system_exInfo : system exInfo = exSys := by
  unfold system exSys
  congr 1 <;>
  · funext (i : Fin 4)
    fin_cases i <;> rfl

/-- Task 0 arrives at time 1, while task 1 is boosted; from time 2 to 3 it waits for task 2 on the other
processor. -/
def exTable : Table 4 where
  off := ![1, 0, 0, 0]
  exec := ![3, 4, 3, 3]
  slots := [{1, 2}, {1, 2}, {1, 2}, {0, 3}, {0, 3}, {0, 3}, {1}]
  secs := [⟨1, 0, 0, 0, 0, 2⟩, ⟨2, 0, 0, 1, 1, 3⟩, ⟨0, 0, 0, 2, 3, 4⟩, ⟨3, 0, 0, 3, 3, 4⟩]

/-- The tasks of both processors are accepted, with these response times, and the run above is one
of their runs. -/
example : ((afterMpcpBounds exInfo 50 0).bind (Fp.boundResponseTimes 50 1)).map (fun r => (r.1, r.2.map (·.2))) =
      some (true, [9, 10]) ∧
    ((afterMpcpBounds exInfo 50 1).bind (Fp.boundResponseTimes 50 1)).map (fun r => (r.1, r.2.map (·.2))) =
      some (true, [7, 12]) ∧
    (∃ R, Spec.Mpcp (system exInfo) (fun i => (exInfo.get i).priority) R) ∧
    ∀ R, Spec.Mpcp (system exInfo) (fun i => (exInfo.get i).priority) R →
      MeetsDeadlines R.work (system exInfo).deadline R.sched := by
  refine ⟨by decide +kernel, by decide +kernel, ⟨exTable.run exSys, ?_⟩, fun R hR => ?_⟩
  · rw [system_exInfo]
    have hp : (fun i : Fin 4 => (exInfo.get i).priority) = ![0, 1, 2, 3] := by
      funext i
      fin_cases i <;> rfl
    change Spec.Mpcp exSys (fun i : Fin 4 => (exInfo.get i).priority) _
    rw [hp]
    exact (show exTable.Ok 4 exSys by decide +kernel).mpcp (by decide +kernel) (by decide +kernel)
  · exact C98_mpcp_schedulable exInfo 50 (by decide) (by decide) (by decide) (by decide)
      (by decide +kernel) R hR

/-- The computation of the bounds ends, with these remote and local terms. -/
example : mpcpBounds exInfo false 50 = some [(2, 4), (3, 0), (2, 2), (6, 0)] ∧
    (mpcpBounds exInfo true 50).isSome :=
  ⟨by decide +kernel, C98_mpcp_terminates exInfo (by decide) true 50 (by decide)⟩

end Verif.SR.Mpcp
