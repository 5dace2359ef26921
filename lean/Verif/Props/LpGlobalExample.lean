/-
C125–C128: runs in which jobs wait for resources, and in which the response-time bounds are attained.
-/
import Verif.Props.LpGlobalPrio
import Verif.Lemmas.LockTableGlobal
import Mathlib.Data.Fin.VecNotation

namespace Verif.SR.Lp.Glob
open Verif.Spec Finset
open Verif.SR.Msrp (system)

/-- The tasks of `exInfo`, written as functions. -/
def exSys : LockSystem 3 where
  proc := ![0, 0, 0]
  cost := ![1, 2, 2]
  period := ![10, 10, 10]
  deadline := ![10, 10, 10]
  reqs := ![[⟨0, 1, 1⟩], [], [⟨0, 1, 1⟩]]

theorem system_exInfo : system exInfo = exSys := by
  unfold system exSys
  congr 1 <;>
  · funext (i : Fin 3)
    fin_cases i <;> rfl

/-- Task 2 acquires the resource at time 1, when task 0 requests it. -/
def exTable : Table 3 where
  off := ![1, 0, 0]
  exec := ![1, 2, 2]
  slots := [{1, 2}, {1, 2}, {0}]
  secs := [⟨2, 0, 0, 1, 1, 2⟩, ⟨0, 0, 0, 1, 2, 3⟩]

/-- A run of the tasks of C125 and C127, in which the bound of task 0 is attained. -/
example : ∃ R : LockRun exInfo.length, PlainLocks 2 (system exInfo) R ∧ FifoQueues (system exInfo) R ∧
    PriorityQueues (system exInfo) R ∧ ExecutesUntilRelease R ∧ (∃ s t, R.Waits s t) ∧ R.work.release (⟨0, by decide⟩, 0) = 1 ∧
    ¬ Completed R.work R.sched (⟨0, by decide⟩, 0) 2 := by
  have hok : exTable.Ok 2 exSys := by decide +kernel
  refine ⟨exTable.run exSys, ?_, ?_, ?_, hok.untilRelease (by decide +kernel), ?_, rfl, ?_⟩
  · rw [system_exInfo]
    exact hok.plain (by decide +kernel)
  · rw [system_exInfo]
    exact hok.fifo (by decide +kernel)
  · rw [system_exInfo]
    exact hok.prio (by decide +kernel)
  · exact ⟨_, 1, (hok.waits_iff (c := ⟨0, 0, 0, 1, 2, 3⟩) (by decide)).2 (by decide)⟩
  · show ¬ Completed (exTable.run exSys).work (exTable.run exSys).sched ((0 : Fin 3), 0) 2
    unfold Completed
    rw [Table.service_run]
    decide +kernel

/-- The tasks of `exFmlp`, written as functions. -/
def exFmlpSys : LockSystem 3 where
  proc := ![0, 0, 0]
  cost := ![2, 2, 3]
  period := ![20, 20, 20]
  deadline := ![20, 20, 20]
  reqs := ![[⟨0, 1, 1⟩], [], [⟨0, 1, 1⟩]]

theorem system_exFmlp : system exFmlp = exFmlpSys := by
  unfold system exFmlpSys
  congr 1 <;>
  · funext (i : Fin 3)
    fin_cases i <;> rfl

/-- Task 2 acquires the resource at time 1 and is preempted by task 1.  At time 2, task 0 requests the resource. -/
def exFmlpTable : Table 3 where
  off := ![2, 1, 0]
  exec := ![2, 2, 3]
  slots := [{2}, {1}, {2}, {0}, {0}, {1}, {2}]
  secs := [⟨2, 0, 0, 1, 1, 3⟩, ⟨0, 0, 0, 2, 3, 4⟩]

/-- A run of the tasks of C126 and C128, in which the bounds of all tasks are attained. -/
example : ∃ R : LockRun exFmlp.length, InheritLocks 1 (system exFmlp) R ∧ FifoQueues (system exFmlp) R ∧
    PriorityQueues (system exFmlp) R ∧ ExecutesUntilRelease R ∧ (∃ s t, R.Waits s t) ∧ ∀ i : Fin exFmlp.length, ¬ Completed R.work R.sched (i, 0)
      (R.work.release (i, 0) + (exFmlp.get i).response - 1) := by
  have hok : exFmlpTable.Ok 1 exFmlpSys := by decide +kernel
  refine ⟨exFmlpTable.run exFmlpSys, ?_, ?_, ?_, hok.untilRelease (by decide +kernel), ?_, ?_⟩
  · rw [system_exFmlp]
    exact hok.inherit (by decide +kernel)
  · rw [system_exFmlp]
    exact hok.fifo (by decide +kernel)
  · rw [system_exFmlp]
    exact hok.prio (by decide +kernel)
  · exact ⟨_, 2, (hok.waits_iff (c := ⟨0, 0, 0, 2, 3, 4⟩) (by decide)).2 (by decide)⟩
  · have key : ∀ i : Fin 3, ¬ Completed (exFmlpTable.run exFmlpSys).work (exFmlpTable.run exFmlpSys).sched (i, 0)
        ((exFmlpTable.run exFmlpSys).work.release (i, 0) + (exFmlp.get i).response - 1) := by
      intro i
      unfold Completed
      rw [Table.service_run]
      revert i
      decide +kernel
    exact key

end Verif.SR.Lp.Glob
