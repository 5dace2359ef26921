/-
C99: a run of the DPCP, and resources that are not assigned to a processor.
-/
import Verif.Props.Dpcp
import Verif.Lemmas.LockTableDpcp
import Mathlib.Data.Fin.VecNotation
import Mathlib.Tactic.FinCases

namespace Verif.SR.Dpcp
open Verif.Spec
open Verif.SR.Msrp (system)

/-- Two processors with two tasks each; both resources are shared by both processors. -/
def exInfo : Info :=
  [⟨0, 60, 60, 60, 0, 3, [⟨0, 1, 1, false⟩]⟩, ⟨1, 60, 60, 60, 0, 4, [⟨1, 1, 2, false⟩]⟩,
    ⟨2, 60, 60, 60, 1, 3, [⟨0, 1, 2, false⟩]⟩, ⟨3, 60, 60, 60, 1, 3, [⟨1, 1, 1, false⟩]⟩]

/-- The same tasks, written as functions. -/
def exSys : LockSystem 4 where
  proc := ![0, 0, 1, 1]
  cost := ![3, 4, 3, 3]
  period := ![60, 60, 60, 60]
  deadline := ![60, 60, 60, 60]
  reqs := ![[⟨0, 1, 1⟩], [⟨1, 1, 2⟩], [⟨0, 1, 2⟩], [⟨1, 1, 1⟩]]

theorem system_exInfo : system exInfo = exSys := by
  unfold system exSys
  congr 1 <;>
  · funext (i : Fin 4)
    fin_cases i <;> rfl

/-- Resource 0 is on processor 1 and resource 1 on processor 0. -/
def exLoc (r : ℕ) : ℕ := 1 - r

/-- Task 0 arrives at time 1, while processor 0 executes the agent of task 1; from time 2 to 3 it waits for the agent
of task 2 on the other processor; at time 5 the agent of task 3 delays it. -/
def exTable : Table 4 where
  off := ![1, 0, 0, 0]
  exec := ![3, 4, 3, 3]
  slots := [{1, 2}, {1, 2}, {1, 2}, {0, 1}, {0, 3}, {3}, {0, 3}]
  secs := [⟨1, 0, 0, 0, 0, 2⟩, ⟨2, 0, 0, 1, 1, 3⟩, ⟨0, 0, 0, 2, 3, 4⟩, ⟨3, 0, 0, 5, 5, 6⟩]

/-- The tasks of both processors are accepted, with these response times, and the run above is one
of their runs. -/
example : (Fp.boundResponseTimes 50 1 (afterDpcpBounds exInfo [(1, 0), (0, 1)] false 0)).map
        (fun r => (r.1, r.2.map (·.2))) = some (true, [11, 9]) ∧
    (Fp.boundResponseTimes 50 1 (afterDpcpBounds exInfo [(1, 0), (0, 1)] true 1)).map
        (fun r => (r.1, r.2.map (·.2))) = some (true, [5, 16]) ∧
    (∃ R, Spec.Dpcp (system exInfo) (fun i => (exInfo.get i).priority) exLoc R) ∧
    ∀ R, Spec.Dpcp (system exInfo) (fun i => (exInfo.get i).priority) exLoc R →
      MeetsDeadlines R.work (system exInfo).deadline R.sched := by
  refine ⟨by decide +kernel, by decide +kernel, ⟨exTable.run exSys, ?_⟩, fun R hR => ?_⟩
  · rw [system_exInfo]
    have hp : (fun i : Fin 4 => (exInfo.get i).priority) = ![0, 1, 2, 3] := by
      funext i
      fin_cases i <;> rfl
    change Spec.Dpcp exSys (fun i : Fin 4 => (exInfo.get i).priority) exLoc _
    rw [hp]
    exact (show exTable.ReqOk 4 exSys by decide +kernel).dpcp (by decide +kernel) (by decide +kernel)
      (by decide +kernel) (by decide +kernel)
  · exact C99_dpcp_schedulable_partial exInfo [(1, 0), (0, 1)] exLoc false 50 (by decide) (by decide) (by decide)
      (by decide) (by decide) (by decide +kernel) (by decide) R hR

/-- Two tasks on different processors that do nothing but use the same resource. -/
def badInfo : Info := [⟨0, 8, 2, 2, 0, 2, [⟨0, 1, 2, false⟩]⟩, ⟨1, 8, 2, 2, 1, 2, [⟨0, 1, 2, false⟩]⟩]

/-- The same tasks, written as functions. -/
def badSys : LockSystem 2 where
  proc := ![0, 1]
  cost := ![2, 2]
  period := ![8, 8]
  deadline := ![2, 2]
  reqs := ![[⟨0, 1, 2⟩], [⟨0, 1, 2⟩]]

theorem system_badInfo : system badInfo = badSys := by
  unfold system badSys
  congr 1 <;>
  · funext (i : Fin 2)
    fin_cases i <;> rfl

/-- Task 1 has to wait for task 0. -/
def badTable : Table 2 where
  off := ![0, 0]
  exec := ![2, 2]
  slots := [{0}, {0}, {1}, {1}]
  secs := [⟨0, 0, 0, 0, 0, 2⟩, ⟨1, 0, 0, 0, 2, 4⟩]

/-- **C99** does not hold for resources that `resource_mapping` does not assign to a processor, which the native code
allows for: here all requests are served by processor 2, which executes no tasks; the tasks of both processors are
accepted, under either definition, and the later one of two simultaneous requests makes a job miss its deadline. -/
theorem C99_violated (textBook : Bool) : ∃ info : Info, (∀ t ∈ info, 0 < t.period) ∧
    info.Pairwise (fun a b => a.cluster = b.cluster → a.priority < b.priority) ∧
    info.Pairwise (fun a b => a.priority ≠ b.priority) ∧
    (∀ t ∈ info, t.deadline ≤ t.response) ∧ (∀ t ∈ info, t.cluster ≠ 2) ∧
    (∀ t ∈ info, ∃ done, Fp.boundResponseTimes 10 1 (afterDpcpBounds info [] textBook t.cluster) = some (true, done)) ∧
    ∃ R, Spec.Dpcp (system info) (fun i => (info.get i).priority) (fun _ => 2) R ∧
      ¬ MeetsDeadlines R.work (system info).deadline R.sched := by
  refine ⟨badInfo, by decide, by decide, by decide, by decide, by decide, ?_, badTable.run badSys, ?_, ?_⟩
  · intro t ht
    have key : ∀ t ∈ badInfo, (Fp.boundResponseTimes 10 1 (afterDpcpBounds badInfo [] textBook t.cluster)).map (·.1) =
        some true := by
      cases textBook <;> decide +kernel
    have := key t ht
    cases hb : Fp.boundResponseTimes 10 1 (afterDpcpBounds badInfo [] textBook t.cluster) with
    | none => rw [hb] at this; simp at this
    | some r =>
      rw [hb] at this
      obtain ⟨b, done⟩ := r
      simp only [Option.map_some, Option.some.injEq] at this
      exact ⟨done, by rw [this]⟩
  · rw [system_badInfo]
    have hp : (fun i : Fin 2 => (badInfo.get i).priority) = ![0, 1] := by
      funext i
      fin_cases i <;> rfl
    change Spec.Dpcp badSys (fun i : Fin 2 => (badInfo.get i).priority) _ _
    rw [hp]
    exact (show badTable.ReqOk 2 badSys by decide +kernel).dpcp (by decide +kernel) (by decide +kernel)
      (by decide +kernel) (by decide +kernel)
  · rw [system_badInfo]
    intro hm
    have h1 := hm ((1 : Fin 2), 0)
    revert h1
    change ¬ Completed (badTable.run badSys).work (badTable.run badSys).sched ((1 : Fin 2), 0) (0 + 2)
    unfold Completed
    decide +kernel

end Verif.SR.Dpcp
