/-
C147: tasks and runs that meet the hypotheses, and in which the response-time bounds are attained.
-/
import Verif.Props.LpRsb
import Verif.Lemmas.LpGlobalCert
import Verif.Lemmas.LockTableGlobal
import Mathlib.Data.Fin.VecNotation

namespace Verif.SR.Lp.Glob
open Verif.Spec Finset
open Verif.SR.Msrp (system)

/-- Two tasks that share a resource. -/
def exTwo : Info :=
  [⟨0, 10, 10, 3, 0, 2, [⟨0, 1, 1, false⟩]⟩, ⟨1, 10, 10, 4, 0, 3, [⟨0, 1, 1, false⟩]⟩]

/-- Three tasks without requests. -/
def exFree : Info := [⟨0, 10, 10, 2, 0, 2, []⟩, ⟨1, 10, 10, 2, 0, 2, []⟩, ⟨2, 10, 10, 3, 0, 1, []⟩]

theorem bounds_two {solve : Solver} {program : ℕ → TaskInfo → Option Program} {P0 P1 : Program} {b0 b1 : ℕ}
    {info : Info} {t0 t1 : TaskInfo} (hi : indexIsPriority info = true) (ht : tasks info = [(0, t0), (1, t1)])
    (hp0 : program 0 t0 = some P0) (hp1 : program 1 t1 = some P1) (h0 : solved solve t0 P0 = some b0)
    (h1 : solved solve t1 P1 = some b1) : bounds solve info program = some [b0, b1] := by
  unfold bounds
  rw [ht]
  simp only [hi, if_true, List.mapM_cons, List.mapM_nil, hp0, hp1, Option.bind_some, h0, h1]
  rfl

theorem bounds_three {solve : Solver} {program : ℕ → TaskInfo → Option Program} {P0 P1 P2 : Program} {b0 b1 b2 : ℕ}
    {info : Info} {t0 t1 t2 : TaskInfo} (hi : indexIsPriority info = true)
    (ht : tasks info = [(0, t0), (1, t1), (2, t2)])
    (hp0 : program 0 t0 = some P0) (hp1 : program 1 t1 = some P1) (hp2 : program 2 t2 = some P2)
    (h0 : solved solve t0 P0 = some b0) (h1 : solved solve t1 P1 = some b1) (h2 : solved solve t2 P2 = some b2) :
    bounds solve info program = some [b0, b1, b2] := by
  unfold bounds
  rw [ht]
  simp only [hi, if_true, List.mapM_cons, List.mapM_nil, hp0, hp1, hp2, Option.bind_some, h0, h1, h2]
  rfl

/-- A program that is defined, and its optimum. -/
theorem solved_of {P : Option Program} {l : Exp} {cert : List (ℚ × ℕ)} {v : ℕ}
    (hP : P.isSome = true) (h : CoverOpt (P.getD {}) l cert v) {solve : Solver}
    (h1 : ∀ P x, solve P = some x → P.Maximum x) (h2 : ∀ P x, BoxLp.Maximum P x → (solve P).isSome) {ti : TaskInfo}
    (hc : ti.cost ≤ ti.response) : P = some (P.getD {}) ∧ solved solve ti (P.getD {}) = some v := by
  refine ⟨?_, h.solved h1 h2 hc⟩
  cases P
  · cases hP
  · rfl

theorem exTwo_bounds {solve : Solver} (h1 : ∀ P x, solve P = some x → P.Maximum x)
    (h2 : ∀ P x, BoxLp.Maximum P x → (solve P).isSome) :
    fmlppBounds solve exTwo 2 = some [1, 1] ∧ prsbBounds solve 12 exTwo 2 = some [1, 1] := by
  have hi : indexIsPriority exTwo = true := by decide
  have et : tasks exTwo = [(0, exTwo.get ⟨0, by decide⟩), (1, exTwo.get ⟨1, by decide⟩)] := by decide
  constructor
  · obtain ⟨p0, s0⟩ := solved_of (P := fmlppProgram exTwo 2 0 (exTwo.get ⟨0, by decide⟩))
      (l := [(1, .frac ⟨.direct, 1, 0, 0⟩)]) (cert := [(1, 2), (1, 3)]) (v := 1) (by decide +kernel) (by decide +kernel)
      h1 h2 (ti := exTwo.get ⟨0, by decide⟩) (by decide)
    obtain ⟨p1, s1⟩ := solved_of (P := fmlppProgram exTwo 2 1 (exTwo.get ⟨1, by decide⟩))
      (l := [(1, .frac ⟨.direct, 0, 0, 0⟩)]) (cert := [(1, 2), (1, 1)]) (v := 1) (by decide +kernel) (by decide +kernel)
      h1 h2 (ti := exTwo.get ⟨1, by decide⟩) (by decide)
    exact bounds_two hi et p0 p1 s0 s1
  · obtain ⟨p0, s0⟩ := solved_of (P := prsbProgram 12 exTwo 2 0 (exTwo.get ⟨0, by decide⟩))
      (l := [(1, .frac ⟨.direct, 1, 0, 0⟩)]) (cert := [(1, 2), (1, 3)]) (v := 1) (by decide +kernel) (by decide +kernel)
      h1 h2 (ti := exTwo.get ⟨0, by decide⟩) (by decide)
    obtain ⟨p1, s1⟩ := solved_of (P := prsbProgram 12 exTwo 2 1 (exTwo.get ⟨1, by decide⟩))
      (l := [(1, .frac ⟨.direct, 0, 0, 0⟩)]) (cert := [(1, 2), (1, 1)]) (v := 1) (by decide +kernel) (by decide +kernel)
      h1 h2 (ti := exTwo.get ⟨1, by decide⟩) (by decide)
    exact bounds_two hi et p0 p1 s0 s1

theorem exFree_bounds {solve : Solver} (h1 : ∀ P x, solve P = some x → P.Maximum x)
    (h2 : ∀ P x, BoxLp.Maximum P x → (solve P).isSome) :
    fmlppBounds solve exFree 2 = some [0, 0, 2] ∧ prsbBounds solve 12 exFree 2 = some [0, 0, 2] := by
  have hi : indexIsPriority exFree = true := by decide
  have et : tasks exFree = [(0, exFree.get ⟨0, by decide⟩), (1, exFree.get ⟨1, by decide⟩),
    (2, exFree.get ⟨2, by decide⟩)] := by decide
  constructor
  · obtain ⟨p0, s0⟩ := solved_of (P := fmlppProgram exFree 2 0 (exFree.get ⟨0, by decide⟩))
      (l := []) (cert := [(1, 7)]) (v := 0) (by decide +kernel) (by decide +kernel)
      h1 h2 (ti := exFree.get ⟨0, by decide⟩) (by decide)
    obtain ⟨p1, s1⟩ := solved_of (P := fmlppProgram exFree 2 1 (exFree.get ⟨1, by decide⟩))
      (l := []) (cert := [(1, 2), (1, 5)]) (v := 0) (by decide +kernel) (by decide +kernel)
      h1 h2 (ti := exFree.get ⟨1, by decide⟩) (by decide)
    obtain ⟨p2, s2⟩ := solved_of (P := fmlppProgram exFree 2 2 (exFree.get ⟨2, by decide⟩))
      (l := [(2, .intf .regular 0), (2, .intf .regular 1)]) (cert := [(1/2, 0), (1/2, 1)]) (v := 2)
      (by decide +kernel) (by decide +kernel) h1 h2 (ti := exFree.get ⟨2, by decide⟩) (by decide)
    exact bounds_three hi et p0 p1 p2 s0 s1 s2
  · obtain ⟨p0, s0⟩ := solved_of (P := prsbProgram 12 exFree 2 0 (exFree.get ⟨0, by decide⟩))
      (l := []) (cert := [(1, 7)]) (v := 0) (by decide +kernel) (by decide +kernel)
      h1 h2 (ti := exFree.get ⟨0, by decide⟩) (by decide)
    obtain ⟨p1, s1⟩ := solved_of (P := prsbProgram 12 exFree 2 1 (exFree.get ⟨1, by decide⟩))
      (l := []) (cert := [(1, 2), (1, 5)]) (v := 0) (by decide +kernel) (by decide +kernel)
      h1 h2 (ti := exFree.get ⟨1, by decide⟩) (by decide)
    obtain ⟨p2, s2⟩ := solved_of (P := prsbProgram 12 exFree 2 2 (exFree.get ⟨2, by decide⟩))
      (l := [(2, .intf .regular 0), (2, .intf .regular 1)]) (cert := [(1/2, 0), (1/2, 1)]) (v := 2)
      (by decide +kernel) (by decide +kernel) h1 h2 (ti := exFree.get ⟨2, by decide⟩) (by decide)
    exact bounds_three hi et p0 p1 p2 s0 s1 s2

/-- The hypotheses of C147 about the tasks are satisfied, with response times that are exactly the bounds. -/
example : ∃ solve : Solver, (∀ P x, solve P = some x → P.Maximum x) ∧
    (∀ t ∈ exTwo ++ exFree, 0 < t.period ∧ t.response ≤ t.deadline ∧ t.response ≤ t.period ∧ t.response < 2 ^ 64 - 1 ∧
      t.deadline < 2 ^ 32 ∧ (t.requests.map (·.resId)).Nodup) ∧
    fmlppBounds solve exTwo 2 = some [1, 1] ∧ prsbBounds solve 12 exTwo 2 = some [1, 1] ∧
    fmlppBounds solve exFree 2 = some [0, 0, 2] ∧ prsbBounds solve 12 exFree 2 = some [0, 0, 2] ∧
    (∀ i : Fin exTwo.length, ∀ b, [1, 1][(i : ℕ)]? = some b → (exTwo.get i).cost + b ≤ (exTwo.get i).response) ∧
    ∀ i : Fin exFree.length, ∀ b, [0, 0, 2][(i : ℕ)]? = some b → (exFree.get i).cost + b ≤ (exFree.get i).response := by
  obtain ⟨solve, h1, h2⟩ := exists_solver
  refine ⟨solve, h1, by decide, (exTwo_bounds h1 h2).1, (exTwo_bounds h1 h2).2, (exFree_bounds h1 h2).1,
    (exFree_bounds h1 h2).2, ?_, ?_⟩ <;>
  · intro i b hb
    fin_cases i <;> (cases hb; decide)

/-- The tasks of `exTwo`, written as functions. -/
def exTwoSys : LockSystem 2 where
  proc := ![0, 0]
  cost := ![2, 3]
  period := ![10, 10]
  deadline := ![10, 10]
  reqs := ![[⟨0, 1, 1⟩], [⟨0, 1, 1⟩]]

theorem system_exTwo : system exTwo = exTwoSys := by
  unfold system exTwoSys
  congr 1 <;>
  · funext (i : Fin 2)
    fin_cases i <;> rfl

/-- Both tasks request the resource at time 0; task 1 acquires it first. -/
def exTwoTable : Table 2 where
  off := ![0, 0]
  exec := ![2, 3]
  slots := [{1}, {0, 1}, {0, 1}]
  secs := [⟨1, 0, 0, 0, 0, 1⟩, ⟨0, 0, 0, 0, 1, 2⟩]

theorem _root_.Verif.Spec.PlainLocks.conserving {n m : ℕ} {S : LockSystem n} {R : LockRun n} (h : PlainLocks m S R) :
    ConservingLocks m S R := ⟨h.toSuspendRun, fun t j h1 h2 h3 => (h.dispatch t j h1 h2 h3).1⟩

/-- A run of at most as many tasks as processors, in which a job waits and the bound of task 0 is attained. -/
example : ∃ R : LockRun exTwo.length, ConservingLocks 2 (system exTwo) R ∧ FifoQueues (system exTwo) R ∧
    PriorityQueues (system exTwo) R ∧ (∃ s t, R.Waits s t) ∧ R.work.release (⟨0, by decide⟩, 0) = 0 ∧
    ¬ Completed R.work R.sched (⟨0, by decide⟩, 0) 2 := by
  have hok : exTwoTable.Ok 2 exTwoSys := by decide +kernel
  refine ⟨exTwoTable.run exTwoSys, ?_, ?_, ?_, ?_, rfl, ?_⟩
  · rw [system_exTwo]
    exact (hok.plain (by decide +kernel)).conserving
  · rw [system_exTwo]
    exact hok.fifo (by decide +kernel)
  · rw [system_exTwo]
    exact hok.prio (by decide +kernel)
  · exact ⟨_, 0, (hok.waits_iff (c := ⟨0, 0, 0, 0, 1, 2⟩) (by decide)).2 (by decide)⟩
  · show ¬ Completed (exTwoTable.run exTwoSys).work (exTwoTable.run exTwoSys).sched ((0 : Fin 2), 0) 2
    unfold Completed
    rw [Table.service_run]
    decide +kernel

/-- The tasks of `exFree`, written as functions. -/
def exFreeSys : LockSystem 3 where
  proc := ![0, 0, 0]
  cost := ![2, 2, 1]
  period := ![10, 10, 10]
  deadline := ![10, 10, 10]
  reqs := ![[], [], []]

theorem system_exFree : system exFree = exFreeSys := by
  unfold system exFreeSys
  congr 1 <;>
  · funext (i : Fin 3)
    fin_cases i <;> rfl

/-- All jobs are released at time 0. -/
def exFreeTable : Table 3 where
  off := ![0, 0, 0]
  exec := ![2, 2, 1]
  slots := [{0, 1}, {0, 1}, {2}]
  secs := []

/-- A run of more tasks than processors without requests, in which the bounds of all tasks are attained. -/
example : ∃ R : LockRun exFree.length, PlainLocks 2 (system exFree) R ∧ (∀ s, ¬ R.issued s) ∧
    ∀ i : Fin exFree.length, ¬ Completed R.work R.sched (i, 0)
      (R.work.release (i, 0) + (exFree.get i).response - 1) := by
  have hok : exFreeTable.Ok 2 exFreeSys := by decide +kernel
  refine ⟨exFreeTable.run exFreeSys, ?_, ?_, ?_⟩
  · rw [system_exFree]
    exact hok.plain (by decide +kernel)
  · rintro s ⟨c, hc, _⟩
    simp [exFreeTable] at hc
  · have key : ∀ i : Fin 3, ¬ Completed (exFreeTable.run exFreeSys).work (exFreeTable.run exFreeSys).sched (i, 0)
        ((exFreeTable.run exFreeSys).work.release (i, 0) + (exFree.get i).response - 1) := by
      intro i
      unfold Completed
      rw [Table.service_run]
      revert i
      decide +kernel
    exact key

end Verif.SR.Lp.Glob
