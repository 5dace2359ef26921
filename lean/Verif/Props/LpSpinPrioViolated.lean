/-
C108 and C109: task sets that are accepted with the LP-based bounds for priority-ordered spin locks but miss a deadline.
-/
import Verif.Model.LpSpinPrio
import Verif.Lemmas.LpCover
import Verif.Lemmas.JobTableSpin
import Verif.Model.Msrp
import Mathlib.Data.Fin.VecNotation
import Mathlib.Tactic.FinCases

namespace Verif.SR.Lp
open Verif.Spec
open Verif.SR.Msrp (system)

/-- Four tasks that share a resource. -/
def wideInfo : Info :=
  [⟨0, 100, 13, 13, 0, 1, [⟨0, 1, 1, false⟩]⟩, ⟨1, 11, 11, 11, 1, 2, [⟨0, 1, 2, false⟩]⟩,
    ⟨2, 100, 40, 40, 1, 4, [⟨0, 2, 2, false⟩]⟩, ⟨3, 100, 40, 40, 2, 6, [⟨0, 3, 2, false⟩]⟩]

/-- The requests of task 0 have a lower priority than all others. -/
def widePrio : LockPrio := fun t _ => if t = 0 then 1 else 0

def wideSys : LockSystem 4 where
  proc := ![0, 1, 1, 2]
  cost := ![1, 2, 4, 6]
  period := ![100, 11, 100, 100]
  deadline := ![13, 11, 40, 40]
  reqs := ![[⟨0, 1, 1⟩], [⟨0, 1, 2⟩], [⟨0, 2, 2⟩], [⟨0, 3, 2⟩]]

theorem system_wide : system wideInfo = wideSys := by
  unfold system wideSys
  congr 1 <;>
  · funext (i : Fin 4)
    fin_cases i <;> rfl

/-- Task 0 waits for seven requests with higher priorities; the last one is issued by the second job of task 1. -/
def wideTable : JTable 4 where
  off := ![0, 0, 0, 0]
  exec := ![[15], [2, 3], [8], [12]]
  slots := [{(0, 0), (1, 0), (3, 0)}, {(0, 0), (1, 0), (3, 0)}, {(0, 0), (2, 0), (3, 0)}, {(0, 0), (2, 0), (3, 0)},
    {(0, 0), (2, 0), (3, 0)}, {(0, 0), (2, 0), (3, 0)}, {(0, 0), (2, 0), (3, 0)}, {(0, 0), (2, 0), (3, 0)},
    {(0, 0), (2, 0), (3, 0)}, {(0, 0), (2, 0), (3, 0)}, {(0, 0), (3, 0)}, {(0, 0), (1, 1), (3, 0)}, {(0, 0), (1, 1)},
    {(0, 0), (1, 1)}, {(0, 0)}]
  secs := [⟨(1, 0), 0, 0, 0, 0, 2⟩, ⟨(3, 0), 0, 0, 0, 2, 4⟩, ⟨(2, 0), 0, 0, 2, 4, 6⟩, ⟨(3, 0), 0, 1, 4, 6, 8⟩,
    ⟨(2, 0), 0, 1, 6, 8, 10⟩, ⟨(3, 0), 0, 2, 8, 10, 12⟩, ⟨(1, 1), 0, 0, 11, 12, 14⟩, ⟨(0, 0), 0, 0, 0, 14, 15⟩]

/-- Two tasks on one processor and two tasks on other processors. -/
def tardyInfo : Info :=
  [⟨0, 100, 8, 8, 0, 1, [⟨0, 1, 1, false⟩]⟩, ⟨1, 100, 50, 50, 0, 1, [⟨0, 1, 1, false⟩]⟩,
    ⟨2, 100, 50, 50, 1, 4, [⟨0, 2, 2, false⟩]⟩, ⟨3, 100, 50, 50, 2, 4, [⟨0, 2, 2, false⟩]⟩]

/-- The requests of task 0 have the highest priority, those of task 1 the lowest. -/
def tardyPrio : LockPrio := fun t _ => if t = 0 then 0 else if t = 1 then 2 else 1

def tardySys : LockSystem 4 where
  proc := ![0, 0, 1, 2]
  cost := ![1, 1, 4, 4]
  period := ![100, 100, 100, 100]
  deadline := ![8, 50, 50, 50]
  reqs := ![[⟨0, 1, 1⟩], [⟨0, 1, 1⟩], [⟨0, 2, 2⟩], [⟨0, 2, 2⟩]]

theorem system_tardy : system tardyInfo = tardySys := by
  unfold system tardySys
  congr 1 <;>
  · funext (i : Fin 4)
    fin_cases i <;> rfl

/-- Task 1 spins for four requests while the job of task 0 waits for the processor. -/
def tardyTable : JTable 4 where
  off := ![1, 0, 0, 0]
  exec := ![[1], [9], [6], [8]]
  slots := [{(1, 0), (2, 0), (3, 0)}, {(1, 0), (2, 0), (3, 0)}, {(1, 0), (2, 0), (3, 0)}, {(1, 0), (2, 0), (3, 0)},
    {(1, 0), (2, 0), (3, 0)}, {(1, 0), (2, 0), (3, 0)}, {(1, 0), (3, 0)}, {(1, 0), (3, 0)}, {(1, 0)}, {(0, 0)}]
  secs := [⟨(2, 0), 0, 0, 0, 0, 2⟩, ⟨(3, 0), 0, 0, 0, 2, 4⟩, ⟨(2, 0), 0, 1, 2, 4, 6⟩, ⟨(3, 0), 0, 1, 4, 6, 8⟩,
    ⟨(1, 0), 0, 0, 0, 8, 9⟩, ⟨(0, 0), 0, 0, 9, 9, 10⟩]

/-- A task without requests, a task on the same processor and a task on another one. -/
def stallInfo : Info :=
  [⟨0, 100, 2, 2, 0, 1, []⟩, ⟨1, 100, 50, 50, 0, 1, [⟨0, 1, 1, false⟩]⟩, ⟨2, 100, 50, 50, 1, 2, [⟨0, 1, 2, false⟩]⟩]

/-- The requests of task 1 have a lower priority than those of task 2. -/
def stallPrio : LockPrio := fun t _ => if t = 1 then 1 else 0

def stallSys : LockSystem 3 where
  proc := ![0, 0, 1]
  cost := ![1, 1, 2]
  period := ![100, 100, 100]
  deadline := ![2, 50, 50]
  reqs := ![[], [⟨0, 1, 1⟩], [⟨0, 1, 2⟩]]

theorem system_stall : system stallInfo = stallSys := by
  unfold system stallSys
  congr 1 <;>
  · funext (i : Fin 3)
    fin_cases i <;> rfl

/-- Task 1 spins for the request of task 2 while the job of task 0 waits for the processor. -/
def stallTable : JTable 3 where
  off := ![1, 0, 0]
  exec := ![[1], [3], [2]]
  slots := [{(1, 0), (2, 0)}, {(1, 0), (2, 0)}, {(1, 0)}, {(0, 0)}]
  secs := [⟨(2, 0), 0, 0, 0, 0, 2⟩, ⟨(1, 0), 0, 0, 0, 2, 3⟩]

theorem wide_run : PrioFifoFp (system wideInfo) (fun i => (wideInfo.get i).priority) (fun i r => widePrio i r)
    (wideTable.run wideSys) := by
  rw [system_wide]
  have hp : (fun i : Fin 4 => (wideInfo.get i).priority) = ![0, 1, 2, 3] := by
    funext i
    fin_cases i <;> rfl
  change PrioFifoFp wideSys (fun i : Fin 4 => (wideInfo.get i).priority) (fun i : Fin 4 => fun r => widePrio i r) _
  rw [hp]
  exact (show wideTable.SpinOk wideSys ![0, 1, 2, 3] by decide +kernel).prioFifoFp (by decide +kernel)

theorem tardy_run : PrioFifoFp (system tardyInfo) (fun i => (tardyInfo.get i).priority) (fun i r => tardyPrio i r)
    (tardyTable.run tardySys) := by
  rw [system_tardy]
  have hp : (fun i : Fin 4 => (tardyInfo.get i).priority) = ![0, 1, 2, 3] := by
    funext i
    fin_cases i <;> rfl
  change PrioFifoFp tardySys (fun i : Fin 4 => (tardyInfo.get i).priority) (fun i : Fin 4 => fun r => tardyPrio i r) _
  rw [hp]
  exact (show tardyTable.SpinOk tardySys ![0, 1, 2, 3] by decide +kernel).prioFifoFp (by decide +kernel)

theorem stall_run : PrioFifoFp (system stallInfo) (fun i => (stallInfo.get i).priority) (fun i r => stallPrio i r)
    (stallTable.run stallSys) := by
  rw [system_stall]
  have hp : (fun i : Fin 3 => (stallInfo.get i).priority) = ![0, 1, 2] := by
    funext i
    fin_cases i <;> rfl
  change PrioFifoFp stallSys (fun i : Fin 3 => (stallInfo.get i).priority) (fun i : Fin 3 => fun r => stallPrio i r) _
  rw [hp]
  exact (show stallTable.SpinOk stallSys ![0, 1, 2] by decide +kernel).prioFifoFp (by decide +kernel)

/-- Sections of a table that are waited for and used. -/
theorem table_use {n : ℕ} {T : JTable n} {S : LockSystem n} {prio : Fin n → ℕ} (h : T.SpinOk S prio)
    (hu : ∀ c ∈ T.secs, c.acquire < c.leave) (s : Section n) (hs : (T.run S).issued s) :
    (T.run S).acquire s < (T.run S).leave s := by
  obtain ⟨c, hc, rfl⟩ := hs
  rw [h.acquire_eq hc, h.leave_eq hc]
  exact hu c hc

theorem wide_use : ∀ s, (wideTable.run wideSys).issued s →
    (wideTable.run wideSys).acquire s < (wideTable.run wideSys).leave s :=
  table_use (show wideTable.SpinOk wideSys ![0, 1, 2, 3] by decide +kernel) (by decide)

theorem tardy_use : ∀ s, (tardyTable.run tardySys).issued s →
    (tardyTable.run tardySys).acquire s < (tardyTable.run tardySys).leave s :=
  table_use (show tardyTable.SpinOk tardySys ![0, 1, 2, 3] by decide +kernel) (by decide)

theorem stall_use : ∀ s, (stallTable.run stallSys).issued s →
    (stallTable.run stallSys).acquire s < (stallTable.run stallSys).leave s :=
  table_use (show stallTable.SpinOk stallSys ![0, 1, 2] by decide +kernel) (by decide)

theorem wide_missed : ¬ MeetsDeadlines (wideTable.run wideSys).work (system wideInfo).deadline
    (wideTable.run wideSys).sched := by
  intro h
  have := h ((0 : Fin 4), 0)
  revert this
  unfold Completed
  erw [JTable.service_run]
  decide +kernel

theorem tardy_missed : ¬ MeetsDeadlines (tardyTable.run tardySys).work (system tardyInfo).deadline
    (tardyTable.run tardySys).sched := by
  intro h
  have := h ((0 : Fin 4), 0)
  revert this
  unfold Completed
  erw [JTable.service_run]
  decide +kernel

theorem stall_missed : ¬ MeetsDeadlines (stallTable.run stallSys).work (system stallInfo).deadline
    (stallTable.run stallSys).sched := by
  intro h
  have := h ((0 : Fin 3), 0)
  revert this
  unfold Completed
  erw [JTable.service_run]
  decide +kernel

section
variable {solve : Solver} (h1 : ∀ P x, solve P = some x → P.Maximum x) (h2 : ∀ P x, P.Maximum x → (solve P).isSome)
include h1 h2

theorem any_wide_task0 : (prioProgram (addedPrio widePrio) 100 wideInfo 0
    ⟨0, 100, 13, 13, 0, 1, [⟨0, 1, 1, false⟩]⟩).bind (solved solve) = some 12 :=
  bind_cover [(1, ⟨.direct, 1, 0, 0⟩), (1, ⟨.direct, 2, 0, 0⟩), (1, ⟨.direct, 2, 1, 0⟩), (1, ⟨.direct, 3, 0, 0⟩),
      (1, ⟨.direct, 3, 1, 0⟩), (1, ⟨.direct, 3, 2, 0⟩)]
    [(2, 3), (2, 4), (2, 5), (2, 6), (2, 7), (2, 9), (2, 10), (2, 13)] (by decide +kernel) h1 h2

theorem any_wide_task1 : (prioProgram (addedPrio widePrio) 100 wideInfo 1
    ⟨1, 11, 11, 11, 1, 2, [⟨0, 1, 2, false⟩]⟩).bind (solved solve) = some 9 :=
  bind_cover [(1, ⟨.direct, 0, 0, 0⟩), (1, ⟨.preempt, 0, 0, 0⟩), (1, ⟨.direct, 3, 0, 0⟩), (1, ⟨.direct, 3, 1, 0⟩),
      (1, ⟨.direct, 3, 2, 0⟩), (1, ⟨.indirect, 2, 0, 0⟩)]
    [(1, 0), (2, 3), (2, 4), (2, 5), (2, 6), (2, 7), (2, 12)] (by decide +kernel) h1 h2

theorem any_wide_task2 : (prioProgram (addedPrio widePrio) 100 wideInfo 2
    ⟨2, 100, 40, 40, 1, 4, [⟨0, 2, 2, false⟩]⟩).bind (solved solve) = some 7 :=
  bind_cover [(1, ⟨.direct, 0, 0, 0⟩), (1, ⟨.direct, 3, 0, 0⟩), (1, ⟨.direct, 3, 1, 0⟩), (1, ⟨.direct, 3, 2, 0⟩)]
    [(1, 0), (2, 6), (2, 7), (2, 8), (2, 11), (2, 16)] (by decide +kernel) h1 h2

theorem any_wide_task3 : (prioProgram (addedPrio widePrio) 100 wideInfo 3
    ⟨3, 100, 40, 40, 2, 6, [⟨0, 3, 2, false⟩]⟩).bind (solved solve) = some 11 :=
  bind_cover [(1, ⟨.direct, 0, 0, 0⟩), (1, ⟨.direct, 1, 0, 0⟩), (1, ⟨.direct, 1, 1, 0⟩), (1, ⟨.direct, 1, 2, 0⟩),
      (1, ⟨.direct, 2, 0, 0⟩), (1, ⟨.direct, 2, 1, 0⟩)]
    [(1, 0), (2, 6), (2, 7), (2, 9), (2, 11), (2, 14)] (by decide +kernel) h1 h2

theorem any_wide_bounds : prioBounds widePrio 100 solve wideInfo = some [12, 9, 7, 11] := by
  unfold prioBounds
  change [(0, _), (1, _), (2, _), (3, _)].mapM _ = _
  simp only [List.mapM_cons, List.mapM_nil, any_wide_task0 h1 h2, any_wide_task1 h1 h2, any_wide_task2 h1 h2,
    any_wide_task3 h1 h2]
  rfl

theorem any_kept_task0 : (prioProgram widePrio 100 wideInfo 0
    ⟨0, 100, 13, 13, 0, 1, [⟨0, 1, 1, false⟩]⟩).bind (solved solve) = some 12 :=
  bind_cover [(1, ⟨.direct, 1, 0, 0⟩), (1, ⟨.direct, 2, 0, 0⟩), (1, ⟨.direct, 2, 1, 0⟩), (1, ⟨.direct, 3, 0, 0⟩),
      (1, ⟨.direct, 3, 1, 0⟩), (1, ⟨.direct, 3, 2, 0⟩)]
    [(2, 3), (2, 4), (2, 5), (2, 6), (2, 7), (2, 9), (2, 10), (2, 13)] (by decide +kernel) h1 h2

theorem any_kept_task1 : (prioProgram widePrio 100 wideInfo 1
    ⟨1, 11, 11, 11, 1, 2, [⟨0, 1, 2, false⟩]⟩).bind (solved solve) = some 9 :=
  bind_cover [(1, ⟨.direct, 0, 0, 0⟩), (1, ⟨.preempt, 0, 0, 0⟩), (1, ⟨.direct, 3, 0, 0⟩), (1, ⟨.direct, 3, 1, 0⟩),
      (1, ⟨.direct, 3, 2, 0⟩), (1, ⟨.indirect, 2, 0, 0⟩)]
    [(1, 0), (2, 3), (2, 4), (2, 5), (2, 6), (2, 7), (2, 12)] (by decide +kernel) h1 h2

theorem any_kept_task2 : (prioProgram widePrio 100 wideInfo 2
    ⟨2, 100, 40, 40, 1, 4, [⟨0, 2, 2, false⟩]⟩).bind (solved solve) = some 7 :=
  bind_cover [(1, ⟨.direct, 0, 0, 0⟩), (1, ⟨.direct, 3, 0, 0⟩), (1, ⟨.direct, 3, 1, 0⟩), (1, ⟨.direct, 3, 2, 0⟩)]
    [(1, 0), (2, 6), (2, 7), (2, 8), (2, 11), (2, 17)] (by decide +kernel) h1 h2

theorem any_kept_task3 : (prioProgram widePrio 100 wideInfo 3
    ⟨3, 100, 40, 40, 2, 6, [⟨0, 3, 2, false⟩]⟩).bind (solved solve) = some 15 :=
  bind_cover [(1, ⟨.direct, 0, 0, 0⟩), (1, ⟨.direct, 1, 0, 0⟩), (1, ⟨.direct, 1, 1, 0⟩), (1, ⟨.direct, 1, 2, 0⟩),
      (1, ⟨.direct, 1, 3, 0⟩), (1, ⟨.direct, 1, 4, 0⟩), (1, ⟨.direct, 2, 0, 0⟩), (1, ⟨.direct, 2, 1, 0⟩)]
    [(1, 0), (2, 1), (2, 2), (2, 3), (2, 4), (2, 5), (2, 6), (2, 7)] (by decide +kernel) h1 h2

theorem any_kept_bounds : nativePrioBounds widePrio 100 solve wideInfo = some [12, 9, 7, 15] := by
  change [(0, _), (1, _), (2, _), (3, _)].mapM _ = _
  simp only [List.mapM_cons, List.mapM_nil, any_kept_task0 h1 h2, any_kept_task1 h1 h2, any_kept_task2 h1 h2,
    any_kept_task3 h1 h2]
  rfl

theorem fifo_wide_task0 : (prioFifoProgram (addedPrio widePrio) 100 wideInfo 0
    ⟨0, 100, 13, 13, 0, 1, [⟨0, 1, 1, false⟩]⟩).bind (solved solve) = some 4 :=
  bind_cover [(1, ⟨.direct, 1, 0, 0⟩), (1, ⟨.direct, 3, 0, 0⟩)]
    [(16, 9), (2, 10), (2, 11), (2, 12), (2, 13), (2, 14)] (by decide +kernel) h1 h2

theorem fifo_wide_task1 : (prioFifoProgram (addedPrio widePrio) 100 wideInfo 1
    ⟨1, 11, 11, 11, 1, 2, [⟨0, 1, 2, false⟩]⟩).bind (solved solve) = some 7 :=
  bind_cover [(1, ⟨.direct, 0, 0, 0⟩), (1, ⟨.preempt, 0, 0, 0⟩), (1, ⟨.indirect, 2, 0, 0⟩),
      (1, ⟨.direct, 3, 1, 0⟩), (1, ⟨.indirect, 3, 0, 0⟩)]
    [(1, 0), (4, 6), (2, 7), (2, 9), (2, 11), (2, 12)] (by decide +kernel) h1 h2

theorem fifo_wide_task2 : (prioFifoProgram (addedPrio widePrio) 100 wideInfo 2
    ⟨2, 100, 40, 40, 1, 4, [⟨0, 2, 2, false⟩]⟩).bind (solved solve) = some 7 :=
  bind_cover [(1, ⟨.direct, 0, 0, 0⟩), (1, ⟨.direct, 3, 0, 0⟩), (1, ⟨.direct, 3, 1, 0⟩), (1, ⟨.direct, 3, 2, 0⟩)]
    [(1, 0), (2, 6), (2, 7), (2, 8), (2, 11), (2, 16)] (by decide +kernel) h1 h2

theorem fifo_wide_task3 : (prioFifoProgram (addedPrio widePrio) 100 wideInfo 3
    ⟨3, 100, 40, 40, 2, 6, [⟨0, 3, 2, false⟩]⟩).bind (solved solve) = some 7 :=
  bind_cover [(1, ⟨.direct, 0, 0, 0⟩), (1, ⟨.direct, 1, 0, 0⟩), (1, ⟨.direct, 1, 1, 0⟩), (1, ⟨.direct, 1, 2, 0⟩)]
    [(1, 0), (30, 9), (2, 11), (2, 13), (2, 14)] (by decide +kernel) h1 h2

theorem fifo_wide_bounds : prioFifoBounds widePrio 100 solve wideInfo = some [4, 7, 7, 7] := by
  unfold prioFifoBounds
  change [(0, _), (1, _), (2, _), (3, _)].mapM _ = _
  simp only [List.mapM_cons, List.mapM_nil, fifo_wide_task0 h1 h2, fifo_wide_task1 h1 h2, fifo_wide_task2 h1 h2,
    fifo_wide_task3 h1 h2]
  rfl

theorem fifo_kept_task0 : (prioFifoProgram widePrio 100 wideInfo 0
    ⟨0, 100, 13, 13, 0, 1, [⟨0, 1, 1, false⟩]⟩).bind (solved solve) = some 12 :=
  bind_cover [(1, ⟨.direct, 1, 0, 0⟩), (1, ⟨.direct, 2, 0, 0⟩), (1, ⟨.direct, 2, 1, 0⟩), (1, ⟨.direct, 3, 0, 0⟩),
      (1, ⟨.direct, 3, 1, 0⟩), (1, ⟨.direct, 3, 2, 0⟩)]
    [(2, 3), (2, 4), (2, 5), (2, 6), (2, 7), (2, 9), (2, 10), (2, 13)] (by decide +kernel) h1 h2

theorem fifo_kept_task1 : (prioFifoProgram widePrio 100 wideInfo 1
    ⟨1, 11, 11, 11, 1, 2, [⟨0, 1, 2, false⟩]⟩).bind (solved solve) = some 7 :=
  bind_cover [(1, ⟨.direct, 0, 0, 0⟩), (1, ⟨.preempt, 0, 0, 0⟩), (1, ⟨.indirect, 2, 0, 0⟩),
      (1, ⟨.direct, 3, 1, 0⟩), (1, ⟨.indirect, 3, 0, 0⟩)]
    [(1, 0), (4, 6), (2, 7), (2, 10), (2, 11), (2, 12)] (by decide +kernel) h1 h2

theorem fifo_kept_task2 : (prioFifoProgram widePrio 100 wideInfo 2
    ⟨2, 100, 40, 40, 1, 4, [⟨0, 2, 2, false⟩]⟩).bind (solved solve) = some 7 :=
  bind_cover [(1, ⟨.direct, 0, 0, 0⟩), (1, ⟨.direct, 3, 0, 0⟩), (1, ⟨.direct, 3, 1, 0⟩), (1, ⟨.direct, 3, 2, 0⟩)]
    [(1, 0), (2, 6), (2, 7), (2, 8), (2, 11), (2, 17)] (by decide +kernel) h1 h2

theorem fifo_kept_task3 : (prioFifoProgram widePrio 100 wideInfo 3
    ⟨3, 100, 40, 40, 2, 6, [⟨0, 3, 2, false⟩]⟩).bind (solved solve) = some 7 :=
  bind_cover [(1, ⟨.direct, 0, 0, 0⟩), (1, ⟨.direct, 1, 0, 0⟩), (1, ⟨.direct, 1, 1, 0⟩), (1, ⟨.direct, 1, 2, 0⟩)]
    [(1, 0), (30, 9), (2, 12), (2, 14), (2, 15)] (by decide +kernel) h1 h2

theorem fifo_kept_bounds : nativePrioFifoBounds widePrio 100 solve wideInfo = some [12, 7, 7, 7] := by
  change [(0, _), (1, _), (2, _), (3, _)].mapM _ = _
  simp only [List.mapM_cons, List.mapM_nil, fifo_kept_task0 h1 h2, fifo_kept_task1 h1 h2, fifo_kept_task2 h1 h2,
    fifo_kept_task3 h1 h2]
  rfl

theorem any_tardy_task0 : (prioProgram tardyPrio 100 tardyInfo 0
    ⟨0, 100, 8, 8, 0, 1, [⟨0, 1, 1, false⟩]⟩).bind (solved solve) = some 5 :=
  bind_cover [(1, ⟨.preempt, 0, 0, 0⟩), (1, ⟨.indirect, 1, 0, 0⟩), (1, ⟨.direct, 2, 1, 0⟩), (1, ⟨.indirect, 2, 0, 0⟩)]
    [(1, 0), (2, 5), (2, 7), (2, 8)] (by decide +kernel) h1 h2

theorem any_tardy_task1 : (prioProgram tardyPrio 100 tardyInfo 1
    ⟨1, 100, 50, 50, 0, 1, [⟨0, 1, 1, false⟩]⟩).bind (solved solve) = some 8 :=
  bind_cover [(1, ⟨.direct, 2, 0, 0⟩), (1, ⟨.direct, 2, 1, 0⟩), (1, ⟨.direct, 3, 0, 0⟩), (1, ⟨.direct, 3, 1, 0⟩)]
    [(2, 1), (2, 2), (2, 3), (2, 4), (1, 7), (1, 12)] (by decide +kernel) h1 h2

theorem any_tardy_task2 : (prioProgram tardyPrio 100 tardyInfo 2
    ⟨2, 100, 50, 50, 1, 4, [⟨0, 2, 2, false⟩]⟩).bind (solved solve) = some 6 :=
  bind_cover [(1, ⟨.direct, 0, 0, 0⟩), (1, ⟨.direct, 1, 0, 0⟩), (1, ⟨.direct, 3, 0, 0⟩), (1, ⟨.direct, 3, 1, 0⟩)]
    [(1, 0), (1, 1), (2, 2), (2, 3)] (by decide +kernel) h1 h2

theorem any_tardy_task3 : (prioProgram tardyPrio 100 tardyInfo 3
    ⟨3, 100, 50, 50, 2, 4, [⟨0, 2, 2, false⟩]⟩).bind (solved solve) = some 6 :=
  bind_cover [(1, ⟨.direct, 0, 0, 0⟩), (1, ⟨.direct, 1, 0, 0⟩), (1, ⟨.direct, 2, 0, 0⟩), (1, ⟨.direct, 2, 1, 0⟩)]
    [(1, 0), (1, 1), (2, 2), (2, 3)] (by decide +kernel) h1 h2

theorem any_tardy_bounds : nativePrioBounds tardyPrio 100 solve tardyInfo = some [5, 8, 6, 6] := by
  change [(0, _), (1, _), (2, _), (3, _)].mapM _ = _
  simp only [List.mapM_cons, List.mapM_nil, any_tardy_task0 h1 h2, any_tardy_task1 h1 h2, any_tardy_task2 h1 h2,
    any_tardy_task3 h1 h2]
  rfl

theorem fifo_stall_task0 : (prioFifoProgram stallPrio 100 stallInfo 0
    ⟨0, 100, 2, 2, 0, 1, []⟩).bind (solved solve) = some 1 :=
  bind_cover [(1, ⟨.preempt, 0, 0, 0⟩), (1, ⟨.indirect, 1, 0, 0⟩)]
    [(1, 0), (2, 4), (2, 6)] (by decide +kernel) h1 h2

theorem fifo_stall_task1 : (prioFifoProgram stallPrio 100 stallInfo 1
    ⟨1, 100, 50, 50, 0, 1, [⟨0, 1, 1, false⟩]⟩).bind (solved solve) = some 2 :=
  bind_cover [(1, ⟨.direct, 2, 0, 0⟩)]
    [(2, 0)] (by decide +kernel) h1 h2

theorem fifo_stall_task2 : (prioFifoProgram stallPrio 100 stallInfo 2
    ⟨2, 100, 50, 50, 1, 2, [⟨0, 1, 2, false⟩]⟩).bind (solved solve) = some 1 :=
  bind_cover [(1, ⟨.direct, 1, 0, 0⟩)]
    [(1, 0)] (by decide +kernel) h1 h2

theorem fifo_stall_bounds : nativePrioFifoBounds stallPrio 100 solve stallInfo = some [1, 2, 1] := by
  change [(0, _), (1, _), (2, _)].mapM _ = _
  simp only [List.mapM_cons, List.mapM_nil, fifo_stall_task0 h1 h2, fifo_stall_task1 h1 h2, fifo_stall_task2 h1 h2]
  rfl

end

/-- **C108** (violated): with response times equal to deadlines, distinct priorities and one request per resource, all
tasks are accepted whatever solver is used; one of them misses a deadline.  The priorities of the requests do not reach
the analysis, and the time for which a request waits is taken to be 0 where no request has a lower priority. -/
theorem C108_prio_violated (solve : Solver) (hsolve : ∀ P x, solve P = some x → P.Maximum x)
    (hany : ∀ P x, P.Maximum x → (solve P).isSome) : ∃ (info : Info) (lockPrio : ℕ → ℕ → ℕ) (fuel : ℕ),
    (∀ t ∈ info, 0 < t.period ∧ t.deadline ≤ t.period ∧ t.response = t.deadline ∧
      (t.requests.map Request.resId).Nodup) ∧
    info.Pairwise (fun a b => a.priority < b.priority) ∧
    ∃ bs, prioBounds lockPrio fuel solve info = some bs ∧
    (∀ t ∈ info, (Fp.boundResponseTimes fuel 1 (afterLpBounds info bs t.cluster)).map Prod.fst = some true) ∧
    ∃ R, PrioFp (system info) (fun i => (info.get i).priority) (fun i r => lockPrio i r) R ∧
      (∀ s, R.issued s → R.acquire s < R.leave s) ∧
      ¬ MeetsDeadlines R.work (system info).deadline R.sched :=
  ⟨wideInfo, widePrio, 100, by decide, by decide, _, any_wide_bounds hsolve hany, by decide +kernel,
    wideTable.run wideSys, wide_run.prioFp, wide_use, wide_missed⟩

/-- **C108** (violated): the native analysis is not safe either if it is given the priorities of the requests.  The estimate of
the time for which a request waits starts from the length of a request with a lower priority and is not refined if there
is none. -/
theorem C108_native_violated (solve : Solver) (hsolve : ∀ P x, solve P = some x → P.Maximum x)
    (hany : ∀ P x, P.Maximum x → (solve P).isSome) : ∃ (info : Info) (lockPrio : ℕ → ℕ → ℕ) (fuel : ℕ),
    (∀ t ∈ info, 0 < t.period ∧ t.deadline ≤ t.period ∧ t.response = t.deadline ∧
      (t.requests.map Request.resId).Nodup) ∧
    info.Pairwise (fun a b => a.priority < b.priority) ∧
    ∃ bs, nativePrioBounds lockPrio fuel solve info = some bs ∧
    (∀ t ∈ info, (Fp.boundResponseTimes fuel 1 (afterLpBounds info bs t.cluster)).map Prod.fst = some true) ∧
    ∃ R, PrioFp (system info) (fun i => (info.get i).priority) (fun i r => lockPrio i r) R ∧
      (∀ s, R.issued s → R.acquire s < R.leave s) ∧
      ¬ MeetsDeadlines R.work (system info).deadline R.sched :=
  ⟨wideInfo, widePrio, 100, by decide, by decide, _, any_kept_bounds hsolve hany, by decide +kernel,
    wideTable.run wideSys, wide_run.prioFp, wide_use, wide_missed⟩

/-- **C108** (violated): the native analysis is not safe for a second reason.  The requests that delay a lower-priority task
of the same processor are bounded with the highest priority of the requests of the analysed and the higher-priority tasks. -/
theorem C108_arrival_violated (solve : Solver) (hsolve : ∀ P x, solve P = some x → P.Maximum x)
    (hany : ∀ P x, P.Maximum x → (solve P).isSome) : ∃ (info : Info) (lockPrio : ℕ → ℕ → ℕ) (fuel : ℕ),
    (∀ t ∈ info, 0 < t.period ∧ t.deadline ≤ t.period ∧ t.response = t.deadline ∧
      (t.requests.map Request.resId).Nodup) ∧
    info.Pairwise (fun a b => a.priority < b.priority) ∧
    ∃ bs, nativePrioBounds lockPrio fuel solve info = some bs ∧
    (∀ t ∈ info, (Fp.boundResponseTimes fuel 1 (afterLpBounds info bs t.cluster)).map Prod.fst = some true) ∧
    ∃ R, PrioFp (system info) (fun i => (info.get i).priority) (fun i r => lockPrio i r) R ∧
      (∀ s, R.issued s → R.acquire s < R.leave s) ∧
      ¬ MeetsDeadlines R.work (system info).deadline R.sched :=
  ⟨tardyInfo, tardyPrio, 100, by decide, by decide, _, any_tardy_bounds hsolve hany, by decide +kernel,
    tardyTable.run tardySys, tardy_run.prioFp, tardy_use, tardy_missed⟩

/-- **C109** (violated): the same with requests of equal priority served in FIFO order. -/
theorem C109_prio_fifo_violated (solve : Solver) (hsolve : ∀ P x, solve P = some x → P.Maximum x)
    (hany : ∀ P x, P.Maximum x → (solve P).isSome) : ∃ (info : Info) (lockPrio : ℕ → ℕ → ℕ) (fuel : ℕ),
    (∀ t ∈ info, 0 < t.period ∧ t.deadline ≤ t.period ∧ t.response = t.deadline ∧
      (t.requests.map Request.resId).Nodup) ∧
    info.Pairwise (fun a b => a.priority < b.priority) ∧
    ∃ bs, prioFifoBounds lockPrio fuel solve info = some bs ∧
    (∀ t ∈ info, (Fp.boundResponseTimes fuel 1 (afterLpBounds info bs t.cluster)).map Prod.fst = some true) ∧
    ∃ R, PrioFifoFp (system info) (fun i => (info.get i).priority) (fun i r => lockPrio i r) R ∧
      (∀ s, R.issued s → R.acquire s < R.leave s) ∧
      ¬ MeetsDeadlines R.work (system info).deadline R.sched :=
  ⟨wideInfo, widePrio, 100, by decide, by decide, _, fifo_wide_bounds hsolve hany, by decide +kernel,
    wideTable.run wideSys, wide_run, wide_use, wide_missed⟩

/-- **C109** (violated): the native analysis is not safe either if it is given the priorities of the requests. -/
theorem C109_native_violated (solve : Solver) (hsolve : ∀ P x, solve P = some x → P.Maximum x)
    (hany : ∀ P x, P.Maximum x → (solve P).isSome) : ∃ (info : Info) (lockPrio : ℕ → ℕ → ℕ) (fuel : ℕ),
    (∀ t ∈ info, 0 < t.period ∧ t.deadline ≤ t.period ∧ t.response = t.deadline ∧
      (t.requests.map Request.resId).Nodup) ∧
    info.Pairwise (fun a b => a.priority < b.priority) ∧
    ∃ bs, nativePrioFifoBounds lockPrio fuel solve info = some bs ∧
    (∀ t ∈ info, (Fp.boundResponseTimes fuel 1 (afterLpBounds info bs t.cluster)).map Prod.fst = some true) ∧
    ∃ R, PrioFifoFp (system info) (fun i => (info.get i).priority) (fun i r => lockPrio i r) R ∧
      (∀ s, R.issued s → R.acquire s < R.leave s) ∧
      ¬ MeetsDeadlines R.work (system info).deadline R.sched :=
  ⟨wideInfo, widePrio, 100, by decide, by decide, _, fifo_kept_bounds hsolve hany, by decide +kernel,
    wideTable.run wideSys, wide_run, wide_use, wide_missed⟩

/-- **C109** (violated): the native analysis is not safe for a second reason.  The requests with higher priorities that delay
a lower-priority task of the same processor are multiplied by the number of requests of the analysed and the
higher-priority tasks, which is 0 if they do not use the resource. -/
theorem C109_arrival_violated (solve : Solver) (hsolve : ∀ P x, solve P = some x → P.Maximum x)
    (hany : ∀ P x, P.Maximum x → (solve P).isSome) : ∃ (info : Info) (lockPrio : ℕ → ℕ → ℕ) (fuel : ℕ),
    (∀ t ∈ info, 0 < t.period ∧ t.deadline ≤ t.period ∧ t.response = t.deadline ∧
      (t.requests.map Request.resId).Nodup) ∧
    info.Pairwise (fun a b => a.priority < b.priority) ∧
    ∃ bs, nativePrioFifoBounds lockPrio fuel solve info = some bs ∧
    (∀ t ∈ info, (Fp.boundResponseTimes fuel 1 (afterLpBounds info bs t.cluster)).map Prod.fst = some true) ∧
    ∃ R, PrioFifoFp (system info) (fun i => (info.get i).priority) (fun i r => lockPrio i r) R ∧
      (∀ s, R.issued s → R.acquire s < R.leave s) ∧
      ¬ MeetsDeadlines R.work (system info).deadline R.sched :=
  ⟨stallInfo, stallPrio, 100, by decide, by decide, _, fifo_stall_bounds hsolve hany, by decide +kernel,
    stallTable.run stallSys, stall_run, stall_use, stall_missed⟩

end Verif.SR.Lp
