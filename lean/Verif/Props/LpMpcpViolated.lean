/-
C105: task sets that are accepted with the LP-based bounds for the MPCP but miss deadlines.
-/
import Verif.Lemmas.LpMpcpSolve
import Verif.Lemmas.LockTableMpcp
import Verif.Lemmas.MpcpModel
import Mathlib.Data.Fin.VecNotation
import Mathlib.Tactic.FinCases

namespace Verif.SR.Lp
open Verif.Spec
open Verif.SR.Msrp (system)

/-! ### The bound on the delay of a request -/

/-- A task that shares a resource with a lower-priority task on another processor, whose critical section is longer
than the deadline. -/
def lateInfo : Info :=
  [⟨0, 10, 10, 10, 0, 2, [⟨0, 1, 1, false⟩]⟩, ⟨1, 100, 100, 100, 1, 12, [⟨0, 1, 12, false⟩]⟩]

def lateSys : LockSystem 2 where
  proc := ![0, 1]
  cost := ![2, 12]
  period := ![10, 100]
  deadline := ![10, 100]
  reqs := ![[⟨0, 1, 1⟩], [⟨0, 1, 12⟩]]

theorem system_late : system lateInfo = lateSys := by
  unfold system lateSys
  congr 1 <;>
  · funext (i : Fin 2)
    fin_cases i <;> rfl

/-- Task 0 is released at time 1 and waits until task 1 releases the resource at time 12. -/
def lateTable : Table 2 where
  off := ![1, 0]
  exec := ![2, 12]
  slots := [{1}, {0, 1}, {1}, {1}, {1}, {1}, {1}, {1}, {1}, {1}, {1}, {1}, {0}]
  secs := [⟨1, 0, 0, 0, 0, 12⟩, ⟨0, 0, 0, 2, 12, 13⟩]

section
variable {solve : Solver} (h1 : ∀ P x, solve P = some x → P.Maximum x) (h2 : ∀ P x, P.Maximum x → (solve P).isSome)
include h1 h2

theorem late_task0 : ∃ loc, lpMpcpTask solve lateInfo 50 0 ⟨0, 10, 10, 10, 0, 2, [⟨0, 1, 1, false⟩]⟩ =
    some ⟨1, 1, loc⟩ :=
  lpMpcpTask_eq h1 h2 [(0, some 1)] [(1 / 12, ⟨.direct, 1, 0, 0⟩)] [(1 / 12, ⟨.direct, 1, 0, 0⟩)]
    [(1, 5), (12, 6)] [(1, 5), (12, 6)] (by decide +kernel) (by decide +kernel) (by decide +kernel)

theorem late_task1 : ∃ loc, lpMpcpTask solve lateInfo 50 1 ⟨1, 100, 100, 100, 1, 12, [⟨0, 1, 12, false⟩]⟩ =
    some ⟨2, 2, loc⟩ :=
  lpMpcpTask_eq h1 h2 [(0, some 2)] [(1, ⟨.direct, 0, 0, 0⟩), (1, ⟨.direct, 0, 1, 0⟩)]
    [(1, ⟨.direct, 0, 0, 0⟩), (1, ⟨.direct, 0, 1, 0⟩)] [(1, 11), (1, 12), (1, 15)] [(1, 11), (1, 12), (1, 15)]
    (by decide +kernel) (by decide +kernel) (by decide +kernel)

theorem late_bounds : ∃ a b, lpMpcpBounds solve lateInfo 50 = some [⟨1, 1, a⟩, ⟨2, 2, b⟩] := by
  obtain ⟨a, ha⟩ := late_task0 h1 h2
  obtain ⟨b, hb⟩ := late_task1 h1 h2
  refine ⟨a, b, ?_⟩
  change [(0, _), (1, _)].mapM _ = _
  simp only [List.mapM_cons, List.mapM_nil, ha, hb]
  rfl

end

/-- **C105** (violated, first cause): with response times equal to deadlines, distinct priorities and one request per
resource, both tasks are accepted, whatever solver is used; the higher-priority task misses a deadline, because the
iteration for the delay of its request is given up and its first value is used. -/
theorem C105_delay_violated (solve : Solver) (hsolve : ∀ P x, solve P = some x → P.Maximum x)
    (hany : ∀ P x, P.Maximum x → (solve P).isSome) : ∃ (info : Info) (fuel : ℕ),
    (∀ t ∈ info, 0 < t.period ∧ t.deadline ≤ t.period ∧ t.response = t.deadline ∧
      (t.requests.map Request.resId).Nodup) ∧
    info.Pairwise (fun a b => a.cluster = b.cluster → a.priority < b.priority) ∧
    info.Pairwise (fun a b => a.priority ≠ b.priority) ∧
    ∃ bs, lpMpcpBounds solve info fuel = some bs ∧
    (∀ t ∈ info, (Fp.boundResponseTimes fuel 1 (afterSemBounds info bs t.cluster)).map Prod.fst = some true) ∧
    ∃ R, Spec.Mpcp (system info) (fun i => (info.get i).priority) R ∧
      ¬ MeetsDeadlines R.work (system info).deadline R.sched := by
  obtain ⟨a, b, hb⟩ := late_bounds hsolve hany
  refine ⟨lateInfo, 50, by decide, by decide, by decide, _, hb, ?_, lateTable.run lateSys, ?_, ?_⟩
  · have : ∀ k, afterSemBounds lateInfo [⟨1, 1, a⟩, ⟨2, 2, b⟩] k = afterSemBounds lateInfo [⟨1, 1, 0⟩, ⟨2, 2, 0⟩] k :=
      fun k => rfl
    simp only [this]
    decide +kernel
  · rw [system_late]
    have hp : (fun i : Fin 2 => (lateInfo.get i).priority) = ![0, 1] := by
      funext i
      fin_cases i <;> rfl
    change Spec.Mpcp lateSys (fun i : Fin 2 => (lateInfo.get i).priority) _
    rw [hp]
    exact (show lateTable.Ok 2 lateSys by decide +kernel).mpcp (by decide +kernel) (by decide +kernel)
  · intro h
    have := h ((0 : Fin 2), 0)
    revert this
    unfold Completed
    erw [Table.service_run]
    decide +kernel

/-! ### The number of sections of a lower-priority task -/

/-- Three tasks on processor 0: the first two share resource 0 with a task on processor 1; the third has three requests
for resource 1, which has a higher remote ceiling because of a task on processor 2. -/
def moreInfo : Info :=
  [⟨0, 1000, 100, 100, 2, 1, [⟨1, 1, 1, false⟩]⟩, ⟨1, 1000, 100, 100, 0, 1, [⟨0, 1, 1, false⟩]⟩,
    ⟨2, 1000, 100, 100, 1, 6, [⟨0, 2, 3, false⟩]⟩, ⟨3, 1000, 29, 29, 0, 2, [⟨0, 1, 1, false⟩]⟩,
    ⟨4, 1000, 100, 100, 0, 34, [⟨1, 3, 10, false⟩]⟩]

def moreSys : LockSystem 5 where
  proc := ![2, 0, 1, 0, 0]
  cost := ![1, 1, 6, 2, 34]
  period := ![1000, 1000, 1000, 1000, 1000]
  deadline := ![100, 100, 100, 29, 100]
  reqs := ![[⟨1, 1, 1⟩], [⟨0, 1, 1⟩], [⟨0, 2, 3⟩], [⟨0, 1, 1⟩], [⟨1, 3, 10⟩]]

theorem system_more : system moreInfo = moreSys := by
  unfold system moreSys
  congr 1 <;>
  · funext (i : Fin 5)
    fin_cases i <;> rfl

/-- Task 3 arrives during the first section of task 4 and then waits: until time 14 for task 2, until time 24 for
task 1, which is preempted by the second section of task 4, until time 27 for task 2; then it is delayed by the third
section of task 4.  It completes at time 37. -/
def moreTable : Table 5 where
  off := ![40, 12, 11, 1, 0]
  exec := ![0, 1, 6, 2, 34]
  slots := List.replicate 10 {4} ++ [{3}] ++ List.replicate 3 {2, 4} ++ List.replicate 9 {4} ++ [{1}] ++
    List.replicate 3 {2, 4} ++ List.replicate 9 {4} ++ [{3}]
  secs := [⟨4, 0, 0, 0, 0, 10⟩, ⟨2, 0, 0, 11, 11, 14⟩, ⟨3, 0, 0, 11, 27, 37⟩, ⟨1, 0, 0, 12, 14, 24⟩,
    ⟨4, 0, 1, 13, 13, 23⟩, ⟨2, 0, 1, 14, 24, 27⟩, ⟨4, 0, 2, 26, 26, 36⟩]

section
variable {solve : Solver} (h1 : ∀ P x, solve P = some x → P.Maximum x) (h2 : ∀ P x, P.Maximum x → (solve P).isSome)
include h1 h2

theorem more_task0 : ∃ loc, lpMpcpTask solve moreInfo 50 0 ⟨0, 1000, 100, 100, 2, 1, [⟨1, 1, 1, false⟩]⟩ =
    some ⟨10, 10, loc⟩ :=
  lpMpcpTask_eq h1 h2 [(1, some 10)] [(1, ⟨.direct, 4, 0, 1⟩)] [(1, ⟨.direct, 4, 0, 1⟩)]
    [(3, 7), (10, 8), (1, 9), (3, 10), (1, 11), (10, 12), (10, 18)]
    [(3, 7), (10, 8), (1, 9), (3, 10), (1, 11), (10, 12), (10, 18)]
    (by decide +kernel) (by decide +kernel) (by decide +kernel)

theorem more_task1 : ∃ loc, lpMpcpTask solve moreInfo 50 1 ⟨1, 1000, 100, 100, 0, 1, [⟨0, 1, 1, false⟩]⟩ =
    some ⟨24, 3, loc⟩ :=
  lpMpcpTask_eq h1 h2 [(0, some 12)]
    [(1, ⟨.direct, 2, 0, 0⟩), (1, ⟨.indirect, 3, 0, 0⟩), (1, ⟨.indirect, 4, 0, 1⟩), (1, ⟨.indirect, 4, 1, 1⟩)]
    [(1, ⟨.direct, 2, 0, 0⟩)]
    [(1, 3), (10, 8), (3, 9), (1, 10), (1, 11), (3, 12), (3, 16)]
    [(3, 9), (1, 10), (1, 11), (3, 12), (3, 16)]
    (by decide +kernel) (by decide +kernel) (by decide +kernel)

theorem more_task2 : ∃ loc, lpMpcpTask solve moreInfo 50 2 ⟨2, 1000, 100, 100, 1, 6, [⟨0, 2, 3, false⟩]⟩ =
    some ⟨22, 22, loc⟩ :=
  lpMpcpTask_eq h1 h2 [(0, some 24)]
    [(1, ⟨.direct, 1, 0, 0⟩), (1, ⟨.direct, 3, 0, 0⟩), (1, ⟨.indirect, 4, 0, 1⟩), (1, ⟨.indirect, 4, 1, 1⟩)]
    [(1, ⟨.direct, 1, 0, 0⟩), (1, ⟨.direct, 3, 0, 0⟩), (1, ⟨.indirect, 4, 0, 1⟩), (1, ⟨.indirect, 4, 1, 1⟩)]
    [(1, 1), (1, 2), (10, 8), (1, 9), (10, 12), (10, 18)]
    [(1, 1), (1, 2), (10, 8), (1, 9), (10, 12), (10, 18)]
    (by decide +kernel) (by decide +kernel) (by decide +kernel)

theorem more_task3 : ∃ loc, lpMpcpTask solve moreInfo 50 3 ⟨3, 1000, 29, 29, 0, 2, [⟨0, 1, 1, false⟩]⟩ =
    some ⟨26, 6, loc⟩ :=
  lpMpcpTask_eq h1 h2 [(0, some 18)]
    [(1, ⟨.direct, 2, 0, 0⟩), (1, ⟨.direct, 2, 1, 0⟩), (1, ⟨.indirect, 4, 0, 1⟩), (1, ⟨.indirect, 4, 1, 1⟩)]
    [(1, ⟨.direct, 2, 0, 0⟩), (1, ⟨.direct, 2, 1, 0⟩)]
    [(3, 2), (3, 3), (10, 7), (1, 10), (1, 11), (1, 16), (1, 17)]
    [(3, 2), (3, 3), (1, 10), (1, 11), (1, 17)]
    (by decide +kernel) (by decide +kernel) (by decide +kernel)

theorem more_task4 : ∃ loc, lpMpcpTask solve moreInfo 50 4 ⟨4, 1000, 100, 100, 0, 34, [⟨1, 3, 10, false⟩]⟩ =
    some ⟨1, 1, loc⟩ :=
  lpMpcpTask_eq h1 h2 [(1, some 1)] [(1, ⟨.direct, 0, 0, 1⟩)] [(1, ⟨.direct, 0, 0, 1⟩)]
    [(1, 0), (3, 6), (3, 8), (1, 12), (3, 13)] [(1, 0), (3, 6), (3, 8), (3, 13)]
    (by decide +kernel) (by decide +kernel) (by decide +kernel)

theorem more_bounds : ∃ a b c d e, lpMpcpBounds solve moreInfo 50 =
    some [⟨10, 10, a⟩, ⟨24, 3, b⟩, ⟨22, 22, c⟩, ⟨26, 6, d⟩, ⟨1, 1, e⟩] := by
  obtain ⟨a, ha⟩ := more_task0 h1 h2
  obtain ⟨b, hb⟩ := more_task1 h1 h2
  obtain ⟨c, hc⟩ := more_task2 h1 h2
  obtain ⟨d, hd⟩ := more_task3 h1 h2
  obtain ⟨e, he⟩ := more_task4 h1 h2
  refine ⟨a, b, c, d, e, ?_⟩
  change [(0, _), (1, _), (2, _), (3, _), (4, _)].mapM _ = _
  simp only [List.mapM_cons, List.mapM_nil, ha, hb, hc, hd, he]
  rfl

end

/-- **C105** (violated, second cause): the same, although the iterations for the delays of all requests have reached
fixed points.  The bound counts two sections of the lower-priority task of the processor, one on arrival and one for the
single request; but while the task waits for that request, the resource changes hands between processors, and the
lower-priority task can use the processor each time. -/
theorem C105_arrivals_violated (solve : Solver) (hsolve : ∀ P x, solve P = some x → P.Maximum x)
    (hany : ∀ P x, P.Maximum x → (solve P).isSome) : ∃ (info : Info) (fuel : ℕ),
    (∀ t ∈ info, 0 < t.period ∧ t.deadline ≤ t.period ∧ t.response = t.deadline ∧
      (t.requests.map Request.resId).Nodup) ∧
    info.Pairwise (fun a b => a.cluster = b.cluster → a.priority < b.priority) ∧
    info.Pairwise (fun a b => a.priority ≠ b.priority) ∧
    (∀ t ∈ tasks info, ∀ r ∈ t.2.requests, ∃ e, remoteDelay info fuel t.1 t.2 r.resId = some (some e) ∧
      nextDelay info t.1 t.2 r.resId e = e) ∧
    ∃ bs, lpMpcpBounds solve info fuel = some bs ∧
    (∀ t ∈ info, (Fp.boundResponseTimes fuel 1 (afterSemBounds info bs t.cluster)).map Prod.fst = some true) ∧
    ∃ R, Spec.Mpcp (system info) (fun i => (info.get i).priority) R ∧
      ¬ MeetsDeadlines R.work (system info).deadline R.sched := by
  obtain ⟨a, b, c, d, e, hb⟩ := more_bounds hsolve hany
  refine ⟨moreInfo, 50, by decide, by decide, by decide, ?_, _, hb, ?_, moreTable.run moreSys, ?_, ?_⟩
  · have : ∀ t ∈ tasks moreInfo, ∀ r ∈ t.2.requests, ((remoteDelay moreInfo 50 t.1 t.2 r.resId).getD none).any
        (fun e => nextDelay moreInfo t.1 t.2 r.resId e = e) = true := by decide +kernel
    intro t ht r hr
    have h := this t ht r hr
    rcases hx : remoteDelay moreInfo 50 t.1 t.2 r.resId with _ | _ | x
    · rw [hx] at h; cases h
    · rw [hx] at h; cases h
    · rw [hx] at h
      exact ⟨x, rfl, by simpa using h⟩
  · have : ∀ k, afterSemBounds moreInfo [⟨10, 10, a⟩, ⟨24, 3, b⟩, ⟨22, 22, c⟩, ⟨26, 6, d⟩, ⟨1, 1, e⟩] k =
        afterSemBounds moreInfo [⟨10, 10, 0⟩, ⟨24, 3, 0⟩, ⟨22, 22, 0⟩, ⟨26, 6, 0⟩, ⟨1, 1, 0⟩] k := fun k => rfl
    simp only [this]
    decide +kernel
  · rw [system_more]
    have hp : (fun i : Fin 5 => (moreInfo.get i).priority) = ![0, 1, 2, 3, 4] := by
      funext i
      fin_cases i <;> rfl
    change Spec.Mpcp moreSys (fun i : Fin 5 => (moreInfo.get i).priority) _
    rw [hp]
    exact (show moreTable.Ok 5 moreSys by decide +kernel).mpcp (by decide +kernel) (by decide +kernel)
  · intro h
    have := h ((3 : Fin 5), 0)
    revert this
    unfold Completed
    erw [Table.service_run]
    decide +kernel

/-- There is such a solver. -/
example : ∃ solve : Solver, (∀ P x, solve P = some x → P.Maximum x) ∧ ∀ P x, P.Maximum x → (solve P).isSome :=
  ⟨best, best_maximum, best_some⟩

end Verif.SR.Lp
