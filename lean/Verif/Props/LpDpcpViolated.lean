/-
C106: task sets that are accepted with the LP-based bounds for the DPCP but miss deadlines.
-/
import Verif.Lemmas.LpDpcpSolve
import Verif.Lemmas.JobTable
import Verif.Lemmas.MpcpModel
import Mathlib.Data.Fin.VecNotation
import Mathlib.Tactic.FinCases

namespace Verif.SR.Lp
open Verif.Spec
open Verif.SR.Msrp (system)
open Verif.SR.Dpcp (topology)

/-! ### The bound on the time that a request takes -/

/-- Three tasks on processors 1, 2 and 3 with resources on processor 0. -/
def queueInfo : Info :=
  [⟨0, 5, 1, 1, 1, 1, [⟨0, 1, 1, false⟩]⟩, ⟨1, 100, 5, 5, 2, 3, [⟨1, 1, 3, false⟩]⟩,
    ⟨2, 100, 6, 6, 3, 2, [⟨2, 1, 2, false⟩]⟩]

def queueMap : List (ℕ × ℕ) := [(0, 0), (1, 0), (2, 0)]

def queueSys : LockSystem 3 where
  proc := ![1, 2, 3]
  cost := ![1, 3, 2]
  period := ![5, 100, 100]
  deadline := ![1, 5, 6]
  reqs := ![[⟨0, 1, 1⟩], [⟨1, 1, 3⟩], [⟨2, 1, 2⟩]]

theorem system_queue : system queueInfo = queueSys := by
  unfold system queueSys
  congr 1 <;>
  · funext (i : Fin 3)
    fin_cases i <;> rfl

/-- All tasks issue requests at time 0; the request of task 2 is also delayed by the second job of task 0. -/
def queueTable : JTable 3 where
  off := ![0, 0, 0]
  exec := ![[1, 1], [3], [2]]
  slots := [{(0, 0)}, {(1, 0)}, {(1, 0)}, {(1, 0)}, {(2, 0)}, {(0, 1)}, {(2, 0)}]
  secs := [⟨(0, 0), 0, 0, 0, 0, 1⟩, ⟨(1, 0), 0, 0, 0, 1, 4⟩, ⟨(2, 0), 0, 0, 0, 4, 7⟩, ⟨(0, 1), 0, 0, 5, 5, 6⟩]

section
variable {solve : Solver} (h1 : ∀ P x, solve P = some x → P.Maximum x) (h2 : ∀ P x, P.Maximum x → (solve P).isSome)
include h1 h2

theorem queue_task0 : dpcpTask solve queueInfo (topology queueMap) true 50 0 ⟨0, 5, 1, 1, 1, 1, [⟨0, 1, 1, false⟩]⟩ =
    some ⟨0, 0, 0⟩ :=
  dpcpTask_remote h1 h2 (some [(0, some 0)]) [] [(3, 2), (3, 3)]
    (by decide +kernel) (by decide +kernel) (by decide +kernel) (by decide +kernel)

theorem queue_task1 : dpcpTask solve queueInfo (topology queueMap) true 50 1
    ⟨1, 100, 5, 5, 2, 3, [⟨1, 1, 3, false⟩]⟩ = some ⟨1, 1, 0⟩ :=
  dpcpTask_remote h1 h2 (some [(1, some 0)]) [(1, ⟨.direct, 0, 0, 0⟩)] [(1, 3), (2, 4), (2, 5)]
    (by decide +kernel) (by decide +kernel) (by decide +kernel) (by decide +kernel)

theorem queue_task2 : dpcpTask solve queueInfo (topology queueMap) true 50 2
    ⟨2, 100, 6, 6, 3, 2, [⟨2, 1, 2, false⟩]⟩ = some ⟨4, 4, 0⟩ :=
  dpcpTask_remote h1 h2 (some [(2, some 4)]) [(1, ⟨.direct, 0, 0, 0⟩), (1, ⟨.direct, 1, 0, 1⟩)]
    [(3, 2), (1, 3), (1, 5)] (by decide +kernel) (by decide +kernel) (by decide +kernel) (by decide +kernel)

theorem queue_bounds : lpDpcpBounds solve queueInfo queueMap true 50 = some [⟨0, 0, 0⟩, ⟨1, 1, 0⟩, ⟨4, 4, 0⟩] := by
  change [(0, _), (1, _), (2, _)].mapM _ = _
  simp only [List.mapM_cons, List.mapM_nil, queue_task0 h1 h2, queue_task1 h1 h2, queue_task2 h1 h2]
  rfl

end

/-- **C106** (violated, first cause): with response times equal to deadlines, distinct priorities and one request per
resource, all tasks are accepted by the analysis with response-time analysis of requests, which is the default, whatever
solver is used; one of them misses a deadline, because the iteration for the time that its request takes is given up
and an earlier value is used. -/
theorem C106_wait_violated (solve : Solver) (hsolve : ∀ P x, solve P = some x → P.Maximum x)
    (hany : ∀ P x, P.Maximum x → (solve P).isSome) :
    ∃ (info : Info) (mapping : List (ℕ × ℕ)) (loc : ℕ → ℕ) (fuel : ℕ),
    (∀ t ∈ info, 0 < t.period ∧ t.deadline ≤ t.period ∧ t.response = t.deadline ∧
      (t.requests.map Request.resId).Nodup) ∧
    (∀ t ∈ info, ∀ r ∈ t.requests, (r.resId, loc r.resId) ∈ mapping) ∧ (mapping.map Prod.fst).Nodup ∧
    info.Pairwise (fun a b => a.priority < b.priority) ∧
    ∃ bs, lpDpcpBounds solve info mapping true fuel = some bs ∧
    (∀ t ∈ info, (Fp.boundResponseTimes fuel 1 (afterSemBounds info bs t.cluster)).map Prod.fst = some true) ∧
    ∃ R, DpcpPrompt (system info) (fun i => (info.get i).priority) loc R ∧
      ¬ MeetsDeadlines R.work (system info).deadline R.sched := by
  refine ⟨queueInfo, queueMap, fun _ => 0, 50, by decide, by decide, by decide, by decide, _, queue_bounds hsolve hany,
    by decide +kernel, queueTable.run queueSys, ?_, ?_⟩
  · rw [system_queue]
    have hp : (fun i : Fin 3 => (queueInfo.get i).priority) = ![0, 1, 2] := by
      funext i
      fin_cases i <;> rfl
    change DpcpPrompt queueSys (fun i : Fin 3 => (queueInfo.get i).priority) _ _
    rw [hp]
    exact (show queueTable.ReqOk 3 queueSys by decide +kernel).dpcpPrompt (by decide +kernel) (by decide +kernel)
      (by decide +kernel) (by decide +kernel) (by decide +kernel)
  · intro h
    have := h ((2 : Fin 3), 0)
    revert this
    unfold Completed
    erw [JTable.service_run]
    decide +kernel

/-! ### The suspensions of higher-priority tasks -/

/-- Three tasks on processor 0: the first has a request for a resource on processor 1, where nothing delays it; the last
has requests for a resource on processor 0. -/
def gapInfo : Info :=
  [⟨0, 5, 5, 5, 0, 3, [⟨0, 1, 1, false⟩]⟩, ⟨1, 100, 5, 5, 0, 1, []⟩, ⟨2, 100, 15, 15, 0, 3, [⟨1, 2, 1, false⟩]⟩]

def gapMap : List (ℕ × ℕ) := [(0, 1), (1, 0)]

def gapSys : LockSystem 3 where
  proc := ![0, 0, 0]
  cost := ![3, 1, 3]
  period := ![5, 100, 100]
  deadline := ![5, 5, 15]
  reqs := ![[⟨0, 1, 1⟩], [], [⟨1, 2, 1⟩]]

theorem system_gap : system gapInfo = gapSys := by
  unfold system gapSys
  congr 1 <;>
  · funext (i : Fin 3)
    fin_cases i <;> rfl

/-- While the first job of task 0 executes on processor 1, task 2 executes and then issues its second request, which
delays that job; task 1, released at time 3, has to wait for two jobs of task 0. -/
def gapTable : JTable 3 where
  off := ![0, 3, 0]
  exec := ![[3, 3], [1], [3]]
  slots := [{(2, 0)}, {(0, 0)}, {(0, 0), (2, 0)}, {(2, 0)}, {(0, 0)}, {(0, 1)}, {(0, 1)}, {(0, 1)}, {(1, 0)}]
  secs := [⟨(2, 0), 0, 0, 0, 0, 1⟩, ⟨(0, 0), 0, 0, 2, 2, 3⟩, ⟨(2, 0), 0, 1, 3, 3, 4⟩]

section
variable {solve : Solver} (h1 : ∀ P x, solve P = some x → P.Maximum x) (h2 : ∀ P x, P.Maximum x → (solve P).isSome)
include h1 h2

theorem gap_task0 : ∀ useRta, dpcpTask solve gapInfo (topology gapMap) useRta 50 0
    ⟨0, 5, 5, 5, 0, 3, [⟨0, 1, 1, false⟩]⟩ = some ⟨2, 0, 2⟩
  | true => dpcpTask_local h1 h2 (some [(0, some 2)]) [(1, ⟨.preempt, 2, 0, 1⟩), (1, ⟨.preempt, 2, 1, 1⟩)]
      [(1, 0), (1, 1)] [] (by decide +kernel) (by decide +kernel) (by decide +kernel) (by decide +kernel)
      (by decide +kernel) (by decide +kernel)
  | false => dpcpTask_local h1 h2 none [(1, ⟨.preempt, 2, 0, 1⟩), (1, ⟨.preempt, 2, 1, 1⟩)]
      [(1, 0), (1, 1)] [] (by decide +kernel) (by decide +kernel) (by decide +kernel) (by decide +kernel)
      (by decide +kernel) (by decide +kernel)

theorem gap_task1 : ∀ useRta, dpcpTask solve gapInfo (topology gapMap) useRta 50 1 ⟨1, 100, 5, 5, 0, 1, []⟩ =
    some ⟨1, 0, 1⟩
  | true => dpcpTask_local h1 h2 (some []) [(1, ⟨.preempt, 2, 0, 1⟩)] [(1, 4), (1, 5), (1, 6), (1, 7)] [(1, 5), (1, 6)]
      (by decide +kernel) (by decide +kernel) (by decide +kernel) (by decide +kernel) (by decide +kernel)
      (by decide +kernel)
  | false => dpcpTask_local h1 h2 none [(1, ⟨.preempt, 2, 0, 1⟩)] [(1, 4), (1, 5), (1, 7)] [(1, 5), (1, 7)]
      (by decide +kernel) (by decide +kernel) (by decide +kernel) (by decide +kernel) (by decide +kernel)
      (by decide +kernel)

theorem gap_task2 : ∀ useRta, dpcpTask solve gapInfo (topology gapMap) useRta 50 2
    ⟨2, 100, 15, 15, 0, 3, [⟨1, 2, 1, false⟩]⟩ = some ⟨0, 0, 0⟩
  | true => dpcpTask_local h1 h2 (some [(1, some 2)]) [] [(1, 4), (1, 5)] [(1, 4), (1, 5)]
      (by decide +kernel) (by decide +kernel) (by decide +kernel) (by decide +kernel) (by decide +kernel)
      (by decide +kernel)
  | false => dpcpTask_local h1 h2 none [] [(1, 4), (1, 5)] [(1, 4), (1, 5)]
      (by decide +kernel) (by decide +kernel) (by decide +kernel) (by decide +kernel) (by decide +kernel)
      (by decide +kernel)

theorem gap_bounds (useRta : Bool) :
    lpDpcpBounds solve gapInfo gapMap useRta 50 = some [⟨2, 0, 2⟩, ⟨1, 0, 1⟩, ⟨0, 0, 0⟩] := by
  change [(0, _), (1, _), (2, _)].mapM _ = _
  simp only [List.mapM_cons, List.mapM_nil, gap_task0 h1 h2, gap_task1 h1 h2, gap_task2 h1 h2]
  rfl

end

/-- **C106** (violated, second cause): the same with and without response-time analysis of requests, although the times
that the requests take are bounded by fixed points.  A task whose requests on other processors are not delayed there is
not regarded as suspending itself, so the bound of a lower-priority task does not account for the jobs of that task
that execute late. -/
theorem C106_suspension_violated (solve : Solver) (hsolve : ∀ P x, solve P = some x → P.Maximum x)
    (hany : ∀ P x, P.Maximum x → (solve P).isSome) (useRta : Bool) :
    ∃ (info : Info) (mapping : List (ℕ × ℕ)) (loc : ℕ → ℕ) (fuel : ℕ),
    (∀ t ∈ info, 0 < t.period ∧ t.deadline ≤ t.period ∧ t.response = t.deadline ∧
      (t.requests.map Request.resId).Nodup) ∧
    (∀ t ∈ info, ∀ r ∈ t.requests, (r.resId, loc r.resId) ∈ mapping) ∧ (mapping.map Prod.fst).Nodup ∧
    info.Pairwise (fun a b => a.priority < b.priority) ∧
    (∀ t ∈ info, ∀ r ∈ t.requests, ∃ w, waitTime info (topology mapping) fuel t r.resId = some (some w) ∧
      nextWait info (topology mapping) t r.resId w = w) ∧
    ∃ bs, lpDpcpBounds solve info mapping useRta fuel = some bs ∧
    (∀ t ∈ info, (Fp.boundResponseTimes fuel 1 (afterSemBounds info bs t.cluster)).map Prod.fst = some true) ∧
    ∃ R, DpcpPrompt (system info) (fun i => (info.get i).priority) loc R ∧
      ¬ MeetsDeadlines R.work (system info).deadline R.sched := by
  refine ⟨gapInfo, gapMap, fun r => 1 - r, 50, by decide, by decide, by decide, by decide, ?_, _,
    gap_bounds hsolve hany useRta, by decide +kernel, gapTable.run gapSys, ?_, ?_⟩
  · have : ∀ t ∈ gapInfo, ∀ r ∈ t.requests, ((waitTime gapInfo (topology gapMap) 50 t r.resId).getD none).any
        (fun w => nextWait gapInfo (topology gapMap) t r.resId w = w) = true := by decide +kernel
    intro t ht r hr
    have h := this t ht r hr
    rcases hx : waitTime gapInfo (topology gapMap) 50 t r.resId with _ | _ | x
    · rw [hx] at h; cases h
    · rw [hx] at h; cases h
    · rw [hx] at h
      exact ⟨x, rfl, by simpa using h⟩
  · rw [system_gap]
    have hp : (fun i : Fin 3 => (gapInfo.get i).priority) = ![0, 1, 2] := by
      funext i
      fin_cases i <;> rfl
    change DpcpPrompt gapSys (fun i : Fin 3 => (gapInfo.get i).priority) _ _
    rw [hp]
    exact (show gapTable.ReqOk 3 gapSys by decide +kernel).dpcpPrompt (by decide +kernel) (by decide +kernel)
      (by decide +kernel) (by decide +kernel) (by decide +kernel)
  · intro h
    have := h ((1 : Fin 3), 0)
    revert this
    unfold Completed
    erw [JTable.service_run]
    decide +kernel

/-- There is such a solver. -/
example : ∃ solve : Solver, (∀ P x, solve P = some x → P.Maximum x) ∧ ∀ P x, P.Maximum x → (solve P).isSome :=
  ⟨best, best_maximum, best_some⟩

end Verif.SR.Lp
