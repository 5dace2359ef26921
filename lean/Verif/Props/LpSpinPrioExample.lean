/-
Examples for C108 and C109.
-/
import Verif.Props.LpSpinPrio
import Verif.Lemmas.LpMpcpSolve

namespace Verif.SR.Lp
open Verif.Spec
open Verif.SR.Msrp (system)

/-- Two tasks on one processor and two tasks on other processors. -/
def slackInfo : Info :=
  [⟨0, 100, 20, 20, 0, 1, [⟨0, 1, 1, false⟩]⟩, ⟨1, 100, 50, 50, 0, 1, [⟨0, 1, 1, false⟩]⟩,
    ⟨2, 100, 50, 50, 1, 4, [⟨0, 2, 2, false⟩]⟩, ⟨3, 100, 50, 50, 2, 4, [⟨0, 2, 2, false⟩]⟩]

def slackSys : LockSystem 4 where
  proc := ![0, 0, 1, 2]
  cost := ![1, 1, 4, 4]
  period := ![100, 100, 100, 100]
  deadline := ![20, 50, 50, 50]
  reqs := ![[⟨0, 1, 1⟩], [⟨0, 1, 1⟩], [⟨0, 2, 2⟩], [⟨0, 2, 2⟩]]

theorem system_slack : system slackInfo = slackSys := by
  unfold system slackSys
  congr 1 <;>
  · funext (i : Fin 4)
    fin_cases i <;> rfl

/-- The job of task 0 waits for the processor until task 1 has used the resource and then for two requests that were
issued before its own. -/
def slackTable : JTable 4 where
  off := ![1, 0, 0, 0]
  exec := ![[5], [5], [7], [9]]
  slots := [{(1, 0), (2, 0), (3, 0)}, {(1, 0), (2, 0), (3, 0)}, {(1, 0), (2, 0), (3, 0)}, {(1, 0), (2, 0), (3, 0)},
    {(1, 0), (2, 0), (3, 0)}, {(0, 0), (2, 0), (3, 0)}, {(0, 0), (2, 0), (3, 0)}, {(0, 0), (3, 0)}, {(0, 0), (3, 0)},
    {(0, 0)}]
  secs := [⟨(2, 0), 0, 0, 0, 0, 2⟩, ⟨(3, 0), 0, 0, 0, 2, 4⟩, ⟨(1, 0), 0, 0, 0, 4, 5⟩, ⟨(2, 0), 0, 1, 2, 5, 7⟩,
    ⟨(3, 0), 0, 1, 4, 7, 9⟩, ⟨(0, 0), 0, 0, 5, 9, 10⟩]

theorem slack_prio : (fun i : Fin 4 => (slackInfo.get i).priority) = ![0, 1, 2, 3] := by
  funext i
  fin_cases i <;> rfl

section
variable {solve : Solver} (h1 : ∀ P x, solve P = some x → P.Maximum x) (h2 : ∀ P x, P.Maximum x → (solve P).isSome)
include h1 h2

theorem any_slack_task0 : (prioProgram (addedPrio tardyPrio) 100 slackInfo 0
    ⟨0, 100, 20, 20, 0, 1, [⟨0, 1, 1, false⟩]⟩).bind (solved solve) = some 9 :=
  bind_cover [(1, ⟨.preempt, 0, 0, 0⟩), (1, ⟨.direct, 2, 0, 0⟩), (1, ⟨.direct, 2, 1, 0⟩), (1, ⟨.direct, 3, 0, 0⟩),
      (1, ⟨.direct, 3, 1, 0⟩), (1, ⟨.indirect, 1, 0, 0⟩)]
    [(1, 0), (2, 1), (2, 2), (2, 3), (2, 4)] (by decide +kernel) h1 h2

theorem any_slack_task1 : (prioProgram (addedPrio tardyPrio) 100 slackInfo 1
    ⟨1, 100, 50, 50, 0, 1, [⟨0, 1, 1, false⟩]⟩).bind (solved solve) = some 8 :=
  bind_cover [(1, ⟨.direct, 2, 0, 0⟩), (1, ⟨.direct, 2, 1, 0⟩), (1, ⟨.direct, 3, 0, 0⟩), (1, ⟨.direct, 3, 1, 0⟩)]
    [(2, 1), (2, 2), (2, 3), (2, 4), (1, 7), (1, 12)] (by decide +kernel) h1 h2

theorem any_slack_task2 : (prioProgram (addedPrio tardyPrio) 100 slackInfo 2
    ⟨2, 100, 50, 50, 1, 4, [⟨0, 2, 2, false⟩]⟩).bind (solved solve) = some 6 :=
  bind_cover [(1, ⟨.direct, 0, 0, 0⟩), (1, ⟨.direct, 1, 0, 0⟩), (1, ⟨.direct, 3, 0, 0⟩), (1, ⟨.direct, 3, 1, 0⟩)]
    [(1, 0), (1, 1), (2, 2), (2, 3)] (by decide +kernel) h1 h2

theorem any_slack_task3 : (prioProgram (addedPrio tardyPrio) 100 slackInfo 3
    ⟨3, 100, 50, 50, 2, 4, [⟨0, 2, 2, false⟩]⟩).bind (solved solve) = some 6 :=
  bind_cover [(1, ⟨.direct, 0, 0, 0⟩), (1, ⟨.direct, 1, 0, 0⟩), (1, ⟨.direct, 2, 0, 0⟩), (1, ⟨.direct, 2, 1, 0⟩)]
    [(1, 0), (1, 1), (2, 2), (2, 3)] (by decide +kernel) h1 h2

theorem any_slack_bounds : prioBounds tardyPrio 100 solve slackInfo = some [9, 8, 6, 6] := by
  unfold prioBounds
  change [(0, _), (1, _), (2, _), (3, _)].mapM _ = _
  simp only [List.mapM_cons, List.mapM_nil, any_slack_task0 h1 h2, any_slack_task1 h1 h2, any_slack_task2 h1 h2,
    any_slack_task3 h1 h2]
  rfl

theorem fifo_slack_task0 : (prioFifoProgram (addedPrio fun _ _ => 1) 100 slackInfo 0
    ⟨0, 100, 20, 20, 0, 1, [⟨0, 1, 1, false⟩]⟩).bind (solved solve) = some 9 :=
  bind_cover [(1, ⟨.preempt, 0, 0, 0⟩), (1, ⟨.indirect, 1, 0, 0⟩), (1, ⟨.direct, 2, 1, 0⟩),
      (1, ⟨.direct, 3, 1, 0⟩), (1, ⟨.indirect, 2, 0, 0⟩), (1, ⟨.indirect, 3, 0, 0⟩)]
    [(1, 0), (2, 1), (2, 2), (2, 3), (2, 4)] (by decide +kernel) h1 h2

theorem fifo_slack_task1 : (prioFifoProgram (addedPrio fun _ _ => 1) 100 slackInfo 1
    ⟨1, 100, 50, 50, 0, 1, [⟨0, 1, 1, false⟩]⟩).bind (solved solve) = some 8 :=
  bind_cover [(1, ⟨.direct, 2, 0, 0⟩), (1, ⟨.direct, 2, 1, 0⟩), (1, ⟨.direct, 3, 0, 0⟩), (1, ⟨.direct, 3, 1, 0⟩)]
    [(2, 1), (2, 2), (2, 3), (2, 4), (1, 7), (1, 12)] (by decide +kernel) h1 h2

theorem fifo_slack_task2 : (prioFifoProgram (addedPrio fun _ _ => 1) 100 slackInfo 2
    ⟨2, 100, 50, 50, 1, 4, [⟨0, 2, 2, false⟩]⟩).bind (solved solve) = some 6 :=
  bind_cover [(1, ⟨.direct, 0, 0, 0⟩), (1, ⟨.direct, 1, 0, 0⟩), (1, ⟨.direct, 3, 0, 0⟩), (1, ⟨.direct, 3, 1, 0⟩)]
    [(1, 0), (1, 1), (2, 2), (2, 3)] (by decide +kernel) h1 h2

theorem fifo_slack_task3 : (prioFifoProgram (addedPrio fun _ _ => 1) 100 slackInfo 3
    ⟨3, 100, 50, 50, 2, 4, [⟨0, 2, 2, false⟩]⟩).bind (solved solve) = some 6 :=
  bind_cover [(1, ⟨.direct, 0, 0, 0⟩), (1, ⟨.direct, 1, 0, 0⟩), (1, ⟨.direct, 2, 0, 0⟩), (1, ⟨.direct, 2, 1, 0⟩)]
    [(1, 0), (1, 1), (2, 2), (2, 3)] (by decide +kernel) h1 h2

theorem fifo_slack_bounds : prioFifoBounds (fun _ _ => 1) 100 solve slackInfo = some [9, 8, 6, 6] := by
  unfold prioFifoBounds
  change [(0, _), (1, _), (2, _), (3, _)].mapM _ = _
  simp only [List.mapM_cons, List.mapM_nil, fifo_slack_task0 h1 h2, fifo_slack_task1 h1 h2, fifo_slack_task2 h1 h2,
    fifo_slack_task3 h1 h2]
  rfl

end

/-- A run that meets the hypotheses of C108: a job is delayed by a task of lower priority that spins for four requests. -/
example : (∃ R, PrioFp (system slackInfo) (fun i => (slackInfo.get i).priority) (fun i r => tardyPrio i r) R ∧
      (∀ s, R.issued s → R.enter s < R.acquire s → R.acquire s < R.leave s) ∧
      ∃ s, R.issued s ∧ R.enter s + 8 = R.acquire s) ∧
    ∃ bs, prioBounds tardyPrio 100 best slackInfo = some bs ∧
      (Fp.boundResponseTimes 100 1 (afterLpBounds slackInfo bs 0)).map (fun r => (r.1, r.2.map (·.2))) =
        some (true, [10, 10]) ∧
    ∀ R, PrioFp (system slackInfo) (fun i => (slackInfo.get i).priority) (fun i r => tardyPrio i r) R →
      (∀ s, R.issued s → R.enter s < R.acquire s → R.acquire s < R.leave s) →
      MeetsDeadlines R.work (system slackInfo).deadline R.sched := by
  have hbs := any_slack_bounds best_maximum best_some
  have hok : tardyTable.SpinOk slackSys ![0, 1, 2, 3] := by decide +kernel
  refine ⟨⟨tardyTable.run slackSys, ?_, fun s hs _ => table_use hok (by decide) s hs, (⟨(1, 0), 0, 0⟩ : Section 4), ?_, ?_⟩, _, hbs,
    by decide +kernel, fun R hR huse => ?_⟩
  · rw [system_slack]
    change PrioFp slackSys (fun i : Fin 4 => (slackInfo.get i).priority) (fun i : Fin 4 => fun r => tardyPrio i r) _
    rw [slack_prio]
    exact (hok.prioFifoFp (by decide +kernel)).prioFp
  · exact ⟨⟨(1, 0), 0, 0, 0, 8, 9⟩, by decide, rfl⟩
  · rw [show (⟨(1, 0), 0, 0⟩ : Section 4) = (⟨(1, 0), 0, 0, 0, 8, 9⟩ : JSec 4).sec from rfl]
    rw [hok.enter_eq (by decide), hok.acquire_eq (by decide)]
  · exact C108_lp_prio_schedulable_partial slackInfo best best_maximum tardyPrio 100 100 (by decide) (by decide)
      (by decide) (by decide) (by decide) _ hbs (fun t ht => by
        have : ∀ t ∈ slackInfo, (Fp.boundResponseTimes 100 1 (afterLpBounds slackInfo [9, 8, 6, 6] t.cluster)).map
            Prod.fst = some true := by decide +kernel
        obtain ⟨d, hd, hd'⟩ := Option.map_eq_some_iff.1 (this t ht)
        exact ⟨d.2, by rw [hd, ← hd']⟩) R hR huse

/-- A run that meets the hypotheses of C109. -/
example : (∃ R, PrioFifoFp (system slackInfo) (fun i => (slackInfo.get i).priority) (fun _ _ => 1) R ∧
      (∀ s, R.issued s → R.enter s < R.acquire s → R.acquire s < R.leave s) ∧
      ∃ s, R.issued s ∧ R.enter s + 4 = R.acquire s) ∧
    ∃ bs, prioFifoBounds (fun _ _ => 1) 100 best slackInfo = some bs ∧
      (Fp.boundResponseTimes 100 1 (afterLpBounds slackInfo bs 0)).map (fun r => (r.1, r.2.map (·.2))) =
        some (true, [10, 10]) ∧
    ∀ R, PrioFifoFp (system slackInfo) (fun i => (slackInfo.get i).priority) (fun _ _ => 1) R →
      (∀ s, R.issued s → R.enter s < R.acquire s → R.acquire s < R.leave s) →
      MeetsDeadlines R.work (system slackInfo).deadline R.sched := by
  have hbs := fifo_slack_bounds best_maximum best_some
  have hok : slackTable.SpinOk slackSys ![0, 1, 2, 3] := by decide +kernel
  refine ⟨⟨slackTable.run slackSys, ?_, fun s hs _ => table_use hok (by decide) s hs, (⟨(0, 0), 0, 0⟩ : Section 4), ?_, ?_⟩, _, hbs,
    by decide +kernel, fun R hR huse => ?_⟩
  · rw [system_slack]
    change PrioFifoFp slackSys (fun i : Fin 4 => (slackInfo.get i).priority) (fun (_ : Fin 4) _ => 1) _
    rw [slack_prio]
    exact hok.prioFifoFp (lockPrio := fun (_ : Fin 4) _ => 1) (by decide +kernel)
  · exact ⟨⟨(0, 0), 0, 0, 5, 9, 10⟩, by decide, rfl⟩
  · rw [show (⟨(0, 0), 0, 0⟩ : Section 4) = (⟨(0, 0), 0, 0, 5, 9, 10⟩ : JSec 4).sec from rfl]
    rw [hok.enter_eq (by decide), hok.acquire_eq (by decide)]
  · exact C109_lp_prio_fifo_schedulable_partial slackInfo best best_maximum (fun _ _ => 1) 100 100 (by decide)
      (by decide) (by decide) (by decide) (fun _ _ _ _ _ => rfl) _ hbs (fun t ht => by
        have : ∀ t ∈ slackInfo, (Fp.boundResponseTimes 100 1 (afterLpBounds slackInfo [9, 8, 6, 6] t.cluster)).map
            Prod.fst = some true := by decide +kernel
        obtain ⟨d, hd, hd'⟩ := Option.map_eq_some_iff.1 (this t ht)
        exact ⟨d.2, by rw [hd, ← hd']⟩) R hR huse

end Verif.SR.Lp
