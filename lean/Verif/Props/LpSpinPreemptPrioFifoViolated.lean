/-
C154 and C155: task sets for the analysis of preemptive spin locks in the order of priorities and, among equal priorities,
in FIFO order.
-/
import Verif.Props.LpSpinPreemptPrioFifo
import Verif.Props.LpSpinPreemptUnorderedExample

namespace Verif.SR.Lp
open Verif.Spec
open Verif.SR.Msrp (system)

/-- Three processors with one task each; task 1 has two requests. -/
def passInfo : Info := [⟨0, 100, 6, 6, 0, 1, [⟨0, 1, 1, false⟩]⟩, ⟨1, 100, 20, 20, 1, 4, [⟨0, 2, 2, false⟩]⟩,
  ⟨2, 100, 20, 20, 2, 2, [⟨0, 1, 2, false⟩]⟩]

/-- The requests of task 0 have a lower priority than all others. -/
def passPrio : LockPrio := fun t _ => if t = 0 then 1 else 0

def passSys : LockSystem 3 where
  proc := ![0, 1, 2]
  cost := ![1, 4, 2]
  period := ![100, 100, 100]
  deadline := ![6, 20, 20]
  reqs := ![[⟨0, 1, 1⟩], [⟨0, 2, 2⟩], [⟨0, 1, 2⟩]]

theorem system_pass : system passInfo = passSys := by
  unfold system passSys
  congr 1 <;>
  · funext (i : Fin 3)
    fin_cases i <;> rfl

/-- The second request of task 1 overtakes that of task 0. -/
def passTable : JTable 3 where
  off := ![0, 0, 0]
  exec := ![[7], [6], [4]]
  slots := [{(0, 0), (1, 0), (2, 0)}, {(0, 0), (1, 0), (2, 0)}, {(0, 0), (1, 0), (2, 0)}, {(0, 0), (1, 0), (2, 0)},
    {(0, 0), (1, 0)}, {(0, 0), (1, 0)}, {(0, 0)}]
  secs := [⟨(1, 0), 0, 0, 0, 0, 2⟩, ⟨(1, 0), 0, 1, 2, 4, 6⟩, ⟨(2, 0), 0, 0, 0, 2, 4⟩, ⟨(0, 0), 0, 0, 0, 6, 7⟩]

theorem pass_run : PreemptPrioFifoFp (system passInfo) (fun i => (passInfo.get i).priority) (fun i r => passPrio i r)
    (passTable.run passSys) := by
  rw [system_pass]
  have hp : (fun i : Fin 3 => (passInfo.get i).priority) = ![0, 1, 2] := by
    funext i
    fin_cases i <;> rfl
  change PreemptPrioFifoFp passSys (fun i : Fin 3 => (passInfo.get i).priority) (fun i : Fin 3 => fun r => passPrio i r) _
  rw [hp]
  exact JTable.PreemptOk.preemptPrioFifoFp (by decide +kernel) (by decide +kernel)

theorem pass_missed : ¬ MeetsDeadlines (passTable.run passSys).work (system passInfo).deadline
    (passTable.run passSys).sched := by
  intro h
  have := h ((0 : Fin 3), 0)
  revert this
  unfold Completed
  erw [JTable.service_run]
  decide +kernel

/-- A certificate for programs in which all integer variables are 0. -/
theorem bind_cover_still {o : Option Program} (l : Exp) (cert : List (ℚ × ℕ)) {v : ℕ}
    (h : o.any (fun P => decide (CoverOpt { P with integers := [] } l cert v ∧
      ∀ k ∈ P.integers, ([((1 : ℚ), k)], (0 : ℚ)) ∈ P.inequalities ∧ coeff l k = 0)) = true)
    {solve : Solver} (h1 : ∀ P x, solve P = some x → P.Maximum x) (h2 : ∀ P x, P.Maximum x → (solve P).isSome) :
    o.bind (solved solve) = some v := by
  obtain ⟨P, rfl, hd⟩ := (Option.any_eq_true _ _).1 h
  obtain ⟨⟨hf, hcov, hv, hle, hr⟩, hk⟩ := of_decide_eq_true hd
  have hl := hf.feasible
  have hrel : ∀ y, P.Feasible y → Milp.Feasible { P with integers := [] } y := by
    intro y hy
    refine ⟨hy.eq, hy.le, (fun v hv => absurd hv (List.not_mem_nil)), hy.binary, fun v _ => ?_⟩
    by_cases hm : v ∈ P.integers
    · have := hy.le _ (hk v hm).1
      have h3 : y v ≤ 0 := by simpa [termSum] using this
      exact ⟨feasible_nonneg hy v, h3.trans zero_le_one⟩
    · exact hy.range v hm
  have hmax : P.Maximum (listed l) := by
    refine ⟨⟨hl.eq, hl.le, fun k hm => ⟨0, ?_⟩, hl.binary, fun k _ => hl.range k (by simp)⟩, fun y hy => ?_⟩
    · simpa [listed] using (hk k hm).2
    · have h3 : termSum (listed l) P.objective = v := hv
      rw [h3]
      exact (hcov.le rfl (hrel y hy)).trans hle
  obtain ⟨x, hx⟩ := Option.isSome_iff_exists.1 (h2 P _ hmax)
  have hm := h1 P x hx
  have hv' : termSum (listed l) P.objective = v := hv
  have e : termSum x P.objective = v := by
    refine le_antisymm ?_ ?_
    · rw [← hv']
      exact hmax.best x hm.feasible
    · rw [← hv']
      exact hm.best _ hmax.feasible
  change Lp.solved solve P = _
  unfold Lp.solved
  rw [hx]
  simp only [Option.map_some, e, hr]

section
variable {solve : Solver} (h1 : ∀ P x, solve P = some x → P.Maximum x) (h2 : ∀ P x, P.Maximum x → (solve P).isSome)
include h1 h2

theorem exTwo_preemptPrioFifo (pr : LockPrio) : preemptPrioFifoBounds pr 50 solve exTwo = some [2, 1] := by
  have e0 : (preemptPrioFifoProgram flat 50 exTwo 0 exTwo[0]).bind (solved solve) = some 2 :=
    bind_cover_still [(1, dir 1 0)] [(2, 5), (2, 6), (2, 7)] (by decide +kernel) h1 h2
  have e1 : (preemptPrioFifoProgram flat 50 exTwo 1 exTwo[1]).bind (solved solve) = some 1 :=
    bind_cover_still [(1, dir 0 0)] [(1, 0)] (by decide +kernel) h1 h2
  change [(0, exTwo[0]), (1, exTwo[1])].mapM (fun t =>
    (preemptPrioFifoProgram flat 50 exTwo t.1 t.2).bind (solved solve)) = _
  simp only [List.mapM_cons, List.mapM_nil, e0, e1]
  rfl

theorem pass_bounds (pr : LockPrio) : preemptPrioFifoBounds pr 50 solve passInfo = some [4, 3, 3] := by
  have e0 : (preemptPrioFifoProgram flat 50 passInfo 0 passInfo[0]).bind (solved solve) = some 4 :=
    bind_cover_still [(1, dir 1 0), (1, dir 2 0)] [(2, 5), (2, 6), (4, 7), (2, 8), (2, 9)] (by decide +kernel) h1 h2
  have e1 : (preemptPrioFifoProgram flat 50 passInfo 1 passInfo[1]).bind (solved solve) = some 3 :=
    bind_cover_still [(1, dir 0 0), (1, dir 2 0)] [(1, 0), (2, 1)] (by decide +kernel) h1 h2
  have e2 : (preemptPrioFifoProgram flat 50 passInfo 2 passInfo[2]).bind (solved solve) = some 3 :=
    bind_cover_still [(1, dir 0 0), (1, dir 1 0)] [(1, 0), (2, 6), (2, 7), (2, 9)] (by decide +kernel) h1 h2
  change [(0, passInfo[0]), (1, passInfo[1]), (2, passInfo[2])].mapM (fun t =>
    (preemptPrioFifoProgram flat 50 passInfo t.1 t.2).bind (solved solve)) = _
  simp only [List.mapM_cons, List.mapM_nil, e0, e1, e2]
  rfl

end

/-- The hypotheses of `C154_eq_preemptive_fifo` hold for two tasks, an optimal solver and any priorities of requests. -/
example (pr : LockPrio) : (∀ P x, best P = some x → P.Maximum x) ∧ preemptPrioFifoBounds pr 50 best exTwo = some [2, 1] ∧
    preemptFifoBounds best exTwo = some [2, 1] :=
  ⟨best_maximum, exTwo_preemptPrioFifo best_maximum best_isSome pr, exTwo_preemptive⟩

/-- **C155** (violated): with response times equal to deadlines, distinct priorities and one request per resource, all tasks are
accepted with the bounds for preemptive spin locks in the order of priorities, whatever solver is used; one of them misses a
deadline.  The priorities of the requests do not reach the analysis, so that a request of lower priority is assumed to be
delayed by one request of each processor. -/
theorem C155_preempt_prio_fifo_violated (solve : Solver) (hsolve : ∀ P x, solve P = some x → P.Maximum x)
    (hany : ∀ P x, P.Maximum x → (solve P).isSome) : ∃ (info : Info) (lockPrio : ℕ → ℕ → ℕ) (fuel : ℕ),
    (∀ t ∈ info, 0 < t.period ∧ t.deadline ≤ t.period ∧ t.response = t.deadline ∧
      (t.requests.map Request.resId).Nodup) ∧
    info.Pairwise (fun a b => a.priority < b.priority) ∧
    ∃ bs, preemptPrioFifoBounds lockPrio fuel solve info = some bs ∧
    (∀ t ∈ info, (Fp.boundResponseTimes fuel 1 (afterLpBounds info bs t.cluster)).map Prod.fst = some true) ∧
    ∃ R, PreemptPrioFifoFp (system info) (fun i => (info.get i).priority) (fun i r => lockPrio i r) R ∧
      ¬ MeetsDeadlines R.work (system info).deadline R.sched :=
  ⟨passInfo, passPrio, 50, by decide, by decide, _, pass_bounds hsolve hany passPrio, by decide +kernel,
    passTable.run passSys, pass_run, pass_missed⟩

end Verif.SR.Lp
