/-
C107: a task set that is accepted with the LP-based bounds for the DFLP but misses a deadline, and one that does not.
-/
import Verif.Props.LpDflp
import Verif.Props.LpDpcpViolated
import Verif.Props.LpDpcpExample
import Verif.Lemmas.JobTableDflp
import Verif.Lemmas.LpDflpSolve

namespace Verif.SR.Lp
open Verif.Spec
open Verif.SR.Msrp (system)
open Verif.SR.Dpcp (topology)

section
variable {solve : Solver} (h1 : ∀ P x, solve P = some x → P.Maximum x) (h2 : ∀ P x, P.Maximum x → (solve P).isSome)
include h1 h2

theorem fifo_gap_task0 : dflpTask solve gapInfo (topology gapMap) 0 ⟨0, 5, 5, 5, 0, 3, [⟨0, 1, 1, false⟩]⟩ =
    some ⟨2, 0, 2⟩ :=
  dflpTask_mixed h1 h2 (rem := 0) (loc := 2) [(1, ⟨.preempt, 2, 0, 1⟩), (1, ⟨.preempt, 2, 1, 1⟩)]
    [(1, 0), (1, 1)] [] [(1, 0), (1, 1)] (by decide +kernel) (by decide +kernel) (by decide +kernel) (by decide +kernel)
    (by decide +kernel) (by decide +kernel) (by decide +kernel)

theorem fifo_gap_task1 : dflpTask solve gapInfo (topology gapMap) 1 ⟨1, 100, 5, 5, 0, 1, []⟩ = some ⟨1, 0, 1⟩ :=
  dflpTask_mixed h1 h2 (rem := 0) (loc := 1) [(1, ⟨.preempt, 2, 0, 1⟩)]
    [(1, 4), (1, 7), (1, 8), (1, 9)] [(1, 7), (1, 9)] [(1, 4), (1, 8)]
    (by decide +kernel) (by decide +kernel) (by decide +kernel) (by decide +kernel)
    (by decide +kernel) (by decide +kernel) (by decide +kernel)

theorem fifo_gap_task2 : dflpTask solve gapInfo (topology gapMap) 2 ⟨2, 100, 15, 15, 0, 3, [⟨1, 2, 1, false⟩]⟩ =
    some ⟨0, 0, 0⟩ :=
  dflpTask_mixed h1 h2 (rem := 0) (loc := 0) [] [(1, 5), (1, 6)] [(1, 5), (1, 6)] []
    (by decide +kernel) (by decide +kernel) (by decide +kernel) (by decide +kernel)
    (by decide +kernel) (by decide +kernel) (by decide +kernel)

theorem fifo_gap_bounds : lpDflpBounds solve gapInfo gapMap = some [⟨2, 0, 2⟩, ⟨1, 0, 1⟩, ⟨0, 0, 0⟩] := by
  change [(0, _), (1, _), (2, _)].mapM _ = _
  simp only [List.mapM_cons, List.mapM_nil, fifo_gap_task0 h1 h2, fifo_gap_task1 h1 h2, fifo_gap_task2 h1 h2]
  rfl

theorem fifo_agent_task0 : dflpTask solve agentInfo (topology agentMap) 0
    ⟨0, 40, 40, 40, 0, 3, [⟨0, 1, 1, false⟩]⟩ = some ⟨6, 2, 4⟩ :=
  dflpTask_mixed h1 h2 (rem := 2) (loc := 4)
    [(1, ⟨.direct, 1, 0, 0⟩), (1, ⟨.preempt, 2, 0, 1⟩), (1, ⟨.preempt, 2, 1, 1⟩)]
    [(2, 2), (2, 3), (2, 7), (2, 9)] [(2, 7), (2, 9)] [(2, 2), (2, 3)]
    (by decide +kernel) (by decide +kernel) (by decide +kernel) (by decide +kernel)
    (by decide +kernel) (by decide +kernel) (by decide +kernel)

theorem fifo_agent_task1 : dflpTask solve agentInfo (topology agentMap) 1
    ⟨1, 40, 40, 40, 1, 3, [⟨0, 1, 2, false⟩]⟩ = some ⟨2, 0, 2⟩ :=
  dflpTask_mixed h1 h2 (rem := 0) (loc := 2)
    [(1, ⟨.preempt, 0, 0, 0⟩), (1, ⟨.direct, 0, 1, 0⟩)] [(1, 0), (1, 1), (2, 7), (2, 8)] [(2, 7), (2, 8)] [(1, 0), (1, 1)]
    (by decide +kernel) (by decide +kernel) (by decide +kernel) (by decide +kernel)
    (by decide +kernel) (by decide +kernel) (by decide +kernel)

theorem fifo_agent_task2 : dflpTask solve agentInfo (topology agentMap) 2
    ⟨2, 40, 40, 40, 0, 4, [⟨1, 1, 2, false⟩]⟩ = some ⟨0, 0, 0⟩ :=
  dflpTask_mixed h1 h2 (rem := 0) (loc := 0) [] [(1, 6), (2, 7), (2, 8)] [(1, 6), (2, 7), (2, 8)] []
    (by decide +kernel) (by decide +kernel) (by decide +kernel) (by decide +kernel)
    (by decide +kernel) (by decide +kernel) (by decide +kernel)

theorem fifo_agent_bounds : lpDflpBounds solve agentInfo agentMap = some [⟨6, 2, 4⟩, ⟨2, 0, 2⟩, ⟨0, 0, 0⟩] := by
  change [(0, _), (1, _), (2, _)].mapM _ = _
  simp only [List.mapM_cons, List.mapM_nil, fifo_agent_task0 h1 h2, fifo_agent_task1 h1 h2, fifo_agent_task2 h1 h2]
  rfl

end

/-- **C107** (violated): with response times equal to deadlines, distinct priorities and one request per resource, all
tasks are accepted whatever solver is used; one of them misses a deadline.  A task whose requests on other processors are
not delayed there is not regarded as suspending itself, so the bound of a lower-priority task does not account for the
jobs of that task that execute late. -/
theorem C107_suspension_violated (solve : Solver) (hsolve : ∀ P x, solve P = some x → P.Maximum x)
    (hany : ∀ P x, P.Maximum x → (solve P).isSome) :
    ∃ (info : Info) (mapping : List (ℕ × ℕ)) (loc : ℕ → ℕ) (fuel : ℕ),
    (∀ t ∈ info, 0 < t.period ∧ t.deadline ≤ t.period ∧ t.response = t.deadline ∧
      (t.requests.map Request.resId).Nodup) ∧
    (∀ t ∈ info, ∀ r ∈ t.requests, (r.resId, loc r.resId) ∈ mapping) ∧ (mapping.map Prod.fst).Nodup ∧
    info.Pairwise (fun a b => a.priority < b.priority) ∧
    ∃ bs, lpDflpBounds solve info mapping = some bs ∧
    (∀ t ∈ info, (Fp.boundResponseTimes fuel 1 (afterSemBounds info bs t.cluster)).map Prod.fst = some true) ∧
    ∃ ticket R, Dflp (system info) (fun i => (info.get i).priority) loc ticket R ∧
      ¬ MeetsDeadlines R.work (system info).deadline R.sched := by
  refine ⟨gapInfo, gapMap, fun r => 1 - r, 50, by decide, by decide, by decide, by decide, _,
    fifo_gap_bounds hsolve hany, by decide +kernel, gapTable.ticket, gapTable.run gapSys, ?_, ?_⟩
  · rw [system_gap]
    have hp : (fun i : Fin 3 => (gapInfo.get i).priority) = ![0, 1, 2] := by
      funext i
      fin_cases i <;> rfl
    change Dflp gapSys (fun i : Fin 3 => (gapInfo.get i).priority) _ _ _
    rw [hp]
    exact (show gapTable.ReqOk 3 gapSys by decide +kernel).dflp (by decide +kernel) (by decide +kernel)
      (by decide +kernel) (by decide +kernel)
  · intro h
    have := h ((1 : Fin 3), 0)
    revert this
    unfold Completed
    erw [JTable.service_run]
    decide +kernel

/-- A run that meets the hypotheses of C107: a job is delayed by requests on its own and on another processor. -/
example : (∃ ticket R, Dflp (system agentInfo) (fun i => (agentInfo.get i).priority) (fun r => 1 - r) ticket R) ∧
    ∃ bs, lpDflpBounds best agentInfo agentMap = some bs ∧
      (Fp.boundResponseTimes 50 1 (afterSemBounds agentInfo bs 0)).map (fun r => (r.1, r.2.map (·.2))) =
        some (true, [9, 7]) ∧
      (Fp.boundResponseTimes 50 1 (afterSemBounds agentInfo bs 1)).map (fun r => (r.1, r.2.map (·.2))) =
        some (true, [5]) ∧
    ∀ ticket R, Dflp (system agentInfo) (fun i => (agentInfo.get i).priority) (fun r => 1 - r) ticket R →
      MeetsDeadlines R.work (system agentInfo).deadline R.sched := by
  have hbs := fifo_agent_bounds best_maximum best_some
  refine ⟨⟨agentTable.ticket, agentTable.run agentSys, ?_⟩, _, hbs, by decide +kernel, by decide +kernel,
    fun ticket R hR => ?_⟩
  · rw [system_agent]
    have hp : (fun i : Fin 3 => (agentInfo.get i).priority) = ![0, 1, 2] := by
      funext i
      fin_cases i <;> rfl
    change Dflp agentSys (fun i : Fin 3 => (agentInfo.get i).priority) _ _ _
    rw [hp]
    exact (show agentTable.ReqOk 3 agentSys by decide +kernel).dflp (by decide +kernel) (by decide +kernel)
      (by decide +kernel) (by decide +kernel)
  · refine C107_lp_dflp_schedulable_partial agentInfo best best_maximum agentMap (fun r => 1 - r) 50 (by decide)
      (by decide) (by decide) (by decide) (by decide) (by decide) _ hbs ?_ (by decide +kernel) ticket R hR
    intro (i : Fin 3)
    fin_cases i
    · intro b hb h0
      cases hb
      cases h0
    · intro b hb h0
      decide
    · intro b hb h0
      decide

end Verif.SR.Lp
