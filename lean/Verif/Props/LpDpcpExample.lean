/-
C106: a run of the DPCP, with the bounds that follow from optimal solutions of the linear programs.
-/
import Verif.Props.LpDpcp
import Verif.Props.LpDpcpViolated

namespace Verif.SR.Lp
open Verif.Spec
open Verif.SR.Msrp (system)
open Verif.SR.Dpcp (topology)

/-- Tasks 0 and 2 on processor 0 and task 1 on processor 1; resource 0 on processor 1 and resource 1 on processor 0. -/
def agentInfo : Info :=
  [⟨0, 40, 40, 40, 0, 3, [⟨0, 1, 1, false⟩]⟩, ⟨1, 40, 40, 40, 1, 3, [⟨0, 1, 2, false⟩]⟩,
    ⟨2, 40, 40, 40, 0, 4, [⟨1, 1, 2, false⟩]⟩]

def agentMap : List (ℕ × ℕ) := [(0, 1), (1, 0)]

def agentSys : LockSystem 3 where
  proc := ![0, 1, 0]
  cost := ![3, 3, 4]
  period := ![40, 40, 40]
  deadline := ![40, 40, 40]
  reqs := ![[⟨0, 1, 1⟩], [⟨0, 1, 2⟩], [⟨1, 1, 2⟩]]

theorem system_agent : system agentInfo = agentSys := by
  unfold system agentSys
  congr 1 <;>
  · funext (i : Fin 3)
    fin_cases i <;> rfl

/-- Task 0 is released at time 1, is delayed by the request of task 2 and then, on processor 1, by the one of task 1. -/
def agentTable : JTable 3 where
  off := ![1, 0, 0]
  exec := ![[3], [3], [4]]
  slots := [{(1, 0), (2, 0)}, {(1, 0), (2, 0)}, {(1, 0), (2, 0)}, {(0, 0), (2, 0)}, {(0, 0)}, {(0, 0)}]
  secs := [⟨(2, 0), 0, 0, 0, 0, 2⟩, ⟨(1, 0), 0, 0, 1, 1, 3⟩, ⟨(0, 0), 0, 0, 2, 3, 4⟩]

section
variable {solve : Solver} (h1 : ∀ P x, solve P = some x → P.Maximum x) (h2 : ∀ P x, P.Maximum x → (solve P).isSome)
include h1 h2

theorem agent_task0 : dpcpTask solve agentInfo (topology agentMap) true 50 0
    ⟨0, 40, 40, 40, 0, 3, [⟨0, 1, 1, false⟩]⟩ = some ⟨8, 4, 4⟩ :=
  dpcpTask_mixed h1 h2 (rem := 4) (loc := 4) (some [(0, some 3)])
    [(1, ⟨.indirect, 1, 0, 0⟩), (1, ⟨.preempt, 2, 0, 1⟩), (1, ⟨.preempt, 2, 1, 1⟩), (1, ⟨.direct, 1, 1, 0⟩)]
    [(2, 0), (2, 1), (2, 2), (2, 3)] [(2, 0), (2, 1)] [(2, 2), (2, 3)]
    (by decide +kernel) (by decide +kernel) (by decide +kernel) (by decide +kernel) (by decide +kernel)
    (by decide +kernel) (by decide +kernel) (by decide +kernel)

theorem agent_task1 : dpcpTask solve agentInfo (topology agentMap) true 50 1
    ⟨1, 40, 40, 40, 1, 3, [⟨0, 1, 2, false⟩]⟩ = some ⟨2, 0, 2⟩ :=
  dpcpTask_local h1 h2 (some [(0, some 6)]) [(1, ⟨.direct, 0, 0, 0⟩), (1, ⟨.direct, 0, 1, 0⟩)]
    [(1, 0), (1, 1), (2, 5), (2, 6)] [(2, 5), (2, 6)]
    (by decide +kernel) (by decide +kernel) (by decide +kernel) (by decide +kernel) (by decide +kernel)
    (by decide +kernel)

theorem agent_task2 : dpcpTask solve agentInfo (topology agentMap) true 50 2
    ⟨2, 40, 40, 40, 0, 4, [⟨1, 1, 2, false⟩]⟩ = some ⟨0, 0, 0⟩ :=
  dpcpTask_local h1 h2 (some [(1, some 4)]) [] [(1, 4), (2, 5), (2, 6)] [(1, 4), (2, 5), (2, 6)]
    (by decide +kernel) (by decide +kernel) (by decide +kernel) (by decide +kernel) (by decide +kernel)
    (by decide +kernel)

theorem agent_bounds : lpDpcpBounds solve agentInfo agentMap true 50 = some [⟨8, 4, 4⟩, ⟨2, 0, 2⟩, ⟨0, 0, 0⟩] := by
  change [(0, _), (1, _), (2, _)].mapM _ = _
  simp only [List.mapM_cons, List.mapM_nil, agent_task0 h1 h2, agent_task1 h1 h2, agent_task2 h1 h2]
  rfl

end

/-- A run that meets the hypotheses of C106: a job is delayed by requests on its own and on another processor. -/
example : (∃ R, DpcpPrompt (system agentInfo) (fun i => (agentInfo.get i).priority) (fun r => 1 - r) R) ∧
    ∃ bs, lpDpcpBounds best agentInfo agentMap true 50 = some bs ∧
      (Fp.boundResponseTimes 50 1 (afterSemBounds agentInfo bs 0)).map (fun r => (r.1, r.2.map (·.2))) =
        some (true, [11, 7]) ∧
      (Fp.boundResponseTimes 50 1 (afterSemBounds agentInfo bs 1)).map (fun r => (r.1, r.2.map (·.2))) =
        some (true, [5]) ∧
    ∀ R, DpcpPrompt (system agentInfo) (fun i => (agentInfo.get i).priority) (fun r => 1 - r) R →
      MeetsDeadlines R.work (system agentInfo).deadline R.sched := by
  have hbs := agent_bounds best_maximum best_some
  refine ⟨⟨agentTable.run agentSys, ?_⟩, _, hbs, by decide +kernel, by decide +kernel, fun R hR => ?_⟩
  · rw [system_agent]
    have hp : (fun i : Fin 3 => (agentInfo.get i).priority) = ![0, 1, 2] := by
      funext i
      fin_cases i <;> rfl
    change DpcpPrompt agentSys (fun i : Fin 3 => (agentInfo.get i).priority) _ _
    rw [hp]
    exact (show agentTable.ReqOk 3 agentSys by decide +kernel).dpcpPrompt (by decide +kernel) (by decide +kernel)
      (by decide +kernel) (by decide +kernel) (by decide +kernel)
  · refine C106_lp_dpcp_schedulable_partial agentInfo best best_maximum agentMap (fun r => 1 - r) true 50 (by decide)
      (by decide) (by decide) (by decide) (by decide) (by decide) ?_ _ hbs ?_ (by decide +kernel) R hR
    · intro _
      have : ∀ t ∈ agentInfo, ∀ r ∈ t.requests, 6 ≤ t.response ∧
          nextWait agentInfo (topology agentMap) t r.resId 6 ≤ 6 := by decide +kernel
      exact fun t ht r hr => ⟨6, this t ht r hr⟩
    · intro (i : Fin 3)
      fin_cases i
      · intro b hb h0
        cases hb
        cases h0
      · intro b hb h0
        decide
      · intro b hb h0
        decide

end Verif.SR.Lp
