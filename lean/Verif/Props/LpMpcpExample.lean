/-
C105: a run of the MPCP, with the bounds that follow from optimal solutions of the linear programs.
-/
import Verif.Props.LpMpcp
import Verif.Props.MpcpExample
import Verif.Lemmas.LpMpcpSolve

namespace Verif.SR.Lp
open Verif.Spec
open Verif.SR.Msrp (system)

section
variable {solve : Solver} (h1 : ∀ P x, solve P = some x → P.Maximum x) (h2 : ∀ P x, P.Maximum x → (solve P).isSome)
include h1 h2

theorem ex_mpcpTask0 : ∃ loc, lpMpcpTask solve Mpcp.exInfo 50 0 ⟨0, 40, 40, 40, 0, 3, [⟨0, 1, 1, false⟩]⟩ = some ⟨6, 2, loc⟩ :=
  lpMpcpTask_eq h1 h2 [(0, some 2)]
    [(1, ⟨.indirect, 1, 0, 1⟩), (1, ⟨.indirect, 1, 1, 1⟩), (1, ⟨.direct, 2, 0, 0⟩)] [(1, ⟨.direct, 2, 0, 0⟩)]
    [(2, 0), (2, 1), (2, 7), (1, 8), (2, 9), (1, 10), (2, 14)] [(2, 7), (1, 8), (2, 9), (1, 10), (2, 14)]
    (by decide +kernel) (by decide +kernel) (by decide +kernel)

theorem ex_mpcpTask1 : ∃ loc, lpMpcpTask solve Mpcp.exInfo 50 1 ⟨1, 40, 40, 40, 0, 4, [⟨1, 1, 2, false⟩]⟩ = some ⟨3, 3, loc⟩ :=
  lpMpcpTask_eq h1 h2 [(1, some 3)]
    [(1, ⟨.indirect, 2, 0, 0⟩), (1, ⟨.direct, 3, 0, 1⟩)] [(1, ⟨.indirect, 2, 0, 0⟩), (1, ⟨.direct, 3, 0, 1⟩)]
    [(2, 6), (1, 7), (2, 8), (1, 9), (1, 13), (2, 14)] [(2, 6), (1, 7), (2, 8), (1, 9), (2, 14)]
    (by decide +kernel) (by decide +kernel) (by decide +kernel)

theorem ex_mpcpTask2 : ∃ loc, lpMpcpTask solve Mpcp.exInfo 50 2 ⟨2, 40, 40, 40, 1, 3, [⟨0, 1, 2, false⟩]⟩ = some ⟨4, 2, loc⟩ :=
  lpMpcpTask_eq h1 h2 [(0, some 2)]
    [(1, ⟨.direct, 0, 0, 0⟩), (1, ⟨.direct, 0, 1, 0⟩), (1, ⟨.indirect, 3, 0, 1⟩), (1, ⟨.indirect, 3, 1, 1⟩)]
    [(1, ⟨.direct, 0, 0, 0⟩), (1, ⟨.direct, 0, 1, 0⟩)]
    [(1, 0), (1, 1), (1, 4), (1, 5), (2, 8), (2, 10), (2, 14)] [(1, 0), (1, 1), (2, 8), (2, 10), (2, 14)]
    (by decide +kernel) (by decide +kernel) (by decide +kernel)

theorem ex_mpcpTask3 : ∃ loc, lpMpcpTask solve Mpcp.exInfo 50 3 ⟨3, 40, 40, 40, 1, 3, [⟨1, 1, 1, false⟩]⟩ = some ⟨6, 6, loc⟩ :=
  lpMpcpTask_eq h1 h2 [(1, some 6)]
    [(1, ⟨.indirect, 0, 0, 0⟩), (1, ⟨.indirect, 0, 1, 0⟩), (1, ⟨.direct, 1, 0, 1⟩), (1, ⟨.direct, 1, 1, 1⟩)]
    [(1, ⟨.indirect, 0, 0, 0⟩), (1, ⟨.indirect, 0, 1, 0⟩), (1, ⟨.direct, 1, 0, 1⟩), (1, ⟨.direct, 1, 1, 1⟩)]
    [(1, 0), (1, 1), (2, 2), (2, 3), (2, 13)] [(1, 0), (1, 1), (2, 2), (2, 3)]
    (by decide +kernel) (by decide +kernel) (by decide +kernel)

end

/-- A run that meets the hypotheses of C105: a job is delayed on arrival by the boosted section of a lower-priority
task, and later waits for a resource. -/
example : (∃ R, Spec.Mpcp (system Mpcp.exInfo) (fun i => (Mpcp.exInfo.get i).priority) R) ∧
    ∃ bs, lpMpcpBounds best Mpcp.exInfo 50 = some bs ∧
      (Fp.boundResponseTimes 50 1 (afterSemBounds Mpcp.exInfo bs 0)).map (fun r => (r.1, r.2.map (·.2))) =
        some (true, [9, 10]) ∧
      (Fp.boundResponseTimes 50 1 (afterSemBounds Mpcp.exInfo bs 1)).map (fun r => (r.1, r.2.map (·.2))) =
        some (true, [7, 12]) ∧
    ∀ R, Spec.Mpcp (system Mpcp.exInfo) (fun i => (Mpcp.exInfo.get i).priority) R →
      MeetsDeadlines R.work (system Mpcp.exInfo).deadline R.sched := by
  have h1 := best_maximum
  obtain ⟨a, ha⟩ := ex_mpcpTask0 h1 best_some
  obtain ⟨b, hb⟩ := ex_mpcpTask1 h1 best_some
  obtain ⟨c, hc⟩ := ex_mpcpTask2 h1 best_some
  obtain ⟨d, hd⟩ := ex_mpcpTask3 h1 best_some
  have hbs : lpMpcpBounds best Mpcp.exInfo 50 = some [⟨6, 2, a⟩, ⟨3, 3, b⟩, ⟨4, 2, c⟩, ⟨6, 6, d⟩] := by
    change [(0, _), (1, _), (2, _), (3, _)].mapM _ = _
    simp only [List.mapM_cons, List.mapM_nil, ha, hb, hc, hd]
    rfl
  have hafter : ∀ k, afterSemBounds Mpcp.exInfo [⟨6, 2, a⟩, ⟨3, 3, b⟩, ⟨4, 2, c⟩, ⟨6, 6, d⟩] k =
      afterSemBounds Mpcp.exInfo [⟨6, 2, 0⟩, ⟨3, 3, 0⟩, ⟨4, 2, 0⟩, ⟨6, 6, 0⟩] k := fun k => rfl
  refine ⟨⟨Mpcp.exTable.run Mpcp.exSys, ?_⟩, _, hbs, ?_, ?_, fun R hR => ?_⟩
  · rw [Mpcp.system_exInfo]
    have hp : (fun i : Fin 4 => (Mpcp.exInfo.get i).priority) = ![0, 1, 2, 3] := by
      funext i
      fin_cases i <;> rfl
    change Spec.Mpcp Mpcp.exSys (fun i : Fin 4 => (Mpcp.exInfo.get i).priority) _
    rw [hp]
    exact (show Mpcp.exTable.Ok 4 Mpcp.exSys by decide +kernel).mpcp (by decide +kernel) (by decide +kernel)
  · rw [hafter]; decide +kernel
  · rw [hafter]; decide +kernel
  · refine C105_lp_mpcp_schedulable_partial Mpcp.exInfo best h1 50 (by decide) (by decide) (by decide) (by decide)
      (by decide) ?_ _ hbs ?_ R hR
    · intro (i : Fin 4)
      fin_cases i
      · intro r hr
        rw [List.mem_singleton.1 (show r ∈ [(⟨0, 1, 1, false⟩ : Request)] from hr)]
        exact ⟨2, by decide +kernel, by decide +kernel⟩
      · intro r hr
        rw [List.mem_singleton.1 (show r ∈ [(⟨1, 1, 2, false⟩ : Request)] from hr)]
        exact ⟨3, by decide +kernel, by decide +kernel⟩
      · intro r hr
        rw [List.mem_singleton.1 (show r ∈ [(⟨0, 1, 2, false⟩ : Request)] from hr)]
        exact ⟨2, by decide +kernel, by decide +kernel⟩
      · intro r hr
        rw [List.mem_singleton.1 (show r ∈ [(⟨1, 1, 1, false⟩ : Request)] from hr)]
        exact ⟨6, by decide +kernel, by decide +kernel⟩
    · simp only [hafter]
      decide +kernel

end Verif.SR.Lp
