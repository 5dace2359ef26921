/-
Non-vacuity of C138: the four tasks of the example of the FMLP+.
-/
import Verif.Props.LpGfmlp
import Verif.Props.LpFmlpExample

namespace Verif.SR.Lp
open Verif.Spec
open Verif.SR.Msrp (system)

/-- The result of `best` from one optimal solution of the program of a task. -/
theorem gfmlpTask_best {info : Info} (k : Fin info.length) (l : Exp) (cert : List (ℚ × ℕ)) (b : SemBounds)
    (h : ListedFeasible (gfmlpConstraints false 1 info k (info.get k) { objective := partObjective info k (info.get k) }) l ∧
      Dominates (gfmlpConstraints false 1 info k (info.get k) { objective := partObjective info k (info.get k) }) cert ∧
      (cert.map (fun c => c.1 * (constraintAt (gfmlpConstraints false 1 info k (info.get k)
        { objective := partObjective info k (info.get k) }) c.2).2)).sum ≤
        termSum (listed l) (partObjective info k (info.get k)) ∧
      (lrint (termSum (listed l) (partObjective info k (info.get k)))).toNat = b.total ∧
      (lrint (termSum (listed l) (localObjective info k (info.get k)))).toNat = b.loc ∧ b.remote = b.total - b.loc) :
    gfmlpTask false 1 best info k (info.get k) = some b := by
  obtain ⟨hl, hd, hc, ht, hlo, hr⟩ := h
  unfold gfmlpTask
  set P := gfmlpConstraints false 1 info k (info.get k) { objective := partObjective info k (info.get k) } with hP
  have hobj : P.objective = partObjective info k (info.get k) := by rw [hP, objective_gfmlp]
  have hm : P.Maximum (listed l) := maximum_listed cert ⟨hl, hd, by rw [hobj]; exact hc⟩
  have hx : ∃ x, P.Maximum x := ⟨_, hm⟩
  have hbest : best P = some hx.choose := by
    unfold best
    rw [dif_pos hx]
  have hsp : Splits (LocalKey info k) P := splits_gfmlp _ _ _
  have hob : ∀ z, termSum z P.objective = termSum z (localObjective info k (info.get k)) +
      termSum z (remoteObjective info k (info.get k)) := fun z => by rw [hobj, objective_split]
  have h2 := hx.choose_spec
  have e1 : termSum hx.choose P.objective = termSum (listed l) P.objective :=
    le_antisymm (hm.best _ h2.feasible) (h2.best _ hm.feasible)
  have e2 : termSum hx.choose (localObjective info k (info.get k)) = termSum (listed l) (localObjective info k (info.get k)) :=
    le_antisymm (hsp.parts hm hob local_terms remote_terms h2.feasible).1
      (hsp.parts h2 hob local_terms remote_terms hm.feasible).1
  simp only [hbest, Option.map_some, e1, e2]
  rw [hobj, ht, hlo, ← hr]

theorem ex_gfmlpTask0 :
    gfmlpTask false 1 best Fmlp.exInfo 0 ⟨0, 30, 30, 30, 0, 3, [⟨0, 1, 1, false⟩]⟩ = some ⟨7, 3, 4⟩ :=
  gfmlpTask_best (info := Fmlp.exInfo) (0 : Fin 4)
    [(1, ⟨.preempt, 1, 0, 1⟩), (1, ⟨.preempt, 1, 1, 1⟩), (1, ⟨.direct, 2, 0, 0⟩), (1, ⟨.indirect, 3, 0, 1⟩)]
    [(2, 0), (2, 1), (2, 10), (1, 11), (1, 18), (1, 24)] ⟨7, 3, 4⟩ (by decide +kernel)

theorem ex_gfmlpTask1 :
    gfmlpTask false 1 best Fmlp.exInfo 1 ⟨1, 30, 30, 30, 0, 4, [⟨1, 1, 2, false⟩]⟩ = some ⟨3, 3, 0⟩ :=
  gfmlpTask_best (info := Fmlp.exInfo) (1 : Fin 4)
    [(1, ⟨.indirect, 2, 0, 0⟩), (1, ⟨.direct, 3, 0, 1⟩)]
    [(1, 9), (2, 10), (1, 11), (1, 17), (2, 18), (1, 19)] ⟨3, 3, 0⟩ (by decide +kernel)

theorem ex_gfmlpTask2 :
    gfmlpTask false 1 best Fmlp.exInfo 2 ⟨0, 30, 30, 30, 1, 3, [⟨0, 1, 2, false⟩]⟩ = some ⟨5, 3, 2⟩ :=
  gfmlpTask_best (info := Fmlp.exInfo) (2 : Fin 4)
    [(1, ⟨.direct, 0, 0, 0⟩), (1, ⟨.indirect, 1, 0, 1⟩), (1, ⟨.preempt, 3, 0, 1⟩), (1, ⟨.preempt, 3, 1, 1⟩)]
    [(1, 4), (1, 5), (1, 9), (2, 10), (2, 24)] ⟨5, 3, 2⟩ (by decide +kernel)

theorem ex_gfmlpTask3 :
    gfmlpTask false 1 best Fmlp.exInfo 3 ⟨1, 30, 30, 30, 1, 3, [⟨1, 1, 1, false⟩]⟩ = some ⟨3, 3, 0⟩ :=
  gfmlpTask_best (info := Fmlp.exInfo) (3 : Fin 4)
    [(1, ⟨.indirect, 0, 0, 0⟩), (1, ⟨.direct, 1, 0, 1⟩)]
    [(1, 9), (2, 10), (2, 11), (1, 17), (2, 18), (2, 19)] ⟨3, 3, 0⟩ (by decide +kernel)

/-- Optimal solutions of the programs of the four tasks. -/
theorem ex_gfmlpBounds :
    lpGfmlpBounds false 1 best Fmlp.exInfo = some [⟨7, 3, 4⟩, ⟨3, 3, 0⟩, ⟨5, 3, 2⟩, ⟨3, 3, 0⟩] :=
  mapM_four ex_gfmlpTask0 ex_gfmlpTask1 ex_gfmlpTask2 ex_gfmlpTask3

/-- The tasks of both processors are accepted, and there is a run in which a task waits for a resource that is used on
the other processor. -/
example : (∃ ticket R, FmlpPlus (system Fmlp.exInfo) (fun i => (Fmlp.exInfo.get i).priority) ticket R) ∧
    ∀ ticket R, FmlpPlus (system Fmlp.exInfo) (fun i => (Fmlp.exInfo.get i).priority) ticket R →
      MeetsDeadlines R.work (system Fmlp.exInfo).deadline R.sched := by
  refine ⟨⟨Fmlp.exTable.ticket, Fmlp.exTable.run Fmlp.exSys, ?_⟩, fun ticket R hR => ?_⟩
  · rw [Fmlp.system_exInfo]
    have hp : (fun i : Fin 4 => (Fmlp.exInfo.get i).priority) = ![0, 1, 0, 1] := by
      funext i
      fin_cases i <;> rfl
    change FmlpPlus Fmlp.exSys (fun i : Fin 4 => (Fmlp.exInfo.get i).priority) _ _
    rw [hp]
    exact (show Fmlp.exTable.Ok 4 Fmlp.exSys by decide +kernel).fmlp (by decide +kernel) (by decide +kernel)
  · exact C138_partitioned_schedulable_partial Fmlp.exInfo best best_maximum 10 (by decide) (by decide) (by decide) _
      ex_gfmlpBounds (by decide +kernel) ticket R hR

end Verif.SR.Lp
