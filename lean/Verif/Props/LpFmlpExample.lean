/-
C104: a run of the FMLP+, with the bounds that follow from optimal solutions of the linear programs.
-/
import Verif.Props.LpFmlp
import Verif.Props.FmlpExample
import Verif.Lemmas.LpDual

namespace Verif.SR.Lp
open Verif.Spec
open Verif.SR.Msrp (system)

/-- The result of `best` from one optimal solution of the program of a task. -/
theorem fmlpTask_best {info : Info} (h1 : OneEntry info) (k : Fin info.length) (l : Exp) (cert : List (ℚ × ℕ)) (b : SemBounds)
    (h : ListedFeasible (fmlpConstraints info k (info.get k) { objective := partObjective info k (info.get k) }) l ∧
      Dominates (fmlpConstraints info k (info.get k) { objective := partObjective info k (info.get k) }) cert ∧
      (cert.map (fun c => c.1 * (constraintAt (fmlpConstraints info k (info.get k)
        { objective := partObjective info k (info.get k) }) c.2).2)).sum ≤
        termSum (listed l) (partObjective info k (info.get k)) ∧
      (lrint (termSum (listed l) (partObjective info k (info.get k)))).toNat = b.total ∧
      (lrint (termSum (listed l) (localObjective info k (info.get k)))).toNat = b.loc ∧ b.remote = b.total - b.loc) :
    fmlpTask best info k (info.get k) = some b := by
  obtain ⟨hl, hd, hc, ht, hlo, hr⟩ := h
  unfold fmlpTask
  set P := fmlpConstraints info k (info.get k) { objective := partObjective info k (info.get k) } with hP
  have hobj : P.objective = partObjective info k (info.get k) := by rw [hP, objective_fmlp]
  have hm : P.Maximum (listed l) := maximum_listed cert ⟨hl, hd, by rw [hobj]; exact hc⟩
  have hx : ∃ x, P.Maximum x := ⟨_, hm⟩
  have hbest : best P = some hx.choose := by
    unfold best
    rw [dif_pos hx]
  have hsp : Splits (LocalKey info k) P := splits_fmlp _ _ _
  have hob : ∀ z, termSum z P.objective = termSum z (localObjective info k (info.get k)) +
      termSum z (remoteObjective info k (info.get k)) := fun z => by rw [hobj, objective_split]
  have h2 := hx.choose_spec
  have e1 : termSum hx.choose P.objective = termSum (listed l) P.objective :=
    le_antisymm (hm.best _ h2.feasible) (h2.best _ hm.feasible)
  have e2 : termSum hx.choose (localObjective info k (info.get k)) = termSum (listed l) (localObjective info k (info.get k)) :=
    le_antisymm (hsp.parts hm hob local_terms remote_terms h2.feasible).1
      (hsp.parts h2 hob local_terms remote_terms hm.feasible).1
  simp only [hbest, Option.map_some, e1, e2]
  rw [hobj, ht, hlo, ← hr]

theorem ex_oneEntry : OneEntry Fmlp.exInfo := by
  unfold OneEntry
  decide

theorem ex_fmlpTask0 : fmlpTask best Fmlp.exInfo 0 ⟨0, 30, 30, 30, 0, 3, [⟨0, 1, 1, false⟩]⟩ = some ⟨7, 3, 4⟩ :=
  fmlpTask_best ex_oneEntry (0 : Fin 4)
    [(1, ⟨.preempt, 1, 0, 1⟩), (1, ⟨.preempt, 1, 1, 1⟩), (1, ⟨.direct, 2, 0, 0⟩), (1, ⟨.indirect, 3, 0, 1⟩)]
    [(2, 0), (2, 1), (2, 11), (1, 12), (2, 15)] ⟨7, 3, 4⟩ (by decide +kernel)

theorem ex_fmlpTask1 : fmlpTask best Fmlp.exInfo 1 ⟨1, 30, 30, 30, 0, 4, [⟨1, 1, 2, false⟩]⟩ = some ⟨3, 3, 0⟩ :=
  fmlpTask_best ex_oneEntry (1 : Fin 4)
    [(1, ⟨.indirect, 2, 0, 0⟩), (1, ⟨.direct, 3, 0, 1⟩)]
    [(2, 10), (1, 11), (1, 14), (2, 15)] ⟨3, 3, 0⟩ (by decide +kernel)

theorem ex_fmlpTask2 : fmlpTask best Fmlp.exInfo 2 ⟨0, 30, 30, 30, 1, 3, [⟨0, 1, 2, false⟩]⟩ = some ⟨5, 3, 2⟩ :=
  fmlpTask_best ex_oneEntry (2 : Fin 4)
    [(1, ⟨.direct, 0, 0, 0⟩), (1, ⟨.indirect, 1, 0, 1⟩), (1, ⟨.preempt, 3, 0, 1⟩), (1, ⟨.preempt, 3, 1, 1⟩)]
    [(1, 4), (1, 5), (1, 10), (2, 11), (2, 15)] ⟨5, 3, 2⟩ (by decide +kernel)

theorem ex_fmlpTask3 : fmlpTask best Fmlp.exInfo 3 ⟨1, 30, 30, 30, 1, 3, [⟨1, 1, 1, false⟩]⟩ = some ⟨3, 3, 0⟩ :=
  fmlpTask_best ex_oneEntry (3 : Fin 4)
    [(1, ⟨.indirect, 0, 0, 0⟩), (1, ⟨.direct, 1, 0, 1⟩)]
    [(1, 9), (2, 10), (2, 14), (2, 15)] ⟨3, 3, 0⟩ (by decide +kernel)

theorem mapM_four {α β : Type} {f : α → Option β} {a b c d : α} {x y z w : β} (ha : f a = some x) (hb : f b = some y)
    (hc : f c = some z) (hd : f d = some w) : [a, b, c, d].mapM f = some [x, y, z, w] := by
  simp [ha, hb, hc, hd]

/-- Optimal solutions of the programs of the four tasks. -/
theorem ex_fmlpBounds : lpFmlpBounds best Fmlp.exInfo = some [⟨7, 3, 4⟩, ⟨3, 3, 0⟩, ⟨5, 3, 2⟩, ⟨3, 3, 0⟩] :=
  mapM_four ex_fmlpTask0 ex_fmlpTask1 ex_fmlpTask2 ex_fmlpTask3

/-- The tasks of both processors are accepted, with these response times, and there is a run in which a task waits for
a resource that is used on the other processor. -/
example : (Fp.boundResponseTimes 10 1 (afterSemBounds Fmlp.exInfo [⟨7, 3, 4⟩, ⟨3, 3, 0⟩, ⟨5, 3, 2⟩, ⟨3, 3, 0⟩] 0)).map
      (fun r => (r.1, r.2.map (·.2))) = some (true, [10, 10]) ∧
    (Fp.boundResponseTimes 10 1 (afterSemBounds Fmlp.exInfo [⟨7, 3, 4⟩, ⟨3, 3, 0⟩, ⟨5, 3, 2⟩, ⟨3, 3, 0⟩] 1)).map
      (fun r => (r.1, r.2.map (·.2))) = some (true, [8, 9]) ∧
    (∃ ticket R, FmlpPlus (system Fmlp.exInfo) (fun i => (Fmlp.exInfo.get i).priority) ticket R) ∧
    ∀ ticket R, FmlpPlus (system Fmlp.exInfo) (fun i => (Fmlp.exInfo.get i).priority) ticket R →
      MeetsDeadlines R.work (system Fmlp.exInfo).deadline R.sched := by
  refine ⟨by decide +kernel, by decide +kernel, ⟨Fmlp.exTable.ticket, Fmlp.exTable.run Fmlp.exSys, ?_⟩, fun ticket R hR => ?_⟩
  · rw [Fmlp.system_exInfo]
    have hp : (fun i : Fin 4 => (Fmlp.exInfo.get i).priority) = ![0, 1, 0, 1] := by
      funext i
      fin_cases i <;> rfl
    change FmlpPlus Fmlp.exSys (fun i : Fin 4 => (Fmlp.exInfo.get i).priority) _ _
    rw [hp]
    exact (show Fmlp.exTable.Ok 4 Fmlp.exSys by decide +kernel).fmlp (by decide +kernel) (by decide +kernel)
  · exact C104_lp_fmlp_schedulable Fmlp.exInfo best best_maximum 10 (by decide) (by decide) (by decide) _ ex_fmlpBounds
      (by decide +kernel) ticket R hR

end Verif.SR.Lp
