/-
The LP-based response-time analysis of global fixed-priority scheduling with the FMLP (`lp_sa_gfmlp_bounds`, used by
`apply_sa_gfmlp_bounds` in `schedcat/locking/bounds.py`).
-/
import Verif.Props.LpGlobal
import Verif.Lemmas.LpGlobalInherit

namespace Verif.SR.Lp.Glob
open Verif.Spec Finset
open Verif.SR.Msrp (system)

variable {info : Info}

theorem objective_mHighest (i : ℕ) (ti : TaskInfo) (m : ℕ) (P : Program) :
    (mHighestConstraint info i ti m P).objective = P.objective := by
  unfold mHighestConstraint
  split_ifs
  · exact objective_addInequality _ _ _
  · rfl

theorem objective_fmlpIndirect (ti : TaskInfo) (P : Program) :
    (fmlpIndirectConstraints info ti P).objective = P.objective := by
  unfold fmlpIndirectConstraints
  exact objective_foldl _ _ _ (fun P q => objective_foldl _ _ _ (fun P t => objective_foldl _ _ _
    (fun P r => objective_addInequality _ _ _)))

/-- **C126**: the LP-based analysis of global fixed-priority scheduling with the FMLP (FIFO queues and priority
inheritance) is safe.  If the response-time bounds assumed for the tasks, which may not exceed deadlines and periods, are
confirmed, that is, if for each task the cost and the bound by the analysis are together no more than the response time
assumed, then in every run every job completes within the response time assumed. -/
theorem C126_sa_gfmlp_safe (info : Info) (m : ℕ) (hm : 0 < m) (solve : Solver)
    (hsolve : ∀ P x, solve P = some x → P.Maximum x)
    (hT : ∀ t ∈ info, 0 < t.period ∧ t.response ≤ t.deadline ∧ t.response ≤ t.period ∧ t.response < 2 ^ 64 - 1)
    (hnd : ∀ t ∈ info, (t.requests.map (·.resId)).Nodup)
    (bs : List ℕ) (h : saGfmlpBounds solve info m = some bs)
    (hbs : ∀ i : Fin info.length, ∀ b, bs[(i : ℕ)]? = some b → (info.get i).cost + b ≤ (info.get i).response)
    (run : LockRun info.length) (hrun : InheritLocks m (system info) run) (hq : FifoQueues (system info) run)
    (j : Job info.length) :
    Completed run.work run.sched j (run.work.release j + (info.get j.1).response) := by
  refine safe_core hsolve hT hnd h hbs hrun.toSuspendRun ?_ j
  intro k q hg hl P hP
  cases hP
  have hs := inherit_split hrun hl
  have hD := hs.delay hrun.toSuspendRun hg hl.before (by
    intro t ht
    rw [lost_union] at ht
    exact (mem_lost.1 ht).1)
  refine ⟨_, hD.fmlpIndirectConstraints hg.entry hg.prio (fun x a _ => fmlp_indirect_count hrun hg hq hl)
    (inheritNoStallingConstraint_feasible hg.prio (fun x hx => inherit_plain hrun hl hx)
      (hD.fifoConstraints hg.entry (fun x a ha => fifo_count hrun.toSuspendRun hg.entry hq ha)
        (mHighestConstraint_feasible ?_ ?_
          (noCoBoostingConstraint_feasible (hD.generic hg.entry hm hg.prio))))), ?_⟩
  · intro hk x
    unfold plainSlots
    rw [inherit_high hrun hl hk]
    simp
  · intro hk z
    unfold indirectSlots
    rw [inherit_high hrun hl hk]
    simp
  · rw [objective_fmlpIndirect]
    unfold inheritNoStallingConstraint
    rw [objective_addInequality, objective_fifo, objective_mHighest]
    unfold noCoBoostingConstraint
    rw [objective_addInequality, objective_generic, hD.objective hg.entry hm, hs.direct_total hrun.toSuspendRun,
      lost_card]

/-- Three tasks on one processor; the first and the last one share a resource. -/
def exFmlp : Info :=
  [⟨0, 20, 20, 3, 0, 2, [⟨0, 1, 1, false⟩]⟩, ⟨1, 20, 20, 5, 0, 2, []⟩, ⟨2, 20, 20, 7, 0, 3, [⟨0, 1, 1, false⟩]⟩]

theorem exFmlp_bounds {solve : Solver} (h1 : ∀ P x, solve P = some x → P.Maximum x)
    (h2 : ∀ P x, BoxLp.Maximum P x → (solve P).isSome) : saGfmlpBounds solve exFmlp 1 = some [1, 3, 4] := by
  unfold saGfmlpBounds bounds
  have hi : indexIsPriority exFmlp = true := by decide
  have et : tasks exFmlp = [(0, exFmlp.get ⟨0, by decide⟩), (1, exFmlp.get ⟨1, by decide⟩),
    (2, exFmlp.get ⟨2, by decide⟩)] := by decide
  have e0 := CoverOpt.solved (P := fmlpIndirectConstraints exFmlp (exFmlp.get ⟨0, by decide⟩)
      (inheritNoStallingConstraint exFmlp (exFmlp.get ⟨0, by decide⟩) (fifoConstraints exFmlp 0
        (exFmlp.get ⟨0, by decide⟩) (mHighestConstraint exFmlp 0 (exFmlp.get ⟨0, by decide⟩) 1
          (noCoBoostingConstraint exFmlp (exFmlp.get ⟨0, by decide⟩)
            (generic exFmlp 0 (exFmlp.get ⟨0, by decide⟩) 1))))))
    (l := [(1, .frac ⟨.direct, 2, 0, 0⟩)]) (cert := [(1, 6), (1, 4)]) (v := 1) (by decide +kernel) h1 h2
    (ti := exFmlp.get ⟨0, by decide⟩) (by decide)
  have e1 := CoverOpt.solved (P := fmlpIndirectConstraints exFmlp (exFmlp.get ⟨1, by decide⟩)
      (inheritNoStallingConstraint exFmlp (exFmlp.get ⟨1, by decide⟩) (fifoConstraints exFmlp 1
        (exFmlp.get ⟨1, by decide⟩) (mHighestConstraint exFmlp 1 (exFmlp.get ⟨1, by decide⟩) 1
          (noCoBoostingConstraint exFmlp (exFmlp.get ⟨1, by decide⟩)
            (generic exFmlp 1 (exFmlp.get ⟨1, by decide⟩) 1))))))
    (l := [(2, .intf .regular 0), (1, .frac ⟨.indirect, 2, 0, 0⟩)]) (cert := [(1, 0), (1, 8), (1, 6), (1, 5)]) (v := 3)
    (by decide +kernel) h1 h2 (ti := exFmlp.get ⟨1, by decide⟩) (by decide)
  have e2 := CoverOpt.solved (P := fmlpIndirectConstraints exFmlp (exFmlp.get ⟨2, by decide⟩)
      (inheritNoStallingConstraint exFmlp (exFmlp.get ⟨2, by decide⟩) (fifoConstraints exFmlp 2
        (exFmlp.get ⟨2, by decide⟩) (mHighestConstraint exFmlp 2 (exFmlp.get ⟨2, by decide⟩) 1
          (noCoBoostingConstraint exFmlp (exFmlp.get ⟨2, by decide⟩)
            (generic exFmlp 2 (exFmlp.get ⟨2, by decide⟩) 1))))))
    (l := [(2, .intf .regular 0), (2, .intf .regular 1)]) (cert := [(1, 0), (1, 1)]) (v := 4)
    (by decide +kernel) h1 h2 (ti := exFmlp.get ⟨2, by decide⟩) (by decide)
  rw [et]
  simp only [hi, if_true, List.mapM_cons, List.mapM_nil, Option.bind_some, e0, e1, e2]
  rfl

/-- The hypotheses of C126 are satisfied by tasks whose response times are exactly the bounds. -/
example : ∃ solve : Solver, (∀ P x, solve P = some x → P.Maximum x) ∧
    (∀ t ∈ exFmlp, 0 < t.period ∧ t.response ≤ t.deadline ∧ t.response ≤ t.period ∧ t.response < 2 ^ 64 - 1) ∧
    (∀ t ∈ exFmlp, (t.requests.map (·.resId)).Nodup) ∧ saGfmlpBounds solve exFmlp 1 = some [1, 3, 4] ∧
    ∀ i : Fin exFmlp.length, ∀ b, [1, 3, 4][(i : ℕ)]? = some b →
      (exFmlp.get i).cost + b ≤ (exFmlp.get i).response := by
  obtain ⟨solve, h1, h2⟩ := exists_solver
  refine ⟨solve, h1, by decide, by decide, exFmlp_bounds h1 h2, ?_⟩
  intro i b hb
  fin_cases i <;> (cases hb; decide)

end Verif.SR.Lp.Glob
