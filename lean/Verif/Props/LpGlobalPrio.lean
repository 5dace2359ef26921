/-
The LP-based response-time analyses of global fixed-priority scheduling with priority queues
(`lp_no_progress_priority_bounds` and `lp_global_pip_bounds`, used by `schedcat/locking/bounds.py`).
-/
import Verif.Props.LpGlobalFmlp
import Verif.Lemmas.LpGlobalPrio

namespace Verif.SR.Lp.Glob
open Verif.Spec Finset
open Verif.SR.Msrp (system)

variable {info : Info}

theorem objective_prioLower (ti : TaskInfo) (P : Program) :
    (prioLowerConstraints info ti P).objective = P.objective := by
  unfold prioLowerConstraints
  exact objective_foldl _ _ _ (fun P q => objective_addInequality _ _ _)

theorem objective_pipIndirect (ti : TaskInfo) (P : Program) :
    (pipIndirectConstraints info ti P).objective = P.objective := by
  unfold pipIndirectConstraints
  exact objective_foldl _ _ _ (fun P q => objective_addInequality _ _ _)

/-- **C127**: the LP-based analysis of global fixed-priority scheduling with semaphores with priority queues and without
any progress mechanism is safe.  If the response-time bounds assumed for the tasks, which may not exceed deadlines and
periods, are confirmed, that is, if for each task the cost and the bound by the analysis are together no more than the
response time assumed, then in every run every job completes within the response time assumed. -/
theorem C127_no_progress_priority_safe (info : Info) (m : ℕ) (hm : 0 < m) (solve : Solver)
    (hsolve : ∀ P x, solve P = some x → P.Maximum x)
    (hT : ∀ t ∈ info, 0 < t.period ∧ t.response ≤ t.deadline ∧ t.response ≤ t.period ∧ t.response < 2 ^ 64 - 1)
    (hword : ∀ t ∈ info, t.deadline < 2 ^ 32)
    (hnd : ∀ t ∈ info, (t.requests.map (·.resId)).Nodup)
    (fuel : ℕ) (bs : List ℕ) (h : noProgressPriorityBounds solve fuel info m = some bs)
    (hbs : ∀ i : Fin info.length, ∀ b, bs[(i : ℕ)]? = some b → (info.get i).cost + b ≤ (info.get i).response)
    (run : LockRun info.length) (hrun : PlainLocks m (system info) run) (hq : PriorityQueues (system info) run)
    (hu : ExecutesUntilRelease run) (j : Job info.length) :
    Completed run.work run.sched j (run.work.release j + (info.get j.1).response) := by
  refine safe_core hsolve hT hnd h hbs hrun.toSuspendRun ?_ j
  intro k q hg hl P hP
  have hs := plain_split hrun hl
  have hD := hs.delay hrun.toSuspendRun hg hl.before (by
    intro t ht
    rw [lost_union] at ht
    exact (mem_lost.1 ht).1)
  have key := hD.prioHigherConstraints hg.entry hg.prio (fun x hx a ha W hW hne =>
    prio_higher_count hrun.toSuspendRun hg hq hl ha (hword _ (List.get_mem info k))
      (fun s z hi hsk _ hz hfz H hH hHne => plain_held hrun hu hg hm hl.before hi hsk hz hfz hH hHne) hW hne) hP
    (hD.prioLowerConstraints hg.entry hg.prio (prio_lower_count hrun.toSuspendRun hg.entry hq)
      (noStallingConstraint_feasible hg.prio (fun x hx hle => plain_stalling hrun hg.entry hl hx hle)
        (noProgressConstraint_feasible (plain_indirect _) (hD.generic hg.entry hm hg.prio))))
  refine ⟨_, key.1, ?_⟩
  rw [key.2, objective_prioLower]
  unfold noStallingConstraint noProgressConstraint
  rw [objective_addInequality, objective_addInequality, objective_generic, hD.objective hg.entry hm,
    hs.direct_total hrun.toSuspendRun, lost_card]

/-- **C128**: the LP-based analysis of global fixed-priority scheduling with the priority-inheritance protocol (priority
queues and priority inheritance) is safe, in the sense of C127. -/
theorem C128_pip_lp_safe (info : Info) (m : ℕ) (hm : 0 < m) (solve : Solver)
    (hsolve : ∀ P x, solve P = some x → P.Maximum x)
    (hT : ∀ t ∈ info, 0 < t.period ∧ t.response ≤ t.deadline ∧ t.response ≤ t.period ∧ t.response < 2 ^ 64 - 1)
    (hword : ∀ t ∈ info, t.deadline < 2 ^ 32)
    (hnd : ∀ t ∈ info, (t.requests.map (·.resId)).Nodup)
    (fuel : ℕ) (bs : List ℕ) (h : pipBounds solve fuel info m = some bs)
    (hbs : ∀ i : Fin info.length, ∀ b, bs[(i : ℕ)]? = some b → (info.get i).cost + b ≤ (info.get i).response)
    (run : LockRun info.length) (hrun : InheritLocks m (system info) run) (hq : PriorityQueues (system info) run)
    (hu : ExecutesUntilRelease run) (j : Job info.length) :
    Completed run.work run.sched j (run.work.release j + (info.get j.1).response) := by
  refine safe_core hsolve hT hnd h hbs hrun.toSuspendRun ?_ j
  intro k q hg hl P hP
  have hs := inherit_split hrun hl
  have hD := hs.delay hrun.toSuspendRun hg hl.before (by
    intro t ht
    rw [lost_union] at ht
    exact (mem_lost.1 ht).1)
  have key := hD.prioHigherConstraints hg.entry hg.prio (fun x hx a ha W hW hne =>
    prio_higher_count hrun.toSuspendRun hg hq hl ha (hword _ (List.get_mem info k))
      (fun s z hi hsk hf hz hfz H hH hHne => inherit_held hrun hu hg hm hl.before hi hsk hz hfz hf hH hHne) hW hne) hP
    (hD.pipIndirectConstraints hg.entry hg.prio (pip_indirect_count hrun hg hq hl)
      (inheritNoStallingConstraint_feasible hg.prio (fun x hx => inherit_plain hrun hl hx)
        (hD.prioLowerConstraints hg.entry hg.prio (prio_lower_count hrun.toSuspendRun hg.entry hq)
          (mHighestConstraint_feasible (fun hk x => by
            unfold plainSlots
            rw [inherit_high hrun hl hk]
            simp) (fun hk z => by
            unfold indirectSlots
            rw [inherit_high hrun hl hk]
            simp) (noCoBoostingConstraint_feasible (hD.generic hg.entry hm hg.prio))))))
  refine ⟨_, key.1, ?_⟩
  rw [key.2, objective_pipIndirect]
  unfold inheritNoStallingConstraint
  rw [objective_addInequality, objective_prioLower, objective_mHighest]
  unfold noCoBoostingConstraint
  rw [objective_addInequality, objective_generic, hD.objective hg.entry hm, hs.direct_total hrun.toSuspendRun,
    lost_card]

theorem solved_bind {solve : Solver} {Q : Option Program} (hQ : Q.isSome = true) {l : List (ℚ × Var)}
    {cert : List (ℚ × ℕ)} {v : ℕ} (hc : CoverOpt (Q.get hQ) l cert v) (h1 : ∀ P x, solve P = some x → P.Maximum x)
    (h2 : ∀ P x, BoxLp.Maximum P x → (solve P).isSome) {ti : TaskInfo} (hti : ti.cost ≤ ti.response) :
    Q.bind (solved solve ti) = some v := by
  rw [← Option.some_get hQ]
  exact hc.solved h1 h2 hti

/-- The hypotheses of C127 are satisfied by tasks whose response times are exactly the bounds. -/
example : ∃ solve : Solver, (∀ P x, solve P = some x → P.Maximum x) ∧
    (∀ t ∈ exInfo, 0 < t.period ∧ t.response ≤ t.deadline ∧ t.response ≤ t.period ∧ t.response < 2 ^ 64 - 1) ∧
    (∀ t ∈ exInfo, t.deadline < 2 ^ 32) ∧
    (∀ t ∈ exInfo, (t.requests.map (·.resId)).Nodup) ∧ noProgressPriorityBounds solve 20 exInfo 2 = some [1, 0, 1] ∧
    ∀ i : Fin exInfo.length, ∀ b, [1, 0, 1][(i : ℕ)]? = some b →
      (exInfo.get i).cost + b ≤ (exInfo.get i).response := by
  obtain ⟨solve, h1, h2⟩ := exists_solver
  refine ⟨solve, h1, by decide, by decide, by decide, ?_, ?_⟩
  · unfold noProgressPriorityBounds bounds
    have hi : indexIsPriority exInfo = true := by decide
    have et : tasks exInfo = [(0, exInfo.get ⟨0, by decide⟩), (1, exInfo.get ⟨1, by decide⟩),
      (2, exInfo.get ⟨2, by decide⟩)] := by decide
    have e0 := solved_bind (solve := solve) (Q := prioHigherConstraints exInfo (exInfo.get ⟨0, by decide⟩) 20
        (holdTime 2 20 (interfNo exInfo 0)) (prioLowerConstraints exInfo (exInfo.get ⟨0, by decide⟩)
          (noStallingConstraint exInfo 0 (exInfo.get ⟨0, by decide⟩) (noProgressConstraint exInfo
            (exInfo.get ⟨0, by decide⟩) (generic exInfo 0 (exInfo.get ⟨0, by decide⟩) 2)))))
      (by decide +kernel) (l := [(1, .frac ⟨.direct, 2, 0, 0⟩)]) (cert := [(1, 7), (1, 2), (1, 5), (1, 6)]) (v := 1)
      (by decide +kernel) h1 h2 (ti := exInfo.get ⟨0, by decide⟩) (by decide)
    have e1 := solved_bind (solve := solve) (Q := prioHigherConstraints exInfo (exInfo.get ⟨1, by decide⟩) 20
        (holdTime 2 20 (interfNo exInfo 1)) (prioLowerConstraints exInfo (exInfo.get ⟨1, by decide⟩)
          (noStallingConstraint exInfo 1 (exInfo.get ⟨1, by decide⟩) (noProgressConstraint exInfo
            (exInfo.get ⟨1, by decide⟩) (generic exInfo 1 (exInfo.get ⟨1, by decide⟩) 2)))))
      (by decide +kernel) (l := []) (cert := [(1, 2), (1, 7), (1, 8), (1, 9)]) (v := 0)
      (by decide +kernel) h1 h2 (ti := exInfo.get ⟨1, by decide⟩) (by decide)
    have e2 := solved_bind (solve := solve) (Q := prioHigherConstraints exInfo (exInfo.get ⟨2, by decide⟩) 20
        (holdTime 2 20 (interfNo exInfo 2)) (prioLowerConstraints exInfo (exInfo.get ⟨2, by decide⟩)
          (noStallingConstraint exInfo 2 (exInfo.get ⟨2, by decide⟩) (noProgressConstraint exInfo
            (exInfo.get ⟨2, by decide⟩) (generic exInfo 2 (exInfo.get ⟨2, by decide⟩) 2)))))
      (by decide +kernel) (l := [(1, .frac ⟨.direct, 0, 0, 0⟩)]) (cert := [(1, 0), (1, 3)]) (v := 1)
      (by decide +kernel) h1 h2 (ti := exInfo.get ⟨2, by decide⟩) (by decide)
    rw [et]
    simp only [hi, if_true, List.mapM_cons, List.mapM_nil, e0, e1, e2]
    rfl
  · intro i b hb
    fin_cases i <;> (cases hb; decide)

/-- The hypotheses of C128 are satisfied by tasks whose response times are exactly the bounds. -/
example : ∃ solve : Solver, (∀ P x, solve P = some x → P.Maximum x) ∧
    (∀ t ∈ exFmlp, 0 < t.period ∧ t.response ≤ t.deadline ∧ t.response ≤ t.period ∧ t.response < 2 ^ 64 - 1) ∧
    (∀ t ∈ exFmlp, t.deadline < 2 ^ 32) ∧
    (∀ t ∈ exFmlp, (t.requests.map (·.resId)).Nodup) ∧ pipBounds solve 20 exFmlp 1 = some [1, 3, 4] ∧
    ∀ i : Fin exFmlp.length, ∀ b, [1, 3, 4][(i : ℕ)]? = some b →
      (exFmlp.get i).cost + b ≤ (exFmlp.get i).response := by
  obtain ⟨solve, h1, h2⟩ := exists_solver
  refine ⟨solve, h1, by decide, by decide, by decide, ?_, ?_⟩
  · unfold pipBounds bounds
    have hi : indexIsPriority exFmlp = true := by decide
    have et : tasks exFmlp = [(0, exFmlp.get ⟨0, by decide⟩), (1, exFmlp.get ⟨1, by decide⟩),
      (2, exFmlp.get ⟨2, by decide⟩)] := by decide
    have e0 := solved_bind (solve := solve) (Q := prioHigherConstraints exFmlp (exFmlp.get ⟨0, by decide⟩) 20
        (holdTime 1 20 (interfPi exFmlp 0)) (pipIndirectConstraints exFmlp (exFmlp.get ⟨0, by decide⟩)
          (inheritNoStallingConstraint exFmlp (exFmlp.get ⟨0, by decide⟩) (prioLowerConstraints exFmlp
            (exFmlp.get ⟨0, by decide⟩) (mHighestConstraint exFmlp 0 (exFmlp.get ⟨0, by decide⟩) 1
              (noCoBoostingConstraint exFmlp (exFmlp.get ⟨0, by decide⟩)
                (generic exFmlp 0 (exFmlp.get ⟨0, by decide⟩) 1)))))))
      (by decide +kernel) (l := [(1, .frac ⟨.direct, 2, 0, 0⟩)]) (cert := [(1, 6), (1, 4)]) (v := 1)
      (by decide +kernel) h1 h2 (ti := exFmlp.get ⟨0, by decide⟩) (by decide)
    have e1 := solved_bind (solve := solve) (Q := prioHigherConstraints exFmlp (exFmlp.get ⟨1, by decide⟩) 20
        (holdTime 1 20 (interfPi exFmlp 1)) (pipIndirectConstraints exFmlp (exFmlp.get ⟨1, by decide⟩)
          (inheritNoStallingConstraint exFmlp (exFmlp.get ⟨1, by decide⟩) (prioLowerConstraints exFmlp
            (exFmlp.get ⟨1, by decide⟩) (mHighestConstraint exFmlp 1 (exFmlp.get ⟨1, by decide⟩) 1
              (noCoBoostingConstraint exFmlp (exFmlp.get ⟨1, by decide⟩)
                (generic exFmlp 1 (exFmlp.get ⟨1, by decide⟩) 1)))))))
      (by decide +kernel) (l := [(2, .intf .regular 0), (1, .frac ⟨.indirect, 2, 0, 0⟩)])
      (cert := [(1, 0), (1, 8), (1, 10), (1, 5)]) (v := 3)
      (by decide +kernel) h1 h2 (ti := exFmlp.get ⟨1, by decide⟩) (by decide)
    have e2 := solved_bind (solve := solve) (Q := prioHigherConstraints exFmlp (exFmlp.get ⟨2, by decide⟩) 20
        (holdTime 1 20 (interfPi exFmlp 2)) (pipIndirectConstraints exFmlp (exFmlp.get ⟨2, by decide⟩)
          (inheritNoStallingConstraint exFmlp (exFmlp.get ⟨2, by decide⟩) (prioLowerConstraints exFmlp
            (exFmlp.get ⟨2, by decide⟩) (mHighestConstraint exFmlp 2 (exFmlp.get ⟨2, by decide⟩) 1
              (noCoBoostingConstraint exFmlp (exFmlp.get ⟨2, by decide⟩)
                (generic exFmlp 2 (exFmlp.get ⟨2, by decide⟩) 1)))))))
      (by decide +kernel) (l := [(2, .intf .regular 0), (2, .intf .regular 1)]) (cert := [(1, 0), (1, 1)]) (v := 4)
      (by decide +kernel) h1 h2 (ti := exFmlp.get ⟨2, by decide⟩) (by decide)
    rw [et]
    simp only [hi, if_true, List.mapM_cons, List.mapM_nil, e0, e1, e2]
    rfl
  · intro i b hb
    fin_cases i <;> (cases hb; decide)

end Verif.SR.Lp.Glob
