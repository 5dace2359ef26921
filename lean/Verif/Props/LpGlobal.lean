/-
The LP-based response-time analyses of global fixed-priority scheduling with semaphores
(`lp_no_progress_fifo_bounds` etc., used by `schedcat/locking/bounds.py`).
-/
import Verif.Lemmas.LpGlobalProto
import Verif.Lemmas.LpGlobalCert
import Mathlib.Tactic.FinCases

namespace Verif.SR.Lp.Glob
open Verif.Spec Finset
open Verif.SR.Msrp (system)

variable {info : Info}

/-- The end of the safety proofs. -/
theorem safe_core {solve : Solver} (hsolve : ∀ P x, solve P = some x → P.Maximum x) {m : ℕ}
    (hT : ∀ t ∈ info, 0 < t.period ∧ t.response ≤ t.deadline ∧ t.response ≤ t.period ∧ t.response < 2 ^ 64 - 1)
    (hnd : ∀ t ∈ info, (t.requests.map (·.resId)).Nodup)
    {program : ℕ → TaskInfo → Option Program} {bs : List ℕ} (h : bounds solve info program = some bs)
    (hbs : ∀ i : Fin info.length, ∀ b, bs[(i : ℕ)]? = some b → (info.get i).cost + b ≤ (info.get i).response)
    {run : LockRun info.length} (hrun : SuspendRun m (system info) run)
    (hstep : ∀ k q, Good info → Late info run k q → ∀ P, program k (info.get k) = some P → ∃ y,
      P.Feasible y ∧ termSum y P.objective = ((lost info run k q).card : ℕ))
    (j : Job info.length) :
    Completed run.work run.sched j (run.work.release j + (info.get j.1).response) := by
  have hget := fun i => (bounds_get h i).2
  have hg : Good info := by
    refine ⟨fun t ht => (hT t ht).1, hnd, fun t ht => (hT t ht).2.1, fun t ht => (hT t ht).2.2.1, ?_,
      fun x => (bounds_get h x).1 x⟩
    intro t ht
    obtain ⟨i, rfl⟩ := List.get_of_mem ht
    obtain ⟨_, b, _, _, hb⟩ := hget i
    have := hbs i b hb
    omega
  refine no_late hrun.toRequestRun hg ?_ j
  intro k q hl
  obtain ⟨P, b, hP, hsol, hb⟩ := hget k
  obtain ⟨y, hy, hobj⟩ := hstep k q hg hl P hP
  have h1 := solved_lt hsolve hsol hy hobj (hT _ (List.get_mem info k)).2.2.2 (hl.card hrun.toRequestRun)
  have h2 := hbs k b hb
  omega

theorem objective_fifo (i : ℕ) (ti : TaskInfo) (P : Program) :
    (fifoConstraints info i ti P).objective = P.objective := by
  unfold fifoConstraints
  exact objective_foldl _ _ _ (fun P q => objective_foldl _ _ _ (fun P t => objective_foldl _ _ _
    (fun P r => objective_addInequality _ _ _)))

theorem objective_generic (i : ℕ) (ti : TaskInfo) (m : ℕ) :
    (generic info i ti m).objective = objective info i ti m := by
  unfold generic nonAccessConstraints mutexConstraints slackConstraints workloadConstraints
  simp only
  rw [objective_foldl]
  · unfold independentConstraint
    have e : ∀ P : Program, (if Fmlp.totalNumRequests ti = 0 then
        addInequality P ((lowerTasks info ti).map (fun t => ((1 : ℚ), Var.intf .stalling t.1))) 0
        else P).objective = P.objective := by
      intro P
      split_ifs
      · exact objective_addInequality _ _ _
      · rfl
    rw [e, objective_foldl, objective_foldl, objective_foldl]
    · intro P t; exact objective_addInequality _ _ _
    · intro P t; exact objective_addInequality _ _ _
    · intro P t
      exact objective_foldl _ _ _ (fun P q => objective_foldl _ _ _ (fun P t => objective_addInequality _ _ _))
  · intro P q
    split_ifs
    · rfl
    · exact objective_addInequality _ _ _

/-- **C125**: the LP-based analysis of global fixed-priority scheduling with FIFO semaphores and without any progress
mechanism is safe.  If the response-time bounds assumed for the tasks, which may not exceed deadlines and periods, are
confirmed, that is, if for each task the cost and the bound by the analysis are together no more than the response time
assumed, then in every run every job completes within the response time assumed. -/
theorem C125_no_progress_fifo_safe (info : Info) (m : ℕ) (hm : 0 < m) (solve : Solver)
    (hsolve : ∀ P x, solve P = some x → P.Maximum x)
    (hT : ∀ t ∈ info, 0 < t.period ∧ t.response ≤ t.deadline ∧ t.response ≤ t.period ∧ t.response < 2 ^ 64 - 1)
    (hnd : ∀ t ∈ info, (t.requests.map (·.resId)).Nodup)
    (bs : List ℕ) (h : noProgressFifoBounds solve info m = some bs)
    (hbs : ∀ i : Fin info.length, ∀ b, bs[(i : ℕ)]? = some b → (info.get i).cost + b ≤ (info.get i).response)
    (run : LockRun info.length) (hrun : PlainLocks m (system info) run) (hq : FifoQueues (system info) run)
    (j : Job info.length) :
    Completed run.work run.sched j (run.work.release j + (info.get j.1).response) := by
  refine safe_core hsolve hT hnd h hbs hrun.toSuspendRun ?_ j
  intro k q hg hl P hP
  cases hP
  have hs := plain_split hrun hl
  have hD := hs.delay hrun.toSuspendRun hg hl.before (by
    intro t ht
    rw [lost_union] at ht
    exact (mem_lost.1 ht).1)
  refine ⟨_, hD.fifoConstraints hg.entry (fun x a ha => fifo_count hrun.toSuspendRun hg.entry hq ha)
    (noStallingConstraint_feasible hg.prio (fun x hx hle => plain_stalling hrun hg.entry hl hx hle)
      (noProgressConstraint_feasible (plain_indirect _) (hD.generic hg.entry hm hg.prio))), ?_⟩
  rw [objective_fifo]
  unfold noStallingConstraint noProgressConstraint
  rw [objective_addInequality, objective_addInequality, objective_generic, hD.objective hg.entry hm,
    hs.direct_total hrun.toSuspendRun, lost_card]

/-- Three tasks on two processors; the first and the last one share a resource. -/
def exInfo : Info :=
  [⟨0, 10, 10, 2, 0, 1, [⟨0, 1, 1, false⟩]⟩, ⟨1, 10, 10, 2, 0, 2, []⟩, ⟨2, 10, 10, 3, 0, 2, [⟨0, 1, 1, false⟩]⟩]

/-- The hypotheses of C125 are satisfied by tasks whose response times are exactly the bounds. -/
example : ∃ solve : Solver, (∀ P x, solve P = some x → P.Maximum x) ∧
    (∀ t ∈ exInfo, 0 < t.period ∧ t.response ≤ t.deadline ∧ t.response ≤ t.period ∧ t.response < 2 ^ 64 - 1) ∧
    (∀ t ∈ exInfo, (t.requests.map (·.resId)).Nodup) ∧ noProgressFifoBounds solve exInfo 2 = some [1, 0, 1] ∧
    ∀ i : Fin exInfo.length, ∀ b, [1, 0, 1][(i : ℕ)]? = some b →
      (exInfo.get i).cost + b ≤ (exInfo.get i).response := by
  obtain ⟨solve, h1, h2⟩ := exists_solver
  refine ⟨solve, h1, by decide, by decide, ?_, ?_⟩
  · unfold noProgressFifoBounds bounds
    have hi : indexIsPriority exInfo = true := by decide
    have e0 : solved solve (exInfo.get ⟨0, by decide⟩) (fifoConstraints exInfo 0 (exInfo.get ⟨0, by decide⟩)
        (noStallingConstraint exInfo 0 (exInfo.get ⟨0, by decide⟩) (noProgressConstraint exInfo
          (exInfo.get ⟨0, by decide⟩) (generic exInfo 0 (exInfo.get ⟨0, by decide⟩) 2)))) = some 1 :=
      CoverOpt.solved (l := [(1, .frac ⟨.direct, 2, 0, 0⟩)]) (cert := [(1, 7), (1, 2), (1, 5), (1, 6)])
        (by decide +kernel) h1 h2 (by decide)
    have e1 : solved solve (exInfo.get ⟨1, by decide⟩) (fifoConstraints exInfo 1 (exInfo.get ⟨1, by decide⟩)
        (noStallingConstraint exInfo 1 (exInfo.get ⟨1, by decide⟩) (noProgressConstraint exInfo
          (exInfo.get ⟨1, by decide⟩) (generic exInfo 1 (exInfo.get ⟨1, by decide⟩) 2)))) = some 0 :=
      CoverOpt.solved (l := []) (cert := [(1, 2), (1, 7), (1, 8), (1, 9)]) (by decide +kernel) h1 h2 (by decide)
    have e2 : solved solve (exInfo.get ⟨2, by decide⟩) (fifoConstraints exInfo 2 (exInfo.get ⟨2, by decide⟩)
        (noStallingConstraint exInfo 2 (exInfo.get ⟨2, by decide⟩) (noProgressConstraint exInfo
          (exInfo.get ⟨2, by decide⟩) (generic exInfo 2 (exInfo.get ⟨2, by decide⟩) 2)))) = some 1 :=
      CoverOpt.solved (l := [(1, .frac ⟨.direct, 0, 0, 0⟩)]) (cert := [(1, 0), (1, 3)]) (by decide +kernel) h1 h2
        (by decide)
    have et : tasks exInfo = [(0, exInfo.get ⟨0, by decide⟩), (1, exInfo.get ⟨1, by decide⟩),
      (2, exInfo.get ⟨2, by decide⟩)] := by decide
    rw [et]
    simp only [hi, if_true, List.mapM_cons, List.mapM_nil, Option.bind_some, e0, e1, e2]
    rfl
  · intro i b hb
    fin_cases i <;> (cases hb; decide)

end Verif.SR.Lp.Glob
