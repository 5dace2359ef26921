/-
C139: the LP-based response-time analysis of global fixed-priority scheduling with the parallel priority ceiling protocol
(`lp_ppcp_bounds`, used by `apply_ppcp_bounds` of `schedcat/locking/bounds.py`).
-/
import Verif.Props.LpGlobalPrio
import Verif.Model.LpPpcp
import Verif.Model.Pip
import Verif.Lemmas.LockTablePpcp
import Verif.Lemmas.Ppcp
import Verif.Lemmas.LockTableGlobal
import Mathlib.Tactic.FinCases

namespace Verif.SR.Lp.Glob
open Verif.Spec Finset
open Verif.SR.Msrp (system)

variable {info : Info} {k : Fin info.length} {m : ℕ}

/-! ### The analysis is not safe -/

/-- Tasks 3 and 4 share resources with tasks 0 and 1; task 2 has a resource for itself. -/
def stallInfo : Info :=
  [⟨0, 100, 7, 3, 0, 1, [⟨0, 1, 1, false⟩]⟩, ⟨1, 100, 8, 7, 0, 1, [⟨1, 1, 1, false⟩]⟩,
    ⟨2, 100, 9, 9, 0, 5, [⟨2, 5, 1, false⟩]⟩, ⟨3, 100, 99, 19, 0, 12, [⟨0, 6, 2, false⟩]⟩,
    ⟨4, 100, 100, 13, 0, 6, [⟨1, 1, 6, false⟩]⟩]

/-- The same tasks, written as functions. -/
def stallSys : LockSystem 5 where
  proc := ![0, 0, 0, 0, 0]
  cost := ![1, 1, 5, 12, 6]
  period := ![100, 100, 100, 100, 100]
  deadline := ![7, 8, 9, 99, 100]
  reqs := ![[⟨0, 1, 1⟩], [⟨1, 1, 1⟩], [⟨2, 5, 1⟩], [⟨0, 6, 2⟩], [⟨1, 1, 6⟩]]

theorem system_stallInfo : system stallInfo = stallSys := by
  unfold system stallSys
  congr 1 <;>
  · funext (i : Fin 5)
    fin_cases i <;> rfl

/-- Task 2 arrives at time 1.  Each of its five requests is withheld for one slot, because tasks 3 and 4 own resources
with higher ceilings. -/
def stallTable : Table 5 where
  off := ![0, 0, 1, 0, 0]
  exec := ![0, 0, 5, 12, 6]
  slots := [{3, 4}, {3, 4}, {2, 3}, {3, 4}, {2, 3}, {3, 4}, {2, 3}, {3, 4}, {2, 3}, {3, 4}, {2, 3}, {3}]
  secs := [⟨4, 0, 0, 0, 0, 10⟩, ⟨3, 0, 0, 0, 0, 2⟩, ⟨3, 0, 1, 2, 2, 4⟩, ⟨3, 0, 2, 4, 4, 6⟩, ⟨3, 0, 3, 6, 6, 8⟩,
    ⟨3, 0, 4, 8, 8, 10⟩, ⟨3, 0, 5, 10, 10, 12⟩, ⟨2, 0, 0, 1, 2, 3⟩, ⟨2, 0, 1, 3, 4, 5⟩, ⟨2, 0, 2, 5, 6, 7⟩,
    ⟨2, 0, 3, 7, 8, 9⟩, ⟨2, 0, 4, 9, 10, 11⟩]

theorem stall_run : ∃ run, Ppcp 2 2 (system stallInfo) run ∧ ExecutesUntilRelease run ∧
    ¬ MeetsDeadlines run.work (system stallInfo).deadline run.sched := by
  rw [system_stallInfo]
  change ∃ run, Ppcp 2 2 stallSys run ∧ ExecutesUntilRelease run ∧ ¬ MeetsDeadlines run.work stallSys.deadline run.sched
  have hok : stallTable.ReqOk 2 stallSys := by decide +kernel
  refine ⟨stallTable.run stallSys, hok.ppcp (by decide +kernel), hok.untilRelease (by decide +kernel), fun hm => ?_⟩
  have := hm (2, 0)
  unfold Completed at this
  rw [Table.service_run] at this
  revert this
  decide +kernel

theorem stall_bounds {solve : Solver} (h1 : ∀ P x, solve P = some x → P.Maximum x)
    (h2 : ∀ P x, BoxLp.Maximum P x → (solve P).isSome) (reasonable : Bool) :
    lpPpcpBounds solve reasonable 40 stallInfo 2 = some [2, 6, 4, 7, 7] := by
  unfold lpPpcpBounds bounds
  have hi : indexIsPriority stallInfo = true := by decide
  have et : tasks stallInfo = [(0, stallInfo.get ⟨0, by decide⟩), (1, stallInfo.get ⟨1, by decide⟩),
    (2, stallInfo.get ⟨2, by decide⟩), (3, stallInfo.get ⟨3, by decide⟩), (4, stallInfo.get ⟨4, by decide⟩)] := by decide
  have e0 : (ppcpProgram reasonable 40 stallInfo 2 0 (stallInfo.get ⟨0, by decide⟩)).bind
      (solved solve (stallInfo.get ⟨0, by decide⟩)) = some 2 := by
    cases reasonable <;> exact solved_bind (by decide +kernel) (l := [(1, .frac ⟨.direct, 3, 0, 0⟩)])
      (cert := [(1, 21), (6, 22), (3, 24), (2, 26)]) (by decide +kernel) h1 h2 (by decide)
  have e1 : (ppcpProgram reasonable 40 stallInfo 2 1 (stallInfo.get ⟨1, by decide⟩)).bind
      (solved solve (stallInfo.get ⟨1, by decide⟩)) = some 6 := by
    cases reasonable <;> exact solved_bind (by decide +kernel) (l := [(1, .frac ⟨.direct, 4, 0, 1⟩)])
      (cert := [(1, 3), (1, 21), (2, 22), (1, 24)]) (by decide +kernel) h1 h2 (by decide)
  have e2 : (ppcpProgram reasonable 40 stallInfo 2 2 (stallInfo.get ⟨2, by decide⟩)).bind
      (solved solve (stallInfo.get ⟨2, by decide⟩)) = some 4 := by
    cases reasonable <;> exact solved_bind (by decide +kernel) (l := [(1, .intf .regular 1), (1, .intf .regular 0), (1, .frac ⟨.indirect, 3, 0, 0⟩),
      (2 / 3, .frac ⟨.indirect, 4, 0, 1⟩)])
      (cert := [(1, 0), (1, 1), (1, 7), (2, 17), (6, 18), (1, 19), (1, 22), (2, 25)]) (by decide +kernel) h1 h2 (by decide)
  have e3 : (ppcpProgram reasonable 40 stallInfo 2 3 (stallInfo.get ⟨3, by decide⟩)).bind
      (solved solve (stallInfo.get ⟨3, by decide⟩)) = some 7 := by
    cases reasonable <;> exact solved_bind (by decide +kernel) (l := [(1, .frac ⟨.direct, 0, 0, 0⟩), (5, .intf .regular 2), (6, .intf .stalling 4),
      (1, .intf .regular 1)])
      (cert := [(1, 0), (1 / 2, 1), (1 / 2, 2), (1 / 2, 3), (1 / 2, 16), (3, 17)]) (by decide +kernel) h1 h2 (by decide)
  have e4 : (ppcpProgram reasonable 40 stallInfo 2 4 (stallInfo.get ⟨4, by decide⟩)).bind
      (solved solve (stallInfo.get ⟨4, by decide⟩)) = some 7 := by
    cases reasonable <;> exact solved_bind (by decide +kernel) (l := [(5, .intf .regular 2), (1, .frac ⟨.direct, 1, 0, 1⟩), (6, .intf .regular 3),
      (1, .intf .regular 0)])
      (cert := [(1, 0), (1, 1), (1, 2), (1, 7), (2, 22)]) (by decide +kernel) h1 h2 (by decide)
  rw [et]
  simp only [hi, if_true, List.mapM_cons, List.mapM_nil, e0, e1, e2, e3, e4]
  rfl

/-- **C139** is violated: there are tasks with constrained deadlines and deadline-monotonic priorities such that the
analysis for two processors confirms the response times assumed, which do not exceed the deadlines, although a deadline
is missed in a run of the P-PCP in which every task has parameter 2, the number of processors. -/
theorem C139_violated : ∃ (info : Info) (m fuel : ℕ) (solve : Solver) (bs : List ℕ),
    (∀ P x, solve P = some x → P.Maximum x) ∧
    (∀ t ∈ info, 0 < t.period ∧ t.response ≤ t.deadline ∧ t.deadline ≤ t.period) ∧
    info.Pairwise (fun a b => a.deadline < b.deadline) ∧
    (∀ t ∈ info, (t.requests.map (fun q => q.num * q.length)).sum ≤ t.cost) ∧
    (∀ t ∈ info, (t.requests.map (·.resId)).Nodup) ∧
    lpPpcpBounds solve (Pip.isReasonable m info) fuel info m = some bs ∧
    (∀ i : Fin info.length, ∀ b, bs[(i : ℕ)]? = some b → (info.get i).cost + b ≤ (info.get i).response) ∧
    ∃ run, Ppcp m m (system info) run ∧ ExecutesUntilRelease run ∧
      ¬ MeetsDeadlines run.work (system info).deadline run.sched := by
  obtain ⟨solve, h1, h2⟩ := exists_solver
  refine ⟨stallInfo, 2, 40, solve, [2, 6, 4, 7, 7], h1, by decide, by decide, by decide, by decide,
    stall_bounds h1 h2 _, ?_, stall_run⟩
  intro i b hb
  fin_cases i <;> (cases hb; decide)

/-! ### Runs in which no free resource is withheld -/

section
variable {Z : Finset (Section info.length)} {D I : Section info.length → ℕ} {N : Fin info.length → ℕ}

theorem stallingConstraints_feasible (hp : ∀ x : Fin info.length, (info.get x).priority = x)
    (hN : ∀ x : Fin info.length, k < x → N x = 0) {P : Program} (hP : P.Feasible (value k Z D I N)) :
    (stallingConstraints info k (info.get k) m P).Feasible (value k Z D I N) := by
  unfold stallingConstraints
  split_ifs
  · exact hP
  · apply feasible_foldl _ hP
    intro a ha P hP
    obtain ⟨x, hx, rfl⟩ := (mem_lowerTasks hp).1 ha
    apply feasible_addInequality hP
    rw [termSum_cons, termSum_nil, value_stalling, hN x hx]
    simp

theorem totalStallingConstraint_feasible (hp : ∀ x : Fin info.length, (info.get x).priority = x)
    (hN : ∀ x : Fin info.length, k < x → N x = 0) {P : Program} (hP : P.Feasible (value k Z D I N)) :
    (totalStallingConstraint info k (info.get k) m P).Feasible (value k Z D I N) := by
  unfold totalStallingConstraint
  split_ifs
  · exact hP
  · apply feasible_addInequality hP
    rw [termSum_zero]
    · exact Nat.cast_nonneg _
    · intro t ht
      obtain ⟨a, ha, rfl⟩ := List.mem_map.1 ht
      obtain ⟨x, hx, rfl⟩ := (mem_lowerTasks hp).1 ha
      simp only
      rw [value_stalling, hN x hx, Nat.cast_zero]

theorem idleStallingConstraints_feasible (hp : ∀ x : Fin info.length, (info.get x).priority = x)
    (hN : ∀ x : Fin info.length, k < x → N x = 0) {P : Program} (hP : P.Feasible (value k Z D I N)) :
    (idleStallingConstraints info (info.get k) P).Feasible (value k Z D I N) := by
  unfold idleStallingConstraints
  apply feasible_foldl _ hP
  intro a ha P hP
  obtain ⟨x, hx, rfl⟩ := (mem_lowerTasks hp).1 (List.mem_filter.1 ha).1
  apply feasible_addInequality hP
  rw [termSum_cons, termSum_nil, value_stalling, hN x hx]
  simp

end

theorem objective_stalling (i : ℕ) (ti : TaskInfo) (P : Program) :
    (stallingConstraints info i ti m P).objective = P.objective := by
  unfold stallingConstraints
  split_ifs
  · rfl
  · exact objective_foldl _ _ _ (fun P q => objective_addInequality _ _ _)

theorem objective_totalStalling (i : ℕ) (ti : TaskInfo) (P : Program) :
    (totalStallingConstraint info i ti m P).objective = P.objective := by
  unfold totalStallingConstraint
  split_ifs
  · rfl
  · exact objective_addInequality _ _ _

theorem objective_idleStalling (ti : TaskInfo) (P : Program) :
    (idleStallingConstraints info ti P).objective = P.objective := by
  unfold idleStallingConstraints
  exact objective_foldl _ _ _ (fun P q => objective_addInequality _ _ _)

/-- Constraint 31 is not used for a task with at most `m` lower-priority tasks. -/
theorem betaConstraints_eq (hn : info.length ≤ m + 1) (hp : ∀ x : Fin info.length, (info.get x).priority = x)
    (P : Program) : betaConstraints info k (info.get k) m P = P := by
  have hlen : (lowerTasks info (info.get k)).length ≤ m := by
    have h1 : (lowerTasks info (info.get k)).length < (tasks info).length := by
      unfold lowerTasks
      apply List.length_filter_lt_length_iff_exists.2
      exact ⟨((k : ℕ), info.get k), mem_tasks.2 ⟨k, rfl⟩, by simp⟩
    have h2 : (tasks info).length = info.length := by simp [tasks]
    omega
  have hall : (lowerTasks info (info.get k)).filter (fun t => !(gamma info k (info.get k) m).contains t.1) = [] := by
    rw [List.filter_eq_nil_iff]
    intro t ht
    have hmem : t.1 ∈ gamma info k (info.get k) m := by
      unfold gamma
      rw [List.take_of_length_le (by rw [List.length_insertionSort, List.length_map]; omega)]
      exact List.mem_map.2 ⟨_, (List.mem_insertionSort _).2 (List.mem_map.2 ⟨t, ht, rfl⟩), rfl⟩
    simpa using hmem
  unfold betaConstraints
  rw [hall]
  rfl

theorem ppcp_core (info : Info) (m : ℕ) (hm : 0 < m) (solve : Solver)
    (hsolve : ∀ P x, solve P = some x → P.Maximum x)
    (hT : ∀ t ∈ info, 0 < t.period ∧ t.response ≤ t.deadline ∧ t.response ≤ t.period ∧ t.response < 2 ^ 64 - 1)
    (hword : ∀ t ∈ info, t.deadline < 2 ^ 32)
    (hnd : ∀ t ∈ info, (t.requests.map (·.resId)).Nodup)
    (reasonable : Bool) (hr : reasonable = true → info.length ≤ m + 1)
    (fuel : ℕ) (bs : List ℕ) (h : lpPpcpBounds solve reasonable fuel info m = some bs)
    (hbs : ∀ i : Fin info.length, ∀ b, bs[(i : ℕ)]? = some b → (info.get i).cost + b ≤ (info.get i).response)
    (run : LockRun info.length) (hrun : Pip m (system info) run)
    (hu : ExecutesUntilRelease run) (j : Job info.length) :
    Completed run.work run.sched j (run.work.release j + (info.get j.1).response) := by
  have hq : PriorityQueues (system info) run := hrun.queue
  replace hrun : InheritLocks m (system info) run := ⟨hrun.toSuspendRun, hrun.dispatch⟩
  refine safe_core hsolve hT hnd h hbs hrun.toSuspendRun ?_ j
  intro k q hg hl P hP
  replace hP : prioHigherConstraints info (info.get k) fuel (holdTime m fuel (interfPi info k))
      (pipIndirectConstraints info (info.get k) (idleStallingConstraints info (info.get k)
        (totalStallingConstraint info k (info.get k) m (stallingConstraints info k (info.get k) m
          (prioLowerConstraints info (info.get k) (mHighestConstraint info k (info.get k) m
            (noCoBoostingConstraint info (info.get k) (generic info k (info.get k) m)))))))) = some P := by
    unfold ppcpProgram at hP
    cases reasonable with
    | false => exact hP
    | true =>
      simp only [if_true] at hP
      rw [betaConstraints_eq (hr rfl) hg.prio] at hP
      exact hP
  have hs := inherit_split hrun hl
  have hD := hs.delay hrun.toSuspendRun hg hl.before (by
    intro t ht
    rw [lost_union] at ht
    exact (mem_lost.1 ht).1)
  have hN := fun x hx => inherit_plain hrun hl (x := x) hx
  have key := hD.prioHigherConstraints hg.entry hg.prio (fun x hx a ha W hW hne =>
    prio_higher_count hrun.toSuspendRun hg hq hl ha (hword _ (List.get_mem info k))
      (fun s z hi hsk hf hz hfz H hH hHne => inherit_held hrun hu hg hm hl.before hi hsk hz hfz hf hH hHne) hW hne) hP
    (hD.pipIndirectConstraints hg.entry hg.prio (pip_indirect_count hrun hg hq hl)
      (idleStallingConstraints_feasible hg.prio hN (totalStallingConstraint_feasible hg.prio hN
        (stallingConstraints_feasible hg.prio hN
        (hD.prioLowerConstraints hg.entry hg.prio (prio_lower_count hrun.toSuspendRun hg.entry hq)
          (mHighestConstraint_feasible (fun hk x => by
            unfold plainSlots
            rw [inherit_high hrun hl hk]
            simp) (fun hk z => by
            unfold indirectSlots
            rw [inherit_high hrun hl hk]
            simp) (noCoBoostingConstraint_feasible (hD.generic hg.entry hm hg.prio))))))))
  refine ⟨_, key.1, ?_⟩
  rw [key.2]
  rw [objective_pipIndirect, objective_idleStalling, objective_totalStalling, objective_stalling,
    objective_prioLower, objective_mHighest]
  unfold noCoBoostingConstraint
  rw [objective_addInequality, objective_generic, hD.objective hg.entry hm, hs.direct_total hrun.toSuspendRun,
    lost_card]

/-- **C139**, partial: if the priority assignment is not "reasonable", the bounds hold in all runs in which the limits of
the protocol have no effect.  (Not proved: runs in which free resources are withheld, for which the property is violated,
and "reasonable" priority assignments.) -/
theorem C139_unlimited_partial (info : Info) (m : ℕ) (hm : 0 < m) (solve : Solver)
    (hsolve : ∀ P x, solve P = some x → P.Maximum x)
    (hT : ∀ t ∈ info, 0 < t.period ∧ t.response ≤ t.deadline ∧ t.response ≤ t.period ∧ t.response < 2 ^ 64 - 1)
    (hword : ∀ t ∈ info, t.deadline < 2 ^ 32)
    (hnd : ∀ t ∈ info, (t.requests.map (·.resId)).Nodup)
    (fuel : ℕ) (bs : List ℕ) (h : lpPpcpBounds solve false fuel info m = some bs)
    (hbs : ∀ i : Fin info.length, ∀ b, bs[(i : ℕ)]? = some b → (info.get i).cost + b ≤ (info.get i).response)
    (run : LockRun info.length) (hrun : UnlimitedPpcp m (system info) run)
    (hu : ExecutesUntilRelease run) (j : Job info.length) :
    Completed run.work run.sched j (run.work.release j + (info.get j.1).response) :=
  ppcp_core info m hm solve hsolve hT hword hnd false (fun h => absurd h (by decide)) fuel bs h hbs run hrun.toPip hu j

/-- **C139**, partial: if the priority assignment is not "reasonable", the bounds hold in all runs of the P-PCP with
parameter `α`, provided that no task has `α` lower-priority tasks that share resources with tasks of higher priority.
(Not proved: other task sets, for which the property is violated, and "reasonable" priority assignments.) -/
theorem C139_few_sharing_partial (info : Info) (m : ℕ) (hm : 0 < m) (solve : Solver)
    (hsolve : ∀ P x, solve P = some x → P.Maximum x)
    (hT : ∀ t ∈ info, 0 < t.period ∧ t.response ≤ t.deadline ∧ t.response ≤ t.period ∧ t.response < 2 ^ 64 - 1)
    (hword : ∀ t ∈ info, t.deadline < 2 ^ 32)
    (hnd : ∀ t ∈ info, (t.requests.map (·.resId)).Nodup)
    (α : ℕ) (hfew : ∀ (i : Fin info.length) (F : Finset (Fin info.length)),
      (∀ x ∈ F, i < x ∧ ∃ q ∈ (info.get x).requests, ∃ y < i, ∃ q' ∈ (info.get y).requests, q'.resId = q.resId) →
        F.card < α)
    (fuel : ℕ) (bs : List ℕ) (h : lpPpcpBounds solve false fuel info m = some bs)
    (hbs : ∀ i : Fin info.length, ∀ b, bs[(i : ℕ)]? = some b → (info.get i).cost + b ≤ (info.get i).response)
    (run : LockRun info.length) (hrun : Ppcp m α (system info) run)
    (hu : ExecutesUntilRelease run) (j : Job info.length) :
    Completed run.work run.sched j (run.work.release j + (info.get j.1).response) := by
  refine ppcp_core info m hm solve hsolve hT hword hnd false (fun h => absurd h (by decide)) fuel bs h hbs run
    (hrun.pip fun i F hF => hfew i F fun x hx => ?_) hu j
  obtain ⟨hlt, q, hq, y, hy, q', hq', he⟩ := hF x hx
  obtain ⟨r, hr, rfl⟩ := List.mem_map.1 hq
  obtain ⟨r', hr', rfl⟩ := List.mem_map.1 hq'
  exact ⟨hlt, r, hr, y, hy, r', hr', he⟩

/-- **C139**, partial: if there are at most `m + 1` tasks, the bounds hold in all runs of the P-PCP in which every task
has parameter `m`, the number of processors.  (Not proved: more tasks, for which the property is violated.) -/
theorem C139_few_tasks_partial (info : Info) (m : ℕ) (hm : 0 < m) (hn : info.length ≤ m + 1) (solve : Solver)
    (hsolve : ∀ P x, solve P = some x → P.Maximum x)
    (hT : ∀ t ∈ info, 0 < t.period ∧ t.response ≤ t.deadline ∧ t.response ≤ t.period ∧ t.response < 2 ^ 64 - 1)
    (hword : ∀ t ∈ info, t.deadline < 2 ^ 32)
    (hnd : ∀ t ∈ info, (t.requests.map (·.resId)).Nodup)
    (fuel : ℕ) (bs : List ℕ) (h : lpPpcpBounds solve (Pip.isReasonable m info) fuel info m = some bs)
    (hbs : ∀ i : Fin info.length, ∀ b, bs[(i : ℕ)]? = some b → (info.get i).cost + b ≤ (info.get i).response)
    (run : LockRun info.length) (hrun : Ppcp m m (system info) run)
    (hu : ExecutesUntilRelease run) (j : Job info.length) :
    Completed run.work run.sched j (run.work.release j + (info.get j.1).response) :=
  ppcp_core info m hm solve hsolve hT hword hnd _ (fun _ => hn) fuel bs h hbs run
    (hrun.pip (few_of_card hn hm)) hu j

/-- A run of the tasks above in which task 0 waits for a resource of task 3. -/
def shortTable : Table 5 where
  off := ![1, 0, 0, 0, 0]
  exec := ![1, 0, 0, 2, 0]
  slots := [{3}, {3}, {0}]
  secs := [⟨3, 0, 0, 0, 0, 2⟩, ⟨0, 0, 0, 1, 2, 3⟩]

/-- The hypotheses of the partial theorem are satisfied by the tasks above, and there is a run in which a job waits. -/
example : ∃ solve : Solver, (∀ P x, solve P = some x → P.Maximum x) ∧
    (∀ t ∈ stallInfo, 0 < t.period ∧ t.response ≤ t.deadline ∧ t.response ≤ t.period ∧ t.response < 2 ^ 64 - 1) ∧
    (∀ t ∈ stallInfo, t.deadline < 2 ^ 32) ∧
    (∀ t ∈ stallInfo, (t.requests.map (·.resId)).Nodup) ∧
    lpPpcpBounds solve false 40 stallInfo 2 = some [2, 6, 4, 7, 7] ∧
    (∀ i : Fin stallInfo.length, ∀ b, [2, 6, 4, 7, 7][(i : ℕ)]? = some b →
      (stallInfo.get i).cost + b ≤ (stallInfo.get i).response) ∧
    ∃ run : LockRun stallInfo.length, UnlimitedPpcp 2 (system stallInfo) run ∧ ExecutesUntilRelease run ∧
      ∃ s t, run.Waits s t := by
  obtain ⟨solve, h1, h2⟩ := exists_solver
  refine ⟨solve, h1, by decide, by decide, by decide, stall_bounds h1 h2 _, ?_, ?_⟩
  · intro i b hb
    fin_cases i <;> (cases hb; decide)
  · have hok : shortTable.Ok 2 stallSys := by decide +kernel
    refine ⟨shortTable.run stallSys, ?_, hok.untilRelease (by decide +kernel), _, 1,
      (hok.waits_iff (c := ⟨0, 0, 0, 1, 2, 3⟩) (by decide)).2 (by decide)⟩
    rw [system_stallInfo]
    exact hok.ppcp (by decide +kernel) (by decide +kernel)

/-- With parameter 3 the limits of the protocol have no effect on the tasks above. -/
example : ∃ solve : Solver, (∀ P x, solve P = some x → P.Maximum x) ∧
    (∀ (i : Fin stallInfo.length) (F : Finset (Fin stallInfo.length)),
      (∀ x ∈ F, i < x ∧ ∃ q ∈ (stallInfo.get x).requests, ∃ y < i, ∃ q' ∈ (stallInfo.get y).requests,
        q'.resId = q.resId) → F.card < 3) ∧
    lpPpcpBounds solve false 40 stallInfo 2 = some [2, 6, 4, 7, 7] ∧
    ∃ run : LockRun stallInfo.length, Ppcp 2 3 (system stallInfo) run ∧ ExecutesUntilRelease run ∧
      ∃ s t, run.Waits s t := by
  obtain ⟨solve, h1, h2⟩ := exists_solver
  refine ⟨solve, h1, ?_, stall_bounds h1 h2 _, ?_⟩
  · intro i F hF
    have hx : ∀ i x : Fin stallInfo.length, (i < x ∧ ∃ q ∈ (stallInfo.get x).requests, ∃ y < i,
        ∃ q' ∈ (stallInfo.get y).requests, q'.resId = q.resId) →
        x ∈ ({⟨3, by decide⟩, ⟨4, by decide⟩} : Finset (Fin stallInfo.length)) := by decide
    have := card_le_card (fun x hxF => hx i x (hF x hxF))
    exact lt_of_le_of_lt this (by decide)
  · have hok : shortTable.ReqOk 2 stallSys := by decide +kernel
    refine ⟨shortTable.run stallSys, ?_, hok.untilRelease (by decide +kernel), _, 1,
      (hok.waits_iff (c := ⟨0, 0, 0, 1, 2, 3⟩) (by decide)).2 (by decide)⟩
    rw [system_stallInfo]
    exact hok.ppcp (by decide +kernel)

/-- Three tasks for two processors. -/
def fewInfo : Info :=
  [⟨0, 30, 10, 5, 0, 2, [⟨0, 1, 1, false⟩]⟩, ⟨1, 30, 12, 8, 0, 4, []⟩, ⟨2, 30, 20, 12, 0, 5, [⟨0, 1, 3, false⟩]⟩]

/-- The same tasks, written as functions. -/
def fewSys : LockSystem 3 where
  proc := ![0, 0, 0]
  cost := ![2, 4, 5]
  period := ![30, 30, 30]
  deadline := ![10, 12, 20]
  reqs := ![[⟨0, 1, 1⟩], [], [⟨0, 1, 3⟩]]

theorem system_fewInfo : system fewInfo = fewSys := by
  unfold system fewSys
  congr 1 <;>
  · funext (i : Fin 3)
    fin_cases i <;> rfl

/-- A run in which task 0 waits for a resource of task 2. -/
def fewTable : Table 3 where
  off := ![1, 1, 0]
  exec := ![2, 4, 5]
  slots := [{2}, {1, 2}, {1, 2}, {0, 1}, {0, 1}, {2}, {2}]
  secs := [⟨2, 0, 0, 0, 0, 3⟩, ⟨0, 0, 0, 1, 3, 4⟩]

/-- The hypotheses of `C139_few_tasks_partial` are satisfied by three tasks with "reasonable" priorities. -/
example : ∃ solve : Solver, (∀ P x, solve P = some x → P.Maximum x) ∧ Pip.isReasonable 2 fewInfo = true ∧
    (∀ t ∈ fewInfo, 0 < t.period ∧ t.response ≤ t.deadline ∧ t.response ≤ t.period ∧ t.response < 2 ^ 64 - 1) ∧
    (∀ t ∈ fewInfo, t.deadline < 2 ^ 32) ∧
    (∀ t ∈ fewInfo, (t.requests.map (·.resId)).Nodup) ∧
    lpPpcpBounds solve true 40 fewInfo 2 = some [3, 0, 2] ∧
    (∀ i : Fin fewInfo.length, ∀ b, [3, 0, 2][(i : ℕ)]? = some b →
      (fewInfo.get i).cost + b ≤ (fewInfo.get i).response) ∧
    ∃ run : LockRun fewInfo.length, Ppcp 2 2 (system fewInfo) run ∧ ExecutesUntilRelease run ∧
      ∃ s t, run.Waits s t := by
  obtain ⟨solve, h1, h2⟩ := exists_solver
  refine ⟨solve, h1, by decide, by decide, by decide, by decide, ?_, ?_, ?_⟩
  · unfold lpPpcpBounds bounds
    have hi : indexIsPriority fewInfo = true := by decide
    have et : tasks fewInfo = [(0, fewInfo.get ⟨0, by decide⟩), (1, fewInfo.get ⟨1, by decide⟩),
      (2, fewInfo.get ⟨2, by decide⟩)] := by decide
    have e0 : (ppcpProgram true 40 fewInfo 2 0 (fewInfo.get ⟨0, by decide⟩)).bind
        (solved solve (fewInfo.get ⟨0, by decide⟩)) = some 3 :=
      solved_bind (by decide +kernel) (l := [(1, .frac ⟨.direct, 2, 0, 0⟩)])
        (cert := [(3, 4), (1 / 2, 6)]) (by decide +kernel) h1 h2 (by decide)
    have e1 : (ppcpProgram true 40 fewInfo 2 1 (fewInfo.get ⟨1, by decide⟩)).bind
        (solved solve (fewInfo.get ⟨1, by decide⟩)) = some 0 :=
      solved_bind (by decide +kernel) (l := [])
        (cert := [(3, 7), (3 / 2, 9)]) (by decide +kernel) h1 h2 (by decide)
    have e2 : (ppcpProgram true 40 fewInfo 2 2 (fewInfo.get ⟨2, by decide⟩)).bind
        (solved solve (fewInfo.get ⟨2, by decide⟩)) = some 2 :=
      solved_bind (by decide +kernel) (l := [(1, .intf .regular 1), (1, .intf .regular 0), (1, .frac ⟨.direct, 0, 0, 0⟩)])
        (cert := [(1, 0), (1, 3)]) (by decide +kernel) h1 h2 (by decide)
    rw [et]
    simp only [hi, if_true, List.mapM_cons, List.mapM_nil, e0, e1, e2]
    rfl
  · intro i b hb
    fin_cases i <;> (cases hb; decide)
  · have hok : fewTable.ReqOk 2 fewSys := by decide +kernel
    refine ⟨fewTable.run fewSys, ?_, hok.untilRelease (by decide +kernel), _, 1,
      (hok.waits_iff (c := ⟨0, 0, 0, 1, 3, 4⟩) (by decide)).2 (by decide)⟩
    rw [system_fewInfo]
    exact hok.ppcp (by decide +kernel)

end Verif.SR.Lp.Glob
