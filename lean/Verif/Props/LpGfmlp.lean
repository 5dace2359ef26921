/-
C138: response-time analysis of partitioned fixed-priority scheduling with the bounds on blocking that the LP-based
analysis of the generalized FMLP+ computes.
-/
import Verif.Lemmas.LpGfmlp
import Verif.Props.LpFmlp

namespace Verif.SR.Lp
open Verif.Spec
open Verif.SR.Msrp (system)

theorem objective_gfmlp (info : Info) (i : ℕ) (ti : TaskInfo) (P : Program) :
    (gfmlpConstraints false 1 info i ti P).objective = P.objective := by
  unfold gfmlpConstraints
  simp only [if_true]
  unfold lowerShm resourcePreemptions totalPreemptions segmentOnce fifoCluster totalFifo fifoResource topologyShm semMutex
  rw [objective_foldl _ _ _ (fun P t => objective_addInequality _ _ _),
    objective_foldl _ _ _ (fun P t => objective_foldl _ _ _ (fun P r => objective_addInequality _ _ _)),
    objective_foldl _ _ _ (fun P t => objective_addInequality _ _ _),
    objective_foldl _ _ _ (fun P t => objective_addInequality _ _ _),
    objective_foldl _ _ _ (fun P t => objective_addInequality _ _ _),
    objective_foldl _ _ _ (fun P t => objective_addInequality _ _ _),
    objective_foldl _ _ _ (fun P t => objective_foldl _ _ _ (fun P r => objective_addInequality _ _ _)),
    objective_addEquality,
    objective_foldl _ _ _ (fun P t => objective_foldl _ _ _ (fun P r => objective_foldl _ _ _
      (fun P v => objective_addInequality _ _ _)))]

/-- What the solution of a task's program says. -/
theorem gfmlpTask_spec {info : Info} {solve : Solver} (hsolve : ∀ P x, solve P = some x → P.Maximum x)
    (h1 : OneEntry info) {k : Fin info.length}
    (hd : ∀ i : Fin info.length, (info.get i).cluster = (info.get k).cluster →
      (info.get i).priority = (info.get k).priority → i = k)
    (hs : (gfmlpTask false 1 solve info k (info.get k)).isSome) :
    ∃ B ∈ gfmlpTask false 1 solve info k (info.get k), B.remote ≤ B.total ∧
      ∀ y, (fmlpConstraints info k (info.get k) { objective := partObjective info k (info.get k) }).Feasible y →
        (∀ v : ℕ, (v : ℚ) ≤ termSum y (partObjective info k (info.get k)) → v ≤ B.total) ∧
        (1 ≤ termSum y (remoteObjective info k (info.get k)) → B.remote ≠ 0) := by
  unfold gfmlpTask at hs ⊢
  set P := gfmlpConstraints false 1 info k (info.get k) { objective := partObjective info k (info.get k) } with hP
  have hobj : P.objective = partObjective info k (info.get k) := by rw [hP, objective_gfmlp]
  rcases hx : solve P with _ | x
  · simp only [hx] at hs
    cases hs
  have hmax := hsolve P x hx
  refine ⟨⟨_, _, _⟩, by rw [Option.mem_def]; simp only [hx, Option.map_some]; rfl, Nat.sub_le _ _, fun y hy => ⟨fun v hv => ?_, fun hr => ?_⟩⟩
  · simp only
    refine le_lrint (hv.trans ?_)
    rw [← hobj]
    exact hmax.best y (gfmlp_of_fmlp h1 hd hy)
  · obtain ⟨n, z, hz, hzn, hle⟩ := local_optimum_gfmlp info k h1 hd (partObjective info k (info.get k))
    have hsp : Splits (LocalKey info k) P := splits_gfmlp _ _ _
    have hob : ∀ z, termSum z P.objective = termSum z (localObjective info k (info.get k)) +
        termSum z (remoteObjective info k (info.get k)) := fun z => by rw [hobj, objective_split]
    have hl : termSum x (localObjective info k (info.get k)) = n :=
      le_antisymm (hle x hmax.feasible) (by
        rw [← hzn]
        exact (hsp.parts hmax hob local_terms remote_terms hz).1)
    have hrem := (hsp.parts hmax hob local_terms remote_terms (gfmlp_of_fmlp h1 hd hy)).2
    have htot : n + 1 ≤ (lrint (termSum x P.objective)).toNat := by
      apply le_lrint
      rw [hob, hl]
      push_cast
      linarith
    have hloc : (lrint (termSum x (localObjective info k (info.get k)))).toNat = n := by
      rw [hl]
      unfold lrint
      simp
    simp only [hloc]
    omega

/-- **C138**, partial (partitioned fixed-priority scheduling; larger clusters and EDF are missing): let the
response-time analysis accept the tasks of each processor after `apply_generalized_fmlp_bounds` with clusters of one
processor, let the solver find optimal solutions, and let no computed response time exceed the one assumed in the
computation of the bounds.  Then in every run of partitioned fixed-priority scheduling with the FMLP+ no job takes
longer than the computed response time, which is at most the deadline.  The priorities on each processor decrease in
the order of the tasks, and each task has at most one request entry per resource. -/
theorem C138_partitioned_partial (info : Info) (solve : Solver) (hsolve : ∀ P x, solve P = some x → P.Maximum x)
    (fuel : ℕ) (hT : ∀ t ∈ info, 0 < t.period)
    (hone : ∀ t ∈ info, (t.requests.map Request.resId).Nodup)
    (hprio : info.Pairwise (fun a b => a.cluster = b.cluster → a.priority < b.priority))
    (bs : List SemBounds) (hbs : lpGfmlpBounds false 1 solve info = some bs) (done : ℕ → List (Fp.FpTask × ℚ))
    (h : ∀ t ∈ info, Fp.boundResponseTimes fuel 1 (afterSemBounds info bs t.cluster) = some (true, done t.cluster)) :
    ∃ resp : Fin info.length → ℚ,
      (∀ t ∈ info, (done t.cluster).map Prod.snd =
        ((List.finRange info.length).filter (fun i => (info.get i).cluster = t.cluster)).map resp) ∧
      (∀ i, resp i ≤ (info.get i).deadline) ∧
      ((∀ i, resp i ≤ (info.get i).response) →
        ∀ ticket R, FmlpPlus (system info) (fun i => (info.get i).priority) ticket R → ∀ i (q t : ℕ),
          (R.work.release (i, q) : ℚ) + resp i ≤ t → Completed R.work R.sched (i, q) t) := by
  classical
  obtain ⟨e, hsome⟩ := semBounds_eq hbs
  set B : Fin info.length → SemBounds := fun i => (gfmlpTask false 1 solve info i (info.get i)).getD ⟨0, 0, 0⟩ with hBd
  refine lp_fmlp_core info fuel hT hone hprio B ?_ bs e done h
  intro k
  obtain ⟨b, hb, h1, h2⟩ := gfmlpTask_spec hsolve hone (k := k) (by
    intro i hc hp
    rcases lt_trichotomy i k with hik | hik | hik
    · have := (List.pairwise_iff_get.1 hprio) i k hik hc
      omega
    · exact hik
    · have := (List.pairwise_iff_get.1 hprio) k i hik hc.symm
      omega) (hsome k)
  have : B k = b := by
    simp only [hBd]
    rw [Option.mem_def] at hb
    rw [hb]
    rfl
  rw [this]
  exact ⟨h1, h2⟩

/-- In particular, if the blocking bounds assume that response times equal deadlines (or more), then no deadline is
missed. -/
theorem C138_partitioned_schedulable_partial (info : Info) (solve : Solver)
    (hsolve : ∀ P x, solve P = some x → P.Maximum x)
    (fuel : ℕ) (hT : ∀ t ∈ info, 0 < t.period ∧ t.deadline ≤ t.response)
    (hone : ∀ t ∈ info, (t.requests.map Request.resId).Nodup)
    (hprio : info.Pairwise (fun a b => a.cluster = b.cluster → a.priority < b.priority))
    (bs : List SemBounds) (hbs : lpGfmlpBounds false 1 solve info = some bs)
    (h : ∀ t ∈ info, (Fp.boundResponseTimes fuel 1 (afterSemBounds info bs t.cluster)).map Prod.fst = some true)
    (ticket : Section info.length → ℕ) (R : LockRun info.length)
    (hR : FmlpPlus (system info) (fun i => (info.get i).priority) ticket R) :
    MeetsDeadlines R.work (system info).deadline R.sched := by
  obtain ⟨resp, _, h2, h3⟩ := C138_partitioned_partial info solve hsolve fuel (fun t ht => (hT t ht).1) hone hprio bs hbs
    (fun k => ((Fp.boundResponseTimes fuel 1 (afterSemBounds info bs k)).getD (true, [])).2) (by
      intro t ht
      have := h t ht
      rw [Option.map_eq_some_iff] at this
      obtain ⟨⟨b, l⟩, hb, rfl⟩ := this
      rw [hb]
      rfl)
  rintro ⟨i, q⟩
  refine h3 (fun i => (h2 i).trans ?_) ticket R hR i q _ ?_
  · exact_mod_cast (hT _ (List.get_mem info i)).2
  · have := h2 i
    change _ ≤ ((R.work.release (i, q) + (info.get i).deadline : ℕ) : ℚ)
    push_cast
    linarith

end Verif.SR.Lp
