/-
C104: response-time analysis of partitioned fixed-priority scheduling with the FMLP+ and bounds on blocking that are
computed with linear programs.
-/
import Verif.Lemmas.LpFmlpSplit
import Verif.Lemmas.PartOneSusp
import Verif.Props.LpSpin

namespace Verif.SR.Lp
open Verif.Spec
open Verif.SR.Msrp (system)

/-- The results of all tasks. -/
theorem semBounds_eq {info : Info} {f : ℕ × TaskInfo → Option SemBounds} {bs : List SemBounds}
    (h : (tasks info).mapM f = some bs) :
    bs = (List.finRange info.length).map (fun i : Fin info.length => (f ((i : ℕ), info.get i)).getD ⟨0, 0, 0⟩) ∧
      ∀ i : Fin info.length, (f ((i : ℕ), info.get i)).isSome := by
  obtain ⟨h1, h2⟩ := Verif.SR.Mpcp.mapM_some h ⟨0, 0, 0⟩
  rw [tasks_eq] at h1
  refine ⟨by rw [h1, List.map_map]; rfl, fun i => h2 _ (mem_tasks.2 ⟨i, rfl⟩)⟩

theorem afterSemBounds_eq (info : Info) (B : Fin info.length → SemBounds) (hB : ∀ i, (B i).remote ≤ (B i).total)
    (bs : List SemBounds) (hbs : bs = (List.finRange info.length).map B) (k : ℕ) : afterSemBounds info bs k =
    partTasks info (fun i => (B i).remote) (fun i => (B i).total - (B i).remote) k := by
  subst hbs
  unfold afterSemBounds
  have hz : info.zip ((List.finRange info.length).map B) =
      (List.finRange info.length).map (fun i => (info.get i, B i)) := by
    apply List.ext_getElem?
    intro a
    by_cases ha : a < info.length
    · have h3 : (List.finRange info.length)[a]? = some ⟨a, ha⟩ := by
        rw [List.getElem?_eq_getElem (by simpa using ha)]
        simp
      have h1 : ((List.finRange info.length).map B)[a]? = some (B ⟨a, ha⟩) := by
        rw [List.getElem?_map, h3]
        rfl
      have h2 := fin_get? (info := info) ⟨a, ha⟩
      have h12 : (info.zip ((List.finRange info.length).map B))[a]? = some (info.get ⟨a, ha⟩, B ⟨a, ha⟩) :=
        List.getElem?_zip_eq_some.2 ⟨h2, h1⟩
      rw [h12, List.getElem?_map, h3]
      rfl
    · rw [List.getElem?_eq_none, List.getElem?_eq_none]
      · simp; omega
      · rw [List.length_zip]; omega
  unfold partTasks
  rw [hz, List.filterMap_map]
  induction (List.finRange info.length) with
  | nil => rfl
  | cons i l ih =>
    rw [List.filterMap_cons, List.filter_cons]
    simp only [Function.comp_apply]
    by_cases hc : (info.get i).cluster = k
    · simp only [hc, if_true, decide_true, List.map_cons]
      rw [← ih]
      unfold partTask
      rw [Nat.add_sub_cancel' (hB i)]
      rfl
    · simp only [hc, if_false, decide_false]
      exact ih

theorem objective_fmlp (info : Info) (i : ℕ) (ti : TaskInfo) (P : Program) :
    (fmlpConstraints info i ti P).objective = P.objective := by
  unfold fmlpConstraints fifoCluster totalFifo fifoResource lowerShm topologyShm higherShm semMutex
  rw [objective_foldl _ _ _ (fun P t => objective_addInequality _ _ _),
    objective_foldl _ _ _ (fun P t => objective_addInequality _ _ _),
    objective_foldl _ _ _ (fun P t => objective_foldl _ _ _ (fun P r => objective_addInequality _ _ _)),
    objective_foldl _ _ _ (fun P t => objective_addInequality _ _ _), objective_addEquality, objective_addEquality,
    objective_foldl _ _ _ (fun P t => objective_foldl _ _ _ (fun P r => objective_foldl _ _ _
      (fun P v => objective_addInequality _ _ _)))]

/-- What the solution of a task's program says. -/
theorem fmlpTask_spec {info : Info} {solve : Solver} (hsolve : ∀ P x, solve P = some x → P.Maximum x)
    (h1 : OneEntry info) {k : Fin info.length} (hs : (fmlpTask solve info k (info.get k)).isSome) :
    ∃ B ∈ fmlpTask solve info k (info.get k), B.remote ≤ B.total ∧
      ∀ y, (fmlpConstraints info k (info.get k) { objective := partObjective info k (info.get k) }).Feasible y →
        (∀ v : ℕ, (v : ℚ) ≤ termSum y (partObjective info k (info.get k)) → v ≤ B.total) ∧
        (1 ≤ termSum y (remoteObjective info k (info.get k)) → B.remote ≠ 0) := by
  unfold fmlpTask at hs ⊢
  set P := fmlpConstraints info k (info.get k) { objective := partObjective info k (info.get k) } with hP
  have hobj : P.objective = partObjective info k (info.get k) := by rw [hP, objective_fmlp]
  rcases hx : solve P with _ | x
  · simp only [hx] at hs
    cases hs
  have hmax := hsolve P x hx
  refine ⟨⟨_, _, _⟩, by rw [Option.mem_def]; simp only [hx, Option.map_some]; rfl, Nat.sub_le _ _, fun y hy => ⟨fun v hv => ?_, fun hr => ?_⟩⟩
  · simp only
    refine le_lrint (hv.trans ?_)
    rw [← hobj]
    exact hmax.best y hy
  · obtain ⟨n, z, hz, hzn, hle⟩ := local_optimum info k h1 (partObjective info k (info.get k))
    have hsp : Splits (LocalKey info k) P := splits_fmlp _ _ _
    have hob : ∀ z, termSum z P.objective = termSum z (localObjective info k (info.get k)) +
        termSum z (remoteObjective info k (info.get k)) := fun z => by rw [hobj, objective_split]
    have hl : termSum x (localObjective info k (info.get k)) = n :=
      le_antisymm (hle x hmax.feasible) (by
        rw [← hzn]
        exact (hsp.parts hmax hob local_terms remote_terms hz).1)
    have hrem := (hsp.parts hmax hob local_terms remote_terms hy).2
    have htot : n + 1 ≤ (lrint (termSum x P.objective)).toNat := by
      apply le_lrint
      rw [hob, hl]
      push_cast
      linarith
    have hloc : (lrint (termSum x (localObjective info k (info.get k)))).toNat = n := by
      rw [hl]
      unfold lrint
      simp
    simp only [hloc]
    omega

/-- The response-time analysis is safe with bounds on blocking that cover all solutions of the programs. -/
theorem lp_fmlp_core (info : Info) (fuel : ℕ) (hT : ∀ t ∈ info, 0 < t.period)
    (hone : ∀ t ∈ info, (t.requests.map Request.resId).Nodup)
    (hprio : info.Pairwise (fun a b => a.cluster = b.cluster → a.priority < b.priority))
    (B : Fin info.length → SemBounds)
    (hspec : ∀ k : Fin info.length, (B k).remote ≤ (B k).total ∧
      ∀ y, (fmlpConstraints info k (info.get k) { objective := partObjective info k (info.get k) }).Feasible y →
        (∀ v : ℕ, (v : ℚ) ≤ termSum y (partObjective info k (info.get k)) → v ≤ (B k).total) ∧
        (1 ≤ termSum y (remoteObjective info k (info.get k)) → (B k).remote ≠ 0))
    (bs : List SemBounds) (e : bs = (List.finRange info.length).map B) (done : ℕ → List (Fp.FpTask × ℚ))
    (h : ∀ t ∈ info, Fp.boundResponseTimes fuel 1 (afterSemBounds info bs t.cluster) = some (true, done t.cluster)) :
    ∃ resp : Fin info.length → ℚ,
      (∀ t ∈ info, (done t.cluster).map Prod.snd =
        ((List.finRange info.length).filter (fun i => (info.get i).cluster = t.cluster)).map resp) ∧
      (∀ i, resp i ≤ (info.get i).deadline) ∧
      ((∀ i, resp i ≤ (info.get i).response) →
        ∀ ticket R, FmlpPlus (system info) (fun i => (info.get i).priority) ticket R → ∀ i (q t : ℕ),
          (R.work.release (i, q) : ℚ) + resp i ≤ t → Completed R.work R.sched (i, q) t) := by
  classical
  obtain ⟨W, hdone, hW, hsafe⟩ := part_one_safe info (fun i => (B i).remote) (fun i => (B i).total - (B i).remote) fuel
    hT hprio done (by
      intro t ht
      rw [← afterSemBounds_eq info B (fun i => (hspec i).1) bs e]
      exact h t ht)
  refine ⟨fun i => (W i : ℚ), hdone, fun i => ?_, fun hresp ticket R hR i q t ht => ?_⟩
  · have := (hW i).1
    change ((W i : ℕ) : ℚ) ≤ _
    exact_mod_cast this
  have hWr : ∀ i, W i ≤ (info.get i).response := fun i => by
    have : ((W i : ℕ) : ℚ) ≤ _ := hresp i
    exact_mod_cast this
  have hinj : ∀ a b : Fin info.length, (info.get a).cluster = (info.get b).cluster →
      (info.get a).priority = (info.get b).priority → a = b := by
    intro a b hc hp
    rcases lt_trichotomy a b with hab | hab | hab
    · have := (List.pairwise_iff_get.1 hprio) a b hab hc
      omega
    · exact hab
    · have := (List.pairwise_iff_get.1 hprio) b a hab hc.symm
      omega
  have hb := hsafe _ R hR.toRequestRun (by
    intro H k q0 q1 a hb hwin hown hle
    have hZ : ∀ s u, (s.job.1 ∈ higher info k ∧ (B s.job.1).remote = 0) → u < H → R.Waits s u →
        R.LocalWait (system info) s u := by
      intro s u hs hu hw
      by_contra hl
      obtain ⟨z, ty, hv, hne⟩ := remote_view hR hw hl
      have hru := lt_of_pending hb hu (hR.waits_ready hw).1.2
      have hrs := (hR.waits_ready hw).1.1
      have hlen : u + 1 - u ≤ (info.get s.job.1).response := by
        have := hWr s.job.1
        omega
      have hf := hv.feasible hR.toPartRun hb hT hWr hu hlen hone (partObjective info s.job.1 (info.get s.job.1))
      have hch := hv.charge hR.toPartRun hb hT hWr hu hlen
      refine ((hspec s.job.1).2 _ hf).2 ?_ hs.2
      have h1 := hch.objective_le hone
      rw [objective_split, Finset.card_singleton] at h1
      have h2 : termSum (assignment s.job.1 {u} (fun _ => z) (fun _ => ty))
          (localObjective info s.job.1 (info.get s.job.1)) = 0 := by
        apply termSum_zero
        intro e he
        obtain ⟨y, hy, het⟩ := blockingTerms_task he
        obtain ⟨hy, hc⟩ := List.mem_filter.1 hy
        obtain ⟨x, rfl⟩ := mem_others hy
        unfold assignment
        apply share_zero
        rw [Finset.eq_empty_iff_forall_notMem]
        intro v hv
        obtain ⟨_, h4, _⟩ := mem_slots.1 hv
        apply hne
        rw [show z.job.1 = x from Fin.ext (h4.trans het)]
        simpa using hc
      rw [h2] at h1
      push_cast at h1
      linarith
    have hlen : a + W k - a ≤ (info.get k).response := by
      have := hWr k
      omega
    obtain ⟨sec, kind, hv⟩ := window_view hR hb hT hWr (fun i => (hW i).2.1) hone hwin hle hlen hown
      (fun i h1 h2 => hinj i k h1 h2) (fun i hi => (Finset.mem_filter.1 hi.1).2) hZ
      (V := (Finset.Ico a (a + W k)).filter (fun t => ∀ j ∈ R.sched t, j.1 ≠ k ∧ j.1 ∉ higher info k)) (by
        intro t ht
        obtain ⟨h1, h2⟩ := Finset.mem_filter.1 ht
        obtain ⟨h3, h4⟩ := Finset.mem_Ico.1 h1
        refine ⟨h3, h4, fun j hj => ⟨(h2 j hj).1, fun hc => (h2 j hj).2 ?_⟩⟩
        exact Finset.mem_filter.2 ⟨Finset.mem_univ _, hc⟩)
    have hf := hv.feasible hR.toPartRun hb hT hWr hle hlen hone (partObjective info k (info.get k))
    have hch := hv.charge hR.toPartRun hb hT hWr hle hlen
    have h1 := ((hspec k).2 _ hf).1 _ (hch.objective_le hone)
    have h2 := (hspec k).1
    refine le_trans (le_of_eq ?_) (h1.trans (show (B k).total ≤ (B k).remote + ((B k).total - (B k).remote) by omega))
    congr)
    (R.work.release (i, q) + W i + 1) (i, q) (Nat.lt_succ_self _)
  refine hb.mono ?_
  have : ((R.work.release (i, q) + W i : ℕ) : ℚ) ≤ t := by push_cast; exact ht
  exact_mod_cast this

/-- **C104**: let the response-time analysis accept the tasks of each processor after `apply_lp_part_fmlp_bounds`, let
the solver find optimal solutions, and let no computed response time exceed the one assumed in the computation of
the bounds.  Then in every run of partitioned fixed-priority scheduling with the FMLP+ no job takes longer than the
computed response time, which is at most the deadline.  The priorities on each processor decrease in the order of the
tasks, and each task has at most one request entry per resource. -/
theorem C104_lp_fmlp_safe (info : Info) (solve : Solver) (hsolve : ∀ P x, solve P = some x → P.Maximum x)
    (fuel : ℕ) (hT : ∀ t ∈ info, 0 < t.period)
    (hone : ∀ t ∈ info, (t.requests.map Request.resId).Nodup)
    (hprio : info.Pairwise (fun a b => a.cluster = b.cluster → a.priority < b.priority))
    (bs : List SemBounds) (hbs : lpFmlpBounds solve info = some bs) (done : ℕ → List (Fp.FpTask × ℚ))
    (h : ∀ t ∈ info, Fp.boundResponseTimes fuel 1 (afterSemBounds info bs t.cluster) = some (true, done t.cluster)) :
    ∃ resp : Fin info.length → ℚ,
      (∀ t ∈ info, (done t.cluster).map Prod.snd =
        ((List.finRange info.length).filter (fun i => (info.get i).cluster = t.cluster)).map resp) ∧
      (∀ i, resp i ≤ (info.get i).deadline) ∧
      ((∀ i, resp i ≤ (info.get i).response) →
        ∀ ticket R, FmlpPlus (system info) (fun i => (info.get i).priority) ticket R → ∀ i (q t : ℕ),
          (R.work.release (i, q) : ℚ) + resp i ≤ t → Completed R.work R.sched (i, q) t) := by
  classical
  obtain ⟨e, hsome⟩ := semBounds_eq hbs
  set B : Fin info.length → SemBounds := fun i => (fmlpTask solve info i (info.get i)).getD ⟨0, 0, 0⟩ with hBd
  have hspec : ∀ k : Fin info.length, (B k).remote ≤ (B k).total ∧
      ∀ y, (fmlpConstraints info k (info.get k) { objective := partObjective info k (info.get k) }).Feasible y →
        (∀ v : ℕ, (v : ℚ) ≤ termSum y (partObjective info k (info.get k)) → v ≤ (B k).total) ∧
        (1 ≤ termSum y (remoteObjective info k (info.get k)) → (B k).remote ≠ 0) := by
    intro k
    obtain ⟨b, hb, h1, h2⟩ := fmlpTask_spec hsolve hone (hsome k)
    have : B k = b := by
      simp only [hBd]
      rw [Option.mem_def] at hb
      rw [hb]
      rfl
    rw [this]
    exact ⟨h1, h2⟩
  exact lp_fmlp_core info fuel hT hone hprio B hspec bs e done h

/-- **C104**: in particular, if the blocking bounds assume that response times equal deadlines (or more), then no
deadline is missed. -/
theorem C104_lp_fmlp_schedulable (info : Info) (solve : Solver) (hsolve : ∀ P x, solve P = some x → P.Maximum x)
    (fuel : ℕ) (hT : ∀ t ∈ info, 0 < t.period ∧ t.deadline ≤ t.response)
    (hone : ∀ t ∈ info, (t.requests.map Request.resId).Nodup)
    (hprio : info.Pairwise (fun a b => a.cluster = b.cluster → a.priority < b.priority))
    (bs : List SemBounds) (hbs : lpFmlpBounds solve info = some bs)
    (h : ∀ t ∈ info, (Fp.boundResponseTimes fuel 1 (afterSemBounds info bs t.cluster)).map Prod.fst = some true)
    (ticket : Section info.length → ℕ) (R : LockRun info.length)
    (hR : FmlpPlus (system info) (fun i => (info.get i).priority) ticket R) :
    MeetsDeadlines R.work (system info).deadline R.sched := by
  obtain ⟨resp, _, h2, h3⟩ := C104_lp_fmlp_safe info solve hsolve fuel (fun t ht => (hT t ht).1) hone hprio bs hbs
    (fun k => ((Fp.boundResponseTimes fuel 1 (afterSemBounds info bs k)).getD (true, [])).2) (by
      intro t ht
      have := h t ht
      rw [Option.map_eq_some_iff] at this
      obtain ⟨⟨b, l⟩, hb, rfl⟩ := this
      rw [hb]
      rfl)
  rintro ⟨i, q⟩
  refine h3 (fun i => (h2 i).trans ?_) ticket R hR i q _ ?_
  · exact_mod_cast (hT _ (List.get_mem info i)).2
  · have := h2 i
    change _ ≤ ((R.work.release (i, q) + (info.get i).deadline : ℕ) : ℚ)
    push_cast
    linarith

end Verif.SR.Lp
