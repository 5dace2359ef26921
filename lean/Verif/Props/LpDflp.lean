/-
C107: response-time analysis of partitioned fixed-priority scheduling with the DFLP and bounds on blocking that are
computed with linear programs.
-/
import Verif.Lemmas.LpDflp
import Verif.Props.LpFmlp

namespace Verif.SR.Lp
open Verif.Spec
open Verif.SR.Msrp (system)
open Verif.SR.Dpcp (Locality topology)

theorem objective_dflp (info : Info) (l : Locality) (i : ℕ) (ti : TaskInfo) (P : Program) :
    (dflpConstraints info l i ti P).objective = P.objective := by
  unfold dflpConstraints dflpCluster dflpResource distLower distTopology semMutex
  simp only
  rw [objective_foldl _ _ _ (fun P t => objective_foldl _ _ _ (fun P c => objective_addInequality _ _ _)),
    objective_foldl _ _ _ (fun P t => objective_foldl _ _ _ (fun P r => objective_addInequality _ _ _)),
    objective_foldl _ _ _ (fun P t => objective_addInequality _ _ _), objective_addEquality,
    objective_foldl _ _ _ (fun P t => objective_foldl _ _ _ (fun P r => objective_foldl _ _ _
      (fun P v => objective_addInequality _ _ _)))]

/-- What the solution of a task's program says. -/
theorem dflpTask_spec {info : Info} {solve : Solver} (hsolve : ∀ P x, solve P = some x → P.Maximum x) {l : Locality}
    {k : Fin info.length} (hs : (dflpTask solve info l k (info.get k)).isSome) :
    ∃ B ∈ dflpTask solve info l k (info.get k), B.remote ≤ B.total ∧
      ∀ y, (dflpConstraints info l k (info.get k) { objective := partObjective info k (info.get k) }).Feasible y →
        ∀ v : ℕ, (v : ℚ) ≤ termSum y (partObjective info k (info.get k)) → v ≤ B.total := by
  unfold dflpTask at hs ⊢
  by_cases hl : located info l k = true
  swap
  · rw [if_neg hl] at hs
    cases hs
  rw [if_pos hl] at hs ⊢
  set P := dflpConstraints info l k (info.get k) { objective := partObjective info k (info.get k) } with hP
  have hobj : P.objective = partObjective info k (info.get k) := by rw [hP, objective_dflp]
  rcases hx : solve P with _ | x
  · simp only [hx] at hs
    cases hs
  have hmax := hsolve _ _ hx
  refine ⟨⟨_, _, _⟩, by rw [Option.mem_def]; simp only [hx, Option.bind_eq_bind, Option.bind_some]; rfl, Nat.sub_le _ _,
    fun y hy v hv => ?_⟩
  simp only
  have h1 : (v : ℤ) ≤ ⌊termSum x P.objective⌋ := by
    rw [Int.le_floor, hobj]
    have := hmax.best y hy
    rw [hobj] at this
    push_cast
    exact hv.trans this
  omega

/-- **C107** (for tasks that use resources on other processors only if their remote blocking is not zero): let the
response-time analysis accept the tasks of each processor after `apply_lp_dflp_bounds`, let the solver find optimal
solutions, and let no computed response time exceed the one assumed in the computation of the bounds.  Then in every run
of partitioned fixed-priority scheduling with the DFLP no job takes longer than the computed response time, which is at
most the deadline.  The priorities are unique and decrease on each processor in the order of the tasks, and each task has
at most one request entry per resource.

The additional hypothesis `hgap` is necessary: see `C107_suspension_violated`. -/
theorem C107_lp_dflp_safe_partial (info : Info) (solve : Solver) (hsolve : ∀ P x, solve P = some x → P.Maximum x)
    (mapping : List (ℕ × ℕ)) (loc : ℕ → ℕ) (fuel : ℕ) (hT : ∀ t ∈ info, 0 < t.period)
    (hn : (mapping.map Prod.fst).Nodup) (hloc : ∀ t ∈ info, ∀ r ∈ t.requests, (r.resId, loc r.resId) ∈ mapping)
    (hone : ∀ t ∈ info, (t.requests.map Request.resId).Nodup)
    (huniq : (info.map TaskInfo.priority).Nodup)
    (hprio : info.Pairwise (fun a b => a.cluster = b.cluster → a.priority < b.priority))
    (bs : List SemBounds) (hbs : lpDflpBounds solve info mapping = some bs)
    (hgap : ∀ i : Fin info.length, ∀ b, bs[(i : ℕ)]? = some b → b.remote = 0 →
      ∀ r ∈ (info.get i).requests, loc r.resId = (info.get i).cluster)
    (done : ℕ → List (Fp.FpTask × ℚ))
    (h : ∀ t ∈ info, Fp.boundResponseTimes fuel 1 (afterSemBounds info bs t.cluster) = some (true, done t.cluster)) :
    ∃ resp : Fin info.length → ℚ,
      (∀ t ∈ info, (done t.cluster).map Prod.snd =
        ((List.finRange info.length).filter (fun i => (info.get i).cluster = t.cluster)).map resp) ∧
      (∀ i, resp i ≤ (info.get i).deadline) ∧
      ((∀ i, resp i ≤ (info.get i).response) →
        ∀ ticket R, Dflp (system info) (fun i => (info.get i).priority) loc ticket R → ∀ i (q t : ℕ),
          (R.work.release (i, q) : ℚ) + resp i ≤ t → Completed R.work R.sched (i, q) t) := by
  classical
  set l := topology mapping with hl
  have hloc' : ∀ t ∈ info, ∀ r ∈ t.requests, l.at r.resId = some (loc r.resId) := fun t ht r hr =>
    Dpcp.topology_at hn (hloc t ht r hr)
  obtain ⟨e, hsome⟩ := semBounds_eq hbs
  set B : Fin info.length → SemBounds := fun i =>
    (dflpTask solve info l i (info.get i)).getD ⟨0, 0, 0⟩ with hBd
  have hspec : ∀ k : Fin info.length, (B k).remote ≤ (B k).total ∧
      ∀ y, (dflpConstraints info l k (info.get k) { objective := partObjective info k (info.get k) }).Feasible y →
        ∀ v : ℕ, (v : ℚ) ≤ termSum y (partObjective info k (info.get k)) → v ≤ (B k).total := by
    intro k
    obtain ⟨b, hb, h1, h2⟩ := dflpTask_spec hsolve (hsome k)
    have : B k = b := by
      simp only [hBd]
      rw [Option.mem_def] at hb
      rw [hb]
      rfl
    rw [this]
    exact ⟨h1, h2⟩
  choose hrt hmax using hspec
  have hgap' : ∀ i : Fin info.length, (B i).remote = 0 → ∀ r ∈ (info.get i).requests,
      loc r.resId = (info.get i).cluster := by
    intro i hi
    refine hgap i (B i) ?_ hi
    rw [e]
    simp [hBd]
  have hinj : Function.Injective (fun i : Fin info.length => (info.get i).priority) := by
    intro a b hab
    have h1 : (info.map TaskInfo.priority)[(a : ℕ)]? = some (info.get a).priority := by
      rw [List.getElem?_map, fin_get?]; rfl
    have h2 : (info.map TaskInfo.priority)[(b : ℕ)]? = some (info.get b).priority := by
      rw [List.getElem?_map, fin_get?]; rfl
    simp only at hab
    rw [← hab] at h2
    exact Fin.ext ((List.getElem?_inj (List.getElem?_eq_some_iff.1 h1).1 huniq).1 (h1.trans h2.symm))
  obtain ⟨W, hdone, hW, hsafe⟩ := part_one_safe info (fun i => (B i).remote) (fun i => (B i).total - (B i).remote) fuel
    hT hprio done (by
      intro t ht
      rw [← afterSemBounds_eq info B hrt bs e]
      exact h t ht)
  refine ⟨fun i => (W i : ℚ), hdone, fun i => ?_, fun hresp ticket R hR i q t ht => ?_⟩
  · have := (hW i).1
    change ((W i : ℕ) : ℚ) ≤ _
    exact_mod_cast this
  have hWr : ∀ i, W i ≤ (info.get i).response := fun i => by
    have : ((W i : ℕ) : ℚ) ≤ _ := hresp i
    exact_mod_cast this
  have hb := hsafe _ R hR.toRequestRun (by
    intro H k q0 q1 a hb hwin hown hle
    have hlen : a + W k - a ≤ (info.get k).response := by
      have := hWr k
      omega
    obtain ⟨sec, kind, hv⟩ := agent_window_view (D := DflpDelay R) (dflp_prompt hR) (dflp_delayed hR) hb (fun i => (hW i).2.1) hinj hloc' hwin hle hown
      (fun i hi => (Finset.mem_filter.1 hi.1).2) (fun i hi => hgap' i hi.2)
      (V := (Finset.Ico a (a + W k)).filter (fun t => ∀ j ∈ R.sched t, j.1 ≠ k ∧ j.1 ∉ higher info k)) (by
        intro t ht
        obtain ⟨h1, h2⟩ := Finset.mem_filter.1 ht
        obtain ⟨h3, h4⟩ := Finset.mem_Ico.1 h1
        refine ⟨h3, h4, fun j hj => ⟨(h2 j hj).1, fun hc => (h2 j hj).2 ?_⟩⟩
        exact Finset.mem_filter.2 ⟨Finset.mem_univ _, hc⟩)
    have hf := DflpView.feasible hv hR.toRequestRun hb hT hWr hle hlen hone hinj hloc'
      (partObjective info k (info.get k))
    have hch := hv.charge hR.toRequestRun hb hT hWr hle hlen
    have h1 := hmax k _ hf _ (hv.objective_le hch hone)
    have h2 := hrt k
    refine le_trans (le_of_eq ?_) (h1.trans (show (B k).total ≤ (B k).remote + ((B k).total - (B k).remote) by omega))
    congr)
    (R.work.release (i, q) + W i + 1) (i, q) (Nat.lt_succ_self _)
  refine hb.mono ?_
  have : ((R.work.release (i, q) + W i : ℕ) : ℚ) ≤ t := by push_cast; exact ht
  exact_mod_cast this

/-- **C107** (with the same restriction): in particular, if the blocking bounds assume that response times equal
deadlines (or more), then no deadline is missed. -/
theorem C107_lp_dflp_schedulable_partial (info : Info) (solve : Solver)
    (hsolve : ∀ P x, solve P = some x → P.Maximum x)
    (mapping : List (ℕ × ℕ)) (loc : ℕ → ℕ) (fuel : ℕ)
    (hT : ∀ t ∈ info, 0 < t.period ∧ t.deadline ≤ t.response)
    (hn : (mapping.map Prod.fst).Nodup) (hloc : ∀ t ∈ info, ∀ r ∈ t.requests, (r.resId, loc r.resId) ∈ mapping)
    (hone : ∀ t ∈ info, (t.requests.map Request.resId).Nodup)
    (huniq : (info.map TaskInfo.priority).Nodup)
    (hprio : info.Pairwise (fun a b => a.cluster = b.cluster → a.priority < b.priority))
    (bs : List SemBounds) (hbs : lpDflpBounds solve info mapping = some bs)
    (hgap : ∀ i : Fin info.length, ∀ b, bs[(i : ℕ)]? = some b → b.remote = 0 →
      ∀ r ∈ (info.get i).requests, loc r.resId = (info.get i).cluster)
    (h : ∀ t ∈ info, (Fp.boundResponseTimes fuel 1 (afterSemBounds info bs t.cluster)).map Prod.fst = some true)
    (ticket : Section info.length → ℕ) (R : LockRun info.length)
    (hR : Dflp (system info) (fun i => (info.get i).priority) loc ticket R) :
    MeetsDeadlines R.work (system info).deadline R.sched := by
  obtain ⟨resp, _, h2, h3⟩ := C107_lp_dflp_safe_partial info solve hsolve mapping loc fuel
    (fun t ht => (hT t ht).1) hn hloc hone huniq hprio bs hbs hgap
    (fun k => ((Fp.boundResponseTimes fuel 1 (afterSemBounds info bs k)).getD (true, [])).2) (by
      intro t ht
      have := h t ht
      rw [Option.map_eq_some_iff] at this
      obtain ⟨⟨b, l⟩, hb, rfl⟩ := this
      rw [hb]
      rfl)
  rintro ⟨i, q⟩
  refine h3 (fun i => (h2 i).trans ?_) ticket R hR i q _ ?_
  · exact_mod_cast (hT _ (List.get_mem info i)).2
  · have := h2 i
    change _ ≤ ((R.work.release (i, q) + (info.get i).deadline : ℕ) : ℚ)
    push_cast
    linarith

end Verif.SR.Lp
