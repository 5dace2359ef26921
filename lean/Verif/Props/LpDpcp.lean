/-
C106: response-time analysis of partitioned fixed-priority scheduling with the DPCP and bounds on blocking that are
computed with linear programs.
-/
import Verif.Lemmas.LpDpcp
import Verif.Props.LpFmlp

namespace Verif.SR.Lp
open Verif.Spec
open Verif.Spec.Dpcp (Delayed Served Ceil)
open Verif.SR.Msrp (system)
open Verif.SR.Dpcp (Locality topology)

theorem objective_dpcp (info : Info) (l : Locality) (ws : Option (List (ℕ × Option ℕ))) (i : ℕ) (ti : TaskInfo)
    (P : Program) : (dpcpConstraints info l ws i ti P).objective = P.objective := by
  have h : (dpcpConflict info i ti (dpcpOnce info l i ti (distLower info l i ti (distTopology info l i ti
      (semMutex info i ti P))))).objective = P.objective := by
    unfold dpcpConflict dpcpOnce distLower distTopology semMutex
    simp only
    rw [objective_addEquality, objective_foldl _ _ _ (fun P t => objective_addInequality _ _ _),
      objective_foldl _ _ _ (fun P t => objective_addInequality _ _ _), objective_addEquality,
      objective_foldl _ _ _ (fun P t => objective_foldl _ _ _ (fun P r => objective_foldl _ _ _
        (fun P v => objective_addInequality _ _ _)))]
  unfold dpcpConstraints
  simp only
  rcases ws with _ | ws
  · simp only
    unfold dpcpIndependent
    rw [objective_addEquality, h]
  · simp only
    unfold dpcpWait
    rw [objective_foldl _ _ _ (fun P t => objective_foldl _ _ _ (fun P r => ?_)), h]
    rcases waitLimit l ws ti t.2 r with _ | n
    · rfl
    · exact objective_addInequality _ _ _

/-- What the solution of a task's program says. -/
theorem dpcpTask_spec {info : Info} {solve : Solver} (hsolve : ∀ P x, solve P = some x → P.Maximum x) {l : Locality}
    {useRta : Bool} {fuel : ℕ} {k : Fin info.length} (hs : (dpcpTask solve info l useRta fuel k (info.get k)).isSome) :
    ∃ ws, rtaTimes info l useRta fuel (info.get k) = some ws ∧
      ∃ B ∈ dpcpTask solve info l useRta fuel k (info.get k), B.remote ≤ B.total ∧
      ∀ y, (dpcpConstraints info l ws k (info.get k) { objective := partObjective info k (info.get k) }).Feasible y →
        ∀ v : ℕ, (v : ℚ) ≤ termSum y (partObjective info k (info.get k)) → v ≤ B.total := by
  unfold dpcpTask at hs ⊢
  by_cases hl : located info l k = true
  swap
  · rw [if_neg hl] at hs
    cases hs
  rw [if_pos hl] at hs ⊢
  rcases hd : rtaTimes info l useRta fuel (info.get k) with _ | ws
  · rw [hd] at hs
    cases hs
  refine ⟨ws, rfl, ?_⟩
  simp only [hd, Option.bind_eq_bind, Option.bind_some] at hs ⊢
  set P := dpcpConstraints info l ws k (info.get k) { objective := partObjective info k (info.get k) } with hP
  have hobj : P.objective = partObjective info k (info.get k) := by rw [hP, objective_dpcp]
  rcases hx : solve P with _ | x
  · simp only [hx] at hs
    cases hs
  have hmax := hsolve _ _ hx
  refine ⟨⟨_, _, _⟩, by rw [Option.mem_def]; simp only [Option.bind_some]; rfl, Nat.sub_le _ _, fun y hy v hv => ?_⟩
  simp only
  refine le_lrint (hv.trans ?_)
  rw [← hobj]
  exact hmax.best y hy

/-- The wait times that are looked up. -/
theorem waits_of {info : Info} {l : Locality} {fuel : ℕ} {ti : TaskInfo} {ws : List (ℕ × Option ℕ)}
    (hd : waitTimes info l fuel ti = some ws) {a : Request} (ha : a ∈ ti.requests) :
    waitTime info l fuel ti a.resId = some (waitOf ws a.resId) := by
  unfold waitTimes at hd
  generalize ti.requests = L at hd ha
  induction L generalizing ws with
  | nil => cases ha
  | cons b L ih =>
    rw [List.mapM_cons] at hd
    rcases hb : waitTime info l fuel ti b.resId with _ | w
    · rw [hb] at hd
      cases hd
    rcases hm : L.mapM (fun r => (waitTime info l fuel ti r.resId).map (fun w => (r.resId, w))) with _ | ws'
    · rw [hb, hm] at hd
      cases hd
    rw [hb, hm] at hd
    have hws : ws = (b.resId, w) :: ws' := (Option.some.inj hd).symm
    subst hws
    unfold waitOf
    rw [List.lookup_cons]
    by_cases hab : a.resId = b.resId
    · rw [hab, hb]
      simp
    · rw [beq_eq_false_iff_ne.2 hab]
      rcases List.mem_cons.1 ha with rfl | ha
      · exact absurd rfl hab
      · exact ih hm ha

/-- **C106** (for tasks that use resources on other processors only if their remote blocking is not zero and, with
wait-time bounds, if all of these are no larger than the response times): let the response-time analysis accept the
tasks of each processor after `apply_lp_dpcp_bounds`, let the solver find optimal solutions, and let no computed response
time exceed the one assumed in the computation of the bounds.  Then in every run of partitioned fixed-priority scheduling
with the DPCP no job takes longer than the computed response time, which is at most the deadline.  The priorities are
unique and decrease on each processor in the order of the tasks, and each task has at most one request entry per
resource.

The two additional hypotheses `hgap` and `hfix` are necessary: see `C106_suspension_violated` and
`C106_wait_violated`. -/
theorem C106_lp_dpcp_safe_partial (info : Info) (solve : Solver) (hsolve : ∀ P x, solve P = some x → P.Maximum x)
    (mapping : List (ℕ × ℕ)) (loc : ℕ → ℕ) (useRta : Bool) (fuel : ℕ) (hT : ∀ t ∈ info, 0 < t.period)
    (hn : (mapping.map Prod.fst).Nodup) (hloc : ∀ t ∈ info, ∀ r ∈ t.requests, (r.resId, loc r.resId) ∈ mapping)
    (hone : ∀ t ∈ info, (t.requests.map Request.resId).Nodup)
    (huniq : (info.map TaskInfo.priority).Nodup)
    (hprio : info.Pairwise (fun a b => a.cluster = b.cluster → a.priority < b.priority))
    (hfix : useRta = true → ∀ t ∈ info, ∀ r ∈ t.requests,
      ∃ w ≤ t.response, nextWait info (topology mapping) t r.resId w ≤ w)
    (bs : List SemBounds) (hbs : lpDpcpBounds solve info mapping useRta fuel = some bs)
    (hgap : ∀ i : Fin info.length, ∀ b, bs[(i : ℕ)]? = some b → b.remote = 0 →
      ∀ r ∈ (info.get i).requests, loc r.resId = (info.get i).cluster)
    (done : ℕ → List (Fp.FpTask × ℚ))
    (h : ∀ t ∈ info, Fp.boundResponseTimes fuel 1 (afterSemBounds info bs t.cluster) = some (true, done t.cluster)) :
    ∃ resp : Fin info.length → ℚ,
      (∀ t ∈ info, (done t.cluster).map Prod.snd =
        ((List.finRange info.length).filter (fun i => (info.get i).cluster = t.cluster)).map resp) ∧
      (∀ i, resp i ≤ (info.get i).deadline) ∧
      ((∀ i, resp i ≤ (info.get i).response) →
        ∀ R, DpcpPrompt (system info) (fun i => (info.get i).priority) loc R → ∀ i (q t : ℕ),
          (R.work.release (i, q) : ℚ) + resp i ≤ t → Completed R.work R.sched (i, q) t) := by
  classical
  set l := topology mapping with hl
  have hloc' : ∀ t ∈ info, ∀ r ∈ t.requests, l.at r.resId = some (loc r.resId) := fun t ht r hr =>
    Dpcp.topology_at hn (hloc t ht r hr)
  obtain ⟨e, hsome⟩ := semBounds_eq hbs
  set B : Fin info.length → SemBounds := fun i =>
    (dpcpTask solve info l useRta fuel i (info.get i)).getD ⟨0, 0, 0⟩ with hBd
  have hspec : ∀ k : Fin info.length, ∃ ws, rtaTimes info l useRta fuel (info.get k) = some ws ∧
      (B k).remote ≤ (B k).total ∧
      ∀ y, (dpcpConstraints info l ws k (info.get k) { objective := partObjective info k (info.get k) }).Feasible y →
        ∀ v : ℕ, (v : ℚ) ≤ termSum y (partObjective info k (info.get k)) → v ≤ (B k).total := by
    intro k
    obtain ⟨ws, hws, b, hb, h1, h2⟩ := dpcpTask_spec hsolve (hsome k)
    have : B k = b := by
      simp only [hBd]
      rw [Option.mem_def] at hb
      rw [hb]
      rfl
    rw [this]
    exact ⟨ws, hws, h1, h2⟩
  choose ws hws hrt hmax using hspec
  have hgap' : ∀ i : Fin info.length, (B i).remote = 0 → ∀ r ∈ (info.get i).requests,
      loc r.resId = (info.get i).cluster := by
    intro i hi
    refine hgap i (B i) ?_ hi
    rw [e]
    simp [hBd]
  have hinj : Function.Injective (fun i : Fin info.length => (info.get i).priority) := by
    intro a b hab
    have h1 : (info.map TaskInfo.priority)[(a : ℕ)]? = some (info.get a).priority := by
      rw [List.getElem?_map, fin_get?]; rfl
    have h2 : (info.map TaskInfo.priority)[(b : ℕ)]? = some (info.get b).priority := by
      rw [List.getElem?_map, fin_get?]; rfl
    simp only at hab
    rw [← hab] at h2
    exact Fin.ext ((List.getElem?_inj (List.getElem?_eq_some_iff.1 h1).1 huniq).1 (h1.trans h2.symm))
  obtain ⟨W, hdone, hW, hsafe⟩ := part_one_safe info (fun i => (B i).remote) (fun i => (B i).total - (B i).remote) fuel
    hT hprio done (by
      intro t ht
      rw [← afterSemBounds_eq info B hrt bs e]
      exact h t ht)
  refine ⟨fun i => (W i : ℚ), hdone, fun i => ?_, fun hresp R hR i q t ht => ?_⟩
  · have := (hW i).1
    change ((W i : ℕ) : ℚ) ≤ _
    exact_mod_cast this
  have hWr : ∀ i, W i ≤ (info.get i).response := fun i => by
    have : ((W i : ℕ) : ℚ) ≤ _ := hresp i
    exact_mod_cast this
  have hb := hsafe _ R hR.toRequestRun (by
    intro H k q0 q1 a hb hwin hown hle
    have hlen : a + W k - a ≤ (info.get k).response := by
      have := hWr k
      omega
    obtain ⟨sec, kind, hv⟩ := agent_window_view (D := DpcpDelay info) (Spec.Dpcp.agentPrompt hR)
      (fun s c t hd => (hR.delayed_by hd).imp (fun z hz => ⟨hz.1, hz.2.imp id And.right⟩)) hb (fun i => (hW i).2.1) hinj hloc' hwin hle hown
      (fun i hi => (Finset.mem_filter.1 hi.1).2) (fun i hi => hgap' i hi.2)
      (V := (Finset.Ico a (a + W k)).filter (fun t => ∀ j ∈ R.sched t, j.1 ≠ k ∧ j.1 ∉ higher info k)) (by
        intro t ht
        obtain ⟨h1, h2⟩ := Finset.mem_filter.1 ht
        obtain ⟨h3, h4⟩ := Finset.mem_Ico.1 h1
        refine ⟨h3, h4, fun j hj => ⟨(h2 j hj).1, fun hc => (h2 j hj).2 ?_⟩⟩
        exact Finset.mem_filter.2 ⟨Finset.mem_univ _, hc⟩)
    have hf := DpcpView.feasible hv hR.toRequestRun hb hT hWr hle hlen hone hinj hloc' (ws k) (by
      intro v hvs
      have hk := hws k
      unfold rtaTimes at hk
      by_cases hu : useRta = true
      swap
      · rw [if_neg hu, hvs] at hk
        cases hk
      rw [if_pos hu, hvs, Option.map_eq_some_iff] at hk
      obtain ⟨v', hk, hvv⟩ := hk
      cases hvv
      have hw : ∀ y ∈ (info.get k).requests, ∃ w, waitOf v y.resId = some w ∧
          (0 < ownLength (info.get k) y.resId → nextWait info l (info.get k) y.resId w ≤ w) := by
        intro y hy
        obtain ⟨b, hb1, hb2⟩ := hfix hu _ (List.get_mem info k) y hy
        exact waitTime_fix hT hb1 hb2 (waits_of hk hy)
      refine ⟨fun q => (waitOf v q).getD 0, fun y hy => ?_, fun s c u hs hd hu' a ha => ?_⟩
      · obtain ⟨w, hw1, _⟩ := hw y hy
        simp only [hw1, Option.getD_some]
      · simp only
        rw [hs] at ha
        obtain ⟨w, hw1, hw2⟩ := hw a (List.mem_of_getElem? ha)
        rw [hw1, Option.getD_some]
        refine wait_lt hR hb hT hWr hone hinj hloc' hd hu' (a := a) (by rw [hs]; exact ha) ?_
        rw [hs]
        exact hw2) (partObjective info k (info.get k))
    have hch := hv.charge hR.toRequestRun hb hT hWr hle hlen
    have h1 := hmax k _ hf _ (hv.objective_le hch hone)
    have h2 := hrt k
    refine le_trans (le_of_eq ?_) (h1.trans (show (B k).total ≤ (B k).remote + ((B k).total - (B k).remote) by omega))
    congr)
    (R.work.release (i, q) + W i + 1) (i, q) (Nat.lt_succ_self _)
  refine hb.mono ?_
  have : ((R.work.release (i, q) + W i : ℕ) : ℚ) ≤ t := by push_cast; exact ht
  exact_mod_cast this

/-- **C106** (with the same restrictions): in particular, if the blocking bounds assume that response times equal
deadlines (or more), then no deadline is missed. -/
theorem C106_lp_dpcp_schedulable_partial (info : Info) (solve : Solver)
    (hsolve : ∀ P x, solve P = some x → P.Maximum x)
    (mapping : List (ℕ × ℕ)) (loc : ℕ → ℕ) (useRta : Bool) (fuel : ℕ)
    (hT : ∀ t ∈ info, 0 < t.period ∧ t.deadline ≤ t.response)
    (hn : (mapping.map Prod.fst).Nodup) (hloc : ∀ t ∈ info, ∀ r ∈ t.requests, (r.resId, loc r.resId) ∈ mapping)
    (hone : ∀ t ∈ info, (t.requests.map Request.resId).Nodup)
    (huniq : (info.map TaskInfo.priority).Nodup)
    (hprio : info.Pairwise (fun a b => a.cluster = b.cluster → a.priority < b.priority))
    (hfix : useRta = true → ∀ t ∈ info, ∀ r ∈ t.requests,
      ∃ w ≤ t.response, nextWait info (topology mapping) t r.resId w ≤ w)
    (bs : List SemBounds) (hbs : lpDpcpBounds solve info mapping useRta fuel = some bs)
    (hgap : ∀ i : Fin info.length, ∀ b, bs[(i : ℕ)]? = some b → b.remote = 0 →
      ∀ r ∈ (info.get i).requests, loc r.resId = (info.get i).cluster)
    (h : ∀ t ∈ info, (Fp.boundResponseTimes fuel 1 (afterSemBounds info bs t.cluster)).map Prod.fst = some true)
    (R : LockRun info.length) (hR : DpcpPrompt (system info) (fun i => (info.get i).priority) loc R) :
    MeetsDeadlines R.work (system info).deadline R.sched := by
  obtain ⟨resp, _, h2, h3⟩ := C106_lp_dpcp_safe_partial info solve hsolve mapping loc useRta fuel
    (fun t ht => (hT t ht).1) hn hloc hone huniq hprio hfix bs hbs hgap
    (fun k => ((Fp.boundResponseTimes fuel 1 (afterSemBounds info bs k)).getD (true, [])).2) (by
      intro t ht
      have := h t ht
      rw [Option.map_eq_some_iff] at this
      obtain ⟨⟨b, l⟩, hb, rfl⟩ := this
      rw [hb]
      rfl)
  rintro ⟨i, q⟩
  refine h3 (fun i => (h2 i).trans ?_) R hR i q _ ?_
  · exact_mod_cast (hT _ (List.get_mem info i)).2
  · have := h2 i
    change _ ≤ ((R.work.release (i, q) + (info.get i).deadline : ℕ) : ℚ)
    push_cast
    linarith

end Verif.SR.Lp
