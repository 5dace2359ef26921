/-
C105: response-time analysis of partitioned fixed-priority scheduling with the MPCP and bounds on blocking that are
computed with linear programs.
-/
import Verif.Lemmas.LpMpcp
import Verif.Props.LpFmlp

namespace Verif.SR.Lp
open Verif.Spec
open Verif.SR.Msrp (system)

theorem objective_mpcp (info : Info) (ds : List (ℕ × Option ℕ)) (i : ℕ) (ti : TaskInfo) (P : Program) :
    (mpcpConstraints info ds i ti P).objective = P.objective := by
  unfold mpcpConstraints remoteConstraint requestIndirect taskIndirect directConstraints lowerShm topologyShm higherShm
    semMutex
  simp only
  rw [objective_addInequality, objective_foldl _ _ _ (fun P t => objective_foldl _ _ _
      (fun P r => objective_addInequality _ _ _)),
    objective_foldl _ _ _ (fun P t => objective_addInequality _ _ _),
    objective_foldl _ _ _ (fun P t => objective_addInequality _ _ _),
    objective_foldl _ _ _ (fun P t => objective_foldl _ _ _ (fun P r => ?_)),
    objective_foldl _ _ _ (fun P t => objective_addInequality _ _ _), objective_addEquality, objective_addEquality,
    objective_foldl _ _ _ (fun P t => objective_foldl _ _ _ (fun P r => objective_foldl _ _ _
      (fun P v => objective_addInequality _ _ _)))]
  by_cases hc : t.2.priority < ti.priority ∧ accessed ti r.resId = true
  · rw [if_pos hc]
    rcases delayOf ds r.resId with _ | e
    · rfl
    · exact objective_addInequality _ _ _
  · rw [if_neg hc]

theorem lrint_mono {a b : ℚ} (h : a ≤ b) : lrint a ≤ lrint b := by
  have hf : ⌊a⌋ ≤ ⌊b⌋ := Int.floor_le_floor h
  have hup : ∀ q : ℚ, lrint q ≤ ⌊q⌋ + 1 := by
    intro q
    unfold lrint
    split_ifs <;> omega
  have hlo : ∀ q : ℚ, ⌊q⌋ ≤ lrint q := by
    intro q
    unfold lrint
    split_ifs <;> omega
  rcases lt_or_eq_of_le hf with hlt | heq
  · have := hup a
    have := hlo b
    omega
  · unfold lrint
    rw [heq]
    split_ifs <;> first | omega | (exfalso; linarith)

theorem Milp.Feasible.nonneg {P : Program} {x : Key → ℚ} (h : P.Feasible x) (v : Key) : 0 ≤ x v := by
  by_cases hv : v ∈ P.integers
  · obtain ⟨n, hn⟩ := h.integer v hv
    rw [hn]
    positivity
  · exact (h.range v hv).1

theorem localObjective_nonneg (info : Info) (i : ℕ) (ti : TaskInfo) {x : Key → ℚ} (hx : ∀ v, 0 ≤ x v) :
    0 ≤ termSum x (localObjective info i ti) := by
  unfold termSum
  apply List.sum_nonneg
  intro c hc
  obtain ⟨t, ht, rfl⟩ := List.mem_map.1 hc
  unfold localObjective blockingTerms terms at ht
  simp only [List.mem_flatMap, List.mem_map] at ht
  obtain ⟨_, _, r, _, v, _, ty, _, rfl⟩ := ht
  exact mul_nonneg (by positivity) (hx _)

/-- What the solutions of a task's programs say. -/
theorem lpMpcpTask_spec {info : Info} {solve : Solver} (hsolve : ∀ P x, solve P = some x → P.Maximum x) {fuel : ℕ}
    {k : Fin info.length} (hs : (lpMpcpTask solve info fuel k (info.get k)).isSome) :
    ∃ ds, remoteDelays info fuel k (info.get k) = some ds ∧ ∃ B ∈ lpMpcpTask solve info fuel k (info.get k),
      B.remote ≤ B.total ∧
      ∀ y, (mpcpConstraints info ds k (info.get k) { objective := partObjective info k (info.get k) }).Feasible y →
        (∀ v : ℕ, (v : ℚ) ≤ termSum y (partObjective info k (info.get k)) → v ≤ B.total) ∧
        (1 ≤ termSum y (remoteObjective info k (info.get k)) → B.remote ≠ 0) := by
  unfold lpMpcpTask at hs ⊢
  rcases hd : remoteDelays info fuel k (info.get k) with _ | ds
  · rw [hd] at hs
    cases hs
  refine ⟨ds, rfl, ?_⟩
  simp only [hd, Option.bind_eq_bind, Option.bind_some] at hs ⊢
  set P := mpcpConstraints info ds k (info.get k) { objective := partObjective info k (info.get k) } with hP
  have hobj : P.objective = partObjective info k (info.get k) := by rw [hP, objective_mpcp]
  rcases hx : solve P with _ | x
  · simp only [hx] at hs
    cases hs
  simp only [hx, Option.bind_some] at hs ⊢
  rcases hy : solve { P with objective := remoteObjective info k (info.get k) } with _ | z
  · simp only [hy] at hs
    cases hs
  have hmax := hsolve _ _ hx
  have hmaz := hsolve _ _ hy
  have hfz : P.Feasible z := ⟨hmaz.feasible.eq, hmaz.feasible.le, hmaz.feasible.integer, hmaz.feasible.binary,
    hmaz.feasible.range⟩
  refine ⟨⟨_, _, _⟩, by rw [Option.mem_def]; simp only [Option.bind_some]; rfl, ?_, fun y hy => ⟨fun v hv => ?_, fun hr => ?_⟩⟩
  · simp only
    apply Int.toNat_le_toNat
    apply lrint_mono
    refine le_trans ?_ (hmax.best z hfz)
    rw [hobj, objective_split]
    have := localObjective_nonneg info k (info.get k) (Milp.Feasible.nonneg hfz)
    linarith
  · simp only
    refine le_lrint (hv.trans ?_)
    rw [← hobj]
    exact hmax.best y hy
  · have hfy : ({ P with objective := remoteObjective info k (info.get k) } : Program).Feasible y :=
      ⟨hy.eq, hy.le, hy.integer, hy.binary, hy.range⟩
    have h1 := hmaz.best y hfy
    have : 1 ≤ (lrint (termSum z (remoteObjective info k (info.get k)))).toNat := by
      apply le_lrint
      push_cast
      exact hr.trans h1
    simp only
    omega

/-- The values that are looked up. -/
theorem delays_of {info : Info} {fuel : ℕ} {k : Fin info.length} {ds : List (ℕ × Option ℕ)}
    (hd : remoteDelays info fuel k (info.get k) = some ds) {E : ℕ → ℕ}
    (hE : ∀ r ∈ (info.get k).requests, remoteDelay info fuel k (info.get k) r.resId = some (some (E r.resId))) :
    Delays info ds E k := by
  unfold remoteDelays at hd
  intro a ha
  generalize (info.get k).requests = l at hd hE ha
  have hds : ds = l.map (fun r => (r.resId, some (E r.resId))) := by
    have : l.mapM (fun r => (remoteDelay info fuel k (info.get k) r.resId).map (fun d => (r.resId, d))) =
        some (l.map (fun r => (r.resId, some (E r.resId)))) := by
      clear hd ha
      induction l with
      | nil => rfl
      | cons b l ih =>
        rw [List.mapM_cons, hE b (List.mem_cons_self ..), ih (fun r hr => hE r (List.mem_cons_of_mem _ hr))]
        rfl
    rw [this] at hd
    exact (Option.some.inj hd).symm
  subst hds
  unfold delayOf
  clear hd hE
  induction l with
  | nil => cases ha
  | cons b l ih =>
    rw [List.map_cons, List.lookup_cons]
    by_cases hab : a.resId = b.resId
    · rw [hab]
      simp
    · rw [beq_eq_false_iff_ne.2 hab]
      rcases List.mem_cons.1 ha with rfl | ha
      · exact absurd rfl hab
      · exact ih ha

/-- **C105** (for tasks of one processor that do not share resources, and for iterations that have ended at a fixed
point): let the response-time analysis accept the tasks of each processor after `apply_lp_mpcp_bounds`, let the solver
find optimal solutions, and let no computed response time exceed the one assumed in the computation of the bounds.
Then in every run of partitioned fixed-priority scheduling with the MPCP no job takes longer than the computed response
time, which is at most the deadline.  The priorities are unique and decrease on each processor in the order of the
tasks, and each task has at most one request entry per resource.

The two additional hypotheses `hsep` and `hfix` are necessary: see `C105_arrivals_violated` and
`C105_delay_violated`. -/
theorem C105_lp_mpcp_safe_partial (info : Info) (solve : Solver) (hsolve : ∀ P x, solve P = some x → P.Maximum x)
    (fuel : ℕ) (hT : ∀ t ∈ info, 0 < t.period)
    (hone : ∀ t ∈ info, (t.requests.map Request.resId).Nodup)
    (huniq : (info.map TaskInfo.priority).Nodup)
    (hprio : info.Pairwise (fun a b => a.cluster = b.cluster → a.priority < b.priority))
    (hsep : info.Pairwise (fun a b => a.cluster = b.cluster →
      ∀ r ∈ a.requests, ∀ r' ∈ b.requests, r.resId ≠ r'.resId))
    (hfix : ∀ i : Fin info.length, ∀ r ∈ (info.get i).requests, ∃ e,
      remoteDelay info fuel i (info.get i) r.resId = some (some e) ∧ nextDelay info i (info.get i) r.resId e = e)
    (bs : List SemBounds) (hbs : lpMpcpBounds solve info fuel = some bs) (done : ℕ → List (Fp.FpTask × ℚ))
    (h : ∀ t ∈ info, Fp.boundResponseTimes fuel 1 (afterSemBounds info bs t.cluster) = some (true, done t.cluster)) :
    ∃ resp : Fin info.length → ℚ,
      (∀ t ∈ info, (done t.cluster).map Prod.snd =
        ((List.finRange info.length).filter (fun i => (info.get i).cluster = t.cluster)).map resp) ∧
      (∀ i, resp i ≤ (info.get i).deadline) ∧
      ((∀ i, resp i ≤ (info.get i).response) →
        ∀ R, Spec.Mpcp (system info) (fun i => (info.get i).priority) R → ∀ i (q t : ℕ),
          (R.work.release (i, q) : ℚ) + resp i ≤ t → Completed R.work R.sched (i, q) t) := by
  classical
  obtain ⟨e, hsome⟩ := semBounds_eq hbs
  set B : Fin info.length → SemBounds := fun i => (lpMpcpTask solve info fuel i (info.get i)).getD ⟨0, 0, 0⟩ with hBd
  have hspec : ∀ k : Fin info.length, ∃ ds, remoteDelays info fuel k (info.get k) = some ds ∧
      (B k).remote ≤ (B k).total ∧
      ∀ y, (mpcpConstraints info ds k (info.get k) { objective := partObjective info k (info.get k) }).Feasible y →
        (∀ v : ℕ, (v : ℚ) ≤ termSum y (partObjective info k (info.get k)) → v ≤ (B k).total) ∧
        (1 ≤ termSum y (remoteObjective info k (info.get k)) → (B k).remote ≠ 0) := by
    intro k
    obtain ⟨ds, hds, b, hb, h1, h2⟩ := lpMpcpTask_spec hsolve (hsome k)
    have : B k = b := by
      simp only [hBd]
      rw [Option.mem_def] at hb
      rw [hb]
      rfl
    rw [this]
    exact ⟨ds, hds, h1, h2⟩
  choose ds hds hrt hmax using hspec
  -- the bounds on the delay of single requests
  let E : Fin info.length → ℕ → ℕ := fun k q => ((remoteDelay info fuel k (info.get k) q).getD none).getD 0
  have hE : ∀ k : Fin info.length, ∀ r ∈ (info.get k).requests,
      remoteDelay info fuel k (info.get k) r.resId = some (some (E k r.resId)) ∧
      nextDelay info k (info.get k) r.resId (E k r.resId) = E k r.resId := by
    intro k r hr
    obtain ⟨e, h1, h2⟩ := hfix k r hr
    have : E k r.resId = e := by simp only [E, h1]; rfl
    rw [this]
    exact ⟨h1, h2⟩
  have hdel : ∀ k, Delays info (ds k) (E k) k := fun k => delays_of (hds k) (fun r hr => (hE k r hr).1)
  have hinj : Function.Injective (fun i : Fin info.length => (info.get i).priority) := by
    intro a b hab
    have h1 : (info.map TaskInfo.priority)[(a : ℕ)]? = some (info.get a).priority := by
      rw [List.getElem?_map, fin_get?]; rfl
    have h2 : (info.map TaskInfo.priority)[(b : ℕ)]? = some (info.get b).priority := by
      rw [List.getElem?_map, fin_get?]; rfl
    simp only at hab
    rw [← hab] at h2
    exact Fin.ext ((List.getElem?_inj (List.getElem?_eq_some_iff.1 h1).1 huniq).1 (h1.trans h2.symm))
  have hns : NoLocalSharing info := by
    intro x y hne hc r hr r' hr'
    rcases lt_trichotomy x y with hxy | hxy | hxy
    · exact (List.pairwise_iff_get.1 hsep) x y hxy hc r hr r' hr'
    · exact absurd hxy hne
    · exact fun hh => (List.pairwise_iff_get.1 hsep) y x hxy hc.symm r' hr' r hr hh.symm
  obtain ⟨W, hdone, hW, hsafe⟩ := part_one_safe info (fun i => (B i).remote) (fun i => (B i).total - (B i).remote) fuel
    hT hprio done (by
      intro t ht
      rw [← afterSemBounds_eq info B hrt bs e]
      exact h t ht)
  refine ⟨fun i => (W i : ℚ), hdone, fun i => ?_, fun hresp R hR i q t ht => ?_⟩
  · have := (hW i).1
    change ((W i : ℕ) : ℚ) ≤ _
    exact_mod_cast this
  have hWr : ∀ i, W i ≤ (info.get i).response := fun i => by
    have : ((W i : ℕ) : ℚ) ≤ _ := hresp i
    exact_mod_cast this
  have hb := hsafe _ R hR.toRequestRun (by
    intro H k q0 q1 a hb hwin hown hle
    have hEs : ∀ s : Section info.length, ∀ r, (info.get s.job.1).requests[s.idx]? = some r →
        ∀ t, t < H → R.Waits s t → t < R.enter s + E s.job.1 r.resId := fun s r hr t ht hw =>
      wait_slot hR hb hT hone hinj hWr hr (hE _ r (List.mem_of_getElem? hr)).2 ht hw
    have hZ : ∀ s u, (s.job.1 ∈ higher info k ∧ (B s.job.1).remote = 0) → u < H → ¬ R.Waits s u := by
      intro s u hs hu hw
      obtain ⟨z, ty, hv, hne⟩ := mpcp_remote_view (E := E s.job.1) hR hns hw (fun r hr => hEs s r hr u hu hw)
      have hru := lt_of_pending hb hu (hR.waits_ready hw).1.2
      have hrs := (hR.waits_ready hw).1.1
      have hlen : u + 1 - u ≤ (info.get s.job.1).response := by
        have := hWr s.job.1
        omega
      have hf := hv.feasible hR hb hT hWr hu hlen hone hinj (hdel s.job.1)
        (fun s' hs' r hr t ht hw => hs' ▸ hEs s' r hr t ht hw) (partObjective info s.job.1 (info.get s.job.1))
      have hch := hv.charge hR.toPartRun hb hT hWr hu hlen
      refine (hmax s.job.1 _ hf).2 ?_ hs.2
      have h1 := hch.objective_le hone
      rw [objective_split, Finset.card_singleton] at h1
      have h2 : termSum (assignment s.job.1 {u} (fun _ => z) (fun _ => ty))
          (localObjective info s.job.1 (info.get s.job.1)) = 0 := by
        apply termSum_zero
        intro e he
        obtain ⟨y, hy, het⟩ := blockingTerms_task he
        obtain ⟨hy, hc⟩ := List.mem_filter.1 hy
        obtain ⟨x, rfl⟩ := mem_others hy
        unfold assignment
        apply share_zero
        rw [Finset.eq_empty_iff_forall_notMem]
        intro v hv
        obtain ⟨_, h4, _⟩ := mem_slots.1 hv
        apply hne
        rw [show z.job.1 = x from Fin.ext (h4.trans het)]
        simpa using hc
      rw [h2] at h1
      push_cast at h1
      linarith
    have hlen : a + W k - a ≤ (info.get k).response := by
      have := hWr k
      omega
    obtain ⟨sec, kind, hv⟩ := mpcp_window_view (E := E k) hR hns hb hT hWr (fun i => (hW i).2.1) hone hwin hle hlen hown
      (fun i _ h2 => hinj h2) (fun s hs r hr t ht hw => hs ▸ hEs s r hr t ht hw)
      (fun i hi => (Finset.mem_filter.1 hi.1).2) hZ
      (V := (Finset.Ico a (a + W k)).filter (fun t => ∀ j ∈ R.sched t, j.1 ≠ k ∧ j.1 ∉ higher info k)) (by
        intro t ht
        obtain ⟨h1, h2⟩ := Finset.mem_filter.1 ht
        obtain ⟨h3, h4⟩ := Finset.mem_Ico.1 h1
        refine ⟨h3, h4, fun j hj => ⟨(h2 j hj).1, fun hc => (h2 j hj).2 ?_⟩⟩
        exact Finset.mem_filter.2 ⟨Finset.mem_univ _, hc⟩)
    have hf := hv.feasible hR hb hT hWr hle hlen hone hinj (hdel k)
      (fun s' hs' r hr t ht hw => by
        have := hEs s' r hr t ht hw
        rw [hs'] at this
        exact this) (partObjective info k (info.get k))
    have hch := hv.charge hR.toPartRun hb hT hWr hle hlen
    have h1 := (hmax k _ hf).1 _ (hch.objective_le hone)
    have h2 := hrt k
    refine le_trans (le_of_eq ?_) (h1.trans (show (B k).total ≤ (B k).remote + ((B k).total - (B k).remote) by omega))
    congr)
    (R.work.release (i, q) + W i + 1) (i, q) (Nat.lt_succ_self _)
  refine hb.mono ?_
  have : ((R.work.release (i, q) + W i : ℕ) : ℚ) ≤ t := by push_cast; exact ht
  exact_mod_cast this

/-- **C105** (with the same restrictions): in particular, if the blocking bounds assume that response times equal
deadlines (or more), then no deadline is missed. -/
theorem C105_lp_mpcp_schedulable_partial (info : Info) (solve : Solver)
    (hsolve : ∀ P x, solve P = some x → P.Maximum x)
    (fuel : ℕ) (hT : ∀ t ∈ info, 0 < t.period ∧ t.deadline ≤ t.response)
    (hone : ∀ t ∈ info, (t.requests.map Request.resId).Nodup)
    (huniq : (info.map TaskInfo.priority).Nodup)
    (hprio : info.Pairwise (fun a b => a.cluster = b.cluster → a.priority < b.priority))
    (hsep : info.Pairwise (fun a b => a.cluster = b.cluster →
      ∀ r ∈ a.requests, ∀ r' ∈ b.requests, r.resId ≠ r'.resId))
    (hfix : ∀ i : Fin info.length, ∀ r ∈ (info.get i).requests, ∃ e,
      remoteDelay info fuel i (info.get i) r.resId = some (some e) ∧ nextDelay info i (info.get i) r.resId e = e)
    (bs : List SemBounds) (hbs : lpMpcpBounds solve info fuel = some bs)
    (h : ∀ t ∈ info, (Fp.boundResponseTimes fuel 1 (afterSemBounds info bs t.cluster)).map Prod.fst = some true)
    (R : LockRun info.length) (hR : Spec.Mpcp (system info) (fun i => (info.get i).priority) R) :
    MeetsDeadlines R.work (system info).deadline R.sched := by
  obtain ⟨resp, _, h2, h3⟩ := C105_lp_mpcp_safe_partial info solve hsolve fuel (fun t ht => (hT t ht).1) hone huniq hprio
    hsep hfix bs hbs (fun k => ((Fp.boundResponseTimes fuel 1 (afterSemBounds info bs k)).getD (true, [])).2) (by
      intro t ht
      have := h t ht
      rw [Option.map_eq_some_iff] at this
      obtain ⟨⟨b, l⟩, hb, rfl⟩ := this
      rw [hb]
      rfl)
  rintro ⟨i, q⟩
  refine h3 (fun i => (h2 i).trans ?_) R hR i q _ ?_
  · exact_mod_cast (hT _ (List.get_mem info i)).2
  · have := h2 i
    change _ ≤ ((R.work.release (i, q) + (info.get i).deadline : ℕ) : ℚ)
    push_cast
    linarith

end Verif.SR.Lp
