/-
C153: the analysis of preemptive spin locks without any order of the requests compared with others.
-/
import Verif.Model.LpSpinPreemptUnordered
import Verif.Props.LpSpinPrio
import Verif.Props.LpSpinPreemptPrioExample

namespace Verif.SR.Lp
open Verif.Spec

section
variable {info : Info} {i : ℕ} {ti : TaskInfo} {fuel : ℕ} {x : Key → ℚ}

theorem included_foldlM {α : Type} {f : Program → α → Option Program} (hf : ∀ P a Q, f P a = some Q → Extends P Q)
    {l : List α} {a : α} (ha : a ∈ l) : ∀ {P Q : Program}, l.foldlM f P = some Q →
    ∃ P' Q', f P' a = some Q' ∧ Included Q' Q := by
  induction l with
  | nil => cases ha
  | cons b l ih =>
    intro P Q h
    rw [List.foldlM_cons] at h
    obtain ⟨R, h1, h2⟩ := Option.bind_eq_some_iff.1 h
    rcases List.mem_cons.1 ha with rfl | ha
    · exact ⟨P, R, h1, (extends_foldlM hf l R Q h2).incl⟩
    · exact ih ha h2

theorem feasible_foldlM {α : Type} {f : Program → α → Option Program} {l : List α}
    (hf : ∀ a ∈ l, ∀ P Q, f P a = some Q → P.Feasible x → Q.Feasible x) : ∀ {P Q : Program}, l.foldlM f P = some Q →
    P.Feasible x → Q.Feasible x := by
  induction l with
  | nil =>
    intro P Q h hP
    simp only [List.foldlM_nil, Option.pure_def, Option.some.injEq] at h
    rwa [← h]
  | cons b l ih =>
    intro P Q h hP
    rw [List.foldlM_cons] at h
    obtain ⟨R, h1, h2⟩ := Option.bind_eq_some_iff.1 h
    exact ih (fun a ha => hf a (List.mem_cons_of_mem _ ha)) h2 (hf b List.mem_cons_self P R h1 hP)

theorem extends_preemptUnorderedFor (q w : ℕ) (P : Program) : Extends P (preemptUnorderedFor info ti q w P) :=
  extends_foldl (fun P c => extends_foldl (fun P t => extends_addInequality P _ _) c P) _ P

theorem extends_preemptUnorderedStep (P : Program) (q : ℕ) (Q : Program)
    (h : (preemptWaitBound fuel info ti q).map (fun w => preemptUnorderedFor info ti q w P) = some Q) : Extends P Q := by
  obtain ⟨w, _, rfl⟩ := Option.map_eq_some_iff.1 h
  exact extends_preemptUnorderedFor q w P

theorem preemptUnorderedProgram_eq {P : Program} (h : preemptUnorderedProgram fuel info i ti = some P) :
    ∃ Q, P = setObjective info i ti Q ∧ preemptUnorderedConstraints fuel info ti
      (noRemoteArrivalConstraints info ti (commonConstraints info i ti {})) = some Q ∧
      Extends (noRemoteArrivalConstraints info ti (commonConstraints info i ti {})) Q := by
  unfold preemptUnorderedProgram at h
  obtain ⟨Q, h1, h2⟩ := Option.map_eq_some_iff.1 h
  exact ⟨Q, h2.symm, h1, extends_foldlM extends_preemptUnorderedStep _ _ _ h1⟩

theorem Extends.feasible {P Q : Program} (h : Extends P Q) (hf : Q.Feasible x) : P.Feasible x :=
  ⟨fun c hc => hf.eq c (h.incl.eq c hc), fun c hc => hf.le c (h.incl.le c hc),
    fun k hk => hf.integer k (h.incl.integer k hk), fun k hk => hf.binary k (h.incl.binary k hk),
    fun k hk => hf.range k (by rwa [h.integers])⟩

/-- The two loops for the wait for a resource. -/
theorem waitLoop_eq (q : ℕ) : ∀ f e n, waitLoop info ti q f e n = prioLoop ti.period (waitStep info ti q) f e n := by
  intro f
  induction f with
  | zero => intro e n; rfl
  | succ f ih =>
    intro e n
    unfold waitLoop prioLoop
    rw [ih]

end

/-- **C153**, part: with solvers that find optimal solutions, the bound of a task for preemptive spin locks without order is
at most that for spin locks of which nothing is known. -/
theorem C153_le_baseline_partial (info : Info) (fuel : ℕ) (s s' : Solver)
    (hs : ∀ P x, s P = some x → P.Maximum x) (hs' : ∀ P x, s' P = some x → P.Maximum x) (bs bs' : List ℕ)
    (h : preemptUnorderedBounds fuel s info = some bs) (h' : baselineBounds s' info = some bs') (i b b' : ℕ)
    (hi : i < info.length) (hb : bs[i]? = some b) (hb' : bs'[i]? = some b') : b ≤ b' := by
  have ht : info[i]? = some info[i] := List.getElem?_eq_getElem hi
  obtain ⟨P, hP, hs1⟩ := Option.bind_eq_some_iff.1 (getElem_bounds h ht hb)
  obtain ⟨Q, rfl, _, hQ⟩ := preemptUnorderedProgram_eq hP
  have hE := (extends_noRemote (commonConstraints info i info[i] {})).trans hQ
  refine solved_le hs hs' (fun x hx => ⟨x, feasible_setObjective (hE.feasible (feasible_of_setObjective hx)),
    le_of_eq ?_⟩) hs1 (getElem_bounds h' ht hb')
  unfold setObjective
  dsimp only
  rw [hE.objective]

section
variable {info : Info} {i : ℕ} {ti : TaskInfo} {fuel : ℕ} {x : Key → ℚ}

theorem feasible_nonneg {P : Program} (h : P.Feasible x) (k : Key) : 0 ≤ x k := by
  by_cases hk : k ∈ P.integers
  · obtain ⟨n, hn⟩ := h.integer k hk
    rw [hn]
    exact Nat.cast_nonneg n
  · exact (h.range k hk).1

theorem localHigher_alone (hone : ∀ t ∈ info, t.cluster = ti.cluster → t = ti) : localHigher info ti = [] := by
  refine List.filter_eq_nil_iff.2 (fun t ht hc => ?_)
  simp only [decide_eq_true_eq] at hc
  obtain ⟨k, rfl⟩ := mem_tasks.1 ht
  have := hone _ (List.get_mem info k) hc.1
  have h2 := hc.2
  dsimp only at h2
  rw [this] at h2
  exact lt_irrefl _ h2

theorem mem_localHp_alone (hmem : ti ∈ info) (hone : ∀ t ∈ info, t.cluster = ti.cluster → t = ti) {q : ℕ} :
    q ∈ localHpResources info ti ↔ ∃ r ∈ ti.requests, r.resId = q := by
  unfold localHpResources
  simp only [List.mem_flatMap, List.mem_filter, List.mem_map, decide_eq_true_eq, not_or, not_not, not_lt]
  constructor
  · rintro ⟨t, ⟨ht, hc, _⟩, r, hr, rfl⟩
    rw [hone t ht hc] at hr
    exact ⟨r, hr, rfl⟩
  · rintro ⟨r, hr, rfl⟩
    exact ⟨ti, ⟨hmem, rfl, le_refl _⟩, r, hr, rfl⟩

/-- The wait of a task that is alone on its processor and uses one resource is as for non-preemptive spin locks. -/
theorem preemptWaitBound_alone (hmem : ti ∈ info) (hone : ∀ t ∈ info, t.cluster = ti.cluster → t = ti)
    (hres : ∀ r ∈ ti.requests, ∀ r' ∈ ti.requests, r.resId = r'.resId) {q : ℕ} (hq : ∃ r ∈ ti.requests, r.resId = q) :
    preemptWaitBound fuel info ti q = waitBound fuel info ti q := by
  have hm : ∀ p, p ∈ localHpResources info ti ↔ p = q := by
    intro p
    rw [mem_localHp_alone hmem hone]
    constructor
    · rintro ⟨r, hr, rfl⟩
      obtain ⟨r', hr', rfl⟩ := hq
      exact hres r hr r' hr'
    · rintro rfl
      exact hq
  have hI : ∀ w, hpInterference info ti w = 0 := by
    intro w
    unfold hpInterference
    rw [localHigher_alone hone]
    rfl
  have hstep : ∀ e, delayByUrgent (remoteFor info ti (fun p => p = q)) e + 1 = waitStep info ti q e := by
    intro e
    unfold delayByUrgent remoteFor waitStep
    simp only [List.map_flatMap, List.map_map, Function.comp_def, decide_eq_true_eq]
  unfold preemptWaitBound waitBound
  simp only [hm, or_self, hI, add_zero, hstep, waitLoop_eq]
  congr 2
  unfold remoteFor
  simp only [List.map_flatMap, List.map_map, Function.comp_def, decide_eq_true_eq]

theorem countLocalHp_alone (hone : ∀ t ∈ info, t.cluster = ti.cluster → t = ti) {q : ℕ}
    (hq : ¬ ∃ r ∈ ti.requests, r.resId = q) : countLocalHpReqs info ti q = 0 := by
  unfold countLocalHpReqs
  rw [List.filter_eq_nil_iff.2, List.filter_eq_nil_iff.2]
  · rfl
  · intro t ht hc
    simp only [decide_eq_true_eq] at hc
    rw [hone t ht hc.1] at hc
    exact lt_irrefl _ hc.2
  · intro r hr hc
    exact hq ⟨r, hr, by simpa using hc⟩

theorem preemptUnordered_unordered (hmem : ti ∈ info) (hone : ∀ t ∈ info, t.cluster = ti.cluster → t = ti)
    (hres : ∀ r ∈ ti.requests, ∀ r' ∈ ti.requests, r.resId = r'.resId) {P P' : Program}
    (hP : preemptUnorderedConstraints fuel info ti
      (noRemoteArrivalConstraints info ti (commonConstraints info i ti {})) = some P)
    (hP' : unorderedConstraints fuel info ti (commonConstraints info i ti {}) = some P') (hx : P.Feasible x) :
    P'.Feasible x := by
  have hE := extends_foldlM extends_preemptUnorderedStep _ _ _ hP
  have hnn := feasible_nonneg hx
  refine feasible_foldlM (fun q hq R S hS hR => ?_) hP' ((((extends_noRemote _).trans hE).feasible hx))
  obtain ⟨w, hw, rfl⟩ := Option.map_eq_some_iff.1 hS
  obtain ⟨A, B, hB, hinc⟩ := included_foldlM extends_preemptUnorderedStep hq hP
  obtain ⟨w', hw', rfl⟩ := Option.map_eq_some_iff.1 hB
  unfold unorderedFor
  refine feasible_foldl (fun c hc R hR => feasible_foldl (fun t ht R hR => ?_) hR) hR
  dsimp only
  split_ifs with he
  · exact hR
  have hd : termSum x (varsFor ti .direct q [t]) ≤ (numReqsIn t.2 q w' * countLocalHpReqs info ti q : ℕ) := by
    refine hx.le (_, _) (hinc.le _ ?_)
    unfold preemptUnorderedFor
    refine mem_foldl (fun P _ => included_foldl (fun P _ => included_addInequality P _ _) _ P) hc (fun P => ?_) _
    refine mem_foldl (fun P _ => included_addInequality P _ _) ht (fun P => ?_) _
    exact mem_addInequality _ _ (by simpa using he)
  have hcl : t ∈ tasks info ∧ t.2.cluster ≠ ti.cluster := by
    obtain ⟨k, hk, rfl⟩ := mem_otherClusters hc
    rw [List.mem_filter] at ht
    refine ⟨ht.1, ?_⟩
    have := ht.2
    simp only [decide_eq_true_eq] at this
    rw [this]
    exact hk
  have ha : termSum x (varsFor ti arrival q [t]) ≤ 0 := by
    by_cases he : varsFor ti arrival q [t] = []
    · rw [he]; exact le_of_eq rfl
    refine hx.le (varsFor ti arrival q [t], 0) (hE.incl.le _ ?_)
    refine mem_foldl (fun P _ => included_foldl (fun P _ => included_addInequality P _ _) _ P) hq (fun P => ?_) _
    refine mem_foldl (fun P _ => included_addInequality P _ _) hcl.1 (fun P => ?_) _
    rw [if_pos hcl.2]
    exact mem_addInequality _ _ he
  refine feasible_addInequality (feasible_addInequality hR ?_) ?_
  · by_cases hu : ∃ r ∈ ti.requests, r.resId = q
    · rw [preemptWaitBound_alone hmem hone hres hu, hw] at hw'
      rw [Option.some.inj hw']
      exact hd
    · rw [countLocalHp_alone hone hu] at hd ⊢
      simpa using hd
  · rw [termSum_append]
    have h3 : termSum x [(-(numReqsIn t.2 q w : ℚ), arrivalEnabled q)] ≤ 0 := by
      have := mul_nonneg (Nat.cast_nonneg (α := ℚ) (numReqsIn t.2 q w)) (hnn (arrivalEnabled q))
      simp only [termSum, List.map_cons, List.map_nil, List.sum_cons, List.sum_nil]
      linarith
    linarith

end

/-- **C153**, part: if a task is alone on its processor and all its requests are for one resource, its bound for preemptive
spin locks without order is at most that for non-preemptive ones.  For several resources this is false, see
`C153_not_preempted_violated`. -/
theorem C153_one_resource_partial (info : Info) (fuel : ℕ) (s s' : Solver)
    (hs : ∀ P x, s P = some x → P.Maximum x) (hs' : ∀ P x, s' P = some x → P.Maximum x) (bs bs' : List ℕ)
    (h : preemptUnorderedBounds fuel s info = some bs) (h' : unorderedBounds fuel s' info = some bs') (i b b' : ℕ)
    (hi : i < info.length) (hone : ∀ j, ∀ hj : j < info.length, info[j].cluster = info[i].cluster → j = i)
    (hres : ∀ r ∈ info[i].requests, ∀ r' ∈ info[i].requests, r.resId = r'.resId)
    (hb : bs[i]? = some b) (hb' : bs'[i]? = some b') : b ≤ b' := by
  have ht : info[i]? = some info[i] := List.getElem?_eq_getElem hi
  obtain ⟨P, hP, hs1⟩ := Option.bind_eq_some_iff.1 (getElem_bounds h ht hb)
  obtain ⟨P', hP', hs2⟩ := Option.bind_eq_some_iff.1 (getElem_bounds h' ht hb')
  obtain ⟨Q, rfl, hQc, hQ⟩ := preemptUnorderedProgram_eq hP
  unfold unorderedProgram at hP'
  obtain ⟨Q', hQ'c, rfl⟩ := Option.map_eq_some_iff.1 hP'
  have hE := (extends_noRemote (commonConstraints info i info[i] {})).trans hQ
  have hone' : ∀ t ∈ info, t.cluster = info[i].cluster → t = info[i] := by
    intro t ht hc
    obtain ⟨j, hj, rfl⟩ := List.getElem_of_mem ht
    have := hone j hj hc
    subst this
    rfl
  have hobj : Q'.objective = (commonConstraints info i info[i] {}).objective := by
    have hstep : ∀ (l : List ℕ) (A B : Program), l.foldlM (fun lp q => (waitBound fuel info info[i] q).map
        (fun w => unorderedFor info info[i] q w lp)) A = some B → B.objective = A.objective := by
      intro l
      induction l with
      | nil =>
        intro A B hAB
        simp only [List.foldlM_nil, Option.pure_def, Option.some.injEq] at hAB
        rw [hAB]
      | cons a l ih =>
        intro A B hAB
        rw [List.foldlM_cons] at hAB
        obtain ⟨C, h1, h2⟩ := Option.bind_eq_some_iff.1 hAB
        obtain ⟨w, _, rfl⟩ := Option.map_eq_some_iff.1 h1
        rw [ih _ _ h2, objective_unordered]
    exact hstep _ _ _ hQ'c
  refine solved_le hs hs' (fun x hx => ⟨x, feasible_setObjective (preemptUnordered_unordered (List.getElem_mem hi) hone' hres
    hQc hQ'c (feasible_of_setObjective hx)), le_of_eq ?_⟩) hs1 hs2
  unfold setObjective
  dsimp only
  rw [hE.objective, hobj]

/-- The bound on the wait for a resource used in C153 is the response-time bound of the task, or 0, or a fixed point: all
requests of other processors, for the resource or for one used by the task or a task of its processor whose priority is not
lower, that may be issued in an interval of that length, the execution of all tasks of its processor of higher priority, and
one time unit.  The wait is 0 only if there are no such requests and tasks of higher priority do not execute. -/
theorem C153_wait_fixed_point (fuel : ℕ) (info : Info) (ti : TaskInfo) (res w : ℕ)
    (h : preemptWaitBound fuel info ti res = some w) :
    let used : ℕ → Prop := fun q => ∃ t ∈ info, t.cluster = ti.cluster ∧ t.priority ≤ ti.priority ∧
      ∃ r ∈ t.requests, r.resId = q
    w = ti.response ∨
    (w = 0 ∧ (∀ t ∈ info, t.cluster ≠ ti.cluster → ∀ r ∈ t.requests, used r.resId → r.length * r.num = 0) ∧
      ∀ t ∈ info, t.cluster = ti.cluster → t.priority < ti.priority → localJobs t ti.response * t.cost = 0) ∨
    ∃ rs : List (TaskInfo × Request),
      (∀ t r, (t, r) ∈ rs ↔ t ∈ info ∧ t.cluster ≠ ti.cluster ∧ r ∈ t.requests ∧ (used r.resId ∨ r.resId = res)) ∧
      w = (rs.map (fun r => r.2.length * (r.1.maxNumJobs w * r.2.num))).sum +
        ((info.filter (fun t => t.cluster = ti.cluster ∧ t.priority < ti.priority)).map
          (fun t => localJobs t w * t.cost)).sum + 1 := by
  intro used
  have hused : ∀ q, q ∈ localHpResources info ti ↔ used q := by
    intro q
    unfold localHpResources
    simp only [List.mem_flatMap, List.mem_filter, List.mem_map, decide_eq_true_eq, not_or, not_not, not_lt, used]
    constructor
    · rintro ⟨t, ⟨ht, h1, h2⟩, r, hr, rfl⟩
      exact ⟨t, ht, h1, h2, r, hr, rfl⟩
    · rintro ⟨t, ht, h1, h2, r, hr, rfl⟩
      exact ⟨t, ⟨ht, h1, h2⟩, r, hr, rfl⟩
  have hI : ∀ e, hpInterference info ti e = ((info.filter (fun t => t.cluster = ti.cluster ∧ t.priority < ti.priority)).map
      (fun t => localJobs t e * t.cost)).sum := by
    intro e
    unfold hpInterference localHigher
    have h2 : (tasks info).map Prod.snd = info := by
      rw [tasks_eq, List.map_map]
      exact List.ext_getElem (by simp) (by simp)
    conv_rhs => rw [← h2]
    rw [List.filter_map, List.map_map]
    rfl
  unfold preemptWaitBound at h
  simp only [Option.map_eq_some_iff] at h
  obtain ⟨e, he, hw⟩ := h
  cases fuel with
  | zero => simp [prioLoop] at he
  | succ n =>
    set init := ((remoteFor info ti (fun q => q ∈ localHpResources info ti)).map (fun r => r.2.length * r.2.num)).sum +
      hpInterference info ti ti.response with hinit
    by_cases h0 : init = 0
    · rw [prioLoop, if_neg (by rw [h0]; simp)] at he
      obtain rfl := Option.some.inj he
      rw [if_pos (Nat.zero_le _)] at hw
      obtain ⟨h1, h2⟩ := Nat.add_eq_zero_iff.1 (hinit.symm.trans h0)
      refine Or.inr (Or.inl ⟨hw.symm, fun t ht hc r hr hu => ?_, fun t ht hc hp => ?_⟩)
      · refine List.sum_eq_zero_iff.1 h1 _ (List.mem_map.2 ⟨(t, r), ?_, rfl⟩)
        unfold remoteFor
        simp only [List.mem_flatMap, List.mem_filter, List.mem_map, decide_eq_true_eq]
        exact ⟨t, ⟨ht, hc⟩, r, ⟨hr, (hused _).2 hu⟩, rfl⟩
      · rw [hI] at h2
        exact List.sum_eq_zero_iff.1 h2 _ (List.mem_map.2 ⟨t, List.mem_filter.2 ⟨ht, by simp [hc, hp]⟩, rfl⟩)
    · rw [prioLoop, if_pos ⟨Nat.zero_le _, fun h => h0 h.symm⟩] at he
      rcases prioLoop_fixed _ _ he with h | h
      · rw [if_neg (by omega)] at hw
        exact Or.inl hw.symm
      · by_cases hp : e ≤ ti.period
        · rw [if_pos hp] at hw
          subst hw
          refine Or.inr (Or.inr ⟨remoteFor info ti (fun q => q ∈ localHpResources info ti ∨ q = res), fun t r => ?_, ?_⟩)
          · unfold remoteFor
            simp only [List.mem_flatMap, List.mem_filter, List.mem_map, decide_eq_true_eq, hused]
            constructor
            · rintro ⟨t', ⟨ht, hc⟩, r', ⟨hr, hu⟩, heq⟩
              obtain ⟨rfl, rfl⟩ := Prod.mk.inj heq
              exact ⟨ht, hc, hr, hu⟩
            · rintro ⟨ht, hc, hr, hu⟩
              exact ⟨t, ⟨ht, hc⟩, r, ⟨hr, hu⟩, rfl⟩
          · rw [← hI]
            exact h
        · rw [if_neg hp] at hw
          exact Or.inl hw.symm

/-- Task 0 of `wideWait` waits up to 24 time units. -/
example : preemptWaitBound 50 wideWait wideWait[0] 0 = some 24 := by decide +kernel

/-- With a task of higher priority on the processor that executes for 4 time units, it waits longer. -/
example : preemptWaitBound 50 (⟨0, 50, 50, 4, 0, 4, []⟩ :: wideWait.map (fun t => { t with priority := t.priority + 1 }))
    ⟨1, 100, 100, 50, 0, 2, [⟨0, 1, 1, false⟩, ⟨1, 1, 1, false⟩]⟩ 0 = some 29 := by decide +kernel

end Verif.SR.Lp
