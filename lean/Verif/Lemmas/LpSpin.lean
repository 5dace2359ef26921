/-
What happens in a run with spin locks is a feasible assignment of the linear programs.
-/
import Verif.Model.LpSpin
import Verif.Lemmas.LpCharge
import Verif.Lemmas.FmlpModel
import Verif.Lemmas.MsrpHolisticModel

namespace Verif.SR.Lp
open Verif.Spec Finset
open Verif.SR.Msrp (system uses_iff)

variable {info : Info} {k : Fin info.length} {V : Finset ℕ} {sec : ℕ → Section info.length}
  {kind : ℕ → BlockingType} {r0 : Option ℕ}

/-- The slots in which a job is delayed due to spin locks.  Direct blocking is due to other processors.  Arrival
blocking is due to a single resource `r0`, which is used by a task of lower priority on the same processor; on this processor
at most one section causes arrival blocking. -/
structure SpinCharge (info : Info) (k : Fin info.length) (V : Finset ℕ) (sec : ℕ → Section info.length)
    (kind : ℕ → BlockingType) (r0 : Option ℕ) : Prop extends Charge info k V sec where
  kinds : ∀ u ∈ V, kind u = .direct ∨ kind u = arrival
  direct : ∀ u ∈ V, kind u = .direct → (info.get (sec u).job.1).cluster ≠ (info.get k).cluster
  lower : ∀ u ∈ V, kind u = arrival → (info.get (sec u).job.1).cluster = (info.get k).cluster →
    (info.get k).priority < (info.get (sec u).job.1).priority
  resource : ∀ u ∈ V, kind u = arrival → ∃ r, r0 = some r ∧ (system info).For (sec u) r
  used : ∀ r, r0 = some r → ∃ x, (info.get x).cluster = (info.get k).cluster ∧
    (info.get k).priority < (info.get x).priority ∧ ∃ a ∈ (info.get x).requests, a.resId = r ∧ 0 < a.num
  conflict : ∀ r, r0 = some r → (system info).Global r ∨
    ∃ y, (system info).Uses y r ∧ (info.get y).priority ≤ (info.get k).priority
  once : ∀ u ∈ V, ∀ v ∈ V, kind u = arrival → kind v = arrival →
    (info.get (sec u).job.1).cluster = (info.get k).cluster →
    (info.get (sec v).job.1).cluster = (info.get k).cluster → sec u = sec v

/-- The values of the variables. -/
noncomputable def assign (k : Fin info.length) (V : Finset ℕ) (sec : ℕ → Section info.length)
    (kind : ℕ → BlockingType) (r0 : Option ℕ) (key : Key) : ℚ :=
  match key.ty with
  | .direct => share k V sec kind .direct key.task key.res
  | .indirect => share k V sec kind arrival key.task key.res
  | .preempt => if r0 = some key.res then 1 else 0
  | .other => 0

theorem assign_direct (x v r : ℕ) : assign k V sec kind r0 ⟨.direct, x, v, r⟩ = share k V sec kind .direct x r := rfl

theorem assign_arrival (x v r : ℕ) : assign k V sec kind r0 ⟨arrival, x, v, r⟩ = share k V sec kind arrival x r := rfl

theorem assign_enabled (r : ℕ) : assign k V sec kind r0 (arrivalEnabled r) = if r0 = some r then 1 else 0 := rfl

theorem assign_binary (r : ℕ) : assign k V sec kind r0 (arrivalEnabled r) = 0 ∨
    assign k V sec kind r0 (arrivalEnabled r) = 1 := by
  rw [assign_enabled]
  split_ifs
  · exact Or.inr rfl
  · exact Or.inl rfl

theorem Charge.assign_range (h : Charge info k V sec) (h1 : OneEntry info) (key : Key) :
    0 ≤ assign k V sec kind r0 key ∧ assign k V sec kind r0 key ≤ 1 := by
  unfold assign
  split
  · exact ⟨share_nonneg, h.share_le h1⟩
  · exact ⟨share_nonneg, h.share_le h1⟩
  · split_ifs
    · exact ⟨zero_le_one, le_rfl⟩
    · exact ⟨le_rfl, zero_le_one⟩
  · exact ⟨le_rfl, zero_le_one⟩

theorem mem_allResources {r : ℕ} : r ∈ allResources info ↔ ∃ x, (system info).Uses x r := by
  unfold allResources
  rw [List.mem_dedup, List.mem_flatMap]
  constructor
  · rintro ⟨t, ht, hr⟩
    obtain ⟨x, rfl⟩ := List.get_of_mem ht
    obtain ⟨a, ha, rfl⟩ := List.mem_map.1 hr
    exact ⟨x, uses_iff.2 ⟨a, ha, rfl⟩⟩
  · rintro ⟨x, hx⟩
    obtain ⟨a, ha, rfl⟩ := uses_iff.1 hx
    exact ⟨_, List.get_mem info x, List.mem_map_of_mem ha⟩

theorem cluster_tasks (info : Info) (c : ℕ) :
    (splitByCluster info).getD c [] = (tasks info).filter (fun t => t.2.cluster = c) := getD_splitByCluster info c

theorem mem_otherClusters {ti : TaskInfo} {l : List (ℕ × TaskInfo)} (h : l ∈ otherClusters info ti) :
    ∃ c, c ≠ ti.cluster ∧ l = (tasks info).filter (fun t => t.2.cluster = c) := by
  unfold otherClusters at h
  obtain ⟨⟨l', c⟩, h1, rfl⟩ := List.mem_map.1 h
  obtain ⟨h1, h2⟩ := List.mem_filter.1 h1
  refine ⟨c, by simpa using h2, ?_⟩
  rw [← cluster_tasks]
  obtain ⟨h3, h4⟩ := List.mem_zipIdx' h1
  rw [List.getD_eq_getElem?_getD, List.getElem?_eq_getElem h3, Option.getD_some, h4]

/-- Sums of the variables that say which resource causes arrival blocking. -/
theorem enabled_zero (l : List ℕ) (h : ∀ r ∈ l, r0 ≠ some r) :
    termSum (assign k V sec kind r0) (l.map (fun q => ((1 : ℚ), arrivalEnabled q))) = 0 := by
  apply termSum_zero
  intro t ht
  obtain ⟨q, hq, rfl⟩ := List.mem_map.1 ht
  simp only
  rw [assign_enabled, if_neg (h q hq)]

theorem enabled_le (l : List ℕ) (hl : l.Nodup) :
    termSum (assign k V sec kind r0) (l.map (fun q => ((1 : ℚ), arrivalEnabled q))) ≤ 1 := by
  induction l with
  | nil => simp [termSum]
  | cons a l ih =>
    obtain ⟨ha, hl⟩ := List.nodup_cons.1 hl
    rw [List.map_cons, ← List.singleton_append, termSum_append]
    by_cases h : r0 = some a
    · rw [enabled_zero l (fun r hr hc => ha (Option.some.inj (h.symm.trans hc) ▸ hr))]
      simp [termSum, assign_enabled, h]
    · rw [show termSum (assign k V sec kind r0) [((1 : ℚ), arrivalEnabled a)] = 0 by
        simp [termSum, assign_enabled, h], zero_add]
      exact ih hl

section
variable {P : Program}

open Classical in
/-- A bound on the sum of the variables of one kind, minus the variable that says whether the resource causes arrival
blocking. -/
theorem SpinCharge.sub_le (h : SpinCharge info k V sec kind r0) (h1 : OneEntry info) (p : ℕ × TaskInfo → Prop)
    [DecidablePred p] (q : ℕ) (m : ℕ)
    (hm : ((V.filter (fun u => p (((sec u).job.1 : ℕ), info.get (sec u).job.1) ∧ (system info).For (sec u) q ∧
        kind u = arrival)).image sec).card ≤ m) :
    termSum (assign k V sec kind r0) (varsFor (info.get k) arrival q ((tasks info).filter (fun t => p t)) ++
      [(-(m : ℚ), arrivalEnabled q)]) ≤ 0 := by
  rw [termSum_append]
  have hle := h.tasks_le h1 (kind := kind) (assign_arrival (r0 := r0)) p q
  have e : termSum (assign k V sec kind r0) [(-(m : ℚ), arrivalEnabled q)] = if r0 = some q then -(m : ℚ) else 0 := by
    simp [termSum, assign_enabled]
  rw [e]
  unfold varsFor
  by_cases hq : r0 = some q
  · rw [if_pos hq]
    have hm' : ((((V.filter (fun u => p (((sec u).job.1 : ℕ), info.get (sec u).job.1) ∧ (system info).For (sec u) q ∧
        kind u = arrival)).image sec).card : ℕ) : ℚ) ≤ m := by exact_mod_cast hm
    linarith
  · rw [if_neg hq, add_zero]
    refine hle.trans ?_
    have : V.filter (fun u => p (((sec u).job.1 : ℕ), info.get (sec u).job.1) ∧ (system info).For (sec u) q ∧
        kind u = arrival) = ∅ := by
      rw [filter_eq_empty_iff]
      rintro u hu ⟨_, hf, hk⟩
      obtain ⟨r, hr, hf'⟩ := h.resource u hu hk
      obtain ⟨a, ha, rfl⟩ := for_iff.1 hf
      obtain ⟨b, hb, rfl⟩ := for_iff.1 hf'
      cases ha.symm.trans hb
      exact hq hr
    rw [this]
    simp

theorem SpinCharge.common (h : SpinCharge info k V sec kind r0) (h1 : OneEntry info)
    (hwin : ∀ (r : ℕ) (x : Fin info.length), numRequests (info.get k) r = 0 →
      (info.get x).cluster ≠ (info.get k).cluster →
      ((slots V sec kind .direct x r).image sec).card ≤ contentionRequests info k (info.get k) (info.get x) r)
    (hP : P.Feasible (assign k V sec kind r0)) :
    (commonConstraints info k (info.get k) P).Feasible (assign k V sec kind r0) := by
  classical
  unfold commonConstraints
  -- the two kinds are exclusive
  have s1 : ∀ P : Program, P.Feasible (assign k V sec kind r0) →
      (mutexConstraints info k (info.get k) P).Feasible (assign k V sec kind r0) := by
    intro P hP
    unfold mutexConstraints
    refine feasible_foldl (fun t _ P hP => feasible_foldl (fun a _ P hP => feasible_foldl (fun v _ P hP => ?_) hP) hP) hP
    apply feasible_addInequality hP
    have := h.share_add_le h1 (kind := kind) (tys := {.direct, arrival}) (x := t.1) (r := a.resId)
    rw [sum_pair (by decide)] at this
    simpa [termSum, assign_direct, assign_arrival] using this
  -- resources that do not conflict
  have s2 : ∀ P : Program, P.Feasible (assign k V sec kind r0) →
      (conflictSetConstraints info (info.get k) P).Feasible (assign k V sec kind r0) := by
    intro P hP
    unfold conflictSetConstraints
    apply feasible_addEquality hP
    apply enabled_zero
    intro r hr hc
    obtain ⟨h2, h3⟩ := List.mem_filter.1 hr
    obtain ⟨x, _, _, a, ha, har, _⟩ := h.used r hc
    have hu : (system info).Uses x r := uses_iff.2 ⟨a, ha, har⟩
    rcases h.conflict r hc with hg | hg
    · exact (Msrp.mem_localResources hu).1 h2 hg
    · have := Msrp.ceilingOf_le_of hg
      simp only [gt_iff_lt, decide_eq_true_eq] at h3
      omega
  have s3 : ∀ P : Program, P.Feasible (assign k V sec kind r0) →
      (oneArrivalConstraints info P).Feasible (assign k V sec kind r0) :=
    fun P hP => feasible_addInequality hP (enabled_le _ (List.nodup_dedup _))
  have s4 : ∀ P : Program, P.Feasible (assign k V sec kind r0) →
      (noArrivalConstraints info (info.get k) P).Feasible (assign k V sec kind r0) := by
    intro P hP
    unfold noArrivalConstraints
    apply feasible_addInequality (feasible_foldl (fun r _ P hP => feasible_declareBinary hP (assign_binary r)) hP)
    apply le_of_eq
    apply enabled_zero
    intro r hr hc
    obtain ⟨_, h3⟩ := List.mem_filter.1 hr
    obtain ⟨x, hx1, hx2, a, ha, har, hnum⟩ := h.used r hc
    simp only [decide_eq_true_eq] at h3
    unfold lowerPrioReqs at h3
    rw [List.sum_eq_zero_iff] at h3
    have := h3 a.num (by
      rw [List.mem_flatMap]
      refine ⟨info.get x, List.mem_filter.2 ⟨List.get_mem info x, ?_⟩, List.mem_map_of_mem (List.mem_filter.2 ⟨ha, ?_⟩)⟩
      · simpa using ⟨hx1, hx2⟩
      · simpa using har)
    omega
  have s5 : ∀ P : Program, P.Feasible (assign k V sec kind r0) →
      (noHigherArrivalConstraints info (info.get k) P).Feasible (assign k V sec kind r0) := by
    intro P hP
    unfold noHigherArrivalConstraints
    rw [cluster_tasks]
    refine feasible_foldl (fun t ht P hP => ?_) hP
    split_ifs with hlt
    · obtain ⟨ht, htc⟩ := List.mem_filter.1 ht
      obtain ⟨x, rfl⟩ := mem_tasks.1 ht
      apply feasible_addInequality hP
      apply le_of_eq
      apply termSum_zero
      intro e he
      obtain ⟨a, _, he⟩ := List.mem_flatMap.1 he
      refine vars_zero (assign_arrival (r0 := r0)) x ?_ a e he
      rintro u hu hk rfl
      have := h.lower u hu hk (by simpa using htc)
      simp only at hlt
      omega
    · exact hP
  have s6 : ∀ P : Program, P.Feasible (assign k V sec kind r0) →
      (noLocalDirectConstraints info k (info.get k) P).Feasible (assign k V sec kind r0) := by
    intro P hP
    unfold noLocalDirectConstraints
    rw [cluster_tasks]
    apply feasible_addEquality hP
    apply termSum_zero
    intro e he
    obtain ⟨t, ht, he⟩ := List.mem_flatMap.1 he
    obtain ⟨a, _, he⟩ := List.mem_flatMap.1 he
    obtain ⟨ht, htc⟩ := List.mem_filter.1 (List.mem_filter.1 ht).1
    obtain ⟨x, rfl⟩ := mem_tasks.1 ht
    refine vars_zero (assign_direct (r0 := r0)) x ?_ a e he
    rintro u hu hk rfl
    exact h.direct u hu hk (by simpa using htc)
  have s7 : ∀ P : Program, P.Feasible (assign k V sec kind r0) →
      (localArrivalConstraints info (info.get k) P).Feasible (assign k V sec kind r0) := by
    intro P hP
    unfold localArrivalConstraints
    refine feasible_foldl (fun q _ P hP => ?_) hP
    apply feasible_addInequality hP
    unfold subVar
    split_ifs with he
    · rw [List.isEmpty_iff.1 he]
      simp [termSum]
    · have := h.sub_le h1 (fun t => t.2.priority > (info.get k).priority ∧ t.2.cluster = (info.get k).cluster) q 1 (by
        rw [card_le_one]
        intro a ha b hb
        obtain ⟨u, hu, rfl⟩ := mem_image.1 ha
        obtain ⟨v, hv, rfl⟩ := mem_image.1 hb
        obtain ⟨u1, u2, u3, u4⟩ := mem_filter.1 hu
        obtain ⟨v1, v2, v3, v4⟩ := mem_filter.1 hv
        exact h.once u u1 v v1 u4 v4 u2.2 v2.2)
      simpa using this
  unfold contentionConstraints
  refine feasible_foldl (fun q _ P hP => ?_) (s7 _ (s6 _ (s5 _ (s4 _ (s3 _ (s2 _ (s1 _ hP)))))))
  split_ifs with hq
  · refine feasible_foldl (fun t ht P hP => ?_) hP
    obtain ⟨ht, htc⟩ := List.mem_filter.1 ht
    obtain ⟨x, rfl⟩ := mem_tasks.1 ht
    apply feasible_addInequality hP
    unfold varsFor
    rw [List.flatMap_singleton]
    refine (h.for_le h1 (kind := kind) (assign_direct (r0 := r0)) x q).trans ?_
    exact_mod_cast hwin q x hq (by simpa using htc)
  · exact hP

/-- The objective is at least the number of slots. -/
theorem SpinCharge.objective_le (h : SpinCharge info k V sec kind r0) (h1 : OneEntry info)
    (hP : P.objective = []) :
    (V.card : ℚ) ≤ termSum (assign k V sec kind r0) (setObjective info k (info.get k) P).objective := by
  unfold setObjective
  simp only
  rw [hP, List.nil_append]
  exact h.objective h1 (kind := kind) [.direct, arrival] (by
    intro ty hty
    rcases List.mem_cons.1 hty with rfl | hty
    · exact assign_direct
    · rw [List.mem_singleton.1 hty]
      exact assign_arrival) (by
    intro u hu
    rcases h.kinds u hu with h2 | h2 <;> rw [h2] <;> simp)

theorem feasible_setObjective {x : Key → ℚ} {i : ℕ} {ti : TaskInfo} (h : P.Feasible x) :
    (setObjective info i ti P).Feasible x := ⟨h.eq, h.le, h.integer, h.binary, h.range⟩

/-- FIFO order. -/
theorem SpinCharge.fifo (h : SpinCharge info k V sec kind r0) (h1 : OneEntry info)
    (hd : ∀ (q c : ℕ) (F : Finset (Section info.length)), (∀ z ∈ F, ∃ u ∈ V, kind u = .direct ∧ sec u = z ∧
      (system info).For z q ∧ (info.get z.job.1).cluster = c) → F.card ≤ countLocalHpReqs info (info.get k) q)
    (ha : ∀ u ∈ V, ∀ v ∈ V, kind u = arrival → kind v = arrival →
      (info.get (sec u).job.1).cluster = (info.get (sec v).job.1).cluster →
      (info.get (sec u).job.1).cluster ≠ (info.get k).cluster → sec u = sec v)
    (hP : P.Feasible (assign k V sec kind r0)) :
    (fifoArrivalConstraints info (info.get k) (fifoDirectConstraints info (info.get k) P)).Feasible
      (assign k V sec kind r0) := by
  classical
  have s1 : (fifoDirectConstraints info (info.get k) P).Feasible (assign k V sec kind r0) := by
    unfold fifoDirectConstraints
    refine feasible_foldl (fun q _ P hP => feasible_foldl (fun l hl P hP => ?_) hP) hP
    obtain ⟨c, hc, rfl⟩ := mem_otherClusters hl
    apply feasible_addInequality hP
    refine (h.tasks_le h1 (kind := kind) (assign_direct (r0 := r0)) (fun t => t.2.cluster = c) q).trans ?_
    refine Nat.cast_le.2 (hd q c _ ?_)
    intro z hz
    obtain ⟨u, hu, rfl⟩ := mem_image.1 hz
    obtain ⟨u1, u2, u3, u4⟩ := mem_filter.1 hu
    exact ⟨u, u1, u4, rfl, u3, u2⟩
  unfold fifoArrivalConstraints
  refine feasible_foldl (fun l hl P hP => feasible_foldl (fun q _ P hP => ?_) hP) s1
  simp only
  split_ifs with he
  · exact hP
  · obtain ⟨c, hc, rfl⟩ := mem_otherClusters hl
    apply feasible_addInequality (feasible_declareBinary hP (assign_binary q))
    have := h.sub_le h1 (fun t => t.2.cluster = c) q 1 (by
      rw [card_le_one]
      intro a ha' b hb
      obtain ⟨u, hu, rfl⟩ := mem_image.1 ha'
      obtain ⟨v, hv, rfl⟩ := mem_image.1 hb
      obtain ⟨u1, u2, u3, u4⟩ := mem_filter.1 hu
      obtain ⟨v1, v2, v3, v4⟩ := mem_filter.1 hv
      simp only at u2 v2
      exact ha u u1 v v1 u4 v4 (u2.trans v2.symm) (by rw [u2]; exact hc))
    simpa using this

/-- Any order. -/
theorem SpinCharge.unordered (h : SpinCharge info k V sec kind r0) (h1 : OneEntry info) {q w : ℕ}
    (hd : ∀ (x : Fin info.length), (info.get x).cluster ≠ (info.get k).cluster →
      ((slots V sec kind .direct x q).image sec).card ≤
        numReqsIn (info.get x) q w * countLocalHpReqs info (info.get k) q)
    (ha : ∀ (x : Fin info.length), (info.get x).cluster ≠ (info.get k).cluster →
      ((slots V sec kind arrival x q).image sec).card ≤ numReqsIn (info.get x) q w)
    (hP : P.Feasible (assign k V sec kind r0)) :
    (unorderedFor info (info.get k) q w P).Feasible (assign k V sec kind r0) := by
  classical
  unfold unorderedFor
  refine feasible_foldl (fun l hl P hP => feasible_foldl (fun t ht P hP => ?_) hP) hP
  obtain ⟨c, hc, rfl⟩ := mem_otherClusters hl
  obtain ⟨ht, htc⟩ := List.mem_filter.1 ht
  obtain ⟨x, rfl⟩ := mem_tasks.1 ht
  have htc : (info.get x).cluster = c := by simpa using htc
  simp only
  split_ifs with he
  · exact hP
  · apply feasible_addInequality (feasible_addInequality hP ?_)
    · have hx : ∀ q, varsFor (info.get k) arrival q [((x : ℕ), info.get x)] =
          varsFor (info.get k) arrival q ((tasks info).filter (fun t => t = ((x : ℕ), info.get x))) := by
        intro q
        congr 1
        rw [tasks_eq, List.filter_map]
        have : (List.finRange info.length).filter ((fun t => decide (t = ((x : ℕ), info.get x))) ∘
            fun i : Fin info.length => ((i : ℕ), info.get i)) = [x] := by
          have h2 : ((fun t => decide (t = ((x : ℕ), info.get x))) ∘ fun i : Fin info.length => ((i : ℕ), info.get i)) =
              fun i : Fin info.length => decide (i = x) := by
            funext i
            simp only [Function.comp_apply, decide_eq_decide, Prod.mk.injEq]
            constructor
            · intro h; exact Fin.ext h.1
            · rintro rfl; exact ⟨rfl, rfl⟩
          rw [h2]
          have hp := List.perm_of_nodup_nodup_toFinset_eq
            ((List.nodup_finRange info.length).filter (fun i => decide (i = x))) (List.nodup_singleton x) (by
              ext i
              simp)
          exact List.perm_singleton.1 hp
        rw [this]
        rfl
      rw [hx]
      refine h.sub_le h1 (fun t => t = ((x : ℕ), info.get x)) q (numReqsIn (info.get x) q w) ?_
      refine le_trans (card_le_card ?_) (ha x (by rw [htc]; exact hc))
      intro z hz
      obtain ⟨u, hu, rfl⟩ := mem_image.1 hz
      obtain ⟨u1, u2, u3, u4⟩ := mem_filter.1 hu
      simp only [Prod.mk.injEq] at u2
      exact mem_image_of_mem _ (mem_slots.2 ⟨u1, u2.1, u3, u4⟩)
    · unfold varsFor
      rw [List.flatMap_singleton]
      refine (h.for_le h1 (kind := kind) (assign_direct (r0 := r0)) x q).trans ?_
      exact_mod_cast hd x (by rw [htc]; exact hc)

end

end Verif.SR.Lp
