/-
Charges for the LP-based analyses of semaphore protocols: the terms of a task, and how often requests conflict.
-/
import Verif.Model.LpSem
import Verif.Lemmas.LpCharge
import Verif.Lemmas.FmlpCount

namespace Verif.SR.Lp
open Verif.Spec Finset
open Verif.SR.Msrp (system)

variable {info : Info} {m : ℕ} {R : LockRun info.length} {W : Fin info.length → ℕ} {H : ℕ}

/-! ### The number of requests -/

/-- Sections that are incomplete at some time in an interval no longer than the response time of task `k`. -/
theorem sections_le_instances (h : RequestRun m (system info) R) (hb : BoundedBefore R.work R.sched W H)
    (hT : ∀ t ∈ info, 0 < t.period) (hW : ∀ i, W i ≤ (info.get i).response) {k x : Fin info.length} {d lo hi : ℕ}
    {r : Request} (hr : (info.get x).requests[d]? = some r) (hhi : hi ≤ H) (hl : hi - lo ≤ (info.get k).response)
    {F : Finset (Section info.length)}
    (hF : ∀ z ∈ F, R.issued z ∧ z.job.1 = x ∧ z.idx = d ∧ ∃ u, lo ≤ u ∧ u < hi ∧ R.enter z ≤ u ∧ u < R.leave z) :
    F.card ≤ instances (info.get k) (info.get x) r := by
  refine (h.requests_le hb (i := x) (hT _ (List.get_mem info x)) (lock_req' hr) hhi (lo := lo) (F := F) hF).trans ?_
  apply Nat.mul_le_mul_right
  unfold TaskInfo.maxNumJobs
  rw [Native.divideWithCeil_eq _ (hT _ (List.get_mem info x))]
  change cdiv _ _ ≤ cdiv _ _
  apply cdiv_mono (hT _ (List.get_mem info x))
  have h1 := hW x
  omega

variable {k : Fin info.length} {V : Finset ℕ} {sec : ℕ → Section info.length} {kind : ℕ → BlockingType}

/-- Slots in which sections of other tasks execute are a charge. -/
theorem charge_of_owns (h : RequestRun m (system info) R) (hb : BoundedBefore R.work R.sched W H)
    (hT : ∀ t ∈ info, 0 < t.period) (hW : ∀ i, W i ≤ (info.get i).response) {lo hi : ℕ}
    (hhi : hi ≤ H) (hl : hi - lo ≤ (info.get k).response) (hV : ∀ u ∈ V, lo ≤ u ∧ u < hi)
    (hsec : ∀ u ∈ V, R.Owns (sec u) u ∧ (sec u).job ∈ R.sched u ∧ (sec u).job.1 ≠ k) : Charge info k V sec where
  other := fun u hu => (hsec u hu).2.2
  count := by
    classical
    intro x d r hr
    refine le_trans (le_of_eq ?_) (sections_le_instances h hb hT hW hr hhi hl
      (F := (V.image sec).filter (fun z => z.job.1 = x ∧ z.idx = d)) ?_)
    · congr
    · intro z hz
      obtain ⟨hz, h1, h2⟩ := mem_filter.1 hz
      obtain ⟨u, hu, rfl⟩ := mem_image.1 hz
      have ho := (hsec u hu).1
      have := h.order _ ho.1
      exact ⟨ho.1, h1, h2, u, (hV u hu).1, (hV u hu).2, by have := ho.2.1; omega, ho.2.2⟩
  length := by
    intro u hu
    obtain ⟨ho, _, _⟩ := hsec u hu
    obtain ⟨q, hq, _⟩ := h.declared _ ho.1
    obtain ⟨r, hr, rfl⟩ := lock_req hq
    refine ⟨r, hr, ?_⟩
    have := h.length _ _ ho.1 hq
    simp only at this
    refine le_trans (card_le_card ?_) this
    intro v hv
    obtain ⟨hv, he⟩ := mem_filter.1 hv
    obtain ⟨h1, h2, _⟩ := hsec v hv
    rw [he] at h1 h2
    rw [mem_filter, mem_Ico]
    exact ⟨⟨h1.2.1, h1.2.2⟩, h2⟩

/-! ### Terms -/

open Classical in
/-- The slots of some kinds in which a request of task `x` for resource `r` is served. -/
noncomputable def slotsIn (V : Finset ℕ) (sec : ℕ → Section info.length) (kind : ℕ → BlockingType)
    (tys : List BlockingType) (x r : ℕ) : Finset ℕ :=
  V.filter (fun u => ((sec u).job.1 : ℕ) = x ∧ (system info).For (sec u) r ∧ kind u ∈ tys)

theorem mem_slotsIn {tys : List BlockingType} {x r u : ℕ} : u ∈ slotsIn V sec kind tys x r ↔
    u ∈ V ∧ ((sec u).job.1 : ℕ) = x ∧ (system info).For (sec u) r ∧ kind u ∈ tys := by
  classical
  unfold slotsIn
  rw [mem_filter]

theorem slotsIn_card {tys : List BlockingType} (hn : tys.Nodup) (x r : ℕ) :
    (slotsIn V sec kind tys x r).card = (tys.map (fun ty => (slots V sec kind ty x r).card)).sum := by
  classical
  induction tys with
  | nil =>
    have : slotsIn V sec kind [] x r = ∅ := by
      rw [eq_empty_iff_forall_notMem]
      intro u hu
      simpa using (mem_slotsIn.1 hu).2.2.2
    rw [this]
    rfl
  | cons ty tys ih =>
    rw [List.map_cons, List.sum_cons, ← ih (List.nodup_cons.1 hn).2, ← card_union_of_disjoint]
    · congr 1
      ext u
      rw [mem_union, mem_slotsIn, mem_slotsIn, mem_slots, List.mem_cons]
      tauto
    · rw [disjoint_left]
      intro u h1 h2
      rw [mem_slots] at h1
      rw [mem_slotsIn, h1.2.2.2] at h2
      exact (List.nodup_cons.1 hn).1 h2.2.2.2

variable {X : Key → ℚ}

theorem Charge.terms_sum (h : Charge info k V sec) (h1 : OneEntry info) {tys : List BlockingType} (hn : tys.Nodup)
    (hX : ∀ ty ∈ tys, ∀ x v r, X ⟨ty, x, v, r⟩ = share k V sec kind ty x r) {x : Fin info.length}
    {a : Request} (ha : a ∈ (info.get x).requests) (c : ℚ) :
    termSum X (terms (info.get k) tys (x, info.get x) a c) =
      c * ((slotsIn V sec kind tys x a.resId).card : ℚ) / a.length := by
  unfold terms
  rw [termSum_flatMap]
  have e : (fun v => termSum X (tys.map (fun ty => (c, (⟨ty, ((x : ℕ), info.get x).1, v, a.resId⟩ : Key))))) =
      fun _ => (tys.map (fun ty => c * share k V sec kind ty x a.resId)).sum := by
    funext v
    unfold termSum
    rw [List.map_map]
    congr 1
    apply List.map_congr_left
    intro ty hty
    simp only [Function.comp_apply, hX ty hty]
  rw [e, List.map_const', List.sum_replicate, List.length_range, nsmul_eq_mul, ← List.sum_map_mul_left,
    slotsIn_card hn, Nat.cast_list_sum, List.map_map]
  have e2 : ∀ ty, (instances (info.get k) (info.get x) a : ℚ) * (c * share k V sec kind ty x a.resId) =
      (c / a.length) * ((slots V sec kind ty x a.resId).card : ℚ) := by
    intro ty
    rw [mul_left_comm, h.instances_mul h1 ha]
    ring
  simp only [e2]
  rw [List.sum_map_mul_left]
  have e3 : (Nat.cast ∘ fun ty => (slots V sec kind ty x a.resId).card) =
      fun ty => ((slots V sec kind ty x a.resId).card : ℚ) := rfl
  rw [e3]
  ring

open Classical in
theorem Charge.terms_le (h : Charge info k V sec) (h1 : OneEntry info) {tys : List BlockingType} (hn : tys.Nodup)
    (hX : ∀ ty ∈ tys, ∀ x v r, X ⟨ty, x, v, r⟩ = share k V sec kind ty x r) {x : Fin info.length}
    {a : Request} (ha : a ∈ (info.get x).requests) :
    termSum X (terms (info.get k) tys (x, info.get x) a 1) ≤
      ((slotsIn V sec kind tys x a.resId).image sec).card := by
  rw [h.terms_sum h1 hn hX ha, one_mul]
  by_cases hl : a.length = 0
  · rw [hl]; simp
  rw [div_le_iff₀ (by exact_mod_cast Nat.pos_of_ne_zero hl)]
  have := (h.card_le h1 ha (F := slotsIn V sec kind tys x a.resId) (by
    intro u hu
    obtain ⟨h3, h4, h5, _⟩ := mem_slotsIn.1 hu
    exact ⟨h3, Fin.ext h4, h5⟩)).1
  rw [mul_comm]
  exact_mod_cast this

open Classical in
/-- The terms of a task are bounded by the number of its sections. -/
theorem Charge.allTerms_le (h : Charge info k V sec) (h1 : OneEntry info) {tys : List BlockingType} (hn : tys.Nodup)
    (hX : ∀ ty ∈ tys, ∀ x v r, X ⟨ty, x, v, r⟩ = share k V sec kind ty x r) (x : Fin info.length) :
    termSum X (allTerms (info.get k) tys (x, info.get x)) ≤
      ((V.filter (fun u => (sec u).job.1 = x ∧ kind u ∈ tys)).image sec).card := by
  have hnd : (info.get x).requests.Nodup := List.Nodup.of_map _ (h1 _ (List.get_mem info x))
  unfold allTerms
  rw [termSum_flatMap]
  have hle : ((info.get x).requests.map (fun a => termSum X (terms (info.get k) tys (x, info.get x) a 1))).sum ≤
      ((info.get x).requests.map (fun a => (((slotsIn V sec kind tys x a.resId).image sec).card : ℚ))).sum :=
    List.sum_le_sum (fun a ha => h.terms_le h1 hn hX ha)
  refine hle.trans ?_
  rw [← List.sum_toFinset _ hnd, ← Nat.cast_sum]
  refine Nat.cast_le.2 ?_
  rw [← card_biUnion]
  · apply card_le_card
    intro z hz
    obtain ⟨a, _, hz⟩ := mem_biUnion.1 hz
    obtain ⟨u, hu, rfl⟩ := mem_image.1 hz
    obtain ⟨h3, h4, _, h6⟩ := mem_slotsIn.1 hu
    exact mem_image_of_mem _ (mem_filter.2 ⟨h3, Fin.ext h4, h6⟩)
  · intro a ha b hb hab
    change Disjoint _ _
    rw [disjoint_left]
    intro z hz hz'
    obtain ⟨u, hu, rfl⟩ := mem_image.1 hz
    obtain ⟨v, hv, he⟩ := mem_image.1 hz'
    apply hab
    obtain ⟨_, _, h5, _⟩ := mem_slotsIn.1 hu
    obtain ⟨_, _, h5', _⟩ := mem_slotsIn.1 hv
    rw [he] at h5'
    obtain ⟨q, hq, hr⟩ := for_iff.1 h5
    obtain ⟨q', hq', hr'⟩ := for_iff.1 h5'
    rw [hq] at hq'
    cases hq'
    exact h1.eq_of_mem (List.mem_toFinset.1 ha) (List.mem_toFinset.1 hb) (hr.symm.trans hr')

/-- The terms of a task that is not charged. -/
theorem allTerms_zero {tys : List BlockingType}
    (hX : ∀ ty ∈ tys, ∀ x v r, X ⟨ty, x, v, r⟩ = share k V sec kind ty x r) (x : Fin info.length)
    (h0 : ∀ u ∈ V, (sec u).job.1 = x → kind u ∉ tys) : ∀ t ∈ allTerms (info.get k) tys (x, info.get x), X t.2 = 0 := by
  intro t ht
  unfold allTerms terms at ht
  simp only [List.mem_flatMap, List.mem_map] at ht
  obtain ⟨a, _, v, _, ty, hty, rfl⟩ := ht
  simp only [hX ty hty]
  apply share_zero
  rw [eq_empty_iff_forall_notMem]
  intro u hu
  obtain ⟨h3, h4, _, h6⟩ := mem_slots.1 hu
  exact h0 u h3 (Fin.ext h4) (h6 ▸ hty)

/-! ### Conflicts -/

theorem requestsOf_eq (ti : TaskInfo) (p : ℕ × TaskInfo → Prop) [DecidablePred p] (r : ℕ) :
    requestsOf ti ((tasks info).filter (fun t => p t)) r =
      ∑ y ∈ univ.filter (fun i : Fin info.length => p ((i : ℕ), info.get i)),
        (((info.get y).requests.filter (fun q => q.resId = r)).map (instances ti (info.get y))).sum := by
  unfold requestsOf
  rw [List.flatMap_def, List.sum_flatten, List.map_map]
  exact tasks_sum p (fun t => ((t.2.requests.filter (fun q => q.resId = r)).map (instances ti t.2)).sum)

open Classical in
/-- The requests of a job that wait for sections of some tasks. -/
theorem conflicts_count (h : PartRun (system info) R) (hb : BoundedBefore R.work R.sched W H)
    (hT : ∀ t ∈ info, 0 < t.period) (hW : ∀ i, W i ≤ (info.get i).response) (h1 : OneEntry info)
    {lo hi : ℕ} (hhi : hi ≤ H) (j : Job info.length) (hl : hi - lo ≤ (info.get j.1).response)
    (p : ℕ × TaskInfo → Prop) [DecidablePred p] {B : Finset (Section info.length)}
    (hB : ∀ s ∈ B, s.job = j ∧ ∃ z u r, lo ≤ u ∧ u < hi ∧ R.Waits s u ∧ R.Owns z u ∧ (system info).For s r ∧
      (system info).For z r ∧ p ((z.job.1 : ℕ), info.get z.job.1)) :
    B.card ≤ conflicts (info.get j.1) ((tasks info).filter (fun t => p t)) := by
  rcases B.eq_empty_or_nonempty with he0 | ⟨s0, hs0⟩
  · rw [he0]; simp
  have : Nonempty (Section info.length) := ⟨s0⟩
  have hz' : ∀ s ∈ B, ∃ z, ∃ u r, lo ≤ u ∧ u < hi ∧ R.Waits s u ∧ R.Owns z u ∧ (system info).For s r ∧
      (system info).For z r ∧ p ((z.job.1 : ℕ), info.get z.job.1) := fun s hs => (hB s hs).2
  choose! z hz using hz'
  have hinj : ∀ s ∈ B, ∀ s' ∈ B, z s = z s' → s = s' := by
    intro s hs s' hs' heq
    obtain ⟨u, r, _, _, hw, ho, h3, h4, _⟩ := hz s hs
    obtain ⟨u', r', _, _, hw', ho', h3', h4', _⟩ := hz s' hs'
    rw [← heq] at ho' h4'
    exact h.waits_for_inj ((hB s hs).1.trans (hB s' hs').1.symm) hw hw' ho ho' h3 h4 h3' h4'
  have hnd : (info.get j.1).requests.Nodup := List.Nodup.of_map _ (h1 _ (List.get_mem info j.1))
  unfold conflicts
  rw [← List.sum_toFinset _ hnd]
  have hcov : B ⊆ (info.get j.1).requests.toFinset.biUnion (fun a => B.filter (fun s => (system info).For s a.resId)) := by
    intro s hs
    obtain ⟨u, r, _, _, _, _, h3, _⟩ := hz s hs
    obtain ⟨q, hq, rfl⟩ := for_iff.1 h3
    rw [(hB s hs).1] at hq
    exact mem_biUnion.2 ⟨q, List.mem_toFinset.2 (List.mem_of_getElem? hq), mem_filter.2 ⟨hs, h3⟩⟩
  refine (card_le_card hcov).trans (card_biUnion_le.trans (sum_le_sum ?_))
  intro a ha
  have ha := List.mem_toFinset.1 ha
  set F := B.filter (fun s => (system info).For s a.resId) with hF
  have hFB : ∀ s ∈ F, s ∈ B ∧ (system info).For s a.resId := fun s hs => mem_filter.1 hs
  rw [le_min_iff]
  constructor
  · rw [← card_range a.num]
    apply card_le_card_of_injOn (fun s => s.inst)
    · intro s hs
      obtain ⟨hs, hf⟩ := hFB s (mem_coe.1 hs)
      obtain ⟨u, r, _, _, hw, _⟩ := hz s hs
      obtain ⟨q, hq, hlt⟩ := h.declared s hw.1
      obtain ⟨b, hb', rfl⟩ := lock_req hq
      obtain ⟨b', hb1, hb2⟩ := for_iff.1 hf
      rw [hb'] at hb1
      cases hb1
      rw [(hB s hs).1] at hb'
      rw [h1.eq_of_mem (List.mem_of_getElem? hb') ha hb2] at hlt
      exact mem_coe.2 (mem_range.2 hlt)
    · intro s hs s' hs' heq
      obtain ⟨hs, hf⟩ := hFB s (mem_coe.1 hs)
      obtain ⟨hs', hf'⟩ := hFB s' (mem_coe.1 hs')
      obtain ⟨q, hq, hr⟩ := for_iff.1 hf
      obtain ⟨q', hq', hr'⟩ := for_iff.1 hf'
      have e1 := (hB s hs).1
      have e2 := (hB s' hs').1
      rw [e1] at hq
      rw [e2] at hq'
      have e3 := (h1.eq hq hq' (hr.trans hr'.symm)).1
      obtain ⟨sj, si, sn⟩ := s
      obtain ⟨sj', si', sn'⟩ := s'
      simp only at e1 e2 e3 heq
      rw [e1, e2, e3, heq]
  · rw [requestsOf_eq]
    have hc : F.card = (F.image z).card := by
      rw [card_image_of_injOn]
      intro s hs s' hs' heq
      exact hinj s (hFB s (mem_coe.1 hs)).1 s' (hFB s' (mem_coe.1 hs')).1 heq
    have hmaps : ∀ y ∈ F.image z, y.job.1 ∈ univ.filter (fun i : Fin info.length => p ((i : ℕ), info.get i)) := by
      intro y hy
      obtain ⟨s, hs, rfl⟩ := mem_image.1 hy
      obtain ⟨u, r, _, _, _, _, _, _, hp⟩ := hz s (hFB s hs).1
      exact mem_filter.2 ⟨mem_univ _, hp⟩
    rw [hc, card_eq_sum_card_fiberwise hmaps]
    apply sum_le_sum
    intro y _
    set G := (F.image z).filter (fun v => v.job.1 = y) with hG
    have hGz : ∀ v ∈ G, v.job.1 = y ∧ (system info).For v a.resId ∧ ∃ u, lo ≤ u ∧ u < hi ∧ R.Owns v u := by
      intro v hv
      obtain ⟨hv, hy⟩ := mem_filter.1 hv
      obtain ⟨s, hs, rfl⟩ := mem_image.1 hv
      obtain ⟨hs, hf⟩ := hFB s hs
      obtain ⟨u, r, hu1, hu2, _, ho, h3, h4, _⟩ := hz s hs
      obtain ⟨q, hq, hr⟩ := for_iff.1 hf
      obtain ⟨q', hq', hr'⟩ := for_iff.1 h3
      rw [hq] at hq'
      cases hq'
      rw [← hr, hr']
      exact ⟨hy, h4, u, hu1, hu2, ho⟩
    rcases G.eq_empty_or_nonempty with h0 | ⟨v0, hv0⟩
    · rw [h0]; simp
    obtain ⟨hv1, hv2, _⟩ := hGz v0 hv0
    obtain ⟨b, hb1, hb2⟩ := for_iff.1 hv2
    rw [hv1] at hb1
    have hbm := List.mem_of_getElem? hb1
    rw [← hb2, h1.filter hbm, List.map_singleton, List.sum_singleton]
    refine sections_le_instances h.toRequestRun hb hT hW hb1 hhi hl (lo := lo) ?_
    intro v hv
    obtain ⟨e1, e2, u, e3, e4, e5⟩ := hGz v hv
    obtain ⟨b', hb1', hb2'⟩ := for_iff.1 e2
    rw [e1] at hb1'
    have ho := h.owns_active e5
    exact ⟨e5.1, e1, (h1.eq hb1' hb1 (hb2'.trans hb2.symm)).1, u, e3, e4, ho.1, ho.2⟩

end Verif.SR.Lp

namespace Verif.SR.Lp
open Verif.Spec Finset
open Verif.SR.Msrp (system)

variable {info : Info} {k : Fin info.length} {V : Finset ℕ} {sec : ℕ → Section info.length} {kind : ℕ → BlockingType}

/-! ### The constraints of all semaphore protocols -/

/-- The values of the variables that describe the slots `V`. -/
noncomputable def assignment (k : Fin info.length) (V : Finset ℕ) (sec : ℕ → Section info.length)
    (kind : ℕ → BlockingType) : Key → ℚ := fun y => share k V sec kind y.ty y.task y.res

open Classical in
/-- In the slots `V`, sections delay a job of task `k`. -/
structure SemCharge (info : Info) (k : Fin info.length) (V : Finset ℕ) (sec : ℕ → Section info.length)
    (kind : ℕ → BlockingType) : Prop extends Charge info k V sec where
  kinds : ∀ u ∈ V, kind u ∈ [BlockingType.direct, .indirect, .preempt]
  topology : ∀ u ∈ V, (info.get (sec u).job.1).cluster ≠ (info.get k).cluster → kind u ≠ .preempt
  higher : ∀ u ∈ V, (info.get (sec u).job.1).cluster = (info.get k).cluster →
    (info.get k).priority ≤ (info.get (sec u).job.1).priority
  lower : ∀ x, (info.get x).cluster = (info.get k).cluster →
    ((V.filter (fun u => (sec u).job.1 = x)).image sec).card ≤ arrivalsShm info (info.get k)

theorem assignment_range (h : Charge info k V sec) (h1 : OneEntry info) (v : Key) :
    0 ≤ assignment k V sec kind v ∧ assignment k V sec kind v ≤ 1 := ⟨share_nonneg, h.share_le h1⟩

section
variable {P : Program}

theorem SemCharge.semMutex (h : SemCharge info k V sec kind) (h1 : OneEntry info)
    (hP : P.Feasible (assignment k V sec kind)) :
    (semMutex info k (info.get k) P).Feasible (assignment k V sec kind) := by
  refine feasible_foldl (fun t _ P hP => feasible_foldl (fun r _ P hP => feasible_foldl (fun v _ P hP => ?_) hP) hP) hP
  apply feasible_addInequality hP
  have := h.share_add_le h1 (kind := kind) (tys := {.direct, .indirect, .preempt}) (x := t.1) (r := r.resId)
  rw [sum_insert (by decide), sum_insert (by decide), sum_singleton] at this
  simp only [termSum, assignment, List.map_cons, List.map_nil, List.sum_cons, List.sum_nil, one_mul, add_zero]
  exact this

theorem SemCharge.higherShm (h : SemCharge info k V sec kind)
    (hP : P.Feasible (assignment k V sec kind)) :
    (higherShm info (info.get k) P).Feasible (assignment k V sec kind) := by
  apply feasible_addEquality hP
  apply termSum_zero
  intro t ht
  obtain ⟨y, hy, ht⟩ := List.mem_flatMap.1 ht
  obtain ⟨hy, hc⟩ := List.mem_filter.1 hy
  obtain ⟨x, rfl⟩ := mem_tasks.1 hy
  simp only [decide_eq_true_eq] at hc
  refine allTerms_zero (fun ty _ x v r => rfl) x ?_ t ht
  intro u hu hx
  have := h.higher u hu (by rw [hx]; exact hc.1)
  rw [hx] at this
  omega

theorem SemCharge.topologyShm (h : SemCharge info k V sec kind)
    (hP : P.Feasible (assignment k V sec kind)) :
    (topologyShm info (info.get k) P).Feasible (assignment k V sec kind) := by
  apply feasible_addEquality hP
  apply termSum_zero
  intro t ht
  obtain ⟨y, hy, ht⟩ := List.mem_flatMap.1 ht
  obtain ⟨hy, hc⟩ := List.mem_filter.1 hy
  obtain ⟨x, rfl⟩ := mem_tasks.1 hy
  simp only [decide_eq_true_eq] at hc
  refine allTerms_zero (fun ty _ x v r => rfl) x ?_ t ht
  intro u hu hx
  rw [List.mem_singleton]
  exact h.topology u hu (by rw [hx]; exact hc)

theorem SemCharge.lowerShm (h : SemCharge info k V sec kind) (h1 : OneEntry info)
    (hP : P.Feasible (assignment k V sec kind)) :
    (lowerShm info k (info.get k) P).Feasible (assignment k V sec kind) := by
  classical
  refine feasible_foldl (fun t ht P hP => ?_) hP
  obtain ⟨ht, hc⟩ := List.mem_filter.1 ht
  obtain ⟨x, rfl⟩ := mem_tasks.1 ht
  simp only [decide_eq_true_eq] at hc
  apply feasible_addInequality hP
  refine (h.allTerms_le h1 (kind := kind) (by decide) (fun ty _ x v r => rfl) x).trans ?_
  refine Nat.cast_le.2 (le_trans (card_le_card (image_subset_image ?_)) (h.lower x hc.1))
  intro u hu
  obtain ⟨h3, h4, _⟩ := mem_filter.1 hu
  exact mem_filter.2 ⟨h3, h4⟩

/-- The value of the objective. -/
theorem SemCharge.objective_le (h : SemCharge info k V sec kind) (h1 : OneEntry info) :
    (V.card : ℚ) ≤ termSum (assignment k V sec kind) (partObjective info k (info.get k)) :=
  h.objective h1 [.direct, .indirect, .preempt] (fun _ _ _ _ _ => rfl) h.kinds

end
end Verif.SR.Lp
