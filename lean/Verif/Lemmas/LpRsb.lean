/-
The constraints of the LPs for restricted segment boosting, for jobs that are delayed directly or by jobs of
higher-priority tasks only.
-/
import Verif.Model.LpRsb
import Verif.Lemmas.LpGlobalHold
import Verif.Lemmas.LpGlobalPrio

namespace Verif.SR.Lp.Glob
open Verif.Spec Finset
open Verif.SR.Msrp (system)
open Verif.SR.Fmlp (totalNumRequests)

variable {info : Info} {k : Fin info.length} {m : ℕ} {R : LockRun info.length}
variable {Z : Finset (Section info.length)} {D I : Section info.length → ℕ} {N : Fin info.length → ℕ} {Y : ℕ}

section
variable (hI : ∀ z, I z = 0)
include hI

theorem indirect_zero (c : ℚ) (t : ℕ × TaskInfo) (r : Request) :
    termSum (value k Z D I N) (terms c (info.get k) .indirect t r) = 0 := by
  rw [indirect_terms, share_zero hI]
  ring

theorem indirect_list_zero (t : ℕ × TaskInfo) (l : List Request) :
    termSum (value k Z D I N) (l.flatMap (terms 1 (info.get k) .indirect t)) = 0 := by
  rw [termSum_flatMap]
  apply List.sum_eq_zero
  intro a ha
  obtain ⟨r, _, rfl⟩ := List.mem_map.1 ha
  exact indirect_zero hI _ _ _

theorem minus_zero (t : ℕ × TaskInfo) : termSum (value k Z D I N) (minusBlocking (info.get k) t) = 0 := by
  unfold minusBlocking
  rw [termSum_flatMap]
  apply List.sum_eq_zero
  intro a ha
  obtain ⟨r, _, rfl⟩ := List.mem_map.1 ha
  rw [termSum_append, indirect_zero hI, preempt_terms, add_zero]

end

/-- The critical sections of a task in a window, as in `higherSections`. -/
def sectionsOf (info : Info) (k x : Fin info.length) : ℚ :=
  ((info.get x).requests.map (fun r =>
    (((info.get x).maxNumJobs (info.get k).response * numRequests (info.get x) r.resId * r.length : ℕ) : ℚ))).sum

theorem higherSections_eq (hp : ∀ x : Fin info.length, (info.get x).priority = x) :
    ((higherSections info (info.get k) : ℕ) : ℚ) = ∑ x ∈ univ.filter (fun x : Fin info.length => x < k),
      sectionsOf info k x := by
  unfold higherSections
  rw [higher_sum hp, Nat.cast_sum]
  apply sum_congr rfl
  intro x _
  unfold sectionsOf
  rw [Nat.cast_list_sum, List.map_map]
  rfl

section
variable (hD : Delay info k m Z D I N Y) (h1 : OneEntry info)
include hD h1

theorem plus_le (x : Fin info.length) :
    termSum (value k Z D I N) (plusDirect (info.get k) ((x : ℕ), info.get x)) ≤ sectionsOf info k x := by
  unfold plusDirect sectionsOf
  rw [termSum_flatMap]
  apply List.sum_le_sum
  intro r hr
  rw [direct_terms, numRequests_eq h1 hr]
  have h2 := hD.share_add_le h1 x r.resId
  have h3 : 0 ≤ share k Z I x r.resId := share_nonneg I _ _
  have h4 : share k Z D x r.resId ≤ 1 := by linarith
  have h5 : (0 : ℚ) ≤ instances (info.get k) (info.get x) r := Nat.cast_nonneg _
  have h6 : (instances (info.get k) (info.get x) r : ℚ) * share k Z D x r.resId ≤
      instances (info.get k) (info.get x) r := by nlinarith
  have h7 := mul_le_mul_of_nonneg_left h6 (Nat.cast_nonneg (α := ℚ) r.length)
  refine h7.trans (le_of_eq ?_)
  unfold instances
  push_cast
  ring

theorem others_le (hp : ∀ x : Fin info.length, (info.get x).priority = x) (g : ℕ × TaskInfo → Exp)
    (hlow : ∀ x : Fin info.length, x < k → termSum (value k Z D I N) (g ((x : ℕ), info.get x)) ≤
      termSum (value k Z D I N) (plusDirect (info.get k) ((x : ℕ), info.get x)))
    (hhigh : ∀ x : Fin info.length, k < x → termSum (value k Z D I N) (g ((x : ℕ), info.get x)) = 0) :
    termSum (value k Z D I N) ((others info k).flatMap g) ≤ (higherSections info (info.get k) : ℕ) := by
  rw [termSum_flatMap, others_sum (fun t => termSum (value k Z D I N) (g t)), higherSections_eq hp,
    sum_filter, sum_filter]
  apply sum_le_sum
  intro x _
  rcases lt_trichotomy x k with h | h | h
  · rw [if_pos h.ne, if_pos h]
    exact (hlow x h).trans (plus_le hD h1 x)
  · rw [if_neg (not_not.2 h), if_neg (by rw [h]; exact lt_irrefl _)]
  · rw [if_pos h.ne', if_neg (not_lt.2 h.le), hhigh x h]

variable (hI : ∀ z, I z = 0) (hN : ∀ x, k < x → N x = 0) (hp : ∀ x : Fin info.length, (info.get x).priority = x)
include hI hN hp

/-- Constraint 16. -/
theorem Delay.rsbPerTaskConstraints {P : Program} (hP : P.Feasible (value k Z D I N)) :
    (rsbPerTaskConstraints info k (info.get k) P).Feasible (value k Z D I N) := by
  apply feasible_foldl _ hP
  intro t ht P hP
  obtain ⟨x, hx, rfl⟩ := (mem_lowerTasks hp).1 ht
  apply feasible_addInequality hP
  rw [termSum_append, termSum_cons, termSum_cons, termSum_nil, value_coBoosting, value_stalling, hN x hx]
  simp only [mul_zero, Nat.cast_zero, add_zero, zero_add]
  apply others_le hD h1 hp
  · intro y hy
    have hy' : (y : ℕ) < k := hy
    rw [if_pos hy', if_neg (by simp only; omega), List.append_nil]
  · intro y hy
    have hy' : (k : ℕ) < y := hy
    rw [if_neg (by simp only; omega), List.nil_append]
    split_ifs
    · exact minus_zero hI _
    · rfl

/-- Constraint 17. -/
theorem Delay.rsbTotalConstraint {P P' : Program} (hP : P.Feasible (value k Z D I N))
    (h : rsbTotalConstraint info k (info.get k) m P = some P') : P'.Feasible (value k Z D I N) := by
  unfold Glob.rsbTotalConstraint at h
  split_ifs at h
  dsimp only at h
  cases h
  apply feasible_addInequality hP
  apply others_le hD h1 hp
  · intro y hy
    have hy' : (y : ℕ) < k := hy
    rw [if_neg (by simp only; omega), if_pos hy', if_neg (by simp only; omega), List.nil_append, List.append_nil]
  · intro y hy
    have hy' : (k : ℕ) < y := hy
    rw [if_pos (by simp only; omega), if_neg (by simp only; omega), if_pos (by simp only; omega), List.append_nil,
      termSum_append, minus_zero hI, termSum_cons, termSum_cons, termSum_nil, value_coBoosting, value_stalling,
      hN y hy]
    simp

omit hD h1 hN in
/-- Constraint 18. -/
theorem rsbCoBoosting_feasible {P : Program} (hP : P.Feasible (value k Z D I N)) :
    (rsbCoBoostingConstraints info (info.get k) P).Feasible (value k Z D I N) := by
  apply feasible_foldl _ hP
  intro t _ P hP
  apply feasible_addInequality hP
  apply le_of_eq
  rw [termSum_cons, value_coBoosting, mul_zero, zero_add, termSum_flatMap]
  apply List.sum_eq_zero
  intro a ha
  obtain ⟨r, _, rfl⟩ := List.mem_map.1 ha
  exact minus_zero hI _

omit hD h1 hN in
/-- Constraint 19. -/
theorem rsbTotalCoBoosting_feasible {P P' : Program} (hP : P.Feasible (value k Z D I N))
    (h : rsbTotalCoBoostingConstraint info (info.get k) m P = some P') : P'.Feasible (value k Z D I N) := by
  unfold rsbTotalCoBoostingConstraint at h
  split_ifs at h
  cases h
  apply feasible_addInequality hP
  apply le_of_eq
  rw [termSum_flatMap]
  apply List.sum_eq_zero
  intro a ha
  obtain ⟨r, _, rfl⟩ := List.mem_map.1 ha
  rw [termSum_cons, value_coBoosting, mul_zero, zero_add, minus_zero hI]

omit hD h1 hN in
/-- Constraint 21. -/
theorem rsbHighest_feasible {P : Program} (hP : P.Feasible (value k Z D I N)) :
    (rsbHighestConstraint info k (info.get k) m P).Feasible (value k Z D I N) := by
  unfold rsbHighestConstraint
  split_ifs
  · apply feasible_addInequality hP
    apply le_of_eq
    rw [termSum_flatMap]
    apply List.sum_eq_zero
    intro a ha
    obtain ⟨t, _, rfl⟩ := List.mem_map.1 ha
    split_ifs
    · rw [termSum_flatMap]
      apply List.sum_eq_zero
      intro a ha
      obtain ⟨r, _, rfl⟩ := List.mem_map.1 ha
      exact preempt_terms _ _ _
    · rfl
  · exact hP

omit hD h1 hN in
/-- Constraints 22, 25 and 26. -/
theorem indirect_feasible (c : ℕ × TaskInfo → ℕ) {P : Program} (hP : P.Feasible (value k Z D I N)) :
    ((lowerTasks info (info.get k)).foldl (fun lp x => addInequality lp
      (x.2.requests.flatMap (terms 1 (info.get k) .indirect x)) (c x : ℕ)) P).Feasible (value k Z D I N) := by
  apply feasible_foldl _ hP
  intro t _ P hP
  apply feasible_addInequality hP
  rw [indirect_list_zero hI]
  exact Nat.cast_nonneg _

/-- Constraints 16 to 22. -/
theorem Delay.rsbConstraints {P P' : Program} (hP : P.Feasible (value k Z D I N))
    (h : rsbConstraints info k (info.get k) m P = some P') :
    P'.Feasible (value k Z D I N) ∧ P'.objective = P.objective := by
  unfold Glob.rsbConstraints at h
  dsimp only at h
  obtain ⟨P1, h2, h3⟩ := Option.bind_eq_some_iff.1 h
  obtain ⟨P2, h4, rfl⟩ := Option.map_eq_some_iff.1 h3
  have hP1 := hD.rsbTotalConstraint h1 hI hN hp (hD.rsbPerTaskConstraints h1 hI hN hp hP) h2
  have hP2 := rsbTotalCoBoosting_feasible hI hp (rsbCoBoosting_feasible hI hp hP1) h4
  refine ⟨indirect_feasible hI hp _ (rsbHighest_feasible hI hp
    (noStallingConstraint_feasible hp (fun x hx _ => hN x hx) hP2)), ?_⟩
  unfold rsbIndirectConstraints rsbHighestConstraint rsbNoStallingConstraint noStallingConstraint
  rw [objective_foldl _ _ _ (fun P t => objective_addInequality _ _ _)]
  have e : ∀ (c : Prop) [Decidable c] (P : Program) (e : Exp) (b : ℚ),
      (if c then addInequality P e b else P).objective = P.objective := by
    intro c _ P e b
    split_ifs
    · exact objective_addInequality _ _ _
    · rfl
  rw [e, objective_addInequality]
  unfold rsbTotalCoBoostingConstraint at h4
  split_ifs at h4
  cases h4
  rw [objective_addInequality]
  unfold rsbCoBoostingConstraints
  rw [objective_foldl _ _ _ (fun P t => objective_addInequality _ _ _)]
  unfold Glob.rsbTotalConstraint at h2
  split_ifs at h2
  dsimp only at h2
  cases h2
  rw [objective_addInequality]
  unfold Glob.rsbPerTaskConstraints
  rw [objective_foldl _ _ _ (fun P t => objective_addInequality _ _ _)]

end

/-! ### FIFO queues -/

section
variable (hD : Delay info k m Z D I N Y) (h1 : OneEntry info)
  (hc : ∀ (x : Fin info.length), ∀ a ∈ (info.get x).requests,
      ((bucket Z x a.resId).filter (fun z => 0 < D z)).card ≤ numRequests (info.get k) a.resId)
include hD h1 hc

/-- Direct delays by a task for a resource. -/
theorem direct_min {x : Fin info.length} (hx : x ≠ k) {r : Request} (hr : r ∈ (info.get k).requests) :
    ((bucket Z x r.resId).filter (fun z => 0 < D z)).card ≤
      min r.num (otherRequests info k (info.get k) r.resId) := by
  by_cases ha : ∃ a ∈ (info.get x).requests, a.resId = r.resId
  · obtain ⟨a, ha, hq⟩ := ha
    have h2 := hc x a ha
    have h3 := (card_filter_le (bucket Z x a.resId) (fun z => 0 < D z)).trans (hD.bucket_card h1 ha)
    rw [hq] at h2 h3
    rw [numRequests_eq h1 hr] at h2
    refine le_min h2 (h3.trans ?_)
    unfold otherRequests instances
    refine le_trans ?_ (List.le_sum_of_mem (List.mem_map.2 ⟨((x : ℕ), info.get x), mem_others.2 ⟨x, hx, rfl⟩, rfl⟩))
    simp only
    rw [← hq, numRequests_eq h1 ha]
  · have : bucket Z x r.resId = ∅ := by
      apply eq_empty_of_forall_notMem
      intro z hz
      obtain ⟨hz, hzx, hzq⟩ := mem_filter.1 hz
      obtain ⟨a, ha', _⟩ := hD.length z hz
      have hzx : z.job.1 = x := Fin.ext hzx
      rw [resOf_some ha'] at hzq
      rw [hzx] at ha'
      exact ha ⟨a, List.mem_of_getElem? ha', hzq⟩
    rw [this, filter_empty, card_empty]
    exact Nat.zero_le _

/-- Direct delays by a task. -/
theorem direct_total_le {x : Fin info.length} (hx : x ≠ k) :
    (((info.get x).requests.map (fun r => (instances (info.get k) (info.get x) r * share k Z D x r.resId : ℚ))).sum) ≤
      (((info.get k).requests.map (fun r => min r.num (otherRequests info k (info.get k) r.resId))).sum : ℕ) := by
  set c : ℕ → ℕ := fun q => ((bucket Z x q).filter (fun z => 0 < D z)).card with hcdef
  have h2 : (((info.get x).requests.map (fun r => (instances (info.get k) (info.get x) r *
      share k Z D x r.resId : ℚ))).sum) ≤ (((info.get x).requests.map (fun r => c r.resId)).sum : ℕ) := by
    rw [Nat.cast_list_sum, List.map_map]
    apply List.sum_le_sum
    intro r hr
    exact hD.counted h1 (f := D) (fun z => Nat.le_add_right _ _) hr
  refine h2.trans ?_
  norm_cast
  have e : ∀ y : Fin info.length, ((info.get y).requests.map (fun r => c r.resId)).sum =
      ∑ q ∈ ((info.get y).requests.map Request.resId).toFinset, c q := by
    intro y
    rw [List.sum_toFinset _ (h1 _ (List.get_mem info y)), List.map_map]
    rfl
  have h3 : ((info.get x).requests.map (fun r => c r.resId)).sum ≤
      ((info.get k).requests.map (fun r => c r.resId)).sum := by
    rw [e, e]
    apply sum_le_sum_of_ne_zero
    intro q _ hq
    obtain ⟨z, hz⟩ := card_pos.1 (Nat.pos_of_ne_zero hq)
    obtain ⟨hz, hpos⟩ := mem_filter.1 hz
    obtain ⟨hz, _, hzq⟩ := mem_filter.1 hz
    obtain ⟨r, hr, hrq⟩ := hD.access z hz hpos
    rw [List.mem_toFinset, List.mem_map]
    exact ⟨r, hr, hrq.trans hzq⟩
  refine h3.trans (List.sum_le_sum ?_)
  intro r hr
  exact direct_min hD h1 hc hx hr

variable (hI : ∀ z, I z = 0)
include hI

/-- Constraint 24. -/
theorem Delay.directIndirectConstraints {P : Program} (hP : P.Feasible (value k Z D I N)) :
    (directIndirectConstraints info k (info.get k) P).Feasible (value k Z D I N) := by
  apply feasible_foldl _ hP
  intro t ht P hP
  obtain ⟨x, hx, rfl⟩ := mem_others.1 ht
  apply feasible_addInequality hP
  refine le_trans (le_of_eq ?_) (direct_total_le hD h1 hc hx)
  rw [termSum_flatMap]
  congr 1
  apply List.map_congr_left
  intro r _
  rw [termSum_append, direct_terms, one_mul]
  split_ifs
  · rw [indirect_zero hI, add_zero]
  · rw [termSum_nil, add_zero]

/-- Constraint 23. -/
theorem Delay.segmentConstraints {P : Program} (hP : P.Feasible (value k Z D I N)) :
    (segmentConstraints info k (info.get k) P).Feasible (value k Z D I N) := by
  apply feasible_foldl _ hP
  intro t ht P hP
  obtain ⟨x, hx, rfl⟩ := mem_others.1 ht
  apply feasible_addInequality hP
  refine le_trans (le_of_eq ?_) ((direct_total_le hD h1 hc hx).trans ?_)
  · rw [termSum_flatMap]
    congr 1
    apply List.map_congr_left
    intro r _
    rw [termSum_append, direct_terms, one_mul]
    split_ifs
    · rw [termSum_append, indirect_zero hI, preempt_terms, add_zero, add_zero]
    · rw [termSum_nil, add_zero]
  · have e : totalNumRequests (info.get k) = ((info.get k).requests.map Request.num).sum := by
      unfold totalNumRequests
      rw [List.sum_eq_foldl, List.foldl_map]
    norm_cast
    rw [e]
    have h2 : ((info.get k).requests.map (fun r => min r.num (otherRequests info k (info.get k) r.resId))).sum ≤
        ((info.get k).requests.map Request.num).sum := List.sum_le_sum (fun r _ => min_le_left _ _)
    omega

end

end Verif.SR.Lp.Glob
