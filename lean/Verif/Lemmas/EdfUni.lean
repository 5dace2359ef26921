import Verif.Spec.Demand
import Verif.Lemmas.Schedule
import Mathlib.Tactic.FieldSimp
import Mathlib.Tactic.Positivity
import Mathlib.Algebra.Order.Field.Basic
import Mathlib.Algebra.Order.Archimedean.Basic
import Mathlib.Data.Nat.Cast.Order.Field
import Mathlib.Data.Nat.Find
import Mathlib.Algebra.Module.Defs
import Mathlib.Algebra.Order.Ring.Rat
import Mathlib.Data.Rat.Floor
import Mathlib.Algebra.BigOperators.Ring.Finset

/-! Uniprocessor EDF and the processor demand criterion. -/

namespace Verif.Spec
open Finset

variable {n m : ℕ} {w : Workload n} {σ : Schedule n} {C T D : Fin n → ℕ}

theorem card_periodic (T D t : ℕ) (hT : 0 < T) :
    ((range (t + 1)).filter (fun k => k * T + D ≤ t)).card
      = if t < D then 0 else (t - D) / T + 1 := by
  split_ifs with h
  · rw [card_eq_zero, filter_eq_empty_iff]
    intro k _; have := Nat.zero_le (k * T); omega
  · have : (range (t + 1)).filter (fun k => k * T + D ≤ t) = range ((t - D) / T + 1) := by
      ext k
      simp only [mem_filter, mem_range, Nat.lt_succ_iff]
      rw [Nat.le_div_iff_mul_le hT]
      constructor
      · rintro ⟨_, h2⟩; omega
      · intro h2
        have : k * 1 ≤ k * T := Nat.mul_le_mul_left k hT
        omega
    rw [this, card_range]

/-- In every pending task there is a ready job, released no later. -/
theorem exists_ready {i : Fin n} {k t : ℕ} (hs : w.Sporadic C T) (hp : Pending w σ (i, k) t) :
    ∃ k' ≤ k, Ready w σ (i, k') t ∧ w.release (i, k') ≤ w.release (i, k) := by
  classical
  have hex : ∃ k', ¬ Completed w σ (i, k') t := ⟨k, hp.2⟩
  refine ⟨Nat.find hex, Nat.find_min' hex hp.2, ?_, ?_⟩
  · have hrel : w.release (i, Nat.find hex) ≤ w.release (i, k) := by
      have := release_mono hs i (Nat.find_min' hex hp.2)
      omega
    refine ⟨⟨hrel.trans hp.1, Nat.find_spec hex⟩, ?_⟩
    intro l hl
    by_contra hc
    exact Nat.find_min hex hl hc
  · have := release_mono hs i (Nat.find_min' hex hp.2)
    omega

/-- Jobs released at or after `a` with a deadline at or before `b` have at most
the demand of an interval of length `b - a`. -/
theorem sum_exec_le_demand (hs : w.Sporadic C T) (hT : ∀ i, 0 < T i) (S : Finset (Job n)) {a b : ℕ}
    (hS : ∀ j ∈ S, a ≤ w.release j ∧ w.deadline D j ≤ b) :
    ∑ j ∈ S, w.exec j ≤ demand C T D (b - a) := by
  classical
  have h1 : ∑ j ∈ S, w.exec j ≤ ∑ j ∈ S, C j.1 := sum_le_sum (fun j _ => hs.wcet j.1 j.2)
  refine h1.trans ?_
  have h2 : ∑ j ∈ S, C j.1 = ∑ i, ∑ j ∈ S.filter (fun j => j.1 = i), C j.1 :=
    (sum_fiberwise S (fun j => j.1) (fun j => C j.1)).symm
  rw [h2]
  unfold demand
  apply sum_le_sum
  intro i _
  have h3 : ∑ j ∈ S.filter (fun j => j.1 = i), C j.1 = (S.filter (fun j => j.1 = i)).card * C i := by
    rw [← smul_eq_mul, ← sum_const]
    apply sum_congr rfl
    intro j hj; rw [(mem_filter.1 hj).2]
  rw [h3]
  apply Nat.mul_le_mul_right
  rw [card_periodic _ _ _ (hT i)]
  have hcard : (S.filter (fun j => j.1 = i)).card
      = ((S.filter (fun j => j.1 = i)).image Prod.snd).card := by
    rw [card_image_of_injOn]
    rintro ⟨x, y⟩ hx ⟨x', y'⟩ hx' he
    simp only [coe_filter, Set.mem_setOf_eq] at hx hx' he
    rw [hx.2, hx'.2, he]
  rw [hcard]
  have hmem : ∀ k ∈ (S.filter (fun j => j.1 = i)).image Prod.snd,
      a ≤ w.release (i, k) ∧ w.release (i, k) + D i ≤ b := by
    intro k hk
    obtain ⟨⟨x, y⟩, hj, rfl⟩ := mem_image.1 hk
    obtain ⟨hj1, hj2⟩ := mem_filter.1 hj
    simp only at hj2
    subst hj2
    exact hS _ hj1
  split_ifs with hlt
  · rw [Nat.le_zero, card_eq_zero, eq_empty_iff_forall_notMem]
    intro k hk
    have := hmem k hk; omega
  · have hab : a + D i ≤ b ∨ ((S.filter (fun j => j.1 = i)).image Prod.snd) = ∅ := by
      rcases ((S.filter (fun j => j.1 = i)).image Prod.snd).eq_empty_or_nonempty with h | ⟨k, hk⟩
      · exact Or.inr h
      · have := hmem k hk; left; omega
    rcases hab with hab | hab
    · have := card_released_le hs i (hT i) _ (a := a) (b := b - D i)
        (fun k hk => by have := hmem k hk; omega) (by omega)
      have e : b - D i - a = b - a - D i := by omega
      rwa [e] at this
    · rw [hab]; simp

/-- **Soundness of the demand criterion.** -/
theorem edf_uni_sound (hs : w.Sporadic C T) (hT : ∀ i, 0 < T i)
    (hdem : ∀ t, demand C T D t ≤ t) (hv : ValidSchedule 1 w σ) (hedf : EDF 1 w D σ) :
    MeetsDeadlines w D σ := by
  classical
  intro j
  by_contra hmiss
  set td := w.deadline D j with htd
  -- last quiet time
  let P : ℕ → Prop := fun s => ∀ j' : Job n, w.deadline D j' ≤ td → w.release j' < s → Completed w σ j' s
  have hP0 : P 0 := fun j' _ h => absurd h (Nat.not_lt_zero _)
  set t0 := Nat.findGreatest P (w.release j) with ht0
  have hPt0 : P t0 := Nat.findGreatest_spec (Nat.zero_le _) hP0
  have ht0le : t0 ≤ w.release j := Nat.findGreatest_le _
  have hrtd : w.release j ≤ td := by rw [htd]; unfold Workload.deadline; omega
  -- a pending job in every slot
  have hpend : ∀ s, t0 ≤ s → s < td → ∃ j', w.deadline D j' ≤ td ∧ Pending w σ j' s := by
    intro s hs1 hs2
    by_cases hsj : w.release j ≤ s
    · exact ⟨j, le_rfl, hsj, fun hc => hmiss (hc.mono hs2.le)⟩
    · by_contra hno
      push Not at hno
      have hP : P (s + 1) := by
        intro j' hd hr
        have := hno j' hd
        unfold Pending at this
        push Not at this
        exact (this (by omega)).mono (by omega)
      have := Nat.le_findGreatest (P := P) (show s + 1 ≤ w.release j by omega) hP
      omega
  have hfin := sporadic_finite hs hT td
  set S := hfin.toFinset.filter (fun j' => t0 ≤ w.release j' ∧ w.deadline D j' ≤ td) with hS
  have hmemS : ∀ j', t0 ≤ w.release j' → w.deadline D j' ≤ td → j' ∈ S := by
    intro j' h1 h2
    rw [hS, mem_filter, Set.Finite.mem_toFinset]
    refine ⟨?_, h1, h2⟩
    have : w.release j' ≤ w.deadline D j' := by unfold Workload.deadline; omega
    exact this.trans h2
  have hslot : ∀ s ∈ Ico t0 td, 1 ≤ (σ s ∩ S).card := by
    intro s hs'
    rw [mem_Ico] at hs'
    obtain ⟨⟨i, k⟩, hd, hp⟩ := hpend s hs'.1 hs'.2
    obtain ⟨k', _, hr, hrel⟩ := exists_ready hs hp
    have hd' : w.deadline D (i, k') ≤ td := by
      unfold Workload.deadline at hd ⊢; simp only at hd ⊢; omega
    have hex : ∃ x ∈ σ s, w.deadline D x ≤ td := by
      by_cases hin : (i, k') ∈ σ s
      · exact ⟨_, hin, hd'⟩
      · obtain ⟨hc, hall⟩ := hedf s _ hr hin
        obtain ⟨x, hx⟩ := card_pos.1 (show 0 < (σ s).card by omega)
        exact ⟨x, hx, (hall x hx).trans hd'⟩
    obtain ⟨x, hx, hxd⟩ := hex
    rw [Nat.one_le_iff_ne_zero, ← Nat.pos_iff_ne_zero, card_pos]
    refine ⟨x, mem_inter.2 ⟨hx, hmemS x ?_ hxd⟩⟩
    by_contra hlt
    have hcomp := (hPt0 x hxd (by omega)).mono hs'.1
    exact (hv.ready s x hx).1.2 hcomp
  have hsum : td - t0 ≤ ∑ s ∈ Ico t0 td, (σ s ∩ S).card := by
    calc td - t0 = ∑ _s ∈ Ico t0 td, 1 := by simp
      _ ≤ _ := sum_le_sum hslot
  rw [sum_card_eq_sum_service] at hsum
  have hjS : j ∈ S := hmemS j ht0le le_rfl
  have hlt : ∑ j' ∈ S, serviceIn σ j' t0 td < ∑ j' ∈ S, w.exec j' := by
    apply sum_lt_sum (fun j' _ => serviceIn_le_exec hv j' t0 td)
    refine ⟨j, hjS, ?_⟩
    have := service_add σ j (ht0le.trans hrtd)
    unfold Completed at hmiss
    omega
  have hle := sum_exec_le_demand (D := D) hs hT S (a := t0) (b := td)
    (fun j' hj' => (mem_filter.1 hj').2)
  have := hdem (td - t0)
  omega

/-- **Necessity of the demand criterion.** If some interval has too much demand,
no schedule of the synchronous periodic workload meets all deadlines. -/
theorem uni_necessary {t : ℕ} (h : t < demand C T D t) (hT : ∀ i, 0 < T i) (hv : ValidSchedule 1 (periodic C T) σ) :
    ¬ MeetsDeadlines (periodic C T) D σ := by
  classical
  intro hmeet
  set S : Finset (Job n) := (univ ×ˢ range (t + 1)).filter (fun j => j.2 * T j.1 + D j.1 ≤ t) with hS
  have h1 : demand C T D t ≤ ∑ j ∈ S, serviceIn σ j 0 t := by
    have e : demand C T D t = ∑ j ∈ S, C j.1 := by
      rw [hS, sum_filter, sum_product]
      unfold demand
      apply sum_congr rfl
      intro i _
      rw [card_filter, sum_mul]
      apply sum_congr rfl
      intro k _
      split_ifs <;> simp
    rw [e]
    apply sum_le_sum
    intro j hj
    have hc := (hmeet j).mono (t := t) (by
      have := (mem_filter.1 hj).2
      unfold Workload.deadline periodic; exact this)
    have h2 := service_add σ j (Nat.zero_le t)
    rw [service_zero, zero_add] at h2
    rw [← h2]; exact hc
  rw [← sum_card_eq_sum_service] at h1
  have h2 : ∑ s ∈ Ico 0 t, (σ s ∩ S).card ≤ ∑ _s ∈ Ico 0 t, 1 :=
    sum_le_sum (fun s _ => (card_le_card inter_subset_left).trans (hv.procs s))
  simp only [sum_const, Nat.card_Ico, smul_eq_mul, mul_one] at h2
  omega

/-- Demand is at least the utilization share of the time after the deadline. -/
theorem demand_ge (hT : ∀ i, 0 < T i) (t : ℕ) :
    totalUtilization C T * t - ∑ i, (C i : ℚ) / T i * D i ≤ demand C T D t := by
  unfold totalUtilization demand
  push_cast
  rw [sum_mul, ← sum_sub_distrib]
  apply sum_le_sum
  intro i _
  rw [card_periodic _ _ _ (hT i)]
  have hp : (0 : ℚ) < T i := by exact_mod_cast hT i
  have hc : (0 : ℚ) ≤ C i := by positivity
  split_ifs with h
  · have h' : (t : ℚ) < D i := by exact_mod_cast h
    have : (0 : ℚ) ≤ (C i : ℚ) / T i := by positivity
    push_cast
    nlinarith
  · have h1 : t - D i < ((t - D i) / T i + 1) * T i := Nat.lt_mul_of_div_lt (Nat.lt_succ_self _) (hT i)
    have h2 : (t : ℚ) - D i ≤ (((t - D i) / T i + 1 : ℕ) : ℚ) * T i := by
      have : ((t - D i : ℕ) : ℚ) ≤ (((t - D i) / T i + 1 : ℕ) : ℚ) * T i := by exact_mod_cast h1.le
      rwa [Nat.cast_sub (by omega)] at this
    have h3 : (C i : ℚ) / T i * t - (C i : ℚ) / T i * D i = (t - D i) / T i * C i := by ring
    rw [h3]
    apply mul_le_mul_of_nonneg_right _ hc
    rw [div_le_iff₀ hp]
    exact h2

theorem demand_of_overutilized (hT : ∀ i, 0 < T i) (hU : 1 < totalUtilization C T) :
    ∃ t, t < demand C T D t := by
  obtain ⟨t, ht⟩ := exists_nat_gt ((∑ i, (C i : ℚ) / T i * D i) / (totalUtilization C T - 1))
  refine ⟨t, ?_⟩
  have h1 := demand_ge (C := C) (D := D) hT t
  rw [div_lt_iff₀ (by linarith)] at ht
  have : (t : ℚ) < demand C T D t := by linarith
  exact_mod_cast this

theorem utilization_le_of_demand (hT : ∀ i, 0 < T i) (h : ∀ t, demand C T D t ≤ t) :
    totalUtilization C T ≤ 1 := by
  by_contra hU
  obtain ⟨t, ht⟩ := demand_of_overutilized (D := D) hT (not_le.1 hU)
  have := h t; omega

theorem edfSchedulable_iff (hT : ∀ i, 0 < T i) :
    EdfSchedulable 1 C T D ↔ ∀ t, demand C T D t ≤ t := by
  constructor
  · intro h t
    by_contra hc
    obtain ⟨σ, hv, he⟩ := exists_edf 1 (periodic_sporadic C T) hT D
    exact uni_necessary (not_le.1 hc) hT hv (h _ σ (periodic_sporadic C T) hv he)
  · intro h w σ hs hv he
    exact edf_uni_sound hs hT h hv he

end Verif.Spec
