/-
Necessary conditions for meeting all deadlines on `m` processors.
-/
import Verif.Lemmas.EdfUni

namespace Verif.Spec
open Finset

variable {n m : ℕ} {C T D : Fin n → ℕ} {σ : Schedule n}

/-- No schedule on `m` processors serves the synchronous periodic workload if some
interval `[0, t)` has more than `m * t` demand. -/
theorem multi_necessary {t : ℕ} (h : m * t < demand C T D t) (hv : ValidSchedule m (periodic C T) σ) :
    ¬ MeetsDeadlines (periodic C T) D σ := by
  classical
  intro hmeet
  set S : Finset (Job n) := (univ ×ˢ range (t + 1)).filter (fun j => j.2 * T j.1 + D j.1 ≤ t) with hS
  have h1 : demand C T D t ≤ ∑ j ∈ S, serviceIn σ j 0 t := by
    have e : demand C T D t = ∑ j ∈ S, C j.1 := by
      rw [hS, sum_filter, sum_product]
      unfold demand
      apply sum_congr rfl
      intro i _
      rw [card_filter, sum_mul]
      apply sum_congr rfl
      intro k _
      split_ifs <;> simp
    rw [e]
    apply sum_le_sum
    intro j hj
    have hc := (hmeet j).mono (t := t) (by
      have := (mem_filter.1 hj).2
      unfold Workload.deadline periodic; exact this)
    have h2 := service_add σ j (Nat.zero_le t)
    rw [service_zero, zero_add] at h2
    rw [← h2]; exact hc
  rw [← sum_card_eq_sum_service] at h1
  have h2 : ∑ s ∈ Ico 0 t, (σ s ∩ S).card ≤ ∑ _s ∈ Ico 0 t, m :=
    sum_le_sum (fun s _ => (card_le_card inter_subset_left).trans (hv.procs s))
  simp only [sum_const, Nat.card_Ico, smul_eq_mul, Nat.sub_zero] at h2
  rw [Nat.mul_comm] at h
  omega

/-- No schedule serves the synchronous periodic workload if a job cannot even
finish in time when running alone. -/
theorem alone_necessary {i : Fin n} (h : D i < C i) : ¬ MeetsDeadlines (periodic C T) D σ := by
  intro hmeet
  have h1 := hmeet (i, 0)
  unfold Completed Workload.deadline periodic at h1
  simp only [Nat.zero_mul, Nat.zero_add] at h1
  have h2 : service σ (i, 0) (D i) ≤ D i := by
    unfold service
    exact (card_filter_le _ _).trans (by simp)
  omega

theorem not_schedulable_of_demand {t : ℕ} (h : m * t < demand C T D t) (hT : ∀ i, 0 < T i) :
    ¬ EdfSchedulable m C T D := by
  intro hs
  obtain ⟨σ, hv, he⟩ := exists_edf m (periodic_sporadic C T) hT D
  exact multi_necessary h hv (hs _ σ (periodic_sporadic C T) hv he)

/-- Individual feasibility is necessary. -/
theorem EdfSchedulable.feasible (hs : EdfSchedulable m C T D) (hT : ∀ i, 0 < T i) (i : Fin n) :
    C i ≤ D i := by
  by_contra hc
  obtain ⟨σ, hv, he⟩ := exists_edf m (periodic_sporadic C T) hT D
  exact alone_necessary (not_le.1 hc) (hs _ σ (periodic_sporadic C T) hv he)

/-- The processors must not be overloaded. -/
theorem EdfSchedulable.utilization_le (hs : EdfSchedulable m C T D) (hT : ∀ i, 0 < T i) :
    totalUtilization C T ≤ m := by
  by_contra hU
  rw [not_le] at hU
  obtain ⟨t, ht⟩ := exists_nat_gt ((∑ i, (C i : ℚ) / T i * D i) / (totalUtilization C T - m))
  have h1 := demand_ge (C := C) (D := D) hT t
  rw [div_lt_iff₀ (by linarith)] at ht
  have h2 : (m : ℚ) * t < demand C T D t := by nlinarith
  exact not_schedulable_of_demand (t := t) (by exact_mod_cast h2) hT hs

end Verif.Spec
