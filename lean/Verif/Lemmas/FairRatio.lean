/-
The common ratio of response times and deadlines: it bounds response times, and there is at most one.
-/
import Verif.Lemmas.GelScale

namespace Verif.Spec
open Finset

variable {n : ℕ}

/-- The sum of the two parts of a task. -/
theorem gelGQ_add (m C T : ℕ) (p s : ℚ) : gelGQ m C T p s + gelSQ C T p = (s - (C : ℚ) / m) * ((C : ℚ) / T) + C := by
  unfold gelGQ; ring

theorem gelSQ_nonneg (C T : ℕ) (p : ℚ) : 0 ≤ gelSQ C T p := le_max_left _ _

/-- Priority points after the period make no difference. -/
theorem gelSQ_min {C T : ℕ} (hT : 0 < T) (p : ℚ) : gelSQ C T (min p T) = gelSQ C T p := by
  have hT' : (0 : ℚ) < T := by exact_mod_cast hT
  have hC : (0 : ℚ) ≤ C := by positivity
  rcases le_total p T with h | h
  · rw [min_eq_left h]
  · rw [min_eq_right h]
    unfold gelSQ
    have h1 : 1 ≤ p / T := by rw [one_le_div hT']; exact h
    rw [div_self hT'.ne', sub_self, mul_zero, max_self, max_eq_left]
    exact mul_nonpos_of_nonneg_of_nonpos hC (by linarith)

theorem gelGQ_min {m C T : ℕ} (hT : 0 < T) (p s : ℚ) : gelGQ m C T (min p T) s = gelGQ m C T p s := by
  unfold gelGQ; rw [gelSQ_min hT]

theorem card_lt {C T : Fin n → ℕ} {m : ℕ} (hm : 0 < m) (hU : totalUtilization C T ≤ m) :
    (⌈totalUtilization C T⌉ - 1).toNat + 1 ≤ m := by
  have : ⌈totalUtilization C T⌉ ≤ (m : ℤ) := Int.ceil_le.2 (by exact_mod_cast hU)
  omega

section
variable {m : ℕ} {C T : Fin n → ℕ} {p : Fin n → ℚ} {s : ℚ}

/-- Roots are not negative. -/
theorem rootQ_nonneg (hm : 0 < m) (hT : ∀ i, 0 < T i) (hCT : ∀ i, C i ≤ T i) (hU : totalUtilization C T ≤ m)
    (h : GelRootQ m C T p s) : 0 ≤ s := by
  obtain ⟨Q, hQ, he⟩ := h
  by_contra hs
  push Not at hs
  have hm1 : (1 : ℚ) ≤ m := by exact_mod_cast hm
  have hQc : Q.card + 1 ≤ m := by rw [hQ.card]; have := card_lt hm hU; omega
  have hQc' : (Q.card : ℚ) + 1 ≤ m := by exact_mod_cast hQc
  have h1 : ∑ i ∈ Q, gelSQ (C i) (T i) (p i) ≤ ∑ i, gelSQ (C i) (T i) (p i) :=
    sum_le_sum_of_subset_of_nonneg (subset_univ _) (fun i _ _ => gelSQ_nonneg _ _ _)
  have h2 : ∑ i ∈ Q, s ≤ ∑ i ∈ Q, (gelGQ m (C i) (T i) (p i) s + gelSQ (C i) (T i) (p i)) := by
    refine sum_le_sum fun i _ => ?_
    rw [gelGQ_add]
    have hT' : (0 : ℚ) < T i := by exact_mod_cast hT i
    have hu0 : (0 : ℚ) ≤ (C i : ℚ) / T i := by positivity
    have hu1 : (C i : ℚ) / T i ≤ 1 := by rw [div_le_one hT']; exact_mod_cast hCT i
    have hC0 : (0 : ℚ) ≤ (C i : ℚ) := by positivity
    have h3 : (C i : ℚ) / m ≤ C i := div_le_self hC0 hm1
    have h4 : (0 : ℚ) ≤ (C i : ℚ) / m := by positivity
    have h5 := mul_le_mul_of_nonneg_left hu1 h4
    nlinarith
  rw [sum_add_distrib, sum_const, nsmul_eq_mul] at h2
  nlinarith

end

section
variable {m : ℕ} {C T D : Fin n → ℕ} {L s : ℚ}

/-- With the fair priority points, every response time is at most `L` times the deadline. -/
theorem FairRatio.bounded (hm : 0 < m) (hT : ∀ i, 0 < T i) (hCT : ∀ i, C i ≤ T i) (hU : totalUtilization C T ≤ m)
    (h : FairRatio m C T D L s) :
    ResponseTimesBoundedQ m C T (fun i => min (fairPoint m (C i) (D i) L s) (T i)) (fun i => L * D i) := by
  have hm' : (m : ℚ) ≠ 0 := by exact_mod_cast hm.ne'
  have hs := rootQ_nonneg hm hT hCT hU h.root
  refine rootQ_safe hm hT hCT hU hs ?_ ?_ ?_
  · intro i
    exact le_min (h.nonneg i) (by positivity)
  · obtain ⟨Q, hQ, he⟩ := h.root
    refine ⟨Q, ?_, ?_⟩
    · simp only [gelGQ_min (hT _)]; exact hQ
    · simp only [gelGQ_min (hT _), gelSQ_min (hT _)]; exact he
  · intro i
    have h1 := min_le_left (fairPoint m (C i) (D i) L s) (T i : ℚ)
    unfold fairPoint at h1 ⊢
    have h2 : ((m : ℚ) - 1) / m * C i = C i - (C i : ℚ) / m := by field_simp
    linarith

theorem max_sub_le (a b : ℚ) : max 0 b - max 0 a ≤ max 0 (b - a) := by
  rcases le_total 0 a with ha | ha <;> rcases le_total 0 b with hb | hb <;>
    simp only [max_eq_left, max_eq_right, ha, hb] <;>
    first
      | exact le_max_right _ _
      | (refine le_trans ?_ (le_max_left _ _); linarith)
      | (refine le_trans ?_ (le_max_right _ _); linarith)

/-- The function of the ratio decreases. -/
theorem fair_decr (hm : 0 < m) (hT : ∀ i, 0 < T i) (hCT : ∀ i, C i ≤ T i) (hD : ∀ i, 0 < D i)
    (hU : totalUtilization C T ≤ m) {L₂ s₂ : ℚ} (hlt : L < L₂) (h₁ : ∀ i, 0 ≤ fairPoint m (C i) (D i) L s)
    (h₂ : ∃ i, fairPoint m (C i) (D i) L₂ s₂ = 0) {Q R : Finset (Fin n)}
    (hQ : Largest (fun i => gelGQ m (C i) (T i) (fairPoint m (C i) (D i) L₂ s₂) s₂) (⌈totalUtilization C T⌉ - 1).toNat Q)
    (hR : Largest (fun i => gelGQ m (C i) (T i) (fairPoint m (C i) (D i) L s) s) (⌈totalUtilization C T⌉ - 1).toNat R) :
    ∑ i ∈ Q, gelGQ m (C i) (T i) (fairPoint m (C i) (D i) L₂ s₂) s₂ +
      ∑ i, gelSQ (C i) (T i) (fairPoint m (C i) (D i) L₂ s₂) - m * s₂ <
    ∑ i ∈ R, gelGQ m (C i) (T i) (fairPoint m (C i) (D i) L s) s +
      ∑ i, gelSQ (C i) (T i) (fairPoint m (C i) (D i) L s) - m * s := by
  classical
  have hδ : 0 < L₂ - L := by linarith
  have hD' : ∀ i, (0 : ℚ) < D i := fun i => by exact_mod_cast hD i
  have hs : 0 < s₂ - s := by
    obtain ⟨i, hi⟩ := h₂
    have h := h₁ i
    unfold fairPoint at hi h
    have := mul_pos hδ (hD' i)
    linarith
  have hle := Verif.Gel.largest_sum_ge (R := Q) hR (by rw [hQ.card, hR.card])
  beta_reduce at hle
  have hu0 : ∀ i, (0 : ℚ) ≤ (C i : ℚ) / T i := fun i => by positivity
  -- the change of one task
  have hch : ∀ i, gelSQ (C i) (T i) (fairPoint m (C i) (D i) L₂ s₂) - gelSQ (C i) (T i) (fairPoint m (C i) (D i) L s) ≤
      (C i : ℚ) / T i * max 0 ((s₂ - s) - (L₂ - L) * D i) := by
    intro i
    unfold gelSQ
    refine (max_sub_le _ _).trans ?_
    rw [mul_max_of_nonneg _ _ (hu0 i), mul_zero]
    refine max_le_max le_rfl (le_of_eq ?_)
    have hT' : (T i : ℚ) ≠ 0 := by exact_mod_cast (hT i).ne'
    unfold fairPoint
    field_simp
    ring
  have hlt1 : ∀ i, max 0 ((s₂ - s) - (L₂ - L) * D i) < s₂ - s := by
    intro i
    refine max_lt hs ?_
    have := mul_pos hδ (hD' i)
    linarith
  have hsplit : ∀ f : Fin n → ℚ, ∑ i, f i = ∑ i ∈ Q, f i + ∑ i ∈ Qᶜ, f i := fun f => (sum_add_sum_compl Q f).symm
  have hG : ∑ i ∈ Q, gelGQ m (C i) (T i) (fairPoint m (C i) (D i) L₂ s₂) s₂ -
      ∑ i ∈ Q, gelGQ m (C i) (T i) (fairPoint m (C i) (D i) L s) s =
      ∑ i ∈ Q, (C i : ℚ) / T i * (s₂ - s) - (∑ i ∈ Q, gelSQ (C i) (T i) (fairPoint m (C i) (D i) L₂ s₂) -
        ∑ i ∈ Q, gelSQ (C i) (T i) (fairPoint m (C i) (D i) L s)) := by
    rw [← sum_sub_distrib, ← sum_sub_distrib, ← sum_sub_distrib]
    refine sum_congr rfl fun i _ => ?_
    unfold gelGQ
    ring
  have hS2 := hsplit (fun i => gelSQ (C i) (T i) (fairPoint m (C i) (D i) L₂ s₂))
  have hS1 := hsplit (fun i => gelSQ (C i) (T i) (fairPoint m (C i) (D i) L s))
  have hout : ∑ i ∈ Qᶜ, gelSQ (C i) (T i) (fairPoint m (C i) (D i) L₂ s₂) -
      ∑ i ∈ Qᶜ, gelSQ (C i) (T i) (fairPoint m (C i) (D i) L s) ≤
      ∑ i ∈ Qᶜ, (C i : ℚ) / T i * max 0 ((s₂ - s) - (L₂ - L) * D i) := by
    rw [← sum_sub_distrib]
    exact sum_le_sum fun i _ => hch i
  have hUs : ∑ i ∈ Q, (C i : ℚ) / T i * (s₂ - s) + ∑ i ∈ Qᶜ, (C i : ℚ) / T i * (s₂ - s) =
      totalUtilization C T * (s₂ - s) := by
    rw [← hsplit, ← sum_mul]
    rfl
  have hweak : ∑ i ∈ Qᶜ, (C i : ℚ) / T i * max 0 ((s₂ - s) - (L₂ - L) * D i) ≤ ∑ i ∈ Qᶜ, (C i : ℚ) / T i * (s₂ - s) :=
    sum_le_sum fun i _ => mul_le_mul_of_nonneg_left (hlt1 i).le (hu0 i)
  have hmU := mul_le_mul_of_nonneg_right hU hs.le
  rcases hU.lt_or_eq with hUm | hUm
  · have := mul_lt_mul_of_pos_right hUm hs
    linarith
  · -- a task outside of `Q`
    have hU0 : 0 < totalUtilization C T := by rw [hUm]; exact_mod_cast hm
    have hQu : ∑ i ∈ Q, (C i : ℚ) / T i < totalUtilization C T := by
      have h1 : ∑ i ∈ Q, (C i : ℚ) / T i ≤ Q.card • (1 : ℚ) := by
        refine sum_le_card_nsmul _ _ _ fun i _ => ?_
        rw [div_le_one (by exact_mod_cast hT i)]
        exact_mod_cast hCT i
      rw [nsmul_eq_mul, mul_one] at h1
      have h2 : Q.card ≤ (⌈totalUtilization C T⌉ - 1).toNat := by rw [hQ.card]; exact min_le_left _ _
      have h3 := Int.ceil_pos.2 hU0
      have h4 := Int.ceil_lt_add_one (totalUtilization C T)
      have h5 : ((Q.card : ℤ) : ℚ) ≤ ((⌈totalUtilization C T⌉ - 1 : ℤ) : ℚ) := by
        have : (Q.card : ℤ) ≤ ⌈totalUtilization C T⌉ - 1 := by omega
        exact_mod_cast this
      push_cast at h5
      linarith
    have hex : ∃ i ∈ Qᶜ, 0 < (C i : ℚ) / T i := by
      by_contra hno
      push Not at hno
      have h1 : ∑ i ∈ Qᶜ, (C i : ℚ) / T i ≤ 0 := sum_nonpos hno
      have h2 := hsplit (fun i => (C i : ℚ) / T i)
      unfold totalUtilization at hQu
      linarith
    obtain ⟨i, hi, hui⟩ := hex
    have hstrict : ∑ i ∈ Qᶜ, (C i : ℚ) / T i * max 0 ((s₂ - s) - (L₂ - L) * D i) < ∑ i ∈ Qᶜ, (C i : ℚ) / T i * (s₂ - s) :=
      sum_lt_sum (fun i _ => mul_le_mul_of_nonneg_left (hlt1 i).le (hu0 i)) ⟨i, hi, mul_lt_mul_of_pos_left (hlt1 i) hui⟩
    linarith

/-- The ratios are ordered in one way only. -/
theorem FairRatio.le (hm : 0 < m) (hT : ∀ i, 0 < T i) (hCT : ∀ i, C i ≤ T i) (hD : ∀ i, 0 < D i)
    (hU : totalUtilization C T ≤ m) {L₂ s₂ : ℚ} (h₁ : FairRatio m C T D L s) (h₂ : FairRatio m C T D L₂ s₂) : L₂ ≤ L := by
  by_contra hlt
  obtain ⟨Q, hQ, he⟩ := h₂.root
  obtain ⟨R, hR, he'⟩ := h₁.root
  have := fair_decr hm hT hCT hD hU (not_le.1 hlt) h₁.nonneg h₂.smallest hQ hR
  beta_reduce at he he'
  linarith

end

end Verif.Spec
