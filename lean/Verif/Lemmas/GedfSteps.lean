/-
One step of the slack-based global EDF analyses, in terms of the numbers the
analyses compute.
-/
import Verif.Lemmas.Global
import Mathlib.Algebra.Order.BigOperators.Group.Finset
import Mathlib.Algebra.Module.Defs
import Mathlib.Algebra.BigOperators.Ring.Finset
import Mathlib.Tactic.Linarith
import Mathlib.Tactic.Ring

namespace Verif.Spec
open Finset

variable {n m : ℕ} {C T D : Fin n → ℕ} {w : Workload n} {σ : Schedule n}

/-- The bound on the work of jobs with a deadline in a window of length `L`, for a
task whose jobs finish `s` before their deadlines. -/
def ework (c T s L : ℕ) : ℕ := L / T * c + min c (L % T - s)

/-- Earlier jobs of the task are finished when a job is released. -/
theorem pred_completed (hs : w.Sporadic C T) {E : Fin n → ℕ} {k : Fin n}
    (hEk : E k ≤ T k) {q R : ℕ} (hR : 0 < R) (h : BoundedBefore w σ E (w.release (k, q) + R)) :
    ∀ l < q, Completed w σ (k, l) (w.release (k, q)) := by
  intro l hl
  have h1 : w.release (k, l) + T k ≤ w.release (k, q) := by
    have := hs.separated k l
    have h2 := release_mono hs k (show l + 1 ≤ q from hl)
    omega
  have := h (k, l) (by simp only; omega)
  exact this.mono (by simp only; omega)

/-- If the interference in a window of length `R` is bounded by `W` and `R` is large
enough for this much interference then `R` is a response-time bound. -/
theorem step_of_work {E : Fin n → ℕ} {k : Fin n} {R : ℕ} (hm : 0 < m) (hEk : E k ≤ T k)
    (hCR : C k ≤ R) (W : Fin n → ℕ)
    (hW : ∀ (w : Workload n) (σ : Schedule n), w.Sporadic C T → ValidSchedule m w σ →
      ∀ q, BoundedBefore w σ E (w.release (k, q) + R) → ∀ i, i ≠ k →
      intf σ (w.deadline D) (w.deadline D (k, q)) i (w.release (k, q)) (w.release (k, q) + R) ≤ W i)
    (hR : C k + (∑ i ∈ univ.erase k, min (W i) (R - C k + 1)) / m ≤ R) :
    StepOK m C T (fun w => w.deadline D) E k R := by
  classical
  intro w σ hs hv hp q hb
  rcases Nat.eq_zero_or_pos R with h0 | h0
  · have := hs.wcet k q
    unfold Completed
    omega
  by_contra hinc
  have h1 := interference hv hp (c := C k) (Y := R - C k + 1) le_rfl (pred_completed hs hEk h0 hb)
    (hs.wcet k q) hinc (by omega)
  have h2 : ∑ i ∈ univ.erase k, min (R - C k + 1) (intf σ (w.deadline D) (w.deadline D (k, q)) i
      (w.release (k, q)) (w.release (k, q) + R)) ≤ ∑ i ∈ univ.erase k, min (W i) (R - C k + 1) := by
    apply sum_le_sum
    intro i hi
    have := hW w σ hs hv q hb i (ne_of_mem_erase hi)
    omega
  have h3 : (∑ i ∈ univ.erase k, min (W i) (R - C k + 1)) / m < R - C k + 1 := by omega
  rw [Nat.div_lt_iff_lt_mul hm] at h3
  have h4 : m * (R - C k + 1) ≤ ∑ i ∈ univ.erase k, min (W i) (R - C k + 1) := h1.trans h2
  rw [Nat.mul_comm] at h4
  omega

/-- The step of the response-time analysis. -/
theorem rta_step {E : Fin n → ℕ} {k : Fin n} {R : ℕ} (hm : 0 < m) (hT : ∀ i, 0 < T i)
    (hDT : ∀ i, D i ≤ T i) (hCE : ∀ i, C i ≤ E i) (hED : ∀ i, E i ≤ D i)
    (hCR : C k ≤ R) (hRD : R ≤ D k)
    (hR : C k + (∑ i ∈ univ.erase k, min (min (gwork (C i) (T i) (R + E i - C i))
      (ework (C i) (T i) (D i - E i) (D k))) (R - C k + 1)) / m ≤ R) :
    StepOK m C T (fun w => w.deadline D) E k R := by
  refine step_of_work hm ((hED k).trans (hDT k)) hCR _ ?_ hR
  intro w σ hs hv q hb i _
  refine le_min ?_ ?_
  · exact wc_work hs hv (hT i) ((hCE i).trans ((hED i).trans (hDT i))) (hCE i) hb
  · exact edf_work hs hv (hT i) (s := D i - E i) (by have := hED i; omega) (hDT i)
      (Nat.add_le_add_left hRD _) hb

/-- The step of the iterative slack analysis. -/
theorem bcli_step {E : Fin n → ℕ} {k : Fin n} (hm : 0 < m) (hT : ∀ i, 0 < T i)
    (hDT : ∀ i, D i ≤ T i) (hED : ∀ i, E i ≤ D i)
    (hRD : C k + (∑ i ∈ univ.erase k, min (ework (C i) (T i) (D i - E i) (D k)) (D k - C k + 1)) / m
      ≤ D k) :
    StepOK m C T (fun w => w.deadline D) E k
      (C k + (∑ i ∈ univ.erase k, min (ework (C i) (T i) (D i - E i) (D k)) (D k - C k + 1)) / m) := by
  refine step_of_work hm ((hED k).trans (hDT k)) (Nat.le_add_right _ _)
    (fun i => ework (C i) (T i) (D i - E i) (D k)) ?_ ?_
  · intro w σ hs hv q hb i _
    exact edf_work hs hv (hT i) (s := D i - E i) (by have := hED i; omega) (hDT i)
      (Nat.add_le_add_left hRD _) hb
  · generalize hS : (∑ i ∈ univ.erase k, min (ework (C i) (T i) (D i - E i) (D k)) (D k - C k + 1)) = S at *
    have : ∑ i ∈ univ.erase k, min (ework (C i) (T i) (D i - E i) (D k)) (C k + S / m - C k + 1) ≤ S := by
      rw [← hS]
      apply sum_le_sum
      intro i _
      rw [hS]
      omega
    have := Nat.div_le_div_right (c := m) this
    omega

/-- Workload bound of the non-iterative test. -/
def bclWork (c T D L : ℕ) : ℤ :=
  (((L : ℤ) - D) / T + 1) * c + min (c : ℤ) (max 0 ((L : ℤ) - (((L : ℤ) - D) / T + 1) * T))

theorem ework_le_bclWork {c T D L : ℕ} (hT : 0 < T) (hD : 0 < D) (hDT : D ≤ T) :
    (ework c T 0 L : ℤ) ≤ bclWork c T D L := by
  unfold ework bclWork
  have hdm := Nat.div_add_mod L T
  have hlt := Nat.mod_lt L hT
  generalize L / T = a at *
  generalize L % T = b at *
  have hL : (L : ℤ) = T * a + b := by exact_mod_cast hdm.symm
  rcases lt_or_ge b D with h | h
  · have : ((L : ℤ) - D) / T = a - 1 := by
      rw [Int.ediv_eq_iff_of_pos (by omega)]
      rw [hL]; constructor <;> nlinarith
    rw [this]
    have e : (L : ℤ) - (a - 1 + 1) * T = b := by rw [hL]; ring
    rw [e]
    push_cast
    have : ((b : ℤ) - (0 : ℕ)) = b := by simp
    have e2 : ((b - 0 : ℕ) : ℤ) = b := by simp
    simp only [Nat.cast_sub (Nat.zero_le b)] at *
    have : (a - 1 + 1 : ℤ) = a := by ring
    rw [this]
    have : min (c : ℤ) ((b : ℤ) - (0 : ℕ)) = min (c : ℤ) (max 0 (b : ℤ)) := by
      rw [max_eq_right (by omega)]; simp
    rw [← this]
  · have : ((L : ℤ) - D) / T = a := by
      rw [Int.ediv_eq_iff_of_pos (by omega)]
      rw [hL]; constructor <;> nlinarith
    rw [this]
    push_cast
    have h1 : min (c : ℤ) (((b - 0 : ℕ) : ℤ)) ≤ c := min_le_left _ _
    have h2 : (0 : ℤ) ≤ min (c : ℤ) (max 0 ((L : ℤ) - (a + 1) * T)) := by
      apply le_min <;> simp
    nlinarith

/-- The condition of the non-iterative test. -/
theorem bcl_step {k : Fin n} (hT : ∀ i, 0 < T i)
    (hD : ∀ i, 0 < D i) (hDT : ∀ i, D i ≤ T i) (hC : C k ≤ D k)
    (h : ∑ i ∈ univ.erase k, min (bclWork (C i) (T i) (D i) (D k)) ((D k : ℤ) - C k) <
        m * ((D k : ℤ) - C k) ∨
      (∑ i ∈ univ.erase k, min (bclWork (C i) (T i) (D i) (D k)) ((D k : ℤ) - C k) =
        m * ((D k : ℤ) - C k) ∧
        ∃ j ∈ univ.erase k, 0 < bclWork (C j) (T j) (D j) (D k) ∧
          bclWork (C j) (T j) (D j) (D k) ≤ (D k : ℤ) - C k)) :
    StepOK m C T (fun w => w.deadline D) D k (D k) := by
  classical
  intro w σ hs hv hp q hb
  by_contra hinc
  set Y : ℕ := D k - C k with hY
  have hYz : (Y : ℤ) = (D k : ℤ) - C k := by omega
  have hint : ∀ i, (intf σ (w.deadline D) (w.deadline D (k, q)) i (w.release (k, q))
      (w.release (k, q) + D k) : ℤ) ≤ bclWork (C i) (T i) (D i) (D k) := by
    intro i
    have h1 := edf_work hs hv (hT i) (s := 0) (Nat.add_zero (D i)) (hDT i) (le_refl (w.release (k, q) + D k)) hb
    refine le_trans ?_ (ework_le_bclWork (hT i) (hD i) (hDT i))
    exact_mod_cast h1
  have hI : ∀ Y' : ℕ, Y' + C k ≤ D k + 1 → (m : ℤ) * Y' ≤
      ∑ i ∈ univ.erase k, min (bclWork (C i) (T i) (D i) (D k)) (Y' : ℤ) := by
    intro Y' hY'
    have h1 := interference hv hp (c := C k) (Y := Y') le_rfl (pred_completed hs (hDT k) (hD k) hb)
      (hs.wcet k q) hinc hY'
    have h2 : ((m * Y' : ℕ) : ℤ) ≤ ((∑ i ∈ univ.erase k, min Y' (intf σ (w.deadline D)
      (w.deadline D (k, q)) i (w.release (k, q)) (w.release (k, q) + D k)) : ℕ) : ℤ) := by
      exact_mod_cast h1
    push_cast at h2
    refine h2.trans (sum_le_sum ?_)
    intro i _
    have := hint i
    omega
  rw [← hYz] at h
  have hWnn : ∀ i, 0 ≤ bclWork (C i) (T i) (D i) (D k) := fun i =>
    le_trans (by positivity) (hint i)
  rcases h with h | ⟨h, j, hj, hj0, hjY⟩
  · have := hI Y (by omega)
    omega
  · have h1 := hI (Y + 1) (by omega)
    set B := (univ.erase k).filter (fun i => (Y : ℤ) < bclWork (C i) (T i) (D i) (D k)) with hB
    have hBm : B.card + 1 ≤ m ∨ Y = 0 := by
      by_contra hc
      push Not at hc
      have h2 : ((B.card : ℤ) * Y) + bclWork (C j) (T j) (D j) (D k) ≤
          ∑ i ∈ univ.erase k, min (bclWork (C i) (T i) (D i) (D k)) (Y : ℤ) := by
        have hjB : j ∉ B := by
          rw [hB, mem_filter]; intro hx; omega
        have hsub : insert j B ⊆ univ.erase k := by
          intro x hx
          rw [mem_insert] at hx
          rcases hx with rfl | hx
          · exact hj
          · exact (mem_filter.1 hx).1
        refine le_trans ?_ (sum_le_sum_of_subset_of_nonneg hsub ?_)
        · rw [sum_insert hjB, min_eq_left hjY]
          have : ∑ i ∈ B, min (bclWork (C i) (T i) (D i) (D k)) (Y : ℤ) = ∑ i ∈ B, (Y : ℤ) := by
            apply sum_congr rfl
            intro i hi
            exact min_eq_right (mem_filter.1 hi).2.le
          rw [this, sum_const, nsmul_eq_mul]
          omega
        · intro i _ _
          exact le_min (hWnn i) (by omega)
      have h3 : (m : ℤ) * Y ≤ (B.card : ℤ) * Y := by
        apply mul_le_mul_of_nonneg_right _ (by omega)
        omega
      omega
    have h4 : ∑ i ∈ univ.erase k, min (bclWork (C i) (T i) (D i) (D k)) ((Y + 1 : ℕ) : ℤ) ≤
        ∑ i ∈ univ.erase k, min (bclWork (C i) (T i) (D i) (D k)) (Y : ℤ) + B.card := by
      rw [hB, card_filter]
      push_cast
      rw [← sum_add_distrib]
      apply sum_le_sum
      intro i _
      split_ifs <;> omega
    rcases hBm with hBm | hY0
    · push_cast at h1 h4
      have : (B.card : ℤ) + 1 ≤ m := by exact_mod_cast hBm
      nlinarith
    · omega

end Verif.Spec

