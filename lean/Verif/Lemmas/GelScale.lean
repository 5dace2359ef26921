/-
Schedules with fractional priority points: all times are multiplied by a common denominator.
-/
import Verif.Spec.Gfrl
import Verif.Props.Gel

namespace Verif.Spec
open Finset

variable {n : ℕ}

/-- All times multiplied by `N`. -/
def Workload.scale (w : Workload n) (N : ℕ) : Workload n := ⟨fun j => N * w.release j, fun j => N * w.exec j⟩

/-- Each slot is divided into `N` slots. -/
def Schedule.scale (σ : Schedule n) (N : ℕ) : Schedule n := fun t => σ (t / N)

theorem service_succ' (σ : Schedule n) (j : Job n) (t : ℕ) :
    service σ j (t + 1) = service σ j t + if j ∈ σ t then 1 else 0 := by
  unfold service
  rw [range_add_one, filter_insert]
  split_ifs with h
  · rw [card_insert_of_notMem (by simp)]
  · rfl

theorem service_scale (σ : Schedule n) {N : ℕ} (hN : 0 < N) (j : Job n) (q : ℕ) :
    ∀ r, r ≤ N → service (Schedule.scale σ N) j (N * q + r) = N * service σ j q + if j ∈ σ q then r else 0 := by
  induction q with
  | zero =>
    intro r
    induction r with
    | zero => intro _; simp [service]
    | succ r ih =>
      intro hr
      rw [← add_assoc, service_succ', ih (by omega)]
      have : Schedule.scale σ N (N * 0 + r) = σ 0 := by
        unfold Schedule.scale
        rw [Nat.mul_zero, zero_add, Nat.div_eq_of_lt (by omega)]
      rw [this]
      split_ifs <;> omega
  | succ q ihq =>
    intro r
    induction r with
    | zero =>
      intro _
      have h := ihq N le_rfl
      rw [← Nat.mul_succ] at h
      rw [add_zero, h, service_succ']
      split_ifs <;> simp [Nat.mul_add]
    | succ r ih =>
      intro hr
      rw [← add_assoc, service_succ', ih (by omega)]
      have : Schedule.scale σ N (N * (q + 1) + r) = σ (q + 1) := by
        unfold Schedule.scale
        rw [Nat.mul_add_div hN, Nat.div_eq_of_lt (by omega), add_zero]
      rw [this]
      split_ifs <;> omega

section
variable {m : ℕ} {w : Workload n} {σ : Schedule n} {N : ℕ}

theorem completed_scale (hN : 0 < N) (hv : ValidSchedule m w σ) (j : Job n) {q r : ℕ} (hr : r < N) :
    Completed (w.scale N) (Schedule.scale σ N) j (N * q + r) ↔ Completed w σ j q := by
  unfold Completed
  rw [service_scale σ hN j q r hr.le]
  show N * w.exec j ≤ _ ↔ _
  by_cases h : j ∈ σ q
  · rw [if_pos h]
    have h1 : ¬ w.exec j ≤ service σ j q := (hv.ready q j h).1.2
    constructor
    · intro h2
      exfalso
      have h3 : service σ j q + 1 ≤ w.exec j := by omega
      have h4 := Nat.mul_le_mul_left N h3
      rw [Nat.mul_add] at h4
      omega
    · intro h2; exact absurd h2 h1
  · rw [if_neg h, add_zero]
    exact Nat.mul_le_mul_left_iff hN

theorem ready_scale (hN : 0 < N) (hv : ValidSchedule m w σ) (j : Job n) {q r : ℕ} (hr : r < N) :
    Ready (w.scale N) (Schedule.scale σ N) j (N * q + r) ↔ Ready w σ j q := by
  unfold Ready Pending
  rw [completed_scale hN hv j hr]
  have h1 : (w.scale N).release j ≤ N * q + r ↔ w.release j ≤ q := by
    show N * w.release j ≤ _ ↔ _
    constructor
    · intro h
      by_contra hc
      have h3 : q + 1 ≤ w.release j := by omega
      have h4 := Nat.mul_le_mul_left N h3
      rw [Nat.mul_add] at h4
      omega
    · intro h
      have := Nat.mul_le_mul_left N h
      omega
  rw [h1]
  simp only [completed_scale hN hv _ hr]

theorem split_slot (hN : 0 < N) (t : ℕ) : ∃ q r, r < N ∧ t = N * q + r ∧ t / N = q :=
  ⟨t / N, t % N, Nat.mod_lt _ hN, (Nat.div_add_mod t N).symm, rfl⟩

theorem valid_scale (hN : 0 < N) (hv : ValidSchedule m w σ) : ValidSchedule m (w.scale N) (Schedule.scale σ N) where
  procs t := hv.procs _
  ready t j hj := by
    obtain ⟨q, r, hr, ht, hq⟩ := split_slot hN t
    unfold Schedule.scale at hj
    rw [hq] at hj
    rw [ht, ready_scale hN hv j hr]
    exact hv.ready q j hj

theorem sporadic_scale {C T : Fin n → ℕ} (h : w.Sporadic C T) :
    (w.scale N).Sporadic (fun i => N * C i) (fun i => N * T i) where
  separated i k := by
    show N * _ + N * _ ≤ N * _
    rw [← Nat.mul_add]
    exact Nat.mul_le_mul_left N (h.separated i k)
  wcet i k := Nat.mul_le_mul_left N (h.wcet i k)

theorem gel_scale (hN : 0 < N) (hv : ValidSchedule m w σ) {Y : Fin n → ℚ} {Z : Fin n → ℤ} (hZ : ∀ i, (Z i : ℚ) = N * Y i)
    (hg : GELQ m w Y σ) : GEL m (w.scale N) Z (Schedule.scale σ N) := by
  intro t j hr hn
  obtain ⟨q, r, hr', ht, hq⟩ := split_slot hN t
  unfold Schedule.scale at hn ⊢
  rw [hq] at hn ⊢
  rw [ht, ready_scale hN hv j hr'] at hr
  obtain ⟨h1, h2⟩ := hg q j hr hn
  refine ⟨h1, fun j' hj' => ?_⟩
  have h3 := mul_le_mul_of_nonneg_left (h2 j' hj') (show (0 : ℚ) ≤ N by positivity)
  have h4 : ((((w.scale N).release j' : ℕ) : ℤ) + Z j'.1 : ℚ) ≤ (((w.scale N).release j : ℕ) : ℤ) + Z j.1 := by
    rw [hZ, hZ]
    show (((N * w.release j' : ℕ) : ℤ) : ℚ) + _ ≤ (((N * w.release j : ℕ) : ℤ) : ℚ) + _
    push_cast
    linarith
  exact_mod_cast h4

end

/-! ### Legal values -/

theorem exists_denominator (Y : Fin n → ℚ) : ∃ N : ℕ, 0 < N ∧ ∃ Z : Fin n → ℤ, ∀ i, (Z i : ℚ) = N * Y i := by
  refine ⟨∏ i, (Y i).den, Nat.pos_of_ne_zero (Finset.prod_ne_zero_iff.2 (fun i _ => (Y i).den_nz)), fun i => (Y i).num * ∏ k ∈ univ.erase i, ((Y k).den : ℤ), ?_⟩
  intro i
  rw [← Finset.mul_prod_erase univ (fun i => (Y i).den) (mem_univ i)]
  push_cast
  have h := Rat.mul_den_eq_num (Y i)
  rw [← h]
  ring

theorem gelS_scale {C T N : ℕ} (hN : 0 < N) {p : ℚ} {z : ℤ} (hz : (z : ℚ) = N * p) :
    gelS (N * C) (N * T) z = N * gelSQ C T p := by
  unfold gelS gelSQ
  have hN' : (0 : ℚ) < N := by exact_mod_cast hN
  rw [hz, mul_max_of_nonneg _ _ hN'.le, mul_zero]
  push_cast
  rw [mul_div_mul_left _ _ hN'.ne', mul_assoc]

theorem gelG_scale {m C T N : ℕ} (hN : 0 < N) {p s : ℚ} {z : ℤ} (hz : (z : ℚ) = N * p) :
    gelG m (N * C) (N * T) z (N * s) = N * gelGQ m C T p s := by
  unfold gelG gelGQ
  have hN' : (0 : ℚ) < N := by exact_mod_cast hN
  rw [gelS_scale hN hz]
  push_cast
  rw [mul_div_mul_left _ _ hN'.ne']
  ring

theorem totalUtilization_scale {C T : Fin n → ℕ} {N : ℕ} (hN : 0 < N) :
    totalUtilization (fun i => N * C i) (fun i => N * T i) = totalUtilization C T := by
  have hN' : (N : ℚ) ≠ 0 := by exact_mod_cast hN.ne'
  unfold totalUtilization
  refine sum_congr rfl fun i _ => ?_
  push_cast
  rw [mul_div_mul_left _ _ hN']

/-- Roots bound response times, for fractional priority points of which the smallest is 0. -/
theorem rootQ_safe {m : ℕ} {C T : Fin n → ℕ} {Y B : Fin n → ℚ} {s : ℚ} (hm : 0 < m) (hT : ∀ i, 0 < T i)
    (hCT : ∀ i, C i ≤ T i) (hU : totalUtilization C T ≤ m) (hs : 0 ≤ s) (hY : ∀ i, 0 ≤ Y i)
    (hl : GelRootQ m C T Y s) (hB : ∀ i, Y i + C i + (s - (C i : ℚ) / m) ≤ B i) :
    ResponseTimesBoundedQ m C T Y B := by
  intro w σ hsp hv hg j t ht
  obtain ⟨N, hN, Z, hZ⟩ := exists_denominator Y
  have hN' : (0 : ℚ) < N := by exact_mod_cast hN
  have hZ0 : ∀ i, 0 ≤ Z i := by
    intro i
    have := mul_nonneg hN'.le (hY i)
    rw [← hZ] at this
    exact_mod_cast this
  obtain ⟨Q, hQ, he⟩ := hl
  have hlegal : Verif.Spec.GelLegal m (fun i => N * C i) (fun i => N * T i) (fun i => Z i - 0) (N * s) := by
    refine ⟨Q, ?_, ?_⟩
    · rw [totalUtilization_scale hN]
      refine ⟨hQ.card, fun i hi k hk => ?_⟩
      simp only [sub_zero, gelG_scale hN (hZ _)]
      exact mul_le_mul_of_nonneg_left (hQ.top i hi k hk) hN'.le
    · simp only [sub_zero, gelG_scale hN (hZ _), gelS_scale hN (hZ _), ← mul_sum]
      rw [← mul_add, he]
      linarith
  have h := Verif.Gel.legal_safe (B := fun i => (Z i - 0) + ((N * C i : ℕ) : ℤ) + ⌊(N : ℚ) * s - ((N * C i : ℕ) : ℚ) / m⌋) hm
    (fun i => Nat.mul_pos hN (hT i)) (fun i => Nat.mul_le_mul_left N (hCT i))
    (by rw [totalUtilization_scale hN]; exact hU) (mul_nonneg hN'.le hs) hZ0 hlegal (fun i => le_rfl)
  have h1 := h (w.scale N) (Schedule.scale σ N) (sporadic_scale hsp) (valid_scale hN hv) (gel_scale hN hv hZ hg) j (N * t + 0) ?_
  · rw [completed_scale hN hv j hN] at h1
    exact h1
  · have h2 : ((((w.scale N).release j : ℕ) : ℤ) + ((Z j.1 - 0) + ((N * C j.1 : ℕ) : ℤ) +
        ⌊(N : ℚ) * s - ((N * C j.1 : ℕ) : ℚ) / m⌋) : ℚ) ≤ ((N * t + 0 : ℕ) : ℤ) := by
      have h3 := Int.floor_le ((N : ℚ) * s - ((N * C j.1 : ℕ) : ℚ) / m)
      have h4 := mul_le_mul_of_nonneg_left ht hN'.le
      have h5 := mul_le_mul_of_nonneg_left (hB j.1) hN'.le
      have h6 := hZ j.1
      show (((N * w.release j : ℕ) : ℤ) : ℚ) + _ ≤ _
      push_cast at h3 ⊢
      rw [sub_zero, h6]
      have h7 : (N : ℚ) * (C j.1 : ℚ) / m = N * ((C j.1 : ℚ) / m) := by ring
      rw [h7] at h3 ⊢
      linarith
    exact_mod_cast h2

end Verif.Spec
