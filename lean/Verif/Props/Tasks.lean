/-
Properties C01-C06 of `schedcat/model/tasks.py`.
-/
import Verif.Spec.Arrivals
import Verif.Model.Tasks
import Mathlib.Tactic.Linarith
import Mathlib.Tactic.Positivity
import Mathlib.Data.Finset.Card
import Mathlib.Order.Interval.Finset.Nat
import Mathlib.Algebra.BigOperators.Fin

namespace Verif
open Spec

/-- Jobs `i ≤ j` are at least `(j - i) * T` apart. -/
theorem arrivals_spread {T : ℚ} {r : ℕ → ℚ} (h : SporadicArrivals T r) (i n : ℕ) :
    r i + n * T ≤ r (i + n) := by
  induction n with
  | zero => simp
  | succ n ih =>
    have := h (i + n)
    push_cast
    have e : i + (n + 1) = i + n + 1 := by omega
    rw [e]; linarith

/-- A nonempty set of `c` jobs contains two whose releases are at least
`(c - 1) * T` apart. -/
theorem card_spread {T : ℚ} (hT : 0 < T) {r : ℕ → ℚ} (h : SporadicArrivals T r)
    (S : Finset ℕ) (hS : S.Nonempty) :
    ∃ i ∈ S, ∃ j ∈ S, r i + ((S.card : ℚ) - 1) * T ≤ r j := by
  refine ⟨S.min' hS, S.min'_mem hS, S.max' hS, S.max'_mem hS, ?_⟩
  have hsub : S ⊆ Finset.Icc (S.min' hS) (S.max' hS) := by
    intro x hx
    exact Finset.mem_Icc.mpr ⟨S.min'_le x hx, S.le_max' x hx⟩
  have hc := Finset.card_le_card hsub
  rw [Nat.card_Icc] at hc
  have hle : S.min' hS ≤ S.max' hS := S.min'_le _ (S.max'_mem hS)
  have := arrivals_spread h (S.min' hS) (S.max' hS - S.min' hS)
  rw [Nat.add_sub_cancel' hle] at this
  have hcq : (S.card : ℚ) - 1 ≤ ((S.max' hS - S.min' hS : ℕ) : ℚ) := by
    have : S.card ≤ (S.max' hS - S.min' hS) + 1 := by omega
    have : (S.card : ℚ) ≤ ((S.max' hS - S.min' hS : ℕ) : ℚ) + 1 := by exact_mod_cast this
    linarith
  nlinarith

/-- Number of jobs in a window: if all releases of `S` lie within `w` of each
other then there are at most `⌊w / T⌋ + 1`. -/
theorem card_le_floor {T : ℚ} (hT : 0 < T) {r : ℕ → ℚ} (h : SporadicArrivals T r)
    (S : Finset ℕ) (hS : S.Nonempty) (a w : ℚ) (hw : ∀ k ∈ S, a ≤ r k ∧ r k ≤ a + w) :
    (S.card : ℤ) ≤ ⌊w / T⌋ + 1 := by
  obtain ⟨i, hi, j, hj, hij⟩ := card_spread hT h S hS
  have h1 := (hw i hi).1
  have h2 := (hw j hj).2
  have : ((S.card : ℤ) - 1 : ℤ) ≤ ⌊w / T⌋ := by
    rw [Int.le_floor]
    push_cast
    rw [le_div_iff₀ hT]
    linarith
  linarith

/-! ### C01: `dbf` -/

/-- C01, safety: in every legal arrival sequence, the jobs that lie entirely
inside a window of length `t` have total cost at most `dbf(t)`. -/
theorem C01_dbf_upper (tsk : SporadicTask) (hT : 0 < tsk.period) (hD : 0 < tsk.deadline)
    (hC : 0 ≤ tsk.cost) (r : ℕ → ℚ) (hr : SporadicArrivals tsk.period r) (a t : ℚ)
    (S : Finset ℕ) (hS : ∀ k ∈ S, InsideWindow r tsk.deadline a t k) :
    (S.card : ℚ) * tsk.cost ≤ tsk.dbf t := by
  rcases S.eq_empty_or_nonempty with rfl | hne
  · simp only [Finset.card_empty, Nat.cast_zero, zero_mul, SporadicTask.dbf]
    split_ifs
    · exact le_rfl
    · exact le_max_left _ _
  · obtain ⟨k, hk⟩ := hne
    have hk' := hS k hk
    unfold InsideWindow at hk' hS
    have ht : 0 < t := by linarith [hk'.1, hk'.2]
    have hcard := card_le_floor hT hr S ⟨k, hk⟩ a (t - tsk.deadline)
      (fun k hk => ⟨(hS k hk).1, by linarith [(hS k hk).2]⟩)
    rw [SporadicTask.dbf, if_neg (not_le.mpr ht)]
    refine le_trans ?_ (le_max_right _ _)
    have : (S.card : ℚ) ≤ ((⌊(t - tsk.deadline) / tsk.period⌋ : ℤ) : ℚ) + 1 := by
      exact_mod_cast hcard
    exact mul_le_mul_of_nonneg_right this hC

/-- C01, tightness: some legal arrival sequence has jobs of total cost
exactly `dbf(t)` inside a window of length `t`. -/
theorem C01_dbf_attained (tsk : SporadicTask) (hT : 0 < tsk.period)
    (hC : 0 ≤ tsk.cost) (t : ℚ) :
    ∃ (r : ℕ → ℚ) (S : Finset ℕ), SporadicArrivals tsk.period r ∧
      (∀ k ∈ S, InsideWindow r tsk.deadline 0 t k) ∧
      (S.card : ℚ) * tsk.cost = tsk.dbf t := by
  by_cases ht : t ≤ 0
  · refine ⟨fun k => k * tsk.period, ∅, ?_, by simp, ?_⟩
    · intro k; push_cast; linarith
    · simp [SporadicTask.dbf, ht]
  · refine ⟨fun k => k * tsk.period,
      Finset.range (⌊(t - tsk.deadline) / tsk.period⌋ + 1).toNat, ?_, ?_, ?_⟩
    · intro k; push_cast; linarith
    · intro k hk
      rw [Finset.mem_range] at hk
      have hk' : (k : ℤ) ≤ ⌊(t - tsk.deadline) / tsk.period⌋ := by omega
      rw [Int.le_floor, le_div_iff₀ hT] at hk'
      push_cast at hk'
      exact ⟨by positivity, by linarith⟩
    · rw [SporadicTask.dbf, if_neg ht, Finset.card_range]
      rcases le_or_gt 0 (⌊(t - tsk.deadline) / tsk.period⌋ + 1) with h | h
      · have e : (((⌊(t - tsk.deadline) / tsk.period⌋ + 1).toNat : ℕ) : ℚ)
            = ((⌊(t - tsk.deadline) / tsk.period⌋ : ℤ) : ℚ) + 1 := by
          have := Int.toNat_of_nonneg h
          exact_mod_cast this
        rw [e, max_eq_right]
        have : (0 : ℚ) ≤ ((⌊(t - tsk.deadline) / tsk.period⌋ : ℤ) : ℚ) + 1 := by exact_mod_cast h
        positivity
      · have e : (⌊(t - tsk.deadline) / tsk.period⌋ + 1).toNat = 0 := by omega
        rw [e, max_eq_left]
        · simp
        · have : ((⌊(t - tsk.deadline) / tsk.period⌋ : ℤ) : ℚ) + 1 ≤ 0 := by
            exact_mod_cast h.le
          exact mul_nonpos_of_nonpos_of_nonneg this hC

/-- C01 for task systems: the total cost of all jobs of all tasks inside a
common window of length `t` is at most `TaskSystem.dbf(t)`, and some family of
legal arrival sequences attains it. -/
theorem C01_system_dbf_upper (ts : TaskSystem)
    (hok : ∀ tsk ∈ ts, 0 < tsk.period ∧ 0 < tsk.deadline ∧ 0 ≤ tsk.cost)
    (r : Fin ts.length → ℕ → ℚ) (hr : ∀ i, SporadicArrivals (ts[i]).period (r i)) (a t : ℚ)
    (S : Fin ts.length → Finset ℕ)
    (hS : ∀ i, ∀ k ∈ S i, InsideWindow (r i) (ts[i]).deadline a t k) :
    ∑ i, ((S i).card : ℚ) * (ts[i]).cost ≤ TaskSystem.dbf ts t := by
  have h1 : TaskSystem.dbf ts t = ∑ i : Fin ts.length, (ts[i]).dbf t := by
    unfold TaskSystem.dbf
    exact (Fin.sum_univ_fun_getElem ts (fun x => x.dbf t)).symm
  rw [h1]
  refine Finset.sum_le_sum fun i _ => ?_
  obtain ⟨h2, h3, h4⟩ := hok (ts[i]) (List.getElem_mem _)
  exact C01_dbf_upper _ h2 h3 h4 (r i) (hr i) a t (S i) (hS i)

theorem C01_system_dbf_attained (ts : TaskSystem)
    (hok : ∀ tsk ∈ ts, 0 < tsk.period ∧ 0 < tsk.deadline ∧ 0 ≤ tsk.cost) (t : ℚ) :
    ∃ (r : Fin ts.length → ℕ → ℚ) (S : Fin ts.length → Finset ℕ),
      (∀ i, SporadicArrivals (ts[i]).period (r i)) ∧
      (∀ i, ∀ k ∈ S i, InsideWindow (r i) (ts[i]).deadline 0 t k) ∧
      ∑ i, ((S i).card : ℚ) * (ts[i]).cost = TaskSystem.dbf ts t := by
  have h1 : TaskSystem.dbf ts t = ∑ i : Fin ts.length, (ts[i]).dbf t := by
    unfold TaskSystem.dbf
    exact (Fin.sum_univ_fun_getElem ts (fun x => x.dbf t)).symm
  have H : ∀ i : Fin ts.length, ∃ (r : ℕ → ℚ) (S : Finset ℕ),
      SporadicArrivals (ts[i]).period r ∧
      (∀ k ∈ S, InsideWindow r (ts[i]).deadline 0 t k) ∧
      (S.card : ℚ) * (ts[i]).cost = (ts[i]).dbf t := fun i => by
    obtain ⟨h2, _, h4⟩ := hok (ts[i]) (List.getElem_mem _)
    exact C01_dbf_attained _ h2 h4 t
  choose r S hrS using H
  exact ⟨r, S, fun i => (hrS i).1, fun i => (hrS i).2.1, by
    rw [h1]; exact Finset.sum_congr rfl fun i _ => (hrS i).2.2⟩

/-- Non-vacuity: with cost 2, period 5, deadline 4 a window of length 10
contains two complete jobs. -/
example : (⟨2, 5, 4⟩ : SporadicTask).dbf 10 = 4 := by
  norm_num [SporadicTask.dbf]

example : SporadicArrivals 5 (fun k => 7 * k) ∧
    ∀ k ∈ ({1, 2} : Finset ℕ), InsideWindow (fun k => 7 * (k : ℚ)) 4 6 12 k := by
  refine ⟨fun k => by push_cast; linarith, ?_⟩
  intro k hk
  simp only [Finset.mem_insert, Finset.mem_singleton] at hk
  rcases hk with rfl | rfl <;> norm_num [InsideWindow]

/-! ### C02: `rbf` -/

/-- C02, safety. -/
theorem C02_rbf_upper (tsk : SporadicTask) (hT : 0 < tsk.period)
    (hC : 0 ≤ tsk.cost) (r : ℕ → ℚ) (hr : SporadicArrivals tsk.period r) (a t : ℚ)
    (S : Finset ℕ) (hS : ∀ k ∈ S, ReleasedInWindow r a t k) :
    (S.card : ℚ) * tsk.cost ≤ tsk.rbf t := by
  rcases S.eq_empty_or_nonempty with rfl | hne
  · simp only [Finset.card_empty, Nat.cast_zero, zero_mul, SporadicTask.rbf]
    split_ifs with h
    · exact le_rfl
    · have : (0 : ℤ) ≤ ⌊t / tsk.period⌋ :=
        Int.floor_nonneg.mpr (div_nonneg (not_lt.mp h) hT.le)
      have : (0 : ℚ) ≤ ((⌊t / tsk.period⌋ : ℤ) : ℚ) := by exact_mod_cast this
      positivity
  · obtain ⟨k, hk⟩ := hne
    have hk' := hS k hk
    unfold ReleasedInWindow at hk' hS
    have ht : ¬ t < 0 := by linarith [hk'.1, hk'.2]
    have hcard := card_le_floor hT hr S ⟨k, hk⟩ a t hS
    rw [SporadicTask.rbf, if_neg ht]
    have : (S.card : ℚ) ≤ ((⌊t / tsk.period⌋ : ℤ) : ℚ) + 1 := by
      exact_mod_cast hcard
    exact mul_le_mul_of_nonneg_right this hC

/-- C02, tightness. -/
theorem C02_rbf_attained (tsk : SporadicTask) (hT : 0 < tsk.period) (t : ℚ) :
    ∃ (r : ℕ → ℚ) (S : Finset ℕ), SporadicArrivals tsk.period r ∧
      (∀ k ∈ S, ReleasedInWindow r 0 t k) ∧
      (S.card : ℚ) * tsk.cost = tsk.rbf t := by
  by_cases ht : t < 0
  · refine ⟨fun k => k * tsk.period, ∅, ?_, by simp, ?_⟩
    · intro k; push_cast; linarith
    · simp [SporadicTask.rbf, ht]
  · have h0 : (0 : ℤ) ≤ ⌊t / tsk.period⌋ :=
      Int.floor_nonneg.mpr (div_nonneg (not_lt.mp ht) hT.le)
    refine ⟨fun k => k * tsk.period,
      Finset.range (⌊t / tsk.period⌋ + 1).toNat, ?_, ?_, ?_⟩
    · intro k; push_cast; linarith
    · intro k hk
      rw [Finset.mem_range] at hk
      have hk' : (k : ℤ) ≤ ⌊t / tsk.period⌋ := by omega
      rw [Int.le_floor, le_div_iff₀ hT] at hk'
      push_cast at hk'
      exact ⟨by positivity, by linarith⟩
    · rw [SporadicTask.rbf, if_neg ht, Finset.card_range]
      have e : (((⌊t / tsk.period⌋ + 1).toNat : ℕ) : ℚ)
            = ((⌊t / tsk.period⌋ : ℤ) : ℚ) + 1 := by
          have := Int.toNat_of_nonneg (show (0:ℤ) ≤ ⌊t / tsk.period⌋ + 1 by omega)
          exact_mod_cast this
      rw [e]

/-- C02 for task systems. -/
theorem C02_system_rbf_upper (ts : TaskSystem)
    (hok : ∀ tsk ∈ ts, 0 < tsk.period ∧ 0 ≤ tsk.cost)
    (r : Fin ts.length → ℕ → ℚ) (hr : ∀ i, SporadicArrivals (ts[i]).period (r i)) (a t : ℚ)
    (S : Fin ts.length → Finset ℕ)
    (hS : ∀ i, ∀ k ∈ S i, ReleasedInWindow (r i) a t k) :
    ∑ i, ((S i).card : ℚ) * (ts[i]).cost ≤ TaskSystem.rbf ts t := by
  have h1 : TaskSystem.rbf ts t = ∑ i : Fin ts.length, (ts[i]).rbf t := by
    unfold TaskSystem.rbf
    exact (Fin.sum_univ_fun_getElem ts (fun x => x.rbf t)).symm
  rw [h1]
  refine Finset.sum_le_sum fun i _ => ?_
  obtain ⟨h2, h4⟩ := hok (ts[i]) (List.getElem_mem _)
  exact C02_rbf_upper _ h2 h4 (r i) (hr i) a t (S i) (hS i)

theorem C02_system_rbf_attained (ts : TaskSystem)
    (hok : ∀ tsk ∈ ts, 0 < tsk.period) (t : ℚ) :
    ∃ (r : Fin ts.length → ℕ → ℚ) (S : Fin ts.length → Finset ℕ),
      (∀ i, SporadicArrivals (ts[i]).period (r i)) ∧
      (∀ i, ∀ k ∈ S i, ReleasedInWindow (r i) 0 t k) ∧
      ∑ i, ((S i).card : ℚ) * (ts[i]).cost = TaskSystem.rbf ts t := by
  have h1 : TaskSystem.rbf ts t = ∑ i : Fin ts.length, (ts[i]).rbf t := by
    unfold TaskSystem.rbf
    exact (Fin.sum_univ_fun_getElem ts (fun x => x.rbf t)).symm
  choose r S hrS using fun i : Fin ts.length =>
    C02_rbf_attained (ts[i]) (hok (ts[i]) (List.getElem_mem _)) t
  exact ⟨r, S, fun i => (hrS i).1, fun i => (hrS i).2.1, by
    rw [h1]; exact Finset.sum_congr rfl fun i _ => (hrS i).2.2⟩

example : (⟨2, 5, 4⟩ : SporadicTask).rbf 10 = 6 := by
  norm_num [SporadicTask.rbf]

/-! ### C04: `maxjobs` -/

/-- C04: jobs that are pending somewhere in the half-open interval
`[a, a + I)` – released before its end and completed after its start – when
every job completes within `R` of its release, number at most
`maxjobs(I)`. -/
theorem C04_maxjobs_upper (tsk : SporadicTask) (hT : 0 < tsk.period) (R I : ℚ)
    (hR : 0 ≤ R) (hI : 0 ≤ I)
    (r c : ℕ → ℚ) (hr : SporadicArrivals tsk.period r) (hc : ∀ k, c k ≤ r k + R) (a : ℚ)
    (S : Finset ℕ) (hS : ∀ k ∈ S, r k < a + I ∧ a < c k) :
    (S.card : ℤ) ≤ tsk.maxjobs R I := by
  unfold SporadicTask.maxjobs
  rcases S.eq_empty_or_nonempty with rfl | hne
  · simp only [Finset.card_empty, Nat.cast_zero]
    exact Int.ceil_nonneg (div_nonneg (by linarith) hT.le)
  · obtain ⟨i, hi, j, hj, hij⟩ := card_spread hT hr S hne
    have h1 := (hS i hi).2
    have h2 := (hS j hj).1
    have h3 := hc i
    have : ((S.card : ℤ) - 1 : ℤ) < ⌈(I + R) / tsk.period⌉ := by
      rw [Int.lt_ceil, lt_div_iff₀ hT]
      push_cast
      linarith
    linarith

/-- C04, tightness: if jobs take exactly `R`, some sequence and interval
comes with `maxjobs(I)` pending jobs. -/
theorem C04_maxjobs_attained (tsk : SporadicTask) (hT : 0 < tsk.period) (R I : ℚ)
    (h0 : 0 < I + R) :
    ∃ (r : ℕ → ℚ) (a : ℚ) (S : Finset ℕ), SporadicArrivals tsk.period r ∧
      (∀ k ∈ S, r k < a + I ∧ a < r k + R) ∧ (S.card : ℤ) = tsk.maxjobs R I := by
  unfold SporadicTask.maxjobs
  have hpos : 0 < ⌈(I + R) / tsk.period⌉ := Int.ceil_pos.mpr (div_pos h0 hT)
  have hlt : ((⌈(I + R) / tsk.period⌉ : ℤ) : ℚ) - 1 < (I + R) / tsk.period := by
    have := Int.ceil_lt_add_one ((I + R) / tsk.period)
    linarith
  rw [lt_div_iff₀ hT] at hlt
  -- the window starts halfway between the two extreme admissible positions
  refine ⟨fun k => k * tsk.period,
    (R + ((((⌈(I + R) / tsk.period⌉ : ℤ) : ℚ) - 1) * tsk.period - I)) / 2,
    Finset.range (⌈(I + R) / tsk.period⌉).toNat, ?_, ?_, ?_⟩
  · intro k; push_cast; linarith
  · intro k hk
    rw [Finset.mem_range] at hk
    have hk' : (k : ℤ) + 1 ≤ ⌈(I + R) / tsk.period⌉ := by omega
    have hk'' : (k : ℚ) + 1 ≤ ((⌈(I + R) / tsk.period⌉ : ℤ) : ℚ) := by exact_mod_cast hk'
    have hkT : (k : ℚ) * tsk.period ≤ (((⌈(I + R) / tsk.period⌉ : ℤ) : ℚ) - 1) * tsk.period :=
      mul_le_mul_of_nonneg_right (by linarith) hT.le
    have hk0 : 0 ≤ (k : ℚ) * tsk.period := by positivity
    constructor <;> linarith
  · rw [Finset.card_range]
    exact Int.toNat_of_nonneg hpos.le

example : (⟨1, 10, 10⟩ : SporadicTask).maxjobs 5 20 = 3 := by
  norm_num [SporadicTask.maxjobs]

end Verif
