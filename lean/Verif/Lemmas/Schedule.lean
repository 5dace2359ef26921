import Verif.Spec.Schedule
import Mathlib.Algebra.BigOperators.Group.Finset.Basic
import Mathlib.Algebra.BigOperators.Intervals
import Mathlib.Algebra.Order.BigOperators.Group.Finset
import Mathlib.Order.Interval.Finset.Nat
import Mathlib.Tactic.Linarith
import Mathlib.Tactic.Ring
import Mathlib.Data.Finset.Sort
import Mathlib.Order.Preorder.Finite
import Mathlib.Data.Set.Finite.Basic

namespace Verif.Spec
open Finset

variable {n m : ℕ} {w : Workload n} {σ : Schedule n}

/-! ### Service -/

theorem service_zero (σ : Schedule n) (j : Job n) : service σ j 0 = 0 := by simp [service]

theorem service_succ (σ : Schedule n) (j : Job n) (t : ℕ) :
    service σ j (t + 1) = service σ j t + if j ∈ σ t then 1 else 0 := by
  unfold service
  rw [range_add_one, filter_insert]
  split_ifs with h
  · rw [card_insert_of_notMem (by simp)]
  · simp

theorem service_mono (σ : Schedule n) (j : Job n) {s t : ℕ} (h : s ≤ t) :
    service σ j s ≤ service σ j t := by
  unfold service
  apply card_le_card
  apply filter_subset_filter
  exact range_mono h

theorem Completed.mono {j : Job n} {s t : ℕ} (h : Completed w σ j s) (hst : s ≤ t) :
    Completed w σ j t := le_trans h (service_mono σ j hst)

/-- Service received in `[a, b)`. -/
def serviceIn (σ : Schedule n) (j : Job n) (a b : ℕ) : ℕ :=
  ((Ico a b).filter (fun s => j ∈ σ s)).card

theorem service_add (σ : Schedule n) (j : Job n) {a b : ℕ} (h : a ≤ b) :
    service σ j b = service σ j a + serviceIn σ j a b := by
  unfold service serviceIn
  rw [← card_union_of_disjoint]
  · congr 1
    ext x
    simp only [mem_filter, mem_range, mem_union, mem_Ico]
    constructor
    · rintro ⟨h1, h2⟩
      by_cases hx : x < a
      · exact Or.inl ⟨hx, h2⟩
      · exact Or.inr ⟨⟨by omega, h1⟩, h2⟩
    · rintro (⟨h1, h2⟩ | ⟨h1, h2⟩)
      · exact ⟨by omega, h2⟩
      · exact ⟨h1.2, h2⟩
  · rw [disjoint_left]
    intro x hx hx'
    simp only [mem_filter, mem_range, mem_Ico] at hx hx'
    omega

theorem serviceIn_le_length (σ : Schedule n) (j : Job n) (a b : ℕ) : serviceIn σ j a b ≤ b - a := by
  unfold serviceIn
  refine (card_filter_le _ _).trans ?_
  simp

theorem service_le_exec (hv : ValidSchedule m w σ) (j : Job n) (t : ℕ) : service σ j t ≤ w.exec j := by
  induction t with
  | zero => simp [service_zero]
  | succ t ih =>
    rw [service_succ]
    split_ifs with h
    · have := (hv.ready t j h).1.2
      unfold Completed at this
      omega
    · simpa using ih

/-- A job receives no service before its release. -/
theorem service_eq_zero (hv : ValidSchedule m w σ) (j : Job n) {t : ℕ} (h : t ≤ w.release j) :
    service σ j t = 0 := by
  unfold service
  rw [card_eq_zero, filter_eq_empty_iff]
  intro s hs hj
  have := (hv.ready s j hj).1.1
  rw [mem_range] at hs
  omega

/-- No service after completion. -/
theorem serviceIn_eq_zero (hv : ValidSchedule m w σ) (j : Job n) {a b : ℕ}
    (h : Completed w σ j a) : serviceIn σ j a b = 0 := by
  unfold serviceIn
  rw [card_eq_zero, filter_eq_empty_iff]
  intro s hs hj
  rw [mem_Ico] at hs
  exact (hv.ready s j hj).1.2 (h.mono hs.1)

theorem serviceIn_eq_zero_of_release (hv : ValidSchedule m w σ) (j : Job n) {a b : ℕ}
    (h : b ≤ w.release j) : serviceIn σ j a b = 0 := by
  unfold serviceIn
  rw [card_eq_zero, filter_eq_empty_iff]
  intro s hs hj
  have := (hv.ready s j hj).1.1
  rw [mem_Ico] at hs
  omega

theorem serviceIn_le_exec (hv : ValidSchedule m w σ) (j : Job n) (a b : ℕ) :
    serviceIn σ j a b ≤ w.exec j := by
  rcases le_total a b with h | h
  · have h1 := service_add σ j h
    have h2 := service_le_exec hv j b
    omega
  · have := serviceIn_le_length σ j a b
    omega

theorem serviceIn_split (σ : Schedule n) (j : Job n) {a b c : ℕ} (h1 : a ≤ b) (h2 : b ≤ c) :
    serviceIn σ j a c = serviceIn σ j a b + serviceIn σ j b c := by
  have e1 := service_add σ j h1
  have e2 := service_add σ j h2
  have e3 := service_add σ j (h1.trans h2)
  omega

theorem serviceIn_succ (σ : Schedule n) (j : Job n) {a b : ℕ} (h : a ≤ b) :
    serviceIn σ j a (b + 1) = serviceIn σ j a b + if j ∈ σ b then 1 else 0 := by
  have e1 := service_add σ j h
  have e2 := service_add σ j (show a ≤ b + 1 by omega)
  have e3 := service_succ σ j b
  omega

/-- Work done in `[a, b)` for a set of jobs, counted by slots or by jobs. -/
theorem sum_card_eq_sum_service (σ : Schedule n) (S : Finset (Job n)) (a b : ℕ) :
    ∑ t ∈ Ico a b, (σ t ∩ S).card = ∑ j ∈ S, serviceIn σ j a b := by
  unfold serviceIn
  simp only [card_filter]
  rw [sum_comm]
  apply sum_congr rfl
  intro t _
  rw [inter_comm, ← filter_mem_eq_inter, card_filter]

/-! ### Sporadic releases -/

variable {C T : Fin n → ℕ}

theorem release_add (hs : w.Sporadic C T) (i : Fin n) (k d : ℕ) :
    w.release (i, k) + d * T i ≤ w.release (i, k + d) := by
  induction d with
  | zero => simp
  | succ d ih =>
    have := hs.separated i (k + d)
    rw [← add_assoc]
    linarith [Nat.succ_mul d (T i)]

theorem release_mono (hs : w.Sporadic C T) (i : Fin n) {k l : ℕ} (h : k ≤ l) :
    w.release (i, k) + (l - k) * T i ≤ w.release (i, l) := by
  have := release_add hs i k (l - k)
  rwa [Nat.add_sub_cancel' h] at this

theorem le_release (hs : w.Sporadic C T) (i : Fin n) (hT : 0 < T i) (k : ℕ) :
    k ≤ w.release (i, k) := by
  have := release_add hs i 0 k
  rw [zero_add] at this
  have h2 : k * 1 ≤ k * T i := Nat.mul_le_mul_left k hT
  omega

/-- Number of jobs of a task released in `[a, b]`. -/
theorem card_released_le (hs : w.Sporadic C T) (i : Fin n) (hT : 0 < T i) (K : Finset ℕ) {a b : ℕ}
    (h : ∀ k ∈ K, a ≤ w.release (i, k) ∧ w.release (i, k) ≤ b) (hab : a ≤ b) :
    K.card ≤ (b - a) / T i + 1 := by
  rcases K.eq_empty_or_nonempty with rfl | hne
  · simp
  · have hmin := K.min'_mem hne
    have hsub : K ⊆ Icc (K.min' hne) (K.min' hne + (b - a) / T i) := by
      intro k hk
      rw [mem_Icc]
      have hle := K.min'_le k hk
      refine ⟨hle, ?_⟩
      have h1 := release_mono hs i hle
      have h2 := (h _ hmin).1
      have h3 := (h k hk).2
      have h4 : (k - K.min' hne) ≤ (b - a) / T i := by
        rw [Nat.le_div_iff_mul_le hT]; omega
      omega
    have := card_le_card hsub
    rw [Nat.card_Icc] at this
    generalize (b - a) / T i = x at *
    omega

/-! ### Existence of priority-driven schedules -/

/-- The `m` best elements of a finite set with respect to a priority. -/
theorem exists_top (prio : Job n → ℕ) (R : Finset (Job n)) (m : ℕ) :
    ∃ S ⊆ R, S.card ≤ m ∧ ∀ j ∈ R, j ∉ S → S.card = m ∧ ∀ j' ∈ S, prio j' ≤ prio j := by
  induction m with
  | zero => exact ⟨∅, by simp, by simp, fun j _ _ => by simp⟩
  | succ m ih =>
    obtain ⟨S, h1, h2, h3⟩ := ih
    rcases (R \ S).eq_empty_or_nonempty with he | hne
    · refine ⟨S, h1, by omega, fun j hj hS => ?_⟩
      have : j ∈ R \ S := by simp [hj, hS]
      rw [he] at this; simp at this
    · obtain ⟨x, hx, hmin⟩ := exists_min_image (R \ S) prio hne
      rw [mem_sdiff] at hx
      obtain ⟨hc, hb⟩ := h3 x hx.1 hx.2
      refine ⟨insert x S, ?_, ?_, fun j hj hS => ⟨?_, ?_⟩⟩
      · intro y hy
        rcases mem_insert.1 hy with rfl | hy
        · exact hx.1
        · exact h1 hy
      · rw [card_insert_of_notMem hx.2]; omega
      · rw [card_insert_of_notMem hx.2]; omega
      · have hjS : j ∉ S := fun h => hS (mem_insert_of_mem h)
        intro j' hj'
        rcases mem_insert.1 hj' with rfl | hj'
        · exact hmin j (by simp [hj, hjS])
        · exact (h3 j hj hjS).2 j' hj'

theorem service_congr {σ σ' : Schedule n} (j : Job n) {t : ℕ} (h : ∀ s < t, σ s = σ' s) :
    service σ j t = service σ' j t := by
  unfold service
  congr 1
  apply filter_congr
  intro s hs
  rw [h s (mem_range.1 hs)]

theorem ready_congr {σ σ' : Schedule n} (j : Job n) {t : ℕ} (h : ∀ s < t, σ s = σ' s) :
    Ready w σ j t ↔ Ready w σ' j t := by
  unfold Ready Pending Completed
  simp only [service_congr _ h]

open Classical in
/-- For every workload in which only finitely many jobs are released by any time,
every number of processors and every priority there is a valid priority-driven
schedule. -/
theorem exists_schedule (m : ℕ) (w : Workload n) (prio : Job n → ℕ)
    (hfin : ∀ t, {j : Job n | w.release j ≤ t}.Finite) :
    ∃ σ : Schedule n, ValidSchedule m w σ ∧ PriorityDriven m w prio σ := by
  -- choice of the set of jobs in each slot from the history
  have hready : ∀ (σ : Schedule n) t, {j : Job n | Ready w σ j t}.Finite := fun σ t =>
    (hfin t).subset (fun j hj => hj.1.1)
  let pick : Schedule n → ℕ → Finset (Job n) := fun σ t =>
    Classical.choose (exists_top prio (hready σ t).toFinset m)
  have hpick : ∀ σ t, (∀ j ∈ pick σ t, Ready w σ j t) ∧ (pick σ t).card ≤ m ∧
      ∀ j, Ready w σ j t → j ∉ pick σ t → (pick σ t).card = m ∧ ∀ j' ∈ pick σ t, prio j' ≤ prio j := by
    intro σ t
    obtain ⟨h1, h2, h3⟩ := Classical.choose_spec (exists_top prio (hready σ t).toFinset m)
    refine ⟨fun j hj => ?_, h2, fun j hj hn => h3 j (by simpa using hj) hn⟩
    have := h1 hj
    simpa using this
  -- build the schedule slot by slot
  let build : ℕ → Schedule n := fun t => Nat.rec (fun _ => ∅)
    (fun t σ => fun s => if s = t then pick σ t else σ s) t
  have hb : ∀ t, build (t + 1) = fun s => if s = t then pick (build t) t else build t s :=
    fun _ => rfl
  have hstable : ∀ t s, s < t → build t s = build (s + 1) s := by
    intro t
    induction t with
    | zero => intro s h; omega
    | succ t ih =>
      intro s h
      by_cases hst : s = t
      · rw [hst]
      · rw [hb t]
        simp only [if_neg hst]
        exact ih s (by omega)
  let σ : Schedule n := fun t => build (t + 1) t
  have hσ : ∀ t, σ t = pick (build t) t := fun t => by simp only [σ, hb]; simp
  have hag : ∀ t, ∀ s < t, build t s = σ s := fun t s h => hstable t s h
  refine ⟨σ, ⟨fun t => ?_, fun t j hj => ?_⟩, fun t j hj hn => ?_⟩
  · rw [hσ]; exact (hpick _ _).2.1
  · rw [hσ] at hj
    exact (ready_congr j (hag t)).1 ((hpick _ _).1 j hj)
  · rw [hσ] at hn ⊢
    exact (hpick _ _).2.2 j ((ready_congr j (hag t)).2 hj) hn

/-- Sporadic workloads with positive periods release finitely many jobs by any
time. -/
theorem sporadic_finite (hs : w.Sporadic C T) (hT : ∀ i, 0 < T i) (t : ℕ) :
    {j : Job n | w.release j ≤ t}.Finite := by
  apply Set.Finite.subset (s := ((univ ×ˢ range (t + 1) : Finset (Fin n × ℕ)) : Set (Fin n × ℕ)))
  · exact Finset.finite_toSet _
  · rintro ⟨i, k⟩ h
    have := le_release hs i (hT i) k
    simp only [Set.mem_setOf_eq] at h
    simp; omega

/-- Non-vacuity: every sporadic workload has a valid EDF schedule. -/
theorem exists_edf (m : ℕ) (hs : w.Sporadic C T) (hT : ∀ i, 0 < T i) (D : Fin n → ℕ) :
    ∃ σ : Schedule n, ValidSchedule m w σ ∧ EDF m w D σ :=
  exists_schedule m w _ (sporadic_finite hs hT)

/-- The synchronous periodic workload in which every job executes for its WCET. -/
def periodic (C T : Fin n → ℕ) : Workload n where
  release := fun j => j.2 * T j.1
  exec := fun j => C j.1

theorem periodic_sporadic (C T : Fin n → ℕ) : (periodic C T).Sporadic C T :=
  ⟨fun i k => by simp [periodic]; ring_nf; exact le_rfl, fun i k => le_rfl⟩

end Verif.Spec
