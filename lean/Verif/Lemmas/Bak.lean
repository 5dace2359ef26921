/-
Baker's argument for global EDF with constrained deadlines: extend the window of
a missed deadline to the left as long as the load stays high.
-/
import Verif.Lemmas.Gfb

namespace Verif.Spec
open Finset

variable {n m : ℕ} {C T D : Fin n → ℕ} {w : Workload n} {σ : Schedule n} {d : ℕ}

theorem workDone_sub (i : Fin n) {s t : ℕ} (h : s ≤ t) :
    workDone w σ D d i t = workDone w σ D d i s + ∑ q ∈ dueJobs w D d i, serviceIn σ (i, q) s t := by
  unfold workDone
  rw [← sum_add_distrib]
  apply sum_congr rfl
  intro q _
  exact service_add σ (i, q) h

/-- While one job of a task is ready, it alone accounts for the progress of the
task. -/
theorem workDone_single (hs : w.Sporadic C T) (hv : ValidSchedule m w σ) {i : Fin n} (hT : 0 < T i)
    {q s t : ℕ} (hq : q ∈ dueJobs w D d i) (hst : s ≤ t)
    (hr : ∀ u, s ≤ u → u < t → Ready w σ (i, q) u) :
    workDone w σ D d i t = workDone w σ D d i s + serviceIn σ (i, q) s t := by
  rw [workDone_sub i hst]
  congr 1
  apply sum_eq_single_of_mem q hq
  intro p _ hpq
  unfold serviceIn
  rw [card_eq_zero, filter_eq_empty_iff]
  intro u hu hp
  rw [mem_Ico] at hu
  exact hpq (ready_unique (hv.ready u _ hp) (hr u hu.1 hu.2))

/-- Work of one task in a window `[t0, d)` with a limited carry-in. -/
theorem work_bound (hs : w.Sporadic C T) {i : Fin n} (hT : 0 < T i)
    (hDT : D i ≤ T i) {t0 : ℕ} (htd : t0 ≤ d) {lam : ℚ} (f : ℕ → ℚ) (K : Finset ℕ)
    (hK : ∀ q ∈ K, t0 < w.release (i, q) + D i ∧ w.release (i, q) + D i ≤ d)
    (hf : ∀ q ∈ K, f q ≤ C i)
    (hcarry : ∀ q ∈ K, w.release (i, q) < t0 → f q ≤ C i - lam * ((t0 - w.release (i, q) : ℕ) : ℚ))
    (hne : K.Nonempty) :
    ∑ q ∈ K, f q ≤ (C i : ℚ) / T i * ((d - t0 : ℕ) + T i - D i) + max 0 (C i - lam * T i) := by
  classical
  have hTq : (0 : ℚ) < T i := by exact_mod_cast hT
  have hCq : (0 : ℚ) ≤ C i := by positivity
  set q0 := K.min' hne with hq0
  set M := K.max' hne with hM
  have hq0K : q0 ∈ K := K.min'_mem hne
  have hMK : M ∈ K := K.max'_mem hne
  have hqM : q0 ≤ M := K.min'_le _ hMK
  set a0 := w.release (i, q0) with ha0
  -- the other jobs
  have hsplit : ∑ q ∈ K, f q = f q0 + ∑ q ∈ K.erase q0, f q := (add_sum_erase K f hq0K).symm
  have hcard : (K.erase q0).card ≤ M - q0 := by
    have hsub : K.erase q0 ⊆ Ioc q0 M := by
      intro q hq
      rw [mem_erase] at hq
      rw [mem_Ioc]
      exact ⟨lt_of_le_of_ne (K.min'_le q hq.2) (Ne.symm hq.1), K.le_max' q hq.2⟩
    have := card_le_card hsub
    rwa [Nat.card_Ioc] at this
  have hrest : ∑ q ∈ K.erase q0, f q ≤ ((M - q0 : ℕ) : ℚ) * C i := by
    calc ∑ q ∈ K.erase q0, f q ≤ ∑ q ∈ K.erase q0, (C i : ℚ) :=
          sum_le_sum (fun q hq => hf q (mem_of_mem_erase hq))
      _ = ((K.erase q0).card : ℚ) * C i := by rw [sum_const, nsmul_eq_mul]
      _ ≤ _ := mul_le_mul_of_nonneg_right (by exact_mod_cast hcard) hCq
  have hMd := (hK M hMK).2
  have hrel := release_mono hs i hqM
  have hlen : a0 + (M - q0) * T i + D i ≤ d := by omega
  -- (M - q0) * T ≤ d - D - a0
  have hlenq : ((M - q0 : ℕ) : ℚ) * T i ≤ (d : ℚ) - D i - a0 := by
    have : (((a0 + (M - q0) * T i + D i : ℕ)) : ℚ) ≤ (d : ℕ) := by exact_mod_cast hlen
    push_cast at this
    push_cast
    linarith
  have hu : ((M - q0 : ℕ) : ℚ) * C i ≤ (C i : ℚ) / T i * ((d : ℚ) - D i - a0) := by
    have h1 : ((M - q0 : ℕ) : ℚ) * C i = (C i : ℚ) / T i * (((M - q0 : ℕ) : ℚ) * T i) := by
      field_simp
    rw [h1]
    exact mul_le_mul_of_nonneg_left hlenq (by positivity)
  have hcast : ((d - t0 : ℕ) : ℚ) = (d : ℚ) - t0 := by rw [Nat.cast_sub htd]
  have hCT : (C i : ℚ) / T i * T i = C i := by field_simp
  rw [hcast, hsplit]
  rcases Nat.lt_or_ge a0 t0 with hlt | hge
  · -- carry-in
    have h1 := hcarry q0 hq0K hlt
    rw [← ha0, Nat.cast_sub hlt.le] at h1
    have h2 : (t0 : ℚ) - a0 ≤ T i := by
      have := (hK q0 hq0K).1
      have h3 : t0 ≤ a0 + T i := by omega
      have h4 : (t0 : ℚ) ≤ a0 + T i := by exact_mod_cast h3
      linarith
    have h3 : (0 : ℚ) ≤ (t0 : ℚ) - a0 := by
      have : (a0 : ℚ) ≤ t0 := by exact_mod_cast hlt.le
      linarith
    have h4 : ((C i : ℚ) / T i - lam) * ((t0 : ℚ) - a0) ≤ max 0 (C i - lam * T i) := by
      rcases le_total ((C i : ℚ) / T i) lam with hl | hl
      · refine le_trans ?_ (le_max_left _ _)
        exact mul_nonpos_of_nonpos_of_nonneg (by linarith) h3
      · refine le_trans ?_ (le_max_right _ _)
        have : ((C i : ℚ) / T i - lam) * T i = C i - lam * T i := by rw [sub_mul, hCT]
        rw [← this]
        exact mul_le_mul_of_nonneg_left h2 (by linarith)
    nlinarith
  · have h1 := hf q0 hq0K
    have h2 : (t0 : ℚ) ≤ a0 := by exact_mod_cast hge
    have h3 : (0 : ℚ) ≤ max 0 (C i - lam * T i) := le_max_left _ _
    have h4 : (C i : ℚ) / T i * ((d : ℚ) - D i - a0) ≤ (C i : ℚ) / T i * ((d : ℚ) - D i - t0) :=
      mul_le_mul_of_nonneg_left (by linarith) (by positivity)
    nlinarith

/-- Baker's condition implies schedulability under global EDF, for constrained
deadlines. -/
theorem bak_sound (hT : ∀ i, 0 < T i) (hD : ∀ i, 0 < D i) (hDT : ∀ i, D i ≤ T i) (hm : 0 < m)
    (hlam : ∀ k, C k ≤ D k)
    (hcond : ∀ k, ∑ i, min 1 ((C i : ℚ) / T i * (1 + ((T i : ℚ) - D i) / D k) +
        (if (C k : ℚ) / D k < C i / T i then (C i - (C k : ℚ) / D k * T i) / D k else 0))
        ≤ m - (m - 1) * ((C k : ℚ) / D k)) :
    EdfSchedulable m C T D := by
  classical
  intro w σ hs hv he
  by_contra hmiss
  unfold MeetsDeadlines at hmiss
  push Not at hmiss
  -- an earliest missed deadline
  obtain ⟨⟨k, q⟩, hkq, hfirst⟩ : ∃ j : Job n, ¬ Completed w σ j (w.deadline D j) ∧
      ∀ j', w.deadline D j' < w.deadline D j → Completed w σ j' (w.deadline D j') := by
    have hex : ∃ d, ∃ j : Job n, w.deadline D j = d ∧ ¬ Completed w σ j (w.deadline D j) := by
      obtain ⟨j, hj⟩ := hmiss
      exact ⟨_, j, rfl, hj⟩
    obtain ⟨j, hj, hj'⟩ := Nat.find_spec hex
    refine ⟨j, hj', fun j' hlt => ?_⟩
    by_contra hc
    have := Nat.find_min' hex ⟨j', rfl, hc⟩
    omega
  set d := w.deadline D (k, q) with hd
  set r := w.release (k, q) with hr
  have hdr : d = r + D k := rfl
  have hDk := hD k
  set lam : ℚ := (C k : ℚ) / D k with hlamdef
  have hDkq : (0 : ℚ) < D k := by exact_mod_cast hDk
  have hlam0 : 0 ≤ lam := by positivity
  have hmq : (1 : ℚ) ≤ m := by exact_mod_cast hm
  set mu : ℚ := m - (m - 1) * lam with hmu
  -- a job whose predecessors are due before d is at the head of its task
  have hpred : ∀ i p, w.release (i, p) < d → ∀ l < p, Completed w σ (i, l) (w.release (i, p)) := by
    intro i p hp l hl
    have h1 := release_mono hs i hl.le
    have h2 : 1 * T i ≤ (p - l) * T i := Nat.mul_le_mul_right _ (by omega)
    have h3 := hDT i
    have h4 : w.deadline D (i, l) ≤ w.release (i, p) := by
      unfold Workload.deadline; simp only; omega
    exact (hfirst (i, l) (by omega)).mono h4
  -- total work on due jobs in [s, d)
  set W : ℕ → ℚ := fun s => ∑ i, ((workDone w σ D d i d : ℚ) - workDone w σ D d i s) with hW
  have hready : ∀ u, r ≤ u → u < d → Ready w σ (k, q) u := fun u h1 h2 =>
    ⟨⟨h1, fun hc => hkq (hc.mono h2.le)⟩, fun l hl => (hpred k q (by omega) l hl).mono h1⟩
  have hqdue : q ∈ dueJobs w D d k := (mem_dueJobs hs (hT k)).2 le_rfl
  have hek : serviceIn σ (k, q) r d + 1 ≤ C k := by
    have h1 := service_add σ (k, q) (show r ≤ d by omega)
    have h2 : service σ (k, q) d < w.exec (k, q) := not_le.1 hkq
    have h3 := hs.wcet k q
    omega
  have hWr : mu * ((d - r : ℕ) : ℚ) ≤ W r := by
    have h1 := progress_range hs hv he hT hm (i := k) (s := r) (l := D k)
      (fun u h1 h2 => ⟨q, hqdue, hready u h1 (by omega)⟩)
    rw [← hdr] at h1
    have h2 := workDone_single hs hv (hT k) hqdue (show r ≤ d by omega) hready
    have h1q : (m : ℚ) * D k - (m - 1) * ((workDone w σ D d k d : ℚ) - workDone w σ D d k r) ≤ W r := by
      have hWe : W r = ∑ x, ((workDone w σ D d x d : ℚ) - workDone w σ D d x r) := rfl
      rw [hWe]
      exact_mod_cast h1
    have h3 : (workDone w σ D d k d : ℚ) - workDone w σ D d k r ≤ C k := by
      have : workDone w σ D d k d ≤ workDone w σ D d k r + C k := by omega
      have h4 : (workDone w σ D d k d : ℚ) ≤ workDone w σ D d k r + C k := by exact_mod_cast this
      linarith
    have h4 : lam * D k = C k := by rw [hlamdef]; field_simp
    rw [show d - r = D k by omega]
    have h5 : ((m : ℚ) - 1) * ((workDone w σ D d k d : ℚ) - workDone w σ D d k r) ≤ (m - 1) * C k :=
      mul_le_mul_of_nonneg_left h3 (by linarith)
    rw [hmu]
    nlinarith
  -- the maximal window with high load
  have hex : ∃ s, s ≤ r ∧ mu * ((d - s : ℕ) : ℚ) ≤ W s := ⟨r, le_rfl, hWr⟩
  set t0 := Nat.find hex with ht0
  obtain ⟨ht0r, hWt0⟩ := Nat.find_spec hex
  rw [← ht0] at ht0r hWt0
  have hmin : ∀ s < t0, W s < mu * ((d - s : ℕ) : ℚ) := by
    intro s hst
    by_contra hc
    exact Nat.find_min hex hst ⟨by omega, not_lt.1 hc⟩
  have htd : t0 ≤ d := by omega
  set Δ : ℚ := ((d - t0 : ℕ) : ℚ) with hΔ
  have hΔD : (D k : ℚ) ≤ Δ := by rw [hΔ]; exact_mod_cast (by omega : D k ≤ d - t0)
  have hΔ0 : 0 < Δ := by linarith
  -- carry-in is limited
  have hcarry : ∀ i p, w.release (i, p) < t0 → w.deadline D (i, p) ≤ d → ¬ Completed w σ (i, p) t0 →
      ((serviceIn σ (i, p) t0 d : ℕ) : ℚ) ≤ C i - lam * ((t0 - w.release (i, p) : ℕ) : ℚ) ∧ 2 ≤ m ∧
      lam * ((t0 - w.release (i, p) : ℕ) : ℚ) ≤ service σ (i, p) t0 := by
    intro i p hp hpd hinc
    set a0 := w.release (i, p) with ha0
    have hrd : ∀ u, a0 ≤ u → u < t0 → Ready w σ (i, p) u := fun u h1 h2 =>
      ⟨⟨h1, fun hc => hinc (hc.mono h2.le)⟩, fun l hl => (hpred i p (by omega) l hl).mono h1⟩
    have hdue : p ∈ dueJobs w D d i := (mem_dueJobs hs (hT i)).2 hpd
    have h1 := progress_range hs hv he hT hm (i := i) (s := a0) (l := t0 - a0)
      (fun u h1 h2 => ⟨p, hdue, hrd u h1 (by omega)⟩)
    rw [Nat.add_sub_cancel' hp.le] at h1
    have h2 := workDone_single hs hv (hT i) hdue hp.le hrd
    have h3 := hmin a0 hp
    have h1q : (m : ℚ) * ((t0 - a0 : ℕ) : ℚ) - (m - 1) * ((workDone w σ D d i t0 : ℚ) - workDone w σ D d i a0) ≤
        W a0 - W t0 := by
      have : W a0 - W t0 = ∑ x, ((workDone w σ D d x t0 : ℚ) - workDone w σ D d x a0) := by
        rw [hW]
        simp only
        rw [← sum_sub_distrib]
        apply sum_congr rfl
        intro x _
        ring
      rw [this]
      exact_mod_cast h1
    have h4 : ((d - a0 : ℕ) : ℚ) = Δ + ((t0 - a0 : ℕ) : ℚ) := by
      rw [hΔ, ← Nat.cast_add]
      congr 1
      omega
    rw [h4] at h3
    have h5 : (workDone w σ D d i t0 : ℚ) - workDone w σ D d i a0 = serviceIn σ (i, p) a0 t0 := by
      rw [h2]; push_cast; ring
    rw [h5] at h1q
    have hphi : (0 : ℚ) < ((t0 - a0 : ℕ) : ℚ) := by exact_mod_cast (by omega : 0 < t0 - a0)
    have h6 : ((m : ℚ) - 1) * (lam * ((t0 - a0 : ℕ) : ℚ)) < (m - 1) * serviceIn σ (i, p) a0 t0 := by
      rw [hmu] at h3 hWt0
      nlinarith
    have hm1 : (0 : ℚ) < (m : ℚ) - 1 := by
      rcases (show (0 : ℚ) ≤ (m : ℚ) - 1 by linarith).lt_or_eq with h | h
      · exact h
      · rw [← h] at h6; simp at h6
    have h7 : lam * ((t0 - a0 : ℕ) : ℚ) < serviceIn σ (i, p) a0 t0 := lt_of_mul_lt_mul_left h6 hm1.le
    have h8 := service_add σ (i, p) hp.le
    have h9 := service_add σ (i, p) htd
    have h10 := service_le_exec hv (i, p) d
    have h11 := hs.wcet i p
    have h12 : serviceIn σ (i, p) a0 t0 + serviceIn σ (i, p) t0 d ≤ C i := by omega
    have h13 : ((serviceIn σ (i, p) a0 t0 : ℕ) : ℚ) + (serviceIn σ (i, p) t0 d : ℕ) ≤ C i := by
      exact_mod_cast h12
    refine ⟨by linarith, ?_, ?_⟩
    · have : (1 : ℚ) < m := by linarith
      exact_mod_cast this
    · have : serviceIn σ (i, p) a0 t0 ≤ service σ (i, p) t0 := by omega
      have h14 : ((serviceIn σ (i, p) a0 t0 : ℕ) : ℚ) ≤ service σ (i, p) t0 := by exact_mod_cast this
      linarith
  -- work of each task
  set β : Fin n → ℚ := fun i => (C i : ℚ) / T i * (1 + ((T i : ℚ) - D i) / D k) +
        (if lam < C i / T i then (C i - lam * T i) / D k else 0) with hβ
  have hβΔ : ∀ i, (C i : ℚ) / T i * (Δ + T i - D i) + max 0 (C i - lam * T i) ≤ Δ * β i := by
    intro i
    have hTq : (0 : ℚ) < T i := by exact_mod_cast hT i
    have hu : (0 : ℚ) ≤ (C i : ℚ) / T i := by positivity
    have hTD : (0 : ℚ) ≤ (T i : ℚ) - D i := by
      have : (D i : ℚ) ≤ T i := by exact_mod_cast hDT i
      linarith
    have hratio : (1 : ℚ) ≤ Δ / D k := by rw [le_div_iff₀ hDkq]; linarith
    have e1 : Δ * ((C i : ℚ) / T i * (1 + ((T i : ℚ) - D i) / D k)) =
        (C i : ℚ) / T i * (Δ + ((T i : ℚ) - D i) * (Δ / D k)) := by
      field_simp
    have e2 : (C i : ℚ) / T i * (Δ + T i - D i) ≤
        (C i : ℚ) / T i * (Δ + ((T i : ℚ) - D i) * (Δ / D k)) := by
      apply mul_le_mul_of_nonneg_left _ hu
      nlinarith
    rw [hβ]
    simp only
    rw [mul_add, e1]
    have e3 : max 0 (C i - lam * T i) ≤ Δ * (if lam < C i / T i then (C i - lam * T i) / D k else 0) := by
      split_ifs with h
      · have h1 : 0 < C i - lam * T i := by
          rw [lt_div_iff₀ hTq] at h; linarith
        rw [max_eq_right h1.le]
        have : Δ * ((C i - lam * T i) / D k) = (C i - lam * T i) * (Δ / D k) := by field_simp
        rw [this]
        nlinarith
      · rw [mul_zero]
        apply max_le le_rfl
        have h1 := not_lt.1 h
        rw [div_le_iff₀ hTq] at h1
        linarith
    linarith
  -- executing jobs in the window
  have hKmem : ∀ i p, p ∈ dueJobs w D d i → ¬ Completed w σ (i, p) t0 →
      t0 < w.release (i, p) + D i := by
    intro i p hp hinc
    by_contra hc
    have hlt : w.deadline D (i, p) < d := by
      unfold Workload.deadline
      simp only
      omega
    exact hinc ((hfirst (i, p) hlt).mono (not_lt.1 hc))
  have hwork : ∀ i, ((workDone w σ D d i d : ℚ) - workDone w σ D d i t0) ≤
      ∑ p ∈ (dueJobs w D d i).filter (fun p => ¬ Completed w σ (i, p) t0), ((serviceIn σ (i, p) t0 d : ℕ) : ℚ) := by
    intro i
    rw [workDone_sub i htd]
    push_cast
    rw [add_sub_cancel_left, sum_filter]
    apply sum_le_sum
    intro p _
    split_ifs with h
    · rw [serviceIn_eq_zero hv (i, p) h]; simp
    · exact le_rfl
  have hle1 : ∀ i, ((workDone w σ D d i d : ℚ) - workDone w σ D d i t0) ≤ Δ := by
    intro i
    have : ∀ l, workDone w σ D d i (t0 + l) ≤ workDone w σ D d i t0 + l := by
      intro l
      induction l with
      | zero => simp
      | succ l ih =>
        have := workDone_succ (D := D) (d := d) hs hv (hT i) (t0 + l)
        rw [← Nat.add_assoc, this]
        split_ifs <;> omega
    have h1 := this (d - t0)
    rw [Nat.add_sub_cancel' htd] at h1
    have h2 : (workDone w σ D d i d : ℚ) ≤ workDone w σ D d i t0 + (d - t0 : ℕ) := by exact_mod_cast h1
    rw [hΔ]; linarith
  have hle : ∀ i, ((workDone w σ D d i d : ℚ) - workDone w σ D d i t0) ≤ Δ * min 1 (β i) := by
    intro i
    have hb0 : (workDone w σ D d i d : ℚ) - workDone w σ D d i t0 ≤ Δ * β i := by
      refine (hwork i).trans ?_
      set K := (dueJobs w D d i).filter (fun p => ¬ Completed w σ (i, p) t0) with hK
      rcases K.eq_empty_or_nonempty with hem | hne
      · rw [hem]
        simp only [sum_empty]
        have hTq : (0 : ℚ) < T i := by exact_mod_cast hT i
        refine le_trans ?_ (hβΔ i)
        have hTD : (D i : ℚ) ≤ T i := by exact_mod_cast hDT i
        have h1 : (0 : ℚ) ≤ (C i : ℚ) / T i * (Δ + T i - D i) :=
          mul_nonneg (by positivity) (by linarith)
        have h2 : (0 : ℚ) ≤ max 0 (C i - lam * T i) := le_max_left _ _
        linarith
      · refine le_trans (work_bound hs (hT i) (hDT i) htd (lam := lam) _ K ?_ ?_ ?_ hne) (hβΔ i)
        · intro p hp
          rw [hK, mem_filter] at hp
          exact ⟨hKmem i p hp.1 hp.2, (mem_dueJobs hs (hT i)).1 hp.1⟩
        · intro p _
          exact_mod_cast (serviceIn_le_exec hv _ _ _).trans (hs.wcet i p)
        · intro p hp hlt
          rw [hK, mem_filter] at hp
          exact (hcarry i p hlt ((mem_dueJobs hs (hT i)).1 hp.1) hp.2).1
    rcases min_cases 1 (β i) with ⟨h, _⟩ | ⟨h, _⟩ <;> rw [h]
    · rw [mul_one]; exact hle1 i
    · exact hb0
  -- the task that misses gets strictly less
  have hlt : ((workDone w σ D d k d : ℚ) - workDone w σ D d k t0) < Δ * min 1 (β k) := by
    have hqK : q ∈ (dueJobs w D d k).filter (fun p => ¬ Completed w σ (k, p) t0) := by
      rw [mem_filter]
      exact ⟨hqdue, fun hc => hkq (hc.mono htd)⟩
    have hb0 : (workDone w σ D d k d : ℚ) - workDone w σ D d k t0 + 1 ≤ Δ * β k := by
      set K := (dueJobs w D d k).filter (fun p => ¬ Completed w σ (k, p) t0) with hK
      have h1 := hwork k
      have h2 : ∑ p ∈ K, ((serviceIn σ (k, p) t0 d : ℕ) : ℚ) + 1 =
          ∑ p ∈ K, (((serviceIn σ (k, p) t0 d : ℕ) : ℚ) + if p = q then 1 else 0) := by
        rw [sum_add_distrib, sum_ite_eq' K q, if_pos hqK]
      have hqser : serviceIn σ (k, q) t0 d = serviceIn σ (k, q) r d := by
        rw [serviceIn_split σ (k, q) ht0r (show r ≤ d by omega),
          serviceIn_eq_zero_of_release hv (k, q) le_rfl]
        simp
      have h3 : ∑ p ∈ K, (((serviceIn σ (k, p) t0 d : ℕ) : ℚ) + if p = q then 1 else 0) ≤ Δ * β k := by
        refine le_trans (work_bound hs (hT k) (hDT k) htd (lam := lam) _ K ?_ ?_ ?_ ⟨q, hqK⟩) (hβΔ k)
        · intro p hp
          rw [hK, mem_filter] at hp
          exact ⟨hKmem k p hp.1 hp.2, (mem_dueJobs hs (hT k)).1 hp.1⟩
        · intro p _
          split_ifs with hpq
          · subst hpq
            rw [hqser]
            exact_mod_cast hek
          · rw [add_zero]
            exact_mod_cast (serviceIn_le_exec hv _ _ _).trans (hs.wcet k p)
        · intro p hp hpt
          rw [hK, mem_filter] at hp
          split_ifs with hpq
          · subst hpq; omega
          · rw [add_zero]
            exact (hcarry k p hpt ((mem_dueJobs hs (hT k)).1 hp.1) hp.2).1
      linarith
    rcases min_cases 1 (β k) with ⟨h, _⟩ | ⟨h, _⟩ <;> rw [h]
    · rw [mul_one]
      have h1 : workDone w σ D d k r ≤ workDone w σ D d k t0 + (r - t0) := by
        have : ∀ l, workDone w σ D d k (t0 + l) ≤ workDone w σ D d k t0 + l := by
          intro l
          induction l with
          | zero => simp
          | succ l ih =>
            have := workDone_succ (D := D) (d := d) hs hv (hT k) (t0 + l)
            rw [← Nat.add_assoc, this]
            split_ifs <;> omega
        have h1 := this (r - t0)
        rwa [Nat.add_sub_cancel' ht0r] at h1
      have h2 := workDone_single hs hv (hT k) hqdue (show r ≤ d by omega) hready
      have h3 := hlam k
      have h4 : workDone w σ D d k d < workDone w σ D d k t0 + (d - t0) := by omega
      have h5 : (workDone w σ D d k d : ℚ) < workDone w σ D d k t0 + (d - t0 : ℕ) := by exact_mod_cast h4
      rw [hΔ]; linarith
    · linarith
  have hsum : W t0 < Δ * ∑ i, min 1 (β i) := by
    rw [mul_sum]
    exact sum_lt_sum (fun i _ => hle i) ⟨k, mem_univ _, hlt⟩
  have hc := hcond k
  have : Δ * ∑ i, min 1 (β i) ≤ Δ * mu := mul_le_mul_of_nonneg_left hc hΔ0.le
  nlinarith

end Verif.Spec
