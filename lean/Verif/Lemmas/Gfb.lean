/-
The density argument for global EDF: compare the schedule with a fluid schedule
in which every job executes at a constant rate.
-/
import Verif.Lemmas.Global
import Mathlib.Algebra.Order.Field.Rat
import Mathlib.Algebra.BigOperators.Ring.Finset
import Mathlib.Data.Nat.Cast.Order.Field
import Mathlib.Tactic.FieldSimp
import Mathlib.Tactic.Positivity

namespace Verif.Spec
open Finset

variable {n m : ℕ} {C T D : Fin n → ℕ} {w : Workload n} {σ : Schedule n}

/-- Density of a task. -/
def densityOf (C T D : Fin n → ℕ) (i : Fin n) : ℚ := (C i : ℚ) / (min (T i) (D i) : ℕ)


/-- Jobs of task `i` with deadline at most `d`. -/
def dueJobs (w : Workload n) (D : Fin n → ℕ) (d : ℕ) (i : Fin n) : Finset ℕ := (range (d + 1)).filter (fun q => w.deadline D (i, q) ≤ d)

/-- Work done by time `t` on the due jobs of task `i`. -/
def workDone (w : Workload n) (σ : Schedule n) (D : Fin n → ℕ) (d : ℕ) (i : Fin n) (t : ℕ) : ℕ := ∑ q ∈ dueJobs w D d i, service σ (i, q) t

/-- Work of one job in the fluid schedule. -/
def fluidJob (w : Workload n) (T D : Fin n → ℕ) (i : Fin n) (q t : ℕ) : ℚ :=
  (w.exec (i, q) : ℚ) * (min (min (T i) (D i)) (t - w.release (i, q)) : ℕ) / (min (T i) (D i) : ℕ)

/-- Work of task `i` in the fluid schedule. -/
def fluid (w : Workload n) (T D : Fin n → ℕ) (d : ℕ) (i : Fin n) (t : ℕ) : ℚ := ∑ q ∈ dueJobs w D d i, fluidJob w T D i q t

section
variable {d : ℕ}

theorem mem_dueJobs (hs : w.Sporadic C T) {i : Fin n} (hT : 0 < T i) {q : ℕ} :
    q ∈ dueJobs w D d i ↔ w.deadline D (i, q) ≤ d := by
  unfold dueJobs
  rw [mem_filter, mem_range]
  refine ⟨fun h => h.2, fun h => ⟨?_, h⟩⟩
  have := le_release hs i hT q
  unfold Workload.deadline at h
  omega

theorem fluidJob_step (hs : w.Sporadic C T) {i : Fin n} (hT : 0 < T i) (hD : 0 < D i) (q t : ℕ) :
    fluidJob w T D i q (t + 1) ≤ fluidJob w T D i q t +
      (if w.release (i, q) ≤ t ∧ t < w.release (i, q) + T i then densityOf C T D i else 0) := by
  unfold fluidJob densityOf
  have hW : 0 < min (T i) (D i) := by omega
  set W := min (T i) (D i) with hWdef
  have hWq : (0 : ℚ) < (W : ℕ) := by exact_mod_cast hW
  have hex : (w.exec (i, q) : ℚ) ≤ C i := by exact_mod_cast hs.wcet i q
  have hex0 : (0 : ℚ) ≤ w.exec (i, q) := by positivity
  have hC0 : (0 : ℚ) ≤ C i := by positivity
  split_ifs with h
  · have : min W (t + 1 - w.release (i, q)) ≤ min W (t - w.release (i, q)) + 1 := by omega
    have h2 : ((min W (t + 1 - w.release (i, q)) : ℕ) : ℚ) ≤ (min W (t - w.release (i, q)) : ℕ) + 1 := by
      exact_mod_cast this
    rw [← add_div]
    apply div_le_div_of_nonneg_right _ hWq.le
    nlinarith
  · have : min W (t + 1 - w.release (i, q)) = min W (t - w.release (i, q)) := by omega
    rw [this]; simp

theorem fluid_step (hs : w.Sporadic C T) {i : Fin n} (hT : 0 < T i) (hD : 0 < D i) (t : ℕ) :
    fluid w T D d i (t + 1) ≤ fluid w T D d i t + densityOf C T D i := by
  classical
  unfold fluid
  have hδ : 0 ≤ densityOf C T D i := by unfold densityOf; positivity
  have h1 : ∑ q ∈ dueJobs w D d i, fluidJob w T D i q (t + 1) ≤
      ∑ q ∈ dueJobs w D d i, (fluidJob w T D i q t +
      (if w.release (i, q) ≤ t ∧ t < w.release (i, q) + T i then densityOf C T D i else 0)) :=
    sum_le_sum (fun q _ => fluidJob_step hs hT hD q t)
  rw [sum_add_distrib] at h1
  refine h1.trans ?_
  have h2 : ∑ q ∈ dueJobs w D d i,
      (if w.release (i, q) ≤ t ∧ t < w.release (i, q) + T i then densityOf C T D i else 0)
      ≤ densityOf C T D i := by
    rw [← sum_filter, sum_const]
    have hcard : ((dueJobs w D d i).filter
        (fun q => w.release (i, q) ≤ t ∧ t < w.release (i, q) + T i)).card ≤ 1 := by
      rw [card_le_one]
      intro a ha b hb
      rw [mem_filter] at ha hb
      by_contra hne
      rcases Nat.lt_or_gt_of_ne hne with hlt | hlt
      · have := release_mono hs i hlt.le
        have h3 : 1 * T i ≤ (b - a) * T i := Nat.mul_le_mul_right _ (by omega)
        omega
      · have := release_mono hs i hlt.le
        have h3 : 1 * T i ≤ (a - b) * T i := Nat.mul_le_mul_right _ (by omega)
        omega
    rw [nsmul_eq_mul]
    have : ((((dueJobs w D d i).filter
        (fun q => w.release (i, q) ≤ t ∧ t < w.release (i, q) + T i)).card : ℕ) : ℚ) ≤ 1 := by
      exact_mod_cast hcard
    nlinarith
  linarith

theorem fluid_add (hs : w.Sporadic C T) {i : Fin n} (hT : 0 < T i) (hD : 0 < D i) (s : ℕ) :
    ∀ l, fluid w T D d i (s + l) ≤ fluid w T D d i s + densityOf C T D i * l := by
  intro l
  induction l with
  | zero => simp
  | succ l ih =>
    have := fluid_step (d := d) hs hT hD (s + l)
    rw [← Nat.add_assoc]
    push_cast
    linarith

theorem fluid_le_released {i : Fin n} (hT : 0 < T i) (hD : 0 < D i) (t : ℕ) :
    fluid w T D d i (t + 1) ≤
      ((∑ q ∈ (dueJobs w D d i).filter (fun q => w.release (i, q) ≤ t), w.exec (i, q) : ℕ) : ℚ) := by
  unfold fluid
  push_cast
  rw [sum_filter]
  apply sum_le_sum
  intro q _
  unfold fluidJob
  have hW : 0 < min (T i) (D i) := by omega
  set W := min (T i) (D i) with hWdef
  have hWq : (0 : ℚ) < (W : ℕ) := by exact_mod_cast hW
  have hex0 : (0 : ℚ) ≤ w.exec (i, q) := by positivity
  split_ifs with h
  · rw [div_le_iff₀ hWq]
    apply mul_le_mul_of_nonneg_left _ hex0
    exact_mod_cast Nat.min_le_left _ _
  · rw [show t + 1 - w.release (i, q) = 0 by omega]; simp

theorem fluid_end {i : Fin n} (hT : 0 < T i) (hD : 0 < D i) :
    fluid w T D d i d = ((∑ q ∈ dueJobs w D d i, w.exec (i, q) : ℕ) : ℚ) := by
  unfold fluid
  push_cast
  apply sum_congr rfl
  intro q hq
  have h := (mem_filter.1 hq).2
  unfold Workload.deadline at h
  unfold fluidJob
  have hW : 0 < min (T i) (D i) := by omega
  have : min (min (T i) (D i)) (d - w.release (i, q)) = min (T i) (D i) := by
    simp only at h; omega
  rw [this]
  have hWq : ((min (T i) (D i) : ℕ) : ℚ) ≠ 0 := by exact_mod_cast hW.ne'
  field_simp

theorem fluid_zero {i : Fin n} : fluid w T D d i 0 = 0 := by
  unfold fluid fluidJob; simp

theorem workDone_zero {i : Fin n} : workDone w σ D d i 0 = 0 := by
  unfold workDone; simp [service_zero]

theorem workDone_mono {i : Fin n} {s t : ℕ} (h : s ≤ t) : workDone w σ D d i s ≤ workDone w σ D d i t :=
  sum_le_sum (fun _ _ => service_mono σ _ h)

/-- A task behind the fluid schedule has a ready due job. -/
theorem exists_ready_due (hs : w.Sporadic C T) {i : Fin n} (hT : 0 < T i) {t : ℕ}
    (h : workDone w σ D d i t < ∑ q ∈ (dueJobs w D d i).filter (fun q => w.release (i, q) ≤ t), w.exec (i, q)) :
    ∃ q ∈ dueJobs w D d i, Ready w σ (i, q) t := by
  classical
  have hex : ∃ q, ¬ Completed w σ (i, q) t ∧ w.release (i, q) ≤ t ∧ q ∈ dueJobs w D d i := by
    by_contra hc
    push Not at hc
    apply absurd h
    rw [not_lt]
    refine (sum_le_sum (g := fun q => service σ (i, q) t) ?_).trans (sum_le_sum_of_subset (filter_subset _ _))
    intro q hq
    rw [mem_filter] at hq
    by_contra hlt
    exact hc q (by unfold Completed; exact hlt) hq.2 hq.1
  set q := Nat.find (p := fun q => ¬ Completed w σ (i, q) t) ⟨hex.choose, hex.choose_spec.1⟩ with hq
  obtain ⟨p, hp1, hp2, hp3⟩ := hex
  have hqp : q ≤ p := Nat.find_min' _ hp1
  have hrel := release_mono hs i hqp
  rw [mem_dueJobs hs hT] at hp3
  refine ⟨q, (mem_dueJobs hs hT).2 ?_, ⟨by omega, Nat.find_spec (p := fun q => ¬ Completed w σ (i, q) t) _⟩,
    fun l hl => ?_⟩
  · unfold Workload.deadline at hp3 ⊢
    simp only at hp3 ⊢
    omega
  · have := Nat.find_min (p := fun q => ¬ Completed w σ (i, q) t) _ hl
    simpa using this

open Classical in
/-- Progress of one task in one slot. -/
theorem workDone_succ (hs : w.Sporadic C T) (hv : ValidSchedule m w σ) {i : Fin n} (hT : 0 < T i) (t : ℕ) :
    workDone w σ D d i (t + 1) = workDone w σ D d i t +
      if ∃ q, (i, q) ∈ σ t ∧ w.deadline D (i, q) ≤ d then 1 else 0 := by
  unfold workDone
  simp only [service_succ]
  rw [sum_add_distrib]
  congr 1
  split_ifs with h
  · obtain ⟨q, hq, hqd⟩ := h
    rw [sum_eq_single q]
    · simp [hq]
    · intro p _ hpq
      rw [if_neg]
      intro hp
      exact hpq (ready_unique (hv.ready t _ hp) (hv.ready t _ hq))
    · intro hn
      exact absurd ((mem_dueJobs hs hT).2 hqd) hn
  · apply sum_eq_zero
    intro q hq
    rw [if_neg]
    intro hp
    exact h ⟨q, hp, (mem_dueJobs hs hT).1 hq⟩

/-- Total progress in a slot in which a task has a ready due job. -/
theorem progress (hs : w.Sporadic C T) (hv : ValidSchedule m w σ) (he : EDF m w D σ)
    (hT : ∀ i, 0 < T i) {i : Fin n} {t : ℕ} (hm : 0 < m)
    (hr : ∃ q ∈ dueJobs w D d i, Ready w σ (i, q) t) :
    (m : ℤ) - (m - 1) * (workDone w σ D d i (t + 1) - workDone w σ D d i t) ≤
      ∑ l, ((workDone w σ D d l (t + 1) : ℤ) - workDone w σ D d l t) := by
  classical
  obtain ⟨q, hq, hready⟩ := hr
  have hinc : ∀ l, ((workDone w σ D d l (t + 1) : ℤ) - workDone w σ D d l t) =
      if ∃ q, (l, q) ∈ σ t ∧ w.deadline D (l, q) ≤ d then 1 else 0 := by
    intro l
    rw [workDone_succ hs hv (hT l)]
    push_cast
    split_ifs <;> ring
  simp only [hinc]
  by_cases hex : ∃ q, (i, q) ∈ σ t ∧ w.deadline D (i, q) ≤ d
  · rw [if_pos hex]
    have : (1 : ℤ) ≤ ∑ l, (if ∃ q, (l, q) ∈ σ t ∧ w.deadline D (l, q) ≤ d then 1 else 0) := by
      have h1 := single_le_sum (f := fun l => (if ∃ q, (l, q) ∈ σ t ∧ w.deadline D (l, q) ≤ d then (1 : ℤ) else 0))
        (s := univ) (fun l _ => by split_ifs <;> simp) (mem_univ i)
      simp only [if_pos hex] at h1
      exact h1
    linarith
  · rw [if_neg hex]
    have hd := (mem_dueJobs hs (hT i)).1 hq
    have hnot : (i, q) ∉ σ t := fun h => hex ⟨q, h, hd⟩
    obtain ⟨hcard, hle⟩ := he t (i, q) hready hnot
    have : ∑ l, (if ∃ q, (l, q) ∈ σ t ∧ w.deadline D (l, q) ≤ d then (1 : ℤ) else 0) = m := by
      rw [← Nat.cast_one, ← Nat.cast_zero]
      simp only [← Nat.cast_ite]
      rw [← Nat.cast_sum, ← card_filter, ← hcard]
      congr 1
      symm
      apply card_bij (fun j _ => j.1)
      · intro j hj
        rw [mem_filter]
        exact ⟨mem_univ _, j.2, hj, (hle j hj).trans hd⟩
      · rintro ⟨a, x⟩ hj ⟨b, y⟩ hj' h
        simp only at h
        subst h
        rw [ready_unique (hv.ready t _ hj) (hv.ready t _ hj')]
      · intro l hl
        rw [mem_filter] at hl
        obtain ⟨_, q, hq, _⟩ := hl
        exact ⟨(l, q), hq, rfl⟩
    rw [this]; linarith

/-- Total progress over several slots in which a task has a ready due job. -/
theorem progress_range (hs : w.Sporadic C T) (hv : ValidSchedule m w σ) (he : EDF m w D σ)
    (hT : ∀ i, 0 < T i) {i : Fin n} {s l : ℕ} (hm : 0 < m)
    (hready : ∀ u, s ≤ u → u < s + l → ∃ q ∈ dueJobs w D d i, Ready w σ (i, q) u) :
    (m : ℤ) * l - (m - 1) * (workDone w σ D d i (s + l) - workDone w σ D d i s) ≤
        ∑ x, ((workDone w σ D d x (s + l) : ℤ) - workDone w σ D d x s) := by
  induction l with
  | zero => simp
  | succ l ih' =>
    have h1 := ih' (fun u h1 h2 => hready u h1 (by omega))
    have h2 := progress hs hv he hT hm (hready (s + l) (by omega) (by omega))
    rw [← Nat.add_assoc]
    have h3 : ∑ x, ((workDone w σ D d x (s + l + 1) : ℤ) - workDone w σ D d x s) =
        ∑ x, ((workDone w σ D d x (s + l) : ℤ) - workDone w σ D d x s) +
        ∑ x, ((workDone w σ D d x (s + l + 1) : ℤ) - workDone w σ D d x (s + l)) := by
      rw [← sum_add_distrib]
      apply sum_congr rfl
      intro x _
      ring
    rw [h3]
    push_cast
    nlinarith

/-- The schedule is never behind the fluid schedule. -/
theorem ahead_of_fluid (hs : w.Sporadic C T) (hv : ValidSchedule m w σ) (he : EDF m w D σ)
    (hT : ∀ i, 0 < T i) (hD : ∀ i, 0 < D i) (hm : 0 < m)
    (hbound : ∀ k, ∑ i, densityOf C T D i ≤ m - (m - 1) * densityOf C T D k) (t : ℕ) :
    ∑ i, fluid w T D d i t ≤ ∑ i, (workDone w σ D d i t : ℚ) := by
  classical
  induction t using Nat.strong_induction_on with
  | _ t ih =>
    by_contra hc
    push Not at hc
    obtain ⟨i, _, hi⟩ := exists_lt_of_sum_lt hc
    -- last time at which task i was not behind
    have hex : ∃ u, u ≤ t ∧ fluid w T D d i u ≤ workDone w σ D d i u :=
      ⟨0, by omega, by rw [fluid_zero]; positivity⟩
    obtain ⟨s, ⟨hst, hs1⟩, hs2⟩ : ∃ s, (s ≤ t ∧ fluid w T D d i s ≤ workDone w σ D d i s) ∧
        ∀ u, s < u → u ≤ t → (workDone w σ D d i u : ℚ) < fluid w T D d i u := by
      set S := (range (t + 1)).filter (fun u => fluid w T D d i u ≤ workDone w σ D d i u) with hS
      have hne : S.Nonempty := by
        obtain ⟨u, h1, h2⟩ := hex
        exact ⟨u, by rw [hS, mem_filter, mem_range]; exact ⟨by omega, h2⟩⟩
      refine ⟨S.max' hne, ?_, ?_⟩
      · have := mem_filter.1 (S.max'_mem hne)
        rw [mem_range] at this
        exact ⟨by omega, this.2⟩
      · intro u hu hut
        by_contra hnl
        have : u ∈ S := by rw [hS, mem_filter, mem_range]; exact ⟨by omega, not_lt.1 hnl⟩
        have := S.le_max' u this
        omega
    have hlt : s < t := by
      rcases Nat.lt_or_ge s t with h | h
      · exact h
      · have : s = t := by omega
        subst this
        linarith
    -- progress in every slot
    have hready : ∀ u, s ≤ u → u < t → ∃ q ∈ dueJobs w D d i, Ready w σ (i, q) u := by
      intro u h1 h2
      apply exists_ready_due hs (hT i)
      have h3 := hs2 (u + 1) (by omega) (by omega)
      have h4 := fluid_le_released (w := w) (d := d) (hT i) (hD i) u
      have h5 : workDone w σ D d i u ≤ workDone w σ D d i (u + 1) := workDone_mono (Nat.le_succ u)
      have h6 : (workDone w σ D d i (u + 1) : ℚ) <
        ((∑ q ∈ (dueJobs w D d i).filter (fun q => w.release (i, q) ≤ u), w.exec (i, q) : ℕ) : ℚ) :=
        lt_of_lt_of_le h3 h4
      have h7 := Nat.cast_lt.1 h6
      omega
    have h1 := progress_range hs hv he hT hm (s := s) (l := t - s)
      (fun u h1 h2 => hready u h1 (by omega))
    rw [Nat.add_sub_cancel' hst] at h1
    have h1q : (m : ℚ) * ((t - s : ℕ) : ℚ) - (m - 1) * ((workDone w σ D d i t : ℚ) - workDone w σ D d i s) ≤
        ∑ x, ((workDone w σ D d x t : ℚ) - workDone w σ D d x s) := by
      exact_mod_cast h1
    rw [sum_sub_distrib] at h1q
    have h2 := ih s hlt
    have h3 := hs2 t hlt le_rfl
    have h4 := fluid_add (d := d) hs (hT i) (hD i) s (t - s)
    rw [Nat.add_sub_cancel' hst] at h4
    have h5 : ∑ x, fluid w T D d x t ≤ ∑ x, fluid w T D d x s + (∑ x, densityOf C T D x) * ((t - s : ℕ) : ℚ) := by
      rw [sum_mul, ← sum_add_distrib]
      apply sum_le_sum
      intro x _
      have := fluid_add (d := d) hs (hT x) (hD x) s (t - s)
      rwa [Nat.add_sub_cancel' hst] at this
    have h6 := hbound i
    have hm1 : (0 : ℚ) ≤ (m : ℚ) - 1 := by
      have : (1 : ℚ) ≤ m := by exact_mod_cast hm
      linarith
    have h7 : (0 : ℚ) ≤ ((t - s : ℕ) : ℚ) := by positivity
    have h8 : (m - 1 : ℚ) * ((workDone w σ D d i t : ℚ) - workDone w σ D d i s) ≤
        (m - 1) * (densityOf C T D i * ((t - s : ℕ) : ℚ)) :=
      mul_le_mul_of_nonneg_left (by linarith) hm1
    have h9 := mul_le_mul_of_nonneg_right h6 h7
    nlinarith

end

/-- The density condition implies schedulability under global EDF, for arbitrary
deadlines. -/
theorem gfb_sound (hT : ∀ i, 0 < T i) (hD : ∀ i, 0 < D i) (hm : 0 < m)
    (hbound : ∀ k, ∑ i, densityOf C T D i ≤ m - (m - 1) * densityOf C T D k) :
    EdfSchedulable m C T D := by
  intro w σ hs hv he j
  set d := w.deadline D j with hd
  have h1 := ahead_of_fluid (d := d) hs hv he hT hD hm hbound d
  have h2 : ∑ i, fluid w T D d i d = ((∑ i, ∑ q ∈ dueJobs w D d i, w.exec (i, q) : ℕ) : ℚ) := by
    push_cast
    apply sum_congr rfl
    intro i _
    rw [fluid_end (hT i) (hD i)]
    push_cast
    rfl
  rw [h2] at h1
  have h3 : ∑ i, ∑ q ∈ dueJobs w D d i, w.exec (i, q) ≤ ∑ i, workDone w σ D d i d := by
    exact_mod_cast h1
  unfold workDone at h3
  have h4 : ∀ i ∈ univ, ∑ q ∈ dueJobs w D d i, service σ (i, q) d ≤
      ∑ q ∈ dueJobs w D d i, w.exec (i, q) :=
    fun i _ => sum_le_sum (fun q _ => service_le_exec hv _ _)
  have h5 := (sum_eq_sum_iff_of_le h4).1 (le_antisymm (sum_le_sum h4) h3) j.1 (mem_univ _)
  have h6 := (sum_eq_sum_iff_of_le (fun q _ => service_le_exec hv (j.1, q) d)).1 h5 j.2
    ((mem_dueJobs hs (hT _)).2 le_rfl)
  exact h6.symm.le

end Verif.Spec
