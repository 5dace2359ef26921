/-
Response times under window-constrained global priorities (each job has a fixed
priority point a constant after its release): compare the schedule with a fluid
schedule in which every task executes at its utilization, and bound the lag at
the slots in which few tasks execute.
-/
import Verif.Lemmas.Gfb
import Mathlib.Tactic.Linarith
import Mathlib.Data.Rat.Floor

namespace Verif.Spec
open Finset

variable {n m : ℕ} {C T P : Fin n → ℕ} {w : Workload n} {σ : Schedule n} {d : ℕ}

/-- Utilization of a task. -/
def utilOf (C T : Fin n → ℕ) (i : Fin n) : ℚ := (C i : ℚ) / T i

theorem utilOf_nonneg (i : Fin n) : 0 ≤ utilOf C T i := by unfold utilOf; positivity

theorem utilOf_mul {i : Fin n} (hT : 0 < T i) : utilOf C T i * T i = C i := by
  unfold utilOf
  have : (T i : ℚ) ≠ 0 := by exact_mod_cast hT.ne'
  field_simp

theorem utilOf_le_one {i : Fin n} (hT : 0 < T i) (h : C i ≤ T i) : utilOf C T i ≤ 1 := by
  unfold utilOf
  rw [div_le_one (by exact_mod_cast hT)]
  exact_mod_cast h

/-- Start of a job in the fluid schedule: its release, or one period before its
priority point if that is later. -/
def vrel (w : Workload n) (T P : Fin n → ℕ) (i : Fin n) (q : ℕ) : ℕ :=
  w.release (i, q) + (P i - T i)

/-- Work of one job in the fluid schedule; time the job does not need is left
unused at the beginning. -/
def gelJob (w : Workload n) (C T P : Fin n → ℕ) (i : Fin n) (q t : ℕ) : ℚ :=
  max 0 (min (w.exec (i, q) : ℚ)
    (utilOf C T i * ((t - vrel w T P i q : ℕ) : ℚ) - ((C i : ℚ) - w.exec (i, q))))

theorem gelJob_nonneg (i : Fin n) (q t : ℕ) : 0 ≤ gelJob w C T P i q t := le_max_left _ _

theorem gelJob_le_exec (i : Fin n) (q t : ℕ) : gelJob w C T P i q t ≤ w.exec (i, q) :=
  max_le (by positivity) (min_le_left _ _)

theorem gelJob_before (hs : w.Sporadic C T) {i : Fin n} {q t : ℕ} (h : t ≤ vrel w T P i q) :
    gelJob w C T P i q t = 0 := by
  unfold gelJob
  rw [show t - vrel w T P i q = 0 by omega]
  have : (w.exec (i, q) : ℚ) ≤ C i := by exact_mod_cast hs.wcet i q
  apply max_eq_left
  refine (min_le_right _ _).trans ?_
  simp only [Nat.cast_zero, mul_zero]
  linarith

theorem gelJob_after {i : Fin n} (hT : 0 < T i) {q t : ℕ} (h : vrel w T P i q + T i ≤ t) :
    gelJob w C T P i q t = w.exec (i, q) := by
  unfold gelJob
  have h1 : (T i : ℚ) ≤ ((t - vrel w T P i q : ℕ) : ℚ) := by exact_mod_cast (by omega)
  have h2 := utilOf_mul (C := C) hT
  have h3 := mul_le_mul_of_nonneg_left h1 (utilOf_nonneg (C := C) (T := T) i)
  rw [min_eq_left (by linarith), max_eq_right (by positivity)]

theorem gelJob_step {i : Fin n} (hs : w.Sporadic C T) (hT : 0 < T i) (q t : ℕ) :
    gelJob w C T P i q (t + 1) ≤ gelJob w C T P i q t +
      (if vrel w T P i q ≤ t ∧ t < vrel w T P i q + T i then utilOf C T i else 0) := by
  split_ifs with h
  · unfold gelJob
    have hu := utilOf_nonneg (C := C) (T := T) i
    rw [show t + 1 - vrel w T P i q = (t - vrel w T P i q) + 1 by omega]
    push_cast
    rw [mul_add, mul_one]
    set a := utilOf C T i * ((t - vrel w T P i q : ℕ) : ℚ)
    apply max_le
    · have := le_max_left (0 : ℚ) (min (w.exec (i, q) : ℚ) (a - ((C i : ℚ) - w.exec (i, q))))
      linarith
    · rcases le_total (w.exec (i, q) : ℚ) (a - ((C i : ℚ) - w.exec (i, q))) with h1 | h1
      · have h2 := le_max_right (0 : ℚ) (min (w.exec (i, q) : ℚ) (a - ((C i : ℚ) - w.exec (i, q))))
        rw [min_eq_left h1] at h2 ⊢
        have h3 := min_le_left (w.exec (i, q) : ℚ) (a + utilOf C T i - ((C i : ℚ) - w.exec (i, q)))
        linarith
      · have h2 := le_max_right (0 : ℚ) (min (w.exec (i, q) : ℚ) (a - ((C i : ℚ) - w.exec (i, q))))
        rw [min_eq_right h1] at h2 ⊢
        have h3 := min_le_right (w.exec (i, q) : ℚ) (a + utilOf C T i - ((C i : ℚ) - w.exec (i, q)))
        linarith
  · rw [add_zero]
    by_cases h1 : vrel w T P i q ≤ t
    · rw [gelJob_after hT (t := t + 1) (by omega), gelJob_after hT (by omega)]
    · rw [gelJob_before hs (by omega), gelJob_before hs (by omega)]

theorem vrel_mono (hs : w.Sporadic C T) (i : Fin n) {k l : ℕ} (h : k < l) :
    vrel w T P i k + T i ≤ vrel w T P i l := by
  have h1 := release_mono hs i h.le
  have h3 : 1 * T i ≤ (l - k) * T i := Nat.mul_le_mul_right _ (by omega)
  unfold vrel
  omega

theorem gel_active_card (hs : w.Sporadic C T) (i : Fin n) (K : Finset ℕ) (t : ℕ) :
    (K.filter (fun q => vrel w T P i q ≤ t ∧ t < vrel w T P i q + T i)).card ≤ 1 := by
  rw [card_le_one]
  intro a ha b hb
  rw [mem_filter] at ha hb
  by_contra hne
  rcases Nat.lt_or_gt_of_ne hne with hlt | hlt
  · have := vrel_mono (P := P) hs i hlt
    omega
  · have := vrel_mono (P := P) hs i hlt
    omega

/-- The fluid schedule executes a task at no more than its utilization. -/
theorem gel_step (hs : w.Sporadic C T) {i : Fin n} (hT : 0 < T i) (K : Finset ℕ) (t : ℕ) :
    ∑ q ∈ K, gelJob w C T P i q (t + 1) ≤ ∑ q ∈ K, gelJob w C T P i q t + utilOf C T i := by
  classical
  have h1 := sum_le_sum (s := K) (fun q _ => gelJob_step (P := P) hs hT q t)
  rw [sum_add_distrib] at h1
  refine h1.trans ?_
  have h2 : ∑ q ∈ K, (if vrel w T P i q ≤ t ∧ t < vrel w T P i q + T i then utilOf C T i else 0)
      ≤ utilOf C T i := by
    rw [← sum_filter, sum_const, nsmul_eq_mul]
    have : (((K.filter (fun q => vrel w T P i q ≤ t ∧ t < vrel w T P i q + T i)).card : ℕ) : ℚ) ≤ 1 := by
      exact_mod_cast gel_active_card (P := P) hs i K t
    have := utilOf_nonneg (C := C) (T := T) i
    nlinarith
  linarith

theorem gel_add (hs : w.Sporadic C T) {i : Fin n} (hT : 0 < T i) (K : Finset ℕ) (s l : ℕ) :
    ∑ q ∈ K, gelJob w C T P i q (s + l) ≤ ∑ q ∈ K, gelJob w C T P i q s + utilOf C T i * l := by
  induction l with
  | zero => simp
  | succ l ih =>
    have := gel_step (P := P) hs hT K (s + l)
    rw [← Nat.add_assoc]
    push_cast
    linarith

/-- Work the fluid schedule has left at the priority point `d`. -/
theorem gel_end (hs : w.Sporadic C T) {i : Fin n} (hT : 0 < T i) :
    ∑ q ∈ dueJobs w P d i, ((w.exec (i, q) : ℚ) - gelJob w C T P i q d) ≤
      (C i : ℚ) - utilOf C T i * (min (P i) (T i) : ℕ) := by
  classical
  have hmin : utilOf C T i * (min (P i) (T i) : ℕ) ≤ C i := by
    rw [← utilOf_mul (C := C) hT]
    apply mul_le_mul_of_nonneg_left _ (utilOf_nonneg i)
    exact_mod_cast Nat.min_le_right _ _
  have h1 : ∀ q ∈ dueJobs w P d i, ((w.exec (i, q) : ℚ) - gelJob w C T P i q d) ≤
      (if vrel w T P i q ≤ d ∧ d < vrel w T P i q + T i then
        (C i : ℚ) - utilOf C T i * (min (P i) (T i) : ℕ) else 0) := by
    intro q hq
    have hq := (mem_dueJobs hs hT).1 hq
    unfold Workload.deadline at hq
    simp only at hq
    split_ifs with h
    · have hge : (min (P i) (T i) : ℕ) ≤ d - vrel w T P i q := by unfold vrel; omega
      have hgeq : ((min (P i) (T i) : ℕ) : ℚ) ≤ ((d - vrel w T P i q : ℕ) : ℚ) := by
        exact_mod_cast hge
      have h3 := mul_le_mul_of_nonneg_left hgeq (utilOf_nonneg (C := C) (T := T) i)
      unfold gelJob
      set a := utilOf C T i * ((d - vrel w T P i q : ℕ) : ℚ)
      have h4 := le_max_right (0 : ℚ) (min (w.exec (i, q) : ℚ) (a - ((C i : ℚ) - w.exec (i, q))))
      rcases le_total (w.exec (i, q) : ℚ) (a - ((C i : ℚ) - w.exec (i, q))) with h5 | h5
      · rw [min_eq_left h5] at h4 ⊢
        linarith
      · rw [min_eq_right h5] at h4 ⊢
        linarith
    · have : vrel w T P i q + T i ≤ d := by
        by_contra hc
        apply h
        unfold vrel at hc ⊢
        omega
      rw [gelJob_after hT this]
      simp
  refine (sum_le_sum h1).trans ?_
  rw [← sum_filter, sum_const, nsmul_eq_mul]
  have : ((((dueJobs w P d i).filter
      (fun q => vrel w T P i q ≤ d ∧ d < vrel w T P i q + T i)).card : ℕ) : ℚ) ≤ 1 := by
    exact_mod_cast gel_active_card (P := P) hs i _ d
  have : 0 ≤ (C i : ℚ) - utilOf C T i * (min (P i) (T i) : ℕ) := by linarith
  nlinarith

/-- Fluid work of the jobs due by `d`. -/
def gelFluid (w : Workload n) (C T P : Fin n → ℕ) (d : ℕ) (i : Fin n) (t : ℕ) : ℚ :=
  ∑ q ∈ dueJobs w P d i, gelJob w C T P i q t

/-- Lag of a task: fluid work minus work done. -/
def lagOf (w : Workload n) (σ : Schedule n) (C T P : Fin n → ℕ) (d : ℕ) (i : Fin n) (t : ℕ) : ℚ :=
  gelFluid w C T P d i t - workDone w σ P d i t

theorem lag_zero (hs : w.Sporadic C T) (i : Fin n) : lagOf w σ C T P d i 0 = 0 := by
  unfold lagOf gelFluid
  rw [workDone_zero]
  simp only [Nat.cast_zero, sub_zero]
  exact sum_eq_zero (fun q _ => gelJob_before hs (Nat.zero_le _))

/-- A task without a ready due job in slot `t` has no positive lag after it. -/
theorem lag_not_ready (hs : w.Sporadic C T) {i : Fin n} (hT : 0 < T i) {t : ℕ}
    (h : ¬ ∃ q ∈ dueJobs w P d i, Ready w σ (i, q) t) : lagOf w σ C T P d i (t + 1) ≤ 0 := by
  have h1 : ∑ q ∈ (dueJobs w P d i).filter (fun q => w.release (i, q) ≤ t), w.exec (i, q) ≤
      workDone w σ P d i t := by
    by_contra hc
    exact h (exists_ready_due hs hT (by omega))
  have h2 : workDone w σ P d i t ≤ workDone w σ P d i (t + 1) := workDone_mono (Nat.le_succ t)
  have h3 : gelFluid w C T P d i (t + 1) ≤
      ((∑ q ∈ (dueJobs w P d i).filter (fun q => w.release (i, q) ≤ t), w.exec (i, q) : ℕ) : ℚ) := by
    unfold gelFluid
    push_cast
    rw [sum_filter]
    apply sum_le_sum
    intro q _
    split_ifs with hr
    · exact gelJob_le_exec _ _ _
    · rw [gelJob_before hs]
      unfold vrel
      omega
  have h4 : ((∑ q ∈ (dueJobs w P d i).filter (fun q => w.release (i, q) ≤ t), w.exec (i, q) : ℕ) : ℚ) ≤
      workDone w σ P d i (t + 1) := by exact_mod_cast h1.trans h2
  unfold lagOf
  linarith

/-- Lag of a task on the jobs `S`. -/
def lagOn (w : Workload n) (σ : Schedule n) (C T P : Fin n → ℕ) (S : Finset ℕ) (i : Fin n) (t : ℕ) : ℚ :=
  ∑ q ∈ S, gelJob w C T P i q t - ((∑ q ∈ S, service σ (i, q) t : ℕ) : ℚ)

/-- Lag of a task on the jobs `S` if its first unfinished job is `l`, from the time
that job still has. -/
theorem lagOn_ready (hs : w.Sporadic C T) (hv : ValidSchedule m w σ) {i : Fin n} (hT : 0 < T i)
    (hCT : C i ≤ T i) {t l : ℕ} {x : ℚ} {S : Finset ℕ}
    (hl : l ∈ S) (hr : Ready w σ (i, l) t) (hx : 0 ≤ x + (min (P i) (T i) : ℕ))
    (hb : (t : ℚ) + ((w.exec (i, l) : ℚ) - service σ (i, l) t) ≤ w.release (i, l) + P i + C i + x ∨
      ((t : ℚ) ≤ w.release (i, l) + P i ∧ 0 ≤ x)) :
    lagOn w σ C T P S i t ≤ utilOf C T i * (x + (min (P i) (T i) : ℕ)) := by
  classical
  have hu := utilOf_nonneg (C := C) (T := T) i
  have hu1 := utilOf_le_one hT hCT
  set K := (S).filter (fun q => l ≤ q) with hK
  have hlK : l ∈ K := by rw [hK, mem_filter]; exact ⟨hl, le_rfl⟩
  -- split off the finished jobs
  have hsplit : lagOn w σ C T P S i t ≤ ∑ q ∈ K, gelJob w C T P i q t - service σ (i, l) t := by
    unfold lagOn
    rw [← sum_filter_add_sum_filter_not (S) (fun q => l ≤ q) (fun q => gelJob w C T P i q t)]
    have h1 : (∑ q ∈ (S).filter (fun q => ¬ l ≤ q), gelJob w C T P i q t) ≤
        ((∑ q ∈ (S).filter (fun q => ¬ l ≤ q), service σ (i, q) t : ℕ) : ℚ) := by
      push_cast
      apply sum_le_sum
      intro q hq
      rw [mem_filter] at hq
      have h2 : w.exec (i, q) ≤ service σ (i, q) t := hr.2 q (by simp only; omega)
      refine (gelJob_le_exec _ _ _).trans ?_
      exact_mod_cast h2
    have h3 : (∑ q ∈ (S).filter (fun q => ¬ l ≤ q), service σ (i, q) t) + service σ (i, l) t ≤
        ∑ q ∈ S, service σ (i, q) t := by
      rw [← sum_filter_add_sum_filter_not (S) (fun q => l ≤ q) (fun q => service σ (i, q) t)]
      have := single_le_sum (f := fun q => service σ (i, q) t) (s := K) (fun _ _ => Nat.zero_le _) hlK
      rw [hK] at this
      omega
    have h4 : ((∑ q ∈ (S).filter (fun q => ¬ l ≤ q), service σ (i, q) t : ℕ) : ℚ) +
        service σ (i, l) t ≤ ((∑ q ∈ S, service σ (i, q) t : ℕ) : ℚ) := by exact_mod_cast h3
    linarith
  -- fluid work of the unfinished jobs
  have hfl : ∑ q ∈ K, gelJob w C T P i q t ≤
      max 0 (utilOf C T i * ((t - vrel w T P i l : ℕ) : ℚ) - ((C i : ℚ) - w.exec (i, l))) := by
    have hzero : ∀ s, s ≤ vrel w T P i l + T i →
        ∑ q ∈ K, gelJob w C T P i q s = gelJob w C T P i l s := by
      intro s hs'
      apply sum_eq_single_of_mem l hlK
      intro q hq hne
      rw [hK, mem_filter] at hq
      have := vrel_mono (P := P) hs i (show l < q by omega)
      exact gelJob_before hs (by omega)
    rcases Nat.le_total t (vrel w T P i l + T i) with h | h
    · rw [hzero t h]
      unfold gelJob
      exact max_le_max le_rfl (min_le_right _ _)
    · have h1 := gel_add (P := P) hs hT K (vrel w T P i l + T i) (t - (vrel w T P i l + T i))
      rw [hzero _ le_rfl, gelJob_after hT le_rfl, Nat.add_sub_cancel' h] at h1
      refine h1.trans (le_max_of_le_right ?_)
      have h2 : ((t - vrel w T P i l : ℕ) : ℚ) = T i + ((t - (vrel w T P i l + T i) : ℕ) : ℚ) := by
        rw [show t - vrel w T P i l = T i + (t - (vrel w T P i l + T i)) by omega]
        push_cast; rfl
      rw [h2, mul_add, utilOf_mul hT]
      linarith
  have hsv : (service σ (i, l) t : ℚ) ≤ w.exec (i, l) := by exact_mod_cast service_le_exec hv (i, l) t
  have hsv0 : (0 : ℚ) ≤ service σ (i, l) t := by positivity
  have hex : (w.exec (i, l) : ℚ) ≤ C i := by exact_mod_cast hs.wcet i l
  refine hsplit.trans ?_
  have hgoal : max 0 (utilOf C T i * ((t - vrel w T P i l : ℕ) : ℚ) - ((C i : ℚ) - w.exec (i, l))) ≤
      utilOf C T i * (x + (min (P i) (T i) : ℕ)) + service σ (i, l) t := by
    apply max_le
    · have := mul_nonneg hu hx
      linarith
    · -- distance from the fluid start
      rcases Nat.le_total t (vrel w T P i l) with ht | ht
      · rw [show t - vrel w T P i l = 0 by omega]
        have := mul_nonneg hu hx
        simp only [Nat.cast_zero, mul_zero]
        linarith
      · have hcast : ((t - vrel w T P i l : ℕ) : ℚ) = (t : ℚ) - w.release (i, l) - P i +
            (min (P i) (T i) : ℕ) := by
          have : t - vrel w T P i l + (w.release (i, l) + P i) = t + min (P i) (T i) := by
            unfold vrel at ht ⊢; omega
          have h2 : ((t - vrel w T P i l : ℕ) : ℚ) + (w.release (i, l) + P i) = t + (min (P i) (T i) : ℕ) := by
            exact_mod_cast this
          linarith
        set e : ℚ := (w.exec (i, l) : ℚ) - service σ (i, l) t with he
        have he0 : 0 ≤ e := by linarith
        have heC : e ≤ C i := by linarith
        rcases hb with hb | ⟨hb, hx0⟩
        · have h1 : ((t - vrel w T P i l : ℕ) : ℚ) ≤ (x + (min (P i) (T i) : ℕ)) + (C i - e) := by
            rw [hcast]; linarith
          have h2 := mul_le_mul_of_nonneg_left h1 hu
          have h3 : utilOf C T i * (C i - e) ≤ 1 * (C i - e) :=
            mul_le_mul_of_nonneg_right hu1 (by linarith)
          rw [mul_add] at h2
          linarith
        · have h1 : ((t - vrel w T P i l : ℕ) : ℚ) ≤ (x + (min (P i) (T i) : ℕ)) := by
            rw [hcast]; linarith
          have h2 := mul_le_mul_of_nonneg_left h1 hu
          linarith
  linarith

/-- Lag of a task whose first unfinished due job is `l`. -/
theorem lag_ready (hs : w.Sporadic C T) (hv : ValidSchedule m w σ) {i : Fin n} (hT : 0 < T i)
    (hCT : C i ≤ T i) {t l : ℕ} {x : ℚ}
    (hl : l ∈ dueJobs w P d i) (hr : Ready w σ (i, l) t) (hx : 0 ≤ x + (min (P i) (T i) : ℕ))
    (hb : (t : ℚ) + ((w.exec (i, l) : ℚ) - service σ (i, l) t) ≤ w.release (i, l) + P i + C i + x ∨
      ((t : ℚ) ≤ w.release (i, l) + P i ∧ 0 ≤ x)) :
    lagOf w σ C T P d i t ≤ utilOf C T i * (x + (min (P i) (T i) : ℕ)) :=
  lagOn_ready hs hv hT hCT hl hr hx hb

/-! ### Slots -/

open Classical in
/-- Tasks with a ready job due by `d`. -/
noncomputable def readyTasks (w : Workload n) (σ : Schedule n) (P : Fin n → ℕ) (d t : ℕ) : Finset (Fin n) :=
  univ.filter (fun i => ∃ q ∈ dueJobs w P d i, Ready w σ (i, q) t)

open Classical in
/-- Tasks executing a job due by `d`. -/
noncomputable def runTasks (w : Workload n) (σ : Schedule n) (P : Fin n → ℕ) (d t : ℕ) : Finset (Fin n) :=
  univ.filter (fun i => ∃ q, (i, q) ∈ σ t ∧ w.deadline P (i, q) ≤ d)

theorem run_subset_ready (hs : w.Sporadic C T) (hT : ∀ i, 0 < T i) (hv : ValidSchedule m w σ) (t : ℕ) :
    runTasks w σ P d t ⊆ readyTasks w σ P d t := by
  classical
  intro i hi
  unfold runTasks at hi
  unfold readyTasks
  rw [mem_filter] at hi ⊢
  obtain ⟨_, q, hq, hd⟩ := hi
  exact ⟨mem_univ _, q, (mem_dueJobs hs (hT i)).2 hd, hv.ready t _ hq⟩

/-- Fewer than `m` tasks execute due jobs only if all with ready ones do. -/
theorem ready_subset_run (hs : w.Sporadic C T) (hT : ∀ i, 0 < T i) (hv : ValidSchedule m w σ)
    (he : EDF m w P σ) {t : ℕ} (h : (runTasks w σ P d t).card < m) :
    readyTasks w σ P d t ⊆ runTasks w σ P d t := by
  classical
  intro i hi
  unfold readyTasks at hi
  rw [mem_filter] at hi
  obtain ⟨_, q, hq, hready⟩ := hi
  have hd := (mem_dueJobs hs (hT i)).1 hq
  by_contra hn
  have hnot : (i, q) ∉ σ t := by
    intro hm
    apply hn
    unfold runTasks
    rw [mem_filter]
    exact ⟨mem_univ _, q, hm, hd⟩
  obtain ⟨hcard, hle⟩ := he t (i, q) hready hnot
  have : (σ t).card ≤ (runTasks w σ P d t).card := by
    apply card_le_card_of_injOn (fun j => j.1)
    · intro j hj
      unfold runTasks
      simp only [coe_filter, Set.mem_setOf_eq]
      exact ⟨mem_univ _, j.2, hj, (hle j hj).trans hd⟩
    · rintro ⟨a, x⟩ hj ⟨b, y⟩ hj' h
      simp only at h
      subst h
      rw [ready_unique (hv.ready t _ hj) (hv.ready t _ hj')]
  omega

theorem run_nonempty (hs : w.Sporadic C T) (hT : ∀ i, 0 < T i) (hv : ValidSchedule m w σ)
    (he : EDF m w P σ) (hm : 0 < m) {t : ℕ} (h : (readyTasks w σ P d t).Nonempty) :
    0 < (runTasks w σ P d t).card := by
  by_contra hc
  have h0 : (runTasks w σ P d t).card = 0 := by omega
  have := ready_subset_run hs hT hv he (t := t) (d := d) (by omega)
  obtain ⟨i, hi⟩ := h
  have := this hi
  rw [card_eq_zero] at h0
  rw [h0] at this
  simp at this

theorem sum_workDone_succ (hs : w.Sporadic C T) (hT : ∀ i, 0 < T i) (hv : ValidSchedule m w σ) (t : ℕ) :
    ∑ i, workDone w σ P d i (t + 1) = ∑ i, workDone w σ P d i t + (runTasks w σ P d t).card := by
  classical
  unfold runTasks
  rw [card_filter, ← sum_add_distrib]
  apply sum_congr rfl
  intro i _
  rw [workDone_succ hs hv (hT i)]

/-- Work left on the jobs due by `d`. -/
def workLeft (w : Workload n) (σ : Schedule n) (P : Fin n → ℕ) (d t : ℕ) : ℤ :=
  ∑ i, ((∑ q ∈ dueJobs w P d i, (w.exec (i, q) : ℤ)) - workDone w σ P d i t)

theorem workLeft_succ (hs : w.Sporadic C T) (hT : ∀ i, 0 < T i) (hv : ValidSchedule m w σ) (t : ℕ) :
    workLeft w σ P d (t + 1) = workLeft w σ P d t - (runTasks w σ P d t).card := by
  have h := sum_workDone_succ (P := P) (d := d) hs hT hv t
  have h' : (∑ i, (workDone w σ P d i (t + 1) : ℤ)) = ∑ i, (workDone w σ P d i t : ℤ) + (runTasks w σ P d t).card := by
    exact_mod_cast h
  unfold workLeft
  rw [sum_sub_distrib, sum_sub_distrib, h']
  ring

theorem workLeft_nonneg (hv : ValidSchedule m w σ) (t : ℕ) : 0 ≤ workLeft w σ P d t := by
  unfold workLeft workDone
  apply sum_nonneg
  intro i _
  push_cast
  rw [← sum_sub_distrib]
  apply sum_nonneg
  intro q _
  have : (service σ (i, q) t : ℤ) ≤ w.exec (i, q) := by exact_mod_cast service_le_exec hv (i, q) t
  linarith

/-- Work left on one due job is part of the work left. -/
theorem completed_of_workLeft (hv : ValidSchedule m w σ) {t : ℕ} (h : workLeft w σ P d t ≤ 0) {i : Fin n} {q : ℕ}
    (hq : q ∈ dueJobs w P d i) : Completed w σ (i, q) t := by
  unfold workLeft workDone at h
  have hn : ∀ i q, (0 : ℤ) ≤ (w.exec (i, q) : ℤ) - service σ (i, q) t := by
    intro i q
    have : (service σ (i, q) t : ℤ) ≤ w.exec (i, q) := by exact_mod_cast service_le_exec hv (i, q) t
    linarith
  have hi : ∀ i, ((∑ q ∈ dueJobs w P d i, (w.exec (i, q) : ℤ)) - ((∑ q ∈ dueJobs w P d i, service σ (i, q) t : ℕ) : ℤ)) =
      ∑ q ∈ dueJobs w P d i, ((w.exec (i, q) : ℤ) - service σ (i, q) t) := by
    intro i
    push_cast
    rw [sum_sub_distrib]
  simp only [hi] at h
  have h1 := single_le_sum (f := fun i => ∑ q ∈ dueJobs w P d i, ((w.exec (i, q) : ℤ) - service σ (i, q) t))
    (s := univ) (fun i _ => sum_nonneg (fun q _ => hn i q)) (mem_univ i)
  have h2 := single_le_sum (f := fun q => ((w.exec (i, q) : ℤ) - service σ (i, q) t))
    (s := dueJobs w P d i) (fun q _ => hn i q) hq
  unfold Completed
  have := hn i q
  omega

/-! ### The bound -/

/-- The conditions on the offsets `x`. -/
structure Compliant (m K : ℕ) (C T P : Fin n → ℕ) (x : Fin n → ℚ) (G : ℚ) : Prop where
  nonneg : 0 ≤ G
  few : ∀ Q : Finset (Fin n), Q.card < K →
    ∑ i ∈ Q, utilOf C T i * (x i + (min (P i) (T i) : ℕ)) ≤ G
  bound : ∀ i, G + ∑ j, ((C j : ℚ) - utilOf C T j * (min (P j) (T j) : ℕ)) ≤ m * x i + C i
  pos : 1 < K → ∀ i, 0 ≤ x i

variable {K : ℕ} {x : Fin n → ℚ} {G : ℚ}

/-- Job `j` finishes within its bound. -/
def WithinGel (w : Workload n) (σ : Schedule n) (C P : Fin n → ℕ) (x : Fin n → ℚ) (j : Job n) : Prop :=
  ∀ t : ℕ, (w.release j : ℤ) + P j.1 + C j.1 + ⌊x j.1⌋ ≤ t → Completed w σ j t

/-- Remaining work needs time. -/
theorem remaining_le {j : Job n} {t s : ℕ} (hv : ValidSchedule m w σ) (h : ¬ Completed w σ j t) (hc : Completed w σ j s) :
    t + (w.exec j - service σ j t) ≤ s := by
  have hts : t ≤ s := by
    by_contra hlt
    exact h (hc.mono (by omega))
  have h1 := service_add σ j hts
  have h2 := serviceIn_le_length σ j t s
  unfold Completed at hc
  omega

theorem lag_le (hs : w.Sporadic C T) (hT : ∀ i, 0 < T i) (hCT : ∀ i, C i ≤ T i) (hv : ValidSchedule m w σ)
    (he : EDF m w P σ) (hKm : K ≤ m) (hU : ∑ i, utilOf C T i ≤ K) (hc : Compliant m K C T P x G)
    (ih : ∀ j : Job n, w.deadline P j < d → WithinGel w σ C P x j) :
    ∀ t ≤ d, ∑ i, lagOf w σ C T P d i t ≤ G := by
  classical
  intro t
  induction t with
  | zero =>
    intro _
    rw [sum_eq_zero (fun i _ => lag_zero hs i)]
    exact hc.nonneg
  | succ t iht =>
    intro htd
    have iht := iht (by omega)
    have hfluid : ∀ i, gelFluid w C T P d i (t + 1) ≤ gelFluid w C T P d i t + utilOf C T i :=
      fun i => gel_step hs (hT i) _ t
    by_cases hbusy : K ≤ (runTasks w σ P d t).card
    · have h1 : ∑ i, gelFluid w C T P d i (t + 1) ≤ ∑ i, gelFluid w C T P d i t + K := by
        refine (sum_le_sum (fun i _ => hfluid i)).trans ?_
        rw [sum_add_distrib]
        linarith
      have h2 := sum_workDone_succ (P := P) (d := d) hs hT hv t
      have h3 : (∑ i, (workDone w σ P d i (t + 1) : ℚ)) = ∑ i, (workDone w σ P d i t : ℚ) +
        (runTasks w σ P d t).card := by exact_mod_cast h2
      have h4 : (K : ℚ) ≤ (runTasks w σ P d t).card := by exact_mod_cast hbusy
      unfold lagOf at iht ⊢
      rw [sum_sub_distrib] at iht ⊢
      linarith
    · push Not at hbusy
      have hsub := ready_subset_run hs hT hv he (t := t) (d := d) (by omega)
      have hcard : (readyTasks w σ P d t).card < K := (card_le_card hsub).trans_lt hbusy
      refine le_trans ?_ (hc.few _ hcard)
      rw [← sum_filter_add_sum_filter_not univ (fun i => i ∈ readyTasks w σ P d t)]
      have hneg : ∑ i ∈ univ.filter (fun i => i ∉ readyTasks w σ P d t), lagOf w σ C T P d i (t + 1) ≤ 0 := by
        apply sum_nonpos
        intro i hi
        rw [mem_filter] at hi
        apply lag_not_ready hs (hT i)
        intro hex
        apply hi.2
        unfold readyTasks
        rw [mem_filter]
        exact ⟨mem_univ _, hex⟩
      have hpos : ∑ i ∈ univ.filter (fun i => i ∈ readyTasks w σ P d t), lagOf w σ C T P d i (t + 1) ≤
          ∑ i ∈ readyTasks w σ P d t, utilOf C T i * (x i + (min (P i) (T i) : ℕ)) := by
        rw [show univ.filter (fun i => i ∈ readyTasks w σ P d t) = readyTasks w σ P d t by ext; simp]
        apply sum_le_sum
        intro i hi
        have hrun := hsub hi
        have hK1 : 1 < K := by
          have : 0 < (readyTasks w σ P d t).card := card_pos.2 ⟨i, hi⟩
          omega
        have hx0 := hc.pos hK1 i
        -- executing, so the lag does not grow
        have hwork : workDone w σ P d i (t + 1) = workDone w σ P d i t + 1 := by
          rw [workDone_succ hs hv (hT i)]
          unfold runTasks at hrun
          rw [mem_filter] at hrun
          rw [if_pos hrun.2]
        have hworkq : (workDone w σ P d i (t + 1) : ℚ) = workDone w σ P d i t + 1 := by exact_mod_cast hwork
        have hstep : lagOf w σ C T P d i (t + 1) ≤ lagOf w σ C T P d i t := by
          have := hfluid i
          have := utilOf_le_one (hT i) (hCT i)
          unfold lagOf
          linarith
        refine hstep.trans ?_
        unfold readyTasks at hi
        rw [mem_filter] at hi
        obtain ⟨_, l, hl, hr⟩ := hi
        apply lag_ready hs hv (hT i) (hCT i) hl hr
        · have : (0 : ℚ) ≤ (min (P i) (T i) : ℕ) := by positivity
          linarith
        · have hld := (mem_dueJobs hs (hT i)).1 hl
          rcases Nat.lt_or_ge (w.deadline P (i, l)) d with hlt | hge
          · left
            have hw := ih (i, l) hlt
            -- the time at which the bound says it has finished
            have hfl : 0 ≤ ⌊x i⌋ := Int.floor_nonneg.2 hx0
            obtain ⟨z, hz⟩ := Int.eq_ofNat_of_zero_le hfl
            have hcmp := hw (w.release (i, l) + P i + C i + z) (by simp only; push_cast; rw [hz])
            have hrem := remaining_le hv hr.1.2 hcmp
            have hsv := service_le_exec hv (i, l) t
            have h1 : (t : ℚ) + ((w.exec (i, l) : ℚ) - service σ (i, l) t) ≤
                w.release (i, l) + P i + C i + z := by
              have : t + w.exec (i, l) ≤ w.release (i, l) + P i + C i + z + service σ (i, l) t := by omega
              have : (t : ℚ) + w.exec (i, l) ≤ w.release (i, l) + P i + C i + z + service σ (i, l) t := by
                exact_mod_cast this
              linarith
            have h2 : (z : ℚ) ≤ x i := by
              have := Int.floor_le (x i)
              rw [hz] at this
              exact_mod_cast this
            linarith
          · right
            refine ⟨?_, hx0⟩
            unfold Workload.deadline at hge
            simp only at hge
            have : t ≤ w.release (i, l) + P i := by omega
            exact_mod_cast this
      linarith

theorem workLeft_le (hs : w.Sporadic C T) (hT : ∀ i, 0 < T i) (hCT : ∀ i, C i ≤ T i) (hv : ValidSchedule m w σ)
    (he : EDF m w P σ) (hKm : K ≤ m) (hU : ∑ i, utilOf C T i ≤ K) (hc : Compliant m K C T P x G)
    (ih : ∀ j : Job n, w.deadline P j < d → WithinGel w σ C P x j) :
    (workLeft w σ P d d : ℚ) ≤ G + ∑ j, ((C j : ℚ) - utilOf C T j * (min (P j) (T j) : ℕ)) := by
  have h1 := lag_le hs hT hCT hv he hKm hU hc ih d le_rfl
  have h2 := sum_le_sum (s := univ) (fun i _ => gel_end (P := P) (d := d) hs (hT i))
  unfold workLeft
  push_cast
  unfold lagOf gelFluid at h1
  simp only [sum_sub_distrib] at h1 h2 ⊢
  push_cast at h2
  linarith

/-- Once a slot from `d` on leaves a processor idle, all later slots execute every
task that has due jobs left. -/
theorem run_after_idle (hs : w.Sporadic C T) (hT : ∀ i, 0 < T i) (hv : ValidSchedule m w σ)
    (he : EDF m w P σ) {t0 : ℕ} (h0d : d ≤ t0) (h0 : (runTasks w σ P d t0).card < m) {t : ℕ} (htt : t0 ≤ t) :
    readyTasks w σ P d t ⊆ runTasks w σ P d t := by
  classical
  have hsub0 := ready_subset_run hs hT hv he (t := t0) (d := d) h0
  have hstay : readyTasks w σ P d t ⊆ readyTasks w σ P d t0 := by
    intro l hl
    unfold readyTasks at hl ⊢
    rw [mem_filter] at hl ⊢
    obtain ⟨_, q, hq, hr⟩ := hl
    refine ⟨mem_univ _, exists_ready_due hs (hT l) ?_⟩
    have hallr : (dueJobs w P d l).filter (fun q => w.release (l, q) ≤ t0) = dueJobs w P d l := by
      apply filter_true_of_mem
      intro q hq
      have := (mem_dueJobs hs (hT l)).1 hq
      unfold Workload.deadline at this
      simp only at this
      omega
    rw [hallr]
    unfold workDone
    apply sum_lt_sum (fun q _ => service_le_exec hv _ _)
    refine ⟨q, hq, ?_⟩
    by_contra hge
    exact hr.1.2 (Completed.mono (by unfold Completed; omega) htt)
  apply ready_subset_run hs hT hv he
  have h1 := card_le_card ((run_subset_ready hs hT hv t).trans (hstay.trans hsub0))
  exact lt_of_le_of_lt h1 h0

/-- A bound on the work left at `d` bounds the response times of the jobs due at `d`. -/
theorem within_of_workLeft (hs : w.Sporadic C T) (hT : ∀ i, 0 < T i) (hCT : ∀ i, C i ≤ T i) (hm : 0 < m)
    (hv : ValidSchedule m w σ) (he : EDF m w P σ)
    (ih : ∀ j : Job n, w.deadline P j < d → WithinGel w σ C P x j) {i : Fin n} {k : ℕ}
    (hW : (workLeft w σ P d d : ℚ) ≤ m * x i + C i) (hjd : w.deadline P (i, k) = d) :
    WithinGel w σ C P x (i, k) := by
  classical
  have hdue : k ∈ dueJobs w P d i := (mem_dueJobs hs (hT i)).2 hjd.le
  unfold Workload.deadline at hjd
  simp only at hjd
  intro te hte
  simp only at hte
  by_contra hnc
  -- one unit of progress in each slot from d on
  have hprog1 : ∀ t, d ≤ t → t < te → 0 < (runTasks w σ P d t).card := by
    intro t hdt htt
    apply run_nonempty hs hT hv he hm
    refine ⟨i, ?_⟩
    unfold readyTasks
    rw [mem_filter]
    refine ⟨mem_univ _, exists_ready_due hs (hT i) ?_⟩
    have hall : (dueJobs w P d i).filter (fun q => w.release (i, q) ≤ t) = dueJobs w P d i := by
      apply filter_true_of_mem
      intro q hq
      have := (mem_dueJobs hs (hT i)).1 hq
      unfold Workload.deadline at this
      simp only at this
      omega
    rw [hall]
    unfold workDone
    apply sum_lt_sum (fun q _ => service_le_exec hv _ _)
    refine ⟨k, hdue, ?_⟩
    by_contra hge
    exact hnc (Completed.mono (by unfold Completed; omega) htt.le)
  have hdec1 : ∀ a l : ℕ, d ≤ a → a + l ≤ te → workLeft w σ P d (a + l) ≤ workLeft w σ P d a - l := by
    intro a l ha
    induction l with
    | zero => intro _; simp
    | succ l ihl =>
      intro hle
      have h1 := ihl (by omega)
      have h2 := workLeft_succ (P := P) (d := d) hs hT hv (a + l)
      have h3 := hprog1 (a + l) (by omega) (by omega)
      rw [← Nat.add_assoc, h2]
      push_cast
      omega
  have hnot0 : ∀ t, d ≤ t → t ≤ te → 0 < workLeft w σ P d t := by
    intro t _ htt
    by_contra hle
    exact hnc ((completed_of_workLeft hv (by omega) hdue).mono htt)
  have hW0 := workLeft_nonneg (P := P) (d := d) hv d
  have hmq : (1 : ℚ) ≤ m := by exact_mod_cast hm
  have hfl := Int.floor_le (x i)
  have hfu := Int.lt_floor_add_one (x i)
  rcases lt_or_ge (x i) 0 with hneg | hpos
  · -- negative offset
    have h1 : (workLeft w σ P d d : ℚ) ≤ C i + x i := by nlinarith
    have h2 : workLeft w σ P d d ≤ C i + ⌊x i⌋ := by
      have : workLeft w σ P d d - C i ≤ ⌊x i⌋ := by
        rw [Int.le_floor]; push_cast; linarith
      linarith
    have hdte : d ≤ te := by
      have : (d : ℤ) ≤ te := by rw [← hjd]; push_cast; linarith
      exact_mod_cast this
    have h3 := hdec1 d (te - d) le_rfl (by omega)
    rw [Nat.add_sub_cancel' hdte] at h3
    have h4 := hnot0 te hdte le_rfl
    have h5 : ((te - d : ℕ) : ℤ) = te - d := by omega
    have h6 : ((w.release (i, k) + P i : ℕ) : ℤ) = d := by rw [hjd]
    push_cast at h6
    linarith
  · obtain ⟨z, hz⟩ := Int.eq_ofNat_of_zero_le (Int.floor_nonneg.2 hpos)
    rw [hz] at hte hfl hfu
    have hfl' : (z : ℚ) ≤ x i := by exact_mod_cast hfl
    have hfu' : x i < (z : ℚ) + 1 := by exact_mod_cast hfu
    have hte' : d + C i + z ≤ te := by
      have : (w.release (i, k) : ℤ) + P i + C i + (z : ℤ) ≤ te := hte
      omega
    have hCpos : 0 < C i := by
      by_contra h0
      apply hnc
      have := hs.wcet i k
      unfold Completed
      omega
    by_cases hall : ∀ t, d ≤ t → t ≤ d + z → m ≤ (runTasks w σ P d t).card
    · -- all processors busy
      have hdec : ∀ l ≤ z + 1, workLeft w σ P d (d + l) ≤ workLeft w σ P d d - m * l := by
        intro l
        induction l with
        | zero => intro _; simp
        | succ l ihl =>
          intro hle
          have h1 := ihl (by omega)
          have h2 := workLeft_succ (P := P) (d := d) hs hT hv (d + l)
          have h3 := hall (d + l) (by omega) (by omega)
          rw [← Nat.add_assoc, h2]
          push_cast
          have : (m : ℤ) ≤ (runTasks w σ P d (d + l)).card := by exact_mod_cast h3
          linarith
      have h1 := hdec (z + 1) le_rfl
      have h2 : workLeft w σ P d (d + (z + 1)) < C i := by
        have h1q : (workLeft w σ P d (d + (z + 1)) : ℚ) ≤ workLeft w σ P d d - m * ((z : ℚ) + 1) := by
          exact_mod_cast h1
        have : (workLeft w σ P d (d + (z + 1)) : ℚ) < C i := by nlinarith
        exact_mod_cast this
      have h3 := hdec1 (d + (z + 1)) (C i - 1) (by omega) (by omega)
      have h4 := hnot0 (d + (z + 1) + (C i - 1)) (by omega) (by omega)
      omega
    · -- a slot with an idle processor
      push Not at hall
      obtain ⟨t0, h0d, h0z, h0⟩ := hall
      have hrun : ∀ t, t0 ≤ t → readyTasks w σ P d t ⊆ runTasks w σ P d t :=
        fun t htt => run_after_idle hs hT hv he h0d h0 htt
      -- predecessors are finished
      have hpred : ∀ q < k, Completed w σ (i, q) (d + z) := by
        intro q hq
        have hrel := release_mono hs i hq.le
        have h3 : 1 * T i ≤ (k - q) * T i := Nat.mul_le_mul_right _ (by omega)
        have hlt : w.deadline P (i, q) < d := by
          unfold Workload.deadline
          simp only
          have := hT i
          omega
        apply ih (i, q) hlt
        simp only
        rw [hz]
        have := hCT i
        have : w.release (i, q) + P i + C i + z ≤ d + z := by omega
        exact_mod_cast this
      have hserv : ∀ l, d + z + l ≤ te → l ≤ service σ (i, k) (d + z + l) := by
        intro l
        induction l with
        | zero => intro _; omega
        | succ l ihl =>
          intro hle
          have h1 := ihl (by omega)
          have hr : Ready w σ (i, k) (d + z + l) := by
            refine ⟨⟨by omega, fun hcmp => hnc (hcmp.mono (by omega))⟩, fun q hq => ?_⟩
            exact (hpred q hq).mono (by omega)
          have hmem : i ∈ readyTasks w σ P d (d + z + l) := by
            unfold readyTasks
            rw [mem_filter]
            exact ⟨mem_univ _, k, hdue, hr⟩
          have hmem2 := hrun (d + z + l) (by omega) hmem
          unfold runTasks at hmem2
          rw [mem_filter] at hmem2
          obtain ⟨_, q, hq, _⟩ := hmem2
          have : q = k := ready_unique (hv.ready _ _ hq) hr
          subst this
          rw [← Nat.add_assoc, service_succ, if_pos hq]
          omega
      have h1 := hserv (C i) (by omega)
      have h2 := hs.wcet i k
      apply hnc
      apply Completed.mono (s := d + z + C i) _ (by omega)
      unfold Completed
      omega

/-- Compliant offsets bound all response times. -/
theorem gel_bound (hs : w.Sporadic C T) (hT : ∀ i, 0 < T i) (hCT : ∀ i, C i ≤ T i) (hm : 0 < m)
    (hv : ValidSchedule m w σ)
    (he : EDF m w P σ) (hKm : K ≤ m) (hU : ∑ i, utilOf C T i ≤ K) (hc : Compliant m K C T P x G) :
    ∀ j : Job n, WithinGel w σ C P x j := by
  classical
  suffices H : ∀ d, ∀ j : Job n, w.deadline P j = d → WithinGel w σ C P x j from
    fun j => H _ j rfl
  intro d
  induction d using Nat.strong_induction_on with
  | _ d ihd =>
  rintro ⟨i, k⟩ hjd
  have ih : ∀ j : Job n, w.deadline P j < d → WithinGel w σ C P x j := fun j hj => ihd _ hj j rfl
  have hW := (workLeft_le hs hT hCT hv he hKm hU hc ih).trans (hc.bound i)
  exact within_of_workLeft hs hT hCT hm hv he ih hW hjd

end Verif.Spec
