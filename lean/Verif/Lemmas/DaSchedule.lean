/-
Tardiness under global EDF with implicit deadlines, after Devi and Anderson:
compare the schedule with a fluid schedule in which every task executes at its
utilization.  The lag of the tasks that are late at a time `d` is bounded: it can
grow only in slots in which few tasks execute, and if all of those have a large
lag, then it comes from an earlier time at which all processors were busy.
-/
import Verif.Lemmas.GelSchedule
import Verif.Lemmas.EdfUni
import Mathlib.Data.Prod.Lex
import Mathlib.Data.Finset.Max

namespace Verif.Spec
open Finset

variable {n m K N : ℕ} {C T : Fin n → ℕ} {w : Workload n} {σ : Schedule n} {d : ℕ} {x B : ℚ}

theorem completed_of_not_ready (hs : w.Sporadic C T) {i : Fin n} {q t : ℕ} (hr : w.release (i, q) ≤ t)
    (h : ∀ q' ≤ q, ¬ Ready w σ (i, q') t) : Completed w σ (i, q) t := by
  by_contra hc
  obtain ⟨k, hk, hready, _⟩ := exists_ready hs (show Pending w σ (i, q) t from ⟨hr, hc⟩)
  exact h k hk hready

theorem vrel_self (i : Fin n) (q : ℕ) : vrel w T T i q = w.release (i, q) := by
  unfold vrel; omega

theorem gelJob_le_service (hs : w.Sporadic C T) {i : Fin n} {q t : ℕ}
    (h : w.release (i, q) ≤ t → Completed w σ (i, q) t) :
    gelJob w C T T i q (t + 1) ≤ service σ (i, q) (t + 1) := by
  rcases Nat.lt_or_ge t (w.release (i, q)) with hlt | hge
  · rw [gelJob_before hs (by rw [vrel_self]; omega)]
    positivity
  · have h1 : w.exec (i, q) ≤ service σ (i, q) (t + 1) := (h hge).mono (Nat.le_succ t)
    refine (gelJob_le_exec i q (t + 1)).trans ?_
    exact_mod_cast h1

theorem lagOn_nonpos {i : Fin n} {S : Finset ℕ} {t : ℕ}
    (h : ∀ q ∈ S, gelJob w C T T i q t ≤ service σ (i, q) t) : lagOn w σ C T T S i t ≤ 0 := by
  unfold lagOn
  push_cast
  have := sum_le_sum h
  linarith

theorem lagOn_nonneg {i : Fin n} {S : Finset ℕ} {t : ℕ}
    (h : ∀ q ∈ S, (service σ (i, q) t : ℚ) ≤ gelJob w C T T i q t) : 0 ≤ lagOn w σ C T T S i t := by
  unfold lagOn
  push_cast
  have := sum_le_sum h
  linarith

theorem lagOn_zero (hs : w.Sporadic C T) (i : Fin n) (S : Finset ℕ) : lagOn w σ C T T S i 0 = 0 := by
  unfold lagOn
  rw [sum_eq_zero (fun q _ => gelJob_before hs (Nat.zero_le _))]
  simp [service]

theorem lagOn_step (hs : w.Sporadic C T) {i : Fin n} (hT : 0 < T i) (S : Finset ℕ) (t : ℕ) :
    lagOn w σ C T T S i (t + 1) ≤ lagOn w σ C T T S i t + utilOf C T i := by
  have h1 := gel_step (P := T) hs hT S t
  have h2 : ∑ q ∈ S, service σ (i, q) t ≤ ∑ q ∈ S, service σ (i, q) (t + 1) :=
    sum_le_sum (fun q _ => service_mono σ _ (Nat.le_succ t))
  have h3 : ((∑ q ∈ S, service σ (i, q) t : ℕ) : ℚ) ≤ ((∑ q ∈ S, service σ (i, q) (t + 1) : ℕ) : ℚ) := by
    exact_mod_cast h2
  unfold lagOn
  linarith

theorem lagOn_step_run (hs : w.Sporadic C T) {i : Fin n} (hT : 0 < T i) (S : Finset ℕ) {t : ℕ}
    (hrun : ∃ q ∈ S, (i, q) ∈ σ t) :
    lagOn w σ C T T S i (t + 1) ≤ lagOn w σ C T T S i t + utilOf C T i - 1 := by
  have h1 := gel_step (P := T) hs hT S t
  obtain ⟨q, hq, hm⟩ := hrun
  have h2 : ∑ q ∈ S, service σ (i, q) t < ∑ q ∈ S, service σ (i, q) (t + 1) := by
    apply sum_lt_sum (fun q _ => service_mono σ _ (Nat.le_succ t))
    refine ⟨q, hq, ?_⟩
    rw [service_succ, if_pos hm]
    omega
  have h3 : ((∑ q ∈ S, service σ (i, q) t : ℕ) : ℚ) + 1 ≤ ((∑ q ∈ S, service σ (i, q) (t + 1) : ℕ) : ℚ) := by
    exact_mod_cast h2
  unfold lagOn
  linarith

/-- A job in execution has an index below the horizon. -/
theorem run_lt (hs : w.Sporadic C T) (hT : ∀ i, 0 < T i) (hv : ValidSchedule m w σ) {i : Fin n} {q t : ℕ}
    (h : (i, q) ∈ σ t) (ht : t < N) : q ∈ range N := by
  have h1 := le_release hs i (hT i) q
  have h2 := (hv.ready t _ h).1.1
  rw [mem_range]
  omega

theorem lag_le_cost (hs : w.Sporadic C T) (hv : ValidSchedule m w σ) (hT : ∀ i, 0 < T i) (hCT : ∀ i, C i ≤ T i)
    {i : Fin n} {q t : ℕ} {S : Finset ℕ} (hq : q ∈ S) (hr : Ready w σ (i, q) t) (hd : t ≤ w.deadline T (i, q)) :
    lagOn w σ C T T S i t ≤ C i := by
  have h := lagOn_ready (P := T) (x := 0) hs hv (hT i) (hCT i) hq hr (by positivity)
    (Or.inr ⟨by unfold Workload.deadline at hd; exact_mod_cast hd, le_rfl⟩)
  rw [Nat.min_self, zero_add, utilOf_mul (hT i)] at h
  exact h

/-- A large lag comes from a slot in which a late job had to wait; from then on the
task has been executing. -/
theorem exists_blocked (hs : w.Sporadic C T) (hv : ValidSchedule m w σ) (hT : ∀ i, 0 < T i)
    (hCT : ∀ i, C i ≤ T i) {i : Fin n} : ∀ t ≤ N, (C i : ℚ) < lagOn w σ C T T (range N) i t →
    ∃ s q, s < t ∧ Ready w σ (i, q) s ∧ (∀ q', (i, q') ∉ σ s) ∧ w.deadline T (i, q) ≤ s ∧
      ∀ v, s < v → v < t → ∃ q', (i, q') ∈ σ v := by
  intro t
  induction t with
  | zero =>
    intro _ h
    rw [lagOn_zero hs] at h
    have : (0 : ℚ) ≤ C i := by positivity
    linarith
  | succ t ih =>
    intro ht h
    by_cases hrun : ∃ q', (i, q') ∈ σ t
    · obtain ⟨q', hq'⟩ := hrun
      have h1 := lagOn_step_run (C := C) hs (hT i) (range N) ⟨q', run_lt hs hT hv hq' (by omega), hq'⟩
      have h2 := utilOf_le_one (hT i) (hCT i)
      obtain ⟨s, q, hs1, hs2, hs3, hs4, hs5⟩ := ih (by omega) (by linarith)
      refine ⟨s, q, by omega, hs2, hs3, hs4, fun v hv1 hv2 => ?_⟩
      rcases Nat.lt_or_ge v t with hlt | hge
      · exact hs5 v hv1 hlt
      · rw [show v = t by omega]
        exact ⟨q', hq'⟩
    · push Not at hrun
      by_cases hex : ∃ q, Ready w σ (i, q) t
      · obtain ⟨q, hq⟩ := hex
        refine ⟨t, q, Nat.lt_succ_self t, hq, hrun, ?_, fun v h1 h2 => by omega⟩
        by_contra hd
        push Not at hd
        have hr' : Ready w σ (i, q) (t + 1) := by
          refine ⟨⟨hq.1.1.trans (Nat.le_succ t), ?_⟩, fun k hk => (hq.2 k hk).mono (Nat.le_succ t)⟩
          intro hc
          apply hq.1.2
          unfold Completed at hc ⊢
          rwa [service_succ, if_neg (hrun q), Nat.add_zero] at hc
        have hqN : q ∈ range N := by
          have := le_release hs i (hT i) q
          have := hq.1.1
          rw [mem_range]; omega
        have := lag_le_cost hs hv hT hCT hqN hr' hd
        linarith
      · push Not at hex
        have h0 : lagOn w σ C T T (range N) i (t + 1) ≤ 0 :=
          lagOn_nonpos (fun q _ => gelJob_le_service hs (fun hr => completed_of_not_ready hs hr (fun q' _ => hex q')))
        have : (0 : ℚ) ≤ C i := by positivity
        linarith

open Classical in
/-- Tasks that have an unfinished job with a deadline of at most `d` at time `d`. -/
noncomputable def lateTasks (w : Workload n) (σ : Schedule n) (T : Fin n → ℕ) (d : ℕ) : Finset (Fin n) :=
  univ.filter (fun i => ∃ q, w.deadline T (i, q) ≤ d ∧ ¬ Completed w σ (i, q) d)

theorem mem_lateTasks {i : Fin n} : i ∈ lateTasks w σ T d ↔
    ∃ q, w.deadline T (i, q) ≤ d ∧ ¬ Completed w σ (i, q) d := by
  classical
  unfold lateTasks
  rw [mem_filter]
  simp

theorem mem_runTasks {P : Fin n → ℕ} {i : Fin n} {t : ℕ} : i ∈ runTasks w σ P d t ↔
    ∃ q, (i, q) ∈ σ t ∧ w.deadline P (i, q) ≤ d := by
  classical
  unfold runTasks
  rw [mem_filter]
  simp

theorem mem_readyTasks {P : Fin n → ℕ} {i : Fin n} {t : ℕ} : i ∈ readyTasks w σ P d t ↔
    ∃ q ∈ dueJobs w P d i, Ready w σ (i, q) t := by
  classical
  unfold readyTasks
  rw [mem_filter]
  simp

theorem deadline_lt (hs : w.Sporadic C T) (hT : ∀ i, 0 < T i) {i : Fin n} {a b : ℕ}
    (h : w.deadline T (i, a) < w.deadline T (i, b)) : a < b := by
  by_contra hle
  have := release_mono hs i (show b ≤ a by omega)
  unfold Workload.deadline at h
  simp only at h
  omega

/-- The due jobs of a task whose lag counts all jobs execute first. -/
theorem lag_step_if (hs : w.Sporadic C T) (hT : ∀ i, 0 < T i) {i : Fin n} {S : Finset ℕ} {t : ℕ}
    (hS : dueJobs w T d i ⊆ S) :
    lagOn w σ C T T S i (t + 1) ≤ lagOn w σ C T T S i t + utilOf C T i -
      (if i ∈ runTasks w σ T d t then 1 else 0) := by
  split_ifs with h
  · obtain ⟨q, hq, hqd⟩ := mem_runTasks.1 h
    exact lagOn_step_run hs (hT i) S ⟨q, hS ((mem_dueJobs hs (hT i)).2 hqd), hq⟩
  · rw [sub_zero]
    exact lagOn_step hs (hT i) S t

theorem due_subset (hs : w.Sporadic C T) (hT : ∀ i, 0 < T i) (hdN : d ≤ N) (i : Fin n) :
    dueJobs w T d i ⊆ range N := by
  intro q hq
  have h1 := (mem_dueJobs hs (hT i)).1 hq
  have h2 := le_release hs i (hT i) q
  unfold Workload.deadline at h1
  simp only at h1
  have := hT i
  rw [mem_range]
  omega

/-- If all processors execute jobs due by `d`, no other job executes. -/
theorem all_due (hv : ValidSchedule m w σ) {t : ℕ} (h : m ≤ (runTasks w σ T d t).card) :
    ∀ j ∈ σ t, w.deadline T j ≤ d := by
  classical
  have h1 : runTasks w σ T d t ⊆ ((σ t).filter (fun j => w.deadline T j ≤ d)).image Prod.fst := by
    intro i hi
    obtain ⟨q, hq, hqd⟩ := mem_runTasks.1 hi
    exact mem_image.2 ⟨(i, q), mem_filter.2 ⟨hq, hqd⟩, rfl⟩
  have h2 := (card_le_card h1).trans card_image_le
  have h3 := hv.procs t
  have h4 : (σ t).filter (fun j => w.deadline T j ≤ d) = σ t :=
    eq_of_subset_of_card_le (filter_subset _ _) (by omega)
  intro j hj
  rw [← h4, mem_filter] at hj
  exact hj.2

/-- If all tasks of a set have a large lag, the sum of their lags was bounded
earlier. -/
theorem lag_blocked (hs : w.Sporadic C T) (hT : ∀ i, 0 < T i) (hCT : ∀ i, C i ≤ T i)
    (hv : ValidSchedule m w σ) (he : EDF m w T σ) (hU : ∑ i, utilOf C T i ≤ m) (hdN : d ≤ N)
    (hL : ∀ d' < d, ∑ i ∈ lateTasks w σ T d', lagOn w σ C T T (range N) i d' ≤ B)
    {R : Finset (Fin n)} (hR : R.Nonempty) {t : ℕ} (htd : t ≤ d)
    (hlag : ∀ i ∈ R, (C i : ℚ) < lagOn w σ C T T (range N) i t) :
    ∑ i ∈ R, lagOn w σ C T T (range N) i t ≤ B := by
  classical
  have hex : ∀ i, ∃ s q, i ∈ R → (s < t ∧ Ready w σ (i, q) s ∧ (∀ q', (i, q') ∉ σ s) ∧
      w.deadline T (i, q) ≤ s ∧ ∀ v, s < v → v < t → ∃ q', (i, q') ∈ σ v) := by
    intro i
    by_cases hi : i ∈ R
    · obtain ⟨s, q, h⟩ := exists_blocked hs hv hT hCT t (by omega) (hlag i hi)
      exact ⟨s, q, fun _ => h⟩
    · exact ⟨0, 0, fun h => absurd h hi⟩
  choose s q hsq using hex
  obtain ⟨b, hb, hmax⟩ := exists_max_image R (fun i => toLex (s i, w.deadline T (i, q i))) hR
  obtain ⟨hb1, hb2, hb3, hb4, hb5⟩ := hsq b hb
  set d' := w.deadline T (b, q b) with hd'
  obtain ⟨_, hle⟩ := he (s b) (b, q b) hb2 (hb3 _)
  -- all of them are late at the deadline of the job that waits last
  have hsub : R ⊆ lateTasks w σ T d' := by
    intro a ha
    obtain ⟨ha1, ha2, ha3, ha4, ha5⟩ := hsq a ha
    have hlex := hmax a ha
    rw [Prod.Lex.toLex_le_toLex] at hlex
    simp only at hlex
    rw [mem_lateTasks]
    rcases hlex with hlt | ⟨heq, hdl⟩
    · obtain ⟨q', hq'⟩ := ha5 (s b) hlt hb1
      refine ⟨q', hle _ hq', fun hc => (hv.ready _ _ hq').1.2 (hc.mono hb4)⟩
    · refine ⟨q a, hdl, fun hc => ha2.1.2 (hc.mono ?_)⟩
      rw [heq]; exact hb4
  have hfull : ∀ v, d' ≤ v → v ≤ s b → m ≤ (runTasks w σ T d' v).card := by
    intro v hv1 hv2
    by_contra hc
    have h1 := run_after_idle hs hT hv he hv1 (by omega) hv2
    have h2 : b ∈ readyTasks w σ T d' (s b) :=
      mem_readyTasks.2 ⟨q b, (mem_dueJobs hs (hT b)).2 le_rfl, hb2⟩
    obtain ⟨q', hq', _⟩ := mem_runTasks.1 (h1 h2)
    exact hb3 q' hq'
  have hrunlate : ∀ v, d' ≤ v → runTasks w σ T d' v ⊆ lateTasks w σ T d' := by
    intro v hv1 i hi
    obtain ⟨q', hq', hqd⟩ := mem_runTasks.1 hi
    exact mem_lateTasks.2 ⟨q', hqd, fun hc => (hv.ready _ _ hq').1.2 (hc.mono hv1)⟩
  -- the sum of the lags of the late tasks does not grow
  have hsum : ∀ l, d' + l ≤ s b + 1 →
      ∑ i ∈ lateTasks w σ T d', lagOn w σ C T T (range N) i (d' + l) ≤ B := by
    intro l
    induction l with
    | zero => intro _; exact hL d' (by omega)
    | succ l ihl =>
      intro hl
      have h1 := ihl (by omega)
      have h2 := sum_le_sum (s := lateTasks w σ T d') (fun i _ =>
        lag_step_if (σ := σ) (t := d' + l) hs hT (due_subset (N := N) (d := d') hs hT (by omega) i))
      rw [sum_sub_distrib, sum_add_distrib] at h2
      have h3 : ∑ i ∈ lateTasks w σ T d', utilOf C T i ≤ m :=
        (sum_le_sum_of_subset_of_nonneg (subset_univ _) (fun i _ _ => utilOf_nonneg i)).trans hU
      have h4 : (m : ℚ) ≤ ∑ i ∈ lateTasks w σ T d', (if i ∈ runTasks w σ T d' (d' + l) then (1 : ℚ) else 0) := by
        rw [← sum_filter, filter_mem_eq_inter, inter_eq_right.2 (hrunlate _ (by omega)), sum_const, nsmul_eq_mul,
          mul_one]
        exact_mod_cast hfull _ (by omega) (by omega)
      rw [← Nat.add_assoc]
      linarith
  have hsb := hsum (s b + 1 - d') (by omega)
  rw [Nat.add_sub_cancel' (by omega)] at hsb
  have hnn : ∀ i ∈ lateTasks w σ T d', 0 ≤ lagOn w σ C T T (range N) i (s b + 1) := by
    intro i hi
    obtain ⟨q0, hq0, hq0c⟩ := mem_lateTasks.1 hi
    apply lagOn_nonneg
    intro k _
    rcases Nat.lt_or_ge d' (w.deadline T (i, k)) with hlt | hge
    · have hk := deadline_lt hs hT (lt_of_le_of_lt hq0 hlt)
      have h0 : service σ (i, k) (s b + 1) = 0 := by
        unfold service
        rw [card_eq_zero, filter_eq_empty_iff]
        intro v hvr hmem
        rw [mem_range] at hvr
        rcases Nat.lt_or_ge v d' with hvd | hvd
        · exact hq0c (((hv.ready v _ hmem).2 q0 hk).mono hvd.le)
        · have := all_due hv (hfull v hvd (by omega)) _ hmem
          omega
      rw [h0]
      simpa using gelJob_nonneg (w := w) (C := C) (T := T) (P := T) i k (s b + 1)
    · rw [gelJob_after (hT i)]
      · exact_mod_cast service_le_exec hv (i, k) _
      · rw [vrel_self]
        unfold Workload.deadline at hge
        simp only at hge
        omega
  have hRsb := (sum_le_sum_of_subset_of_nonneg hsub (fun i hi _ => hnn i hi)).trans hsb
  -- and from then on all of them execute
  have hend : ∀ l, s b + 1 + l ≤ t → ∑ i ∈ R, lagOn w σ C T T (range N) i (s b + 1 + l) ≤ B := by
    intro l
    induction l with
    | zero => intro _; exact hRsb
    | succ l ihl =>
      intro hl
      refine le_trans (sum_le_sum (fun i hi => ?_)) (ihl (by omega))
      obtain ⟨_, _, _, _, hi5⟩ := hsq i hi
      have hle' : s i ≤ s b := by
        have hlex := hmax i hi
        rw [Prod.Lex.toLex_le_toLex] at hlex
        simp only at hlex
        omega
      obtain ⟨q', hq'⟩ := hi5 (s b + 1 + l) (by omega) (by omega)
      have h1 := lagOn_step_run (C := C) hs (hT i) (range N) ⟨q', run_lt hs hT hv hq' (by omega), hq'⟩
      have h2 := utilOf_le_one (hT i) (hCT i)
      rw [← Nat.add_assoc]
      linarith
  have := hend (t - (s b + 1)) (by omega)
  rwa [Nat.add_sub_cancel' (by omega)] at this

/-- The conditions on the bound `x`: `B` is what `m x` and the cost of a task cover,
and it covers the costs of few tasks and `x` times the utilizations of all but one
of them. -/
structure DaCompliant (m K : ℕ) (C T : Fin n → ℕ) (x B : ℚ) : Prop where
  nonneg : 0 ≤ B
  pos : 0 ≤ x
  few : ∀ R : Finset (Fin n), R.card < K → ∀ a ∈ R,
    ∑ i ∈ R, (C i : ℚ) + x * ∑ i ∈ R.erase a, utilOf C T i ≤ B
  bound : ∀ i, B ≤ m * x + C i

/-- Service of jobs due later than an unfinished due job. -/
theorem no_service (hs : w.Sporadic C T) (hT : ∀ i, 0 < T i) (hv : ValidSchedule m w σ) {i : Fin n} {q0 k t : ℕ}
    (h0 : w.deadline T (i, q0) ≤ d) (hk : d < w.deadline T (i, k))
    (hc : ∀ v < t, ¬ Completed w σ (i, q0) v) : service σ (i, k) t = 0 := by
  have hlt := deadline_lt hs hT (lt_of_le_of_lt h0 hk)
  unfold service
  rw [card_eq_zero, filter_eq_empty_iff]
  intro v hvr hmem
  rw [mem_range] at hvr
  exact hc v hvr ((hv.ready v _ hmem).2 q0 hlt)

open Classical in
/-- The jobs whose lag counts up to time `d`: all of a task that is late at `d`,
otherwise the due ones. -/
noncomputable def daJobs (w : Workload n) (σ : Schedule n) (T : Fin n → ℕ) (N d : ℕ) (i : Fin n) : Finset ℕ :=
  if i ∈ lateTasks w σ T d then range N else dueJobs w T d i

theorem da_lag_le (hs : w.Sporadic C T) (hT : ∀ i, 0 < T i) (hCT : ∀ i, C i ≤ T i)
    (hv : ValidSchedule m w σ) (he : EDF m w T σ) (hKm : K ≤ m) (hU : ∑ i, utilOf C T i ≤ K)
    (hc : DaCompliant m K C T x B) (hdN : d ≤ N)
    (ih : ∀ j : Job n, w.deadline T j < d → WithinGel w σ C T (fun _ => x) j)
    (hL : ∀ d' < d, ∑ i ∈ lateTasks w σ T d', lagOn w σ C T T (range N) i d' ≤ B) :
    ∀ t ≤ d, ∑ i, lagOn w σ C T T (daJobs w σ T N d i) i t ≤ B := by
  classical
  have hUm : ∑ i, utilOf C T i ≤ m := hU.trans (by exact_mod_cast hKm)
  have hdue : ∀ i, dueJobs w T d i ⊆ daJobs w σ T N d i := by
    intro i
    unfold daJobs
    split_ifs
    · exact due_subset hs hT hdN i
    · exact Subset.refl _
  have hrange : ∀ i, daJobs w σ T N d i ⊆ range N := by
    intro i
    unfold daJobs
    split_ifs
    · exact Subset.refl _
    · exact due_subset hs hT hdN i
  intro t
  induction t with
  | zero =>
    intro _
    rw [sum_eq_zero (fun i _ => lagOn_zero hs i _)]
    exact hc.nonneg
  | succ t iht =>
    intro htd
    have iht := iht (by omega)
    by_cases hbusy : K ≤ (runTasks w σ T d t).card
    · have h2 := sum_le_sum (s := univ) (fun i _ => lag_step_if (σ := σ) (t := t) hs hT (hdue i))
      rw [sum_sub_distrib, sum_add_distrib] at h2
      have h4 : (K : ℚ) ≤ ∑ i, (if i ∈ runTasks w σ T d t then (1 : ℚ) else 0) := by
        rw [← sum_filter, filter_mem_eq_inter, univ_inter, sum_const, nsmul_eq_mul, mul_one]
        exact_mod_cast hbusy
      linarith
    · push Not at hbusy
      have hsub := ready_subset_run hs hT hv he (t := t) (d := d) (by omega)
      have hcard : (readyTasks w σ T d t).card < K := (card_le_card hsub).trans_lt hbusy
      -- tasks without ready due jobs
      have hneg : ∀ i, i ∉ readyTasks w σ T d t → lagOn w σ C T T (daJobs w σ T N d i) i (t + 1) ≤ 0 := by
        intro i hi
        have hnr : ∀ q, w.deadline T (i, q) ≤ d → ¬ Ready w σ (i, q) t := fun q hq hr =>
          hi (mem_readyTasks.2 ⟨q, (mem_dueJobs hs (hT i)).2 hq, hr⟩)
        have hdone : ∀ q, w.deadline T (i, q) ≤ d → w.release (i, q) ≤ t → Completed w σ (i, q) t := by
          intro q hq hr
          apply completed_of_not_ready hs hr
          intro q' hq'
          apply hnr
          have := release_mono hs i hq'
          unfold Workload.deadline at hq ⊢
          simp only at hq ⊢
          omega
        apply lagOn_nonpos
        intro q hq
        apply gelJob_le_service hs
        intro hr
        rcases Nat.lt_or_ge d (w.deadline T (i, q)) with hlt | hge
        · exfalso
          unfold daJobs at hq
          split_ifs at hq with hlate
          · obtain ⟨q0, h0, h0c⟩ := mem_lateTasks.1 hlate
            have hlt' := deadline_lt hs hT (lt_of_le_of_lt h0 hlt)
            have := release_mono hs i hlt'.le
            exact h0c ((hdone q0 h0 (by omega)).mono (by omega))
          · have := (mem_dueJobs hs (hT i)).1 hq
            omega
        · exact hdone q hge hr
      have htot : ∑ i, lagOn w σ C T T (daJobs w σ T N d i) i (t + 1) ≤
          ∑ i ∈ readyTasks w σ T d t, lagOn w σ C T T (daJobs w σ T N d i) i (t + 1) := by
        rw [← sum_filter_add_sum_filter_not univ (fun i => i ∈ readyTasks w σ T d t),
          show univ.filter (fun i => i ∈ readyTasks w σ T d t) = readyTasks w σ T d t by ext; simp]
        have : ∑ i ∈ univ.filter (fun i => i ∉ readyTasks w σ T d t),
            lagOn w σ C T T (daJobs w σ T N d i) i (t + 1) ≤ 0 :=
          sum_nonpos (fun i hi => hneg i (mem_filter.1 hi).2)
        linarith
      refine htot.trans ?_
      -- the lag of a task that executes
      have hone : ∀ i ∈ readyTasks w σ T d t, lagOn w σ C T T (daJobs w σ T N d i) i (t + 1) ≤
          C i + x * utilOf C T i := by
        intro i hi
        obtain ⟨q, hq, hqd⟩ := mem_runTasks.1 (hsub hi)
        have hr := hv.ready _ _ hq
        have hmem := hdue i ((mem_dueJobs hs (hT i)).2 hqd)
        have h1 := lagOn_step_run (C := C) hs (hT i) _ ⟨q, hmem, hq⟩
        have h2 := utilOf_le_one (hT i) (hCT i)
        have hb : (t : ℚ) + ((w.exec (i, q) : ℚ) - service σ (i, q) t) ≤ w.release (i, q) + T i + C i + x ∨
            ((t : ℚ) ≤ w.release (i, q) + T i ∧ 0 ≤ x) := by
          rcases Nat.lt_or_ge (w.deadline T (i, q)) d with hlt | hge
          · left
            obtain ⟨z, hz⟩ := Int.eq_ofNat_of_zero_le (Int.floor_nonneg.2 hc.pos)
            have hcmp := ih (i, q) hlt (w.release (i, q) + T i + C i + z) (by simp only; push_cast; rw [hz])
            have hrem := remaining_le hv hr.1.2 hcmp
            have hsv := service_le_exec hv (i, q) t
            have h3 : (t : ℚ) + w.exec (i, q) ≤ w.release (i, q) + T i + C i + z + service σ (i, q) t := by
              have : t + w.exec (i, q) ≤ w.release (i, q) + T i + C i + z + service σ (i, q) t := by omega
              exact_mod_cast this
            have h4 : (z : ℚ) ≤ x := by
              have := Int.floor_le x
              rw [hz] at this
              exact_mod_cast this
            linarith
          · right
            refine ⟨?_, hc.pos⟩
            unfold Workload.deadline at hge
            simp only at hge
            have : t ≤ w.release (i, q) + T i := by omega
            exact_mod_cast this
        have h5 := lagOn_ready (P := T) (x := x) hs hv (hT i) (hCT i) hmem hr
          (add_nonneg hc.pos (by positivity)) hb
        rw [Nat.min_self, mul_add, utilOf_mul (hT i)] at h5
        linarith
      by_cases hsmall : ∃ a ∈ readyTasks w σ T d t, lagOn w σ C T T (daJobs w σ T N d a) a (t + 1) ≤ C a
      · obtain ⟨a, ha, hale⟩ := hsmall
        have h1 := hc.few _ hcard a ha
        rw [← add_sum_erase _ _ ha]
        rw [← add_sum_erase _ (fun i => (C i : ℚ)) ha] at h1
        have h2 : ∑ i ∈ (readyTasks w σ T d t).erase a, lagOn w σ C T T (daJobs w σ T N d i) i (t + 1) ≤
            ∑ i ∈ (readyTasks w σ T d t).erase a, ((C i : ℚ) + x * utilOf C T i) :=
          sum_le_sum (fun i hi => hone i (mem_of_mem_erase hi))
        rw [sum_add_distrib, ← mul_sum] at h2
        linarith
      · push Not at hsmall
        rcases (readyTasks w σ T d t).eq_empty_or_nonempty with hempty | hne
        · rw [hempty, sum_empty]
          exact hc.nonneg
        · have hup : ∀ i ∈ readyTasks w σ T d t, lagOn w σ C T T (daJobs w σ T N d i) i (t + 1) ≤
              lagOn w σ C T T (range N) i (t + 1) := by
            intro i hi
            obtain ⟨q, hq, hqd⟩ := mem_runTasks.1 (hsub hi)
            have hr := hv.ready _ _ hq
            have hrest : ∀ k ∈ range N \ daJobs w σ T N d i, service σ (i, k) (t + 1) = 0 := by
              intro k hk
              rw [mem_sdiff] at hk
              have hkd : d < w.deadline T (i, k) := by
                by_contra hle
                exact hk.2 (hdue i ((mem_dueJobs hs (hT i)).2 (by omega)))
              exact no_service hs hT hv hqd hkd (fun v hv1 hcm => hr.1.2 (hcm.mono (by omega)))
            unfold lagOn
            rw [← sum_sdiff (hrange i) (f := fun k => gelJob w C T T i k (t + 1)),
              ← sum_sdiff (hrange i) (f := fun k => service σ (i, k) (t + 1)), sum_eq_zero hrest, Nat.zero_add]
            have : 0 ≤ ∑ k ∈ range N \ daJobs w σ T N d i, gelJob w C T T i k (t + 1) :=
              sum_nonneg (fun k _ => gelJob_nonneg _ _ _)
            linarith
          refine (sum_le_sum hup).trans ?_
          exact lag_blocked hs hT hCT hv he hUm hdN hL hne htd
            (fun i hi => lt_of_lt_of_le (hsmall i hi) (hup i hi))

/-- The bound of Devi and Anderson. -/
theorem da_bound (hs : w.Sporadic C T) (hT : ∀ i, 0 < T i) (hCT : ∀ i, C i ≤ T i) (hm : 0 < m)
    (hv : ValidSchedule m w σ) (he : EDF m w T σ) (hKm : K ≤ m) (hU : ∑ i, utilOf C T i ≤ K)
    (hc : DaCompliant m K C T x B) : ∀ j : Job n, WithinGel w σ C T (fun _ => x) j := by
  classical
  suffices H : ∀ N d, d ≤ N → (∑ i ∈ lateTasks w σ T d, lagOn w σ C T T (range N) i d ≤ B ∧
      ∀ j : Job n, w.deadline T j = d → WithinGel w σ C T (fun _ => x) j) from
    fun j => (H _ _ le_rfl).2 j rfl
  intro N d
  induction d using Nat.strong_induction_on with
  | _ d ihd =>
  intro hdN
  have ih : ∀ j : Job n, w.deadline T j < d → WithinGel w σ C T (fun _ => x) j :=
    fun j hj => (ihd _ hj (by omega)).2 j rfl
  have hlag := da_lag_le hs hT hCT hv he hKm hU hc hdN ih (fun d' hd' => (ihd d' hd' (by omega)).1) d le_rfl
  have hexec : ∀ i q, w.deadline T (i, q) ≤ d → gelJob w C T T i q d = w.exec (i, q) := by
    intro i q hq
    apply gelJob_after (hT i)
    rw [vrel_self]
    exact hq
  refine ⟨?_, ?_⟩
  · refine le_trans ?_ hlag
    rw [← sum_filter_add_sum_filter_not univ (fun i => i ∈ lateTasks w σ T d),
      show univ.filter (fun i => i ∈ lateTasks w σ T d) = lateTasks w σ T d by ext; simp]
    have h1 : ∑ i ∈ lateTasks w σ T d, lagOn w σ C T T (daJobs w σ T N d i) i d =
        ∑ i ∈ lateTasks w σ T d, lagOn w σ C T T (range N) i d :=
      sum_congr rfl (fun i hi => by unfold daJobs; rw [if_pos hi])
    have h2 : 0 ≤ ∑ i ∈ univ.filter (fun i => i ∉ lateTasks w σ T d),
        lagOn w σ C T T (daJobs w σ T N d i) i d := by
      apply sum_nonneg
      intro i hi
      unfold daJobs
      rw [if_neg (mem_filter.1 hi).2]
      apply lagOn_nonneg
      intro q hq
      rw [hexec i q ((mem_dueJobs hs (hT i)).1 hq)]
      exact_mod_cast service_le_exec hv (i, q) d
    rw [h1]
    linarith
  · rintro ⟨i, k⟩ hjd
    have hleft : (workLeft w σ T d d : ℚ) ≤ B := by
      refine le_trans ?_ hlag
      unfold workLeft
      push_cast
      apply sum_le_sum
      intro i _
      unfold workDone lagOn
      have hS : dueJobs w T d i ⊆ daJobs w σ T N d i := by
        unfold daJobs
        split_ifs
        · exact due_subset hs hT hdN i
        · exact Subset.refl _
      have hrest : ∀ q ∈ daJobs w σ T N d i \ dueJobs w T d i, service σ (i, q) d = 0 := by
        intro q hq
        rw [mem_sdiff] at hq
        have hqd : d < w.deadline T (i, q) := by
          by_contra hle
          exact hq.2 ((mem_dueJobs hs (hT i)).2 (by omega))
        have hlate : i ∈ lateTasks w σ T d := by
          by_contra hn
          have h1 := hq.1
          unfold daJobs at h1
          rw [if_neg hn] at h1
          exact hq.2 h1
        obtain ⟨q0, h0, h0c⟩ := mem_lateTasks.1 hlate
        exact no_service hs hT hv h0 hqd (fun v hv1 hcm => h0c (hcm.mono hv1.le))
      rw [← sum_sdiff hS (f := fun q => gelJob w C T T i q d), ← sum_sdiff hS (f := fun q => service σ (i, q) d),
        sum_eq_zero hrest, Nat.zero_add,
        sum_congr (s₁ := dueJobs w T d i) rfl (fun q hq => hexec i q ((mem_dueJobs hs (hT i)).1 hq))]
      have : 0 ≤ ∑ q ∈ daJobs w σ T N d i \ dueJobs w T d i, gelJob w C T T i q d :=
        sum_nonneg (fun q _ => gelJob_nonneg _ _ _)
      linarith
    exact within_of_workLeft hs hT hCT hm hv he ih (hleft.trans (hc.bound i)) hjd

end Verif.Spec
