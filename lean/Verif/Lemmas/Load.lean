/-
The argument behind the load test for global EDF: a deadline miss is preceded by an
interval in which the demand exceeds a threshold, and in which few tasks have unfinished
work at the start.
-/
import Verif.Lemmas.Bar
import Verif.Lemmas.Gfb
import Mathlib.Data.Rat.Floor

namespace Verif.Spec
open Finset

variable {n m : ℕ} {C T D : Fin n → ℕ} {w : Workload n} {σ : Schedule n}

/-- A job that has not finished is the only one of its task that executed since its
release. -/
theorem workDone_job (hs : w.Sporadic C T) (hv : ValidSchedule m w σ) {i : Fin n} (hT : 0 < T i) {d p t : ℕ}
    (hrt : w.release (i, p) ≤ t) (hdue : w.deadline D (i, p) ≤ d) (hinc : ¬ Completed w σ (i, p) t)
    (hpred : ∀ l < p, Completed w σ (i, l) (w.release (i, p))) :
    workDone w σ D d i t = workDone w σ D d i (w.release (i, p)) + service σ (i, p) t := by
  classical
  have hmem : p ∈ dueJobs w D d i := (mem_dueJobs hs hT).2 hdue
  have h : ∀ l ∈ dueJobs w D d i, service σ (i, l) t =
      service σ (i, l) (w.release (i, p)) + if l = p then service σ (i, p) t else 0 := by
    intro l _
    rcases lt_trichotomy l p with hlt | heq | hgt
    · rw [if_neg (by omega), service_add σ _ hrt, serviceIn_eq_zero hv _ (hpred l hlt)]
    · subst heq
      rw [if_pos rfl, service_eq_zero hv _ le_rfl, zero_add]
    · rw [if_neg (by omega)]
      have h1 : service σ (i, l) t = 0 := by
        unfold service
        rw [card_eq_zero, filter_eq_empty_iff]
        intro s hs' hmem'
        rw [mem_range] at hs'
        exact hinc (((hv.ready s _ hmem').2 p hgt).mono hs'.le)
      have h2 := service_mono σ (i, l) hrt
      omega
  unfold workDone
  rw [sum_congr rfl h, sum_add_distrib]
  congr 1
  rw [sum_ite_eq', if_pos hmem]

/-- A deadline miss under global EDF: some window has a demand that exceeds `ν` times
its length, apart from fewer than `ν` tasks with work at the start. -/
theorem load_miss (hT : ∀ i, 0 < T i) (hD : ∀ i, 0 < D i) (hDT : ∀ i, D i ≤ T i) (hm : 0 < m)
    {δ ν : ℚ} (hδ : ∀ i, (C i : ℚ) ≤ δ * D i) (hδ0 : 0 ≤ δ) (hν0 : 0 < ν) (hν : ν ≤ m - (m - 1) * δ)
    (hmiss : ¬ EdfSchedulable m C T D) :
    ∃ L : ℕ, 0 < L ∧ ν * L < ((∑ i, njobs (T i) (D i) L * C i : ℕ) : ℚ) + ((⌈ν⌉ : ℤ) - 1) * (δ * L) := by
  classical
  unfold EdfSchedulable at hmiss
  push Not at hmiss
  obtain ⟨w, σ, hs, hv, he, hmiss⟩ := hmiss
  obtain ⟨⟨k, q⟩, hkq, hfirst⟩ := exists_first_miss hmiss
  set d := w.deadline D (k, q) with hd
  set r := w.release (k, q) with hr
  have hdr : d = r + D k := rfl
  have hDk := hD k
  have hmq : (1 : ℚ) ≤ m := by exact_mod_cast hm
  -- work
  let F : ℕ → ℕ := fun t => ∑ i, workDone w σ D d i t
  let E : ℕ := ∑ i, ∑ p ∈ dueJobs w D d i, w.exec (i, p)
  have hF : ∀ s l, ((∑ x, ((workDone w σ D d x (s + l) : ℤ) - workDone w σ D d x s)) : ℤ) = (F (s + l) : ℤ) - F s := by
    intro s l
    rw [sum_sub_distrib]
    simp only [F]
    push_cast
    rfl
  have hpred : ∀ i p, w.release (i, p) < d → ∀ l < p, Completed w σ (i, l) (w.release (i, p)) := by
    intro i p hp l hl
    have h1 := hs.separated i l
    have h2 := release_mono hs i (show l + 1 ≤ p from hl)
    have h3 := hDT i
    have h4 : w.deadline D (i, l) ≤ w.release (i, p) := by
      unfold Workload.deadline
      simp only
      omega
    exact (hfirst (i, l) (by omega)).mono h4
  -- the progress while a job is pending
  have hprog : ∀ i p t, w.deadline D (i, p) ≤ d → w.release (i, p) ≤ t → t ≤ d → ¬ Completed w σ (i, p) t →
      (m : ℚ) * (t - w.release (i, p) : ℕ) - (m - 1) * service σ (i, p) t ≤ F t - F (w.release (i, p)) := by
    intro i p t hdue hrt htd hinc
    have hrd : w.release (i, p) < d := by
      have := hD i
      unfold Workload.deadline at hdue
      simp only at hdue
      omega
    have h1 := progress_range (d := d) hs hv he hT hm (i := i) (s := w.release (i, p)) (l := t - w.release (i, p))
      (fun u hu1 hu2 => ⟨p, (mem_dueJobs hs (hT i)).2 hdue, ⟨hu1, fun hc => hinc (hc.mono (by omega))⟩,
        fun l hl => (hpred i p hrd l hl).mono hu1⟩)
    rw [hF, Nat.add_sub_cancel' hrt] at h1
    have h2 := workDone_job hs hv (hT i) hrt hdue hinc (hpred i p hrd)
    rw [h2] at h1
    push_cast at h1
    have h3 : ((m : ℤ) * (t - w.release (i, p) : ℕ) - (m - 1) * service σ (i, p) t : ℤ) ≤
        (F t : ℤ) - F (w.release (i, p)) := by
      have : (workDone w σ D d i (w.release (i, p)) : ℤ) + service σ (i, p) t -
        workDone w σ D d i (w.release (i, p)) = service σ (i, p) t := by ring
      rw [this] at h1
      exact h1
    exact_mod_cast h3
  have hFE : ∀ t, F t ≤ E := by
    intro t
    refine sum_le_sum (fun i _ => sum_le_sum (fun p _ => service_le_exec hv _ _))
  have hkmem : q ∈ dueJobs w D d k := (mem_dueJobs hs (hT k)).2 le_rfl
  -- the start of the window
  have hk1 : ν * (d - r : ℕ) < (E : ℚ) - F r := by
    have h1 := hprog k q d le_rfl (by omega) le_rfl hkq
    have h2 : service σ (k, q) d + 1 ≤ w.exec (k, q) := by
      unfold Completed at hkq
      omega
    have h3 : F d + 1 ≤ E := by
      refine Nat.succ_le_of_lt ?_
      refine sum_lt_sum (fun i _ => sum_le_sum (fun p _ => service_le_exec hv _ _)) ⟨k, mem_univ _, ?_⟩
      exact sum_lt_sum (fun p _ => service_le_exec hv _ _) ⟨q, hkmem, by omega⟩
    have h4 := hs.wcet k q
    have h5 : (service σ (k, q) d : ℚ) + 1 ≤ C k := by exact_mod_cast h2.trans h4
    have h6 : (F d : ℚ) + 1 ≤ E := by exact_mod_cast h3
    have h7 : ((d - r : ℕ) : ℚ) = D k := by
      congr 1
      omega
    rw [← hr] at h1
    rw [h7] at h1 ⊢
    have h8 := hδ k
    have h9 : ν * (D k : ℚ) ≤ (m - (m - 1) * δ) * D k := mul_le_mul_of_nonneg_right hν (by positivity)
    have h10 : ((m : ℚ) - 1) * service σ (k, q) d ≤ (m - 1) * (δ * D k) :=
      mul_le_mul_of_nonneg_left (by linarith) (by linarith)
    nlinarith
  have hex : ∃ t, t ≤ r ∧ ν * (d - t : ℕ) < (E : ℚ) - F t := ⟨r, le_rfl, hk1⟩
  set t0 := Nat.find hex with ht0
  obtain ⟨ht0r, ht0W⟩ := Nat.find_spec hex
  rw [← ht0] at ht0r ht0W
  have hmin : ∀ t < t0, (E : ℚ) - F t ≤ ν * (d - t : ℕ) := by
    intro t ht
    by_contra hc
    exact Nat.find_min hex ht ⟨by omega, not_le.1 hc⟩
  set L := d - t0 with hL
  have hLpos : 0 < L := by omega
  refine ⟨L, hLpos, ?_⟩
  -- work at the start
  have hcarry : ∀ i p, w.deadline D (i, p) ≤ d → w.release (i, p) < t0 → ¬ Completed w σ (i, p) t0 →
      (w.exec (i, p) : ℚ) - service σ (i, p) t0 ≤ δ * L := by
    intro i p hdue hrel hinc
    have h1 := hprog i p t0 hdue hrel.le (by omega) hinc
    have h2 := hmin _ hrel
    have hφ : ((d - w.release (i, p) : ℕ) : ℚ) = (L : ℚ) + (t0 - w.release (i, p) : ℕ) := by
      rw [← Nat.cast_add]
      congr 1
      omega
    rw [hφ] at h2
    set φ : ℚ := ((t0 - w.release (i, p) : ℕ) : ℚ) with hφd
    have hφ0 : 0 ≤ φ := by positivity
    have h3 : ν * φ ≤ (m - (m - 1) * δ) * φ := mul_le_mul_of_nonneg_right hν hφ0
    have h4 : ((m : ℚ) - 1) * (δ * φ) < (m - 1) * service σ (i, p) t0 := by nlinarith
    have h5 : δ * φ < service σ (i, p) t0 := lt_of_mul_lt_mul_left h4 (by linarith)
    have h6 : (w.exec (i, p) : ℚ) ≤ C i := by exact_mod_cast hs.wcet i p
    have h7 := hδ i
    have h8 : (D i : ℚ) ≤ L + φ := by
      have : D i ≤ L + (t0 - w.release (i, p)) := by
        unfold Workload.deadline at hdue
        simp only at hdue
        omega
      rw [hφd]
      exact_mod_cast this
    have h9 : δ * D i ≤ δ * (L + φ) := mul_le_mul_of_nonneg_left h8 hδ0
    linarith
  let S : Finset (Fin n) := univ.filter (fun i => ∃ p, w.deadline D (i, p) ≤ d ∧ w.release (i, p) < t0 ∧
    ¬ Completed w σ (i, p) t0)
  have hScard : (S.card : ℚ) ≤ (⌈ν⌉ : ℤ) - 1 := by
    have hlt : (S.card : ℚ) < ν := by
      rcases Nat.eq_zero_or_pos t0 with h0 | h0
      · have : S = ∅ := by
          apply filter_eq_empty_iff.2
          rintro i _ ⟨p, _, h, _⟩
          omega
        rw [this]
        simpa using hν0
      · have h1 := hmin (t0 - 1) (by omega)
        have h2 : ((d - (t0 - 1) : ℕ) : ℚ) = (L : ℚ) + 1 := by
          have : d - (t0 - 1) = L + 1 := by omega
          rw [this]
          push_cast
          rfl
        rw [h2] at h1
        let X : Finset (Fin n) := univ.filter (fun i => ∃ p, (i, p) ∈ σ (t0 - 1) ∧ w.deadline D (i, p) ≤ d)
        have hX : F t0 = F (t0 - 1) + X.card := by
          have e : t0 = (t0 - 1) + 1 := by omega
          have h3 : F ((t0 - 1) + 1) = F (t0 - 1) + X.card := by
            simp only [F]
            rw [sum_congr rfl (fun i _ => workDone_succ hs hv (hT i) (t0 - 1)), sum_add_distrib]
            congr 1
            rw [card_filter]
          rwa [← e] at h3
        have hXν : (X.card : ℚ) < ν := by
          have : (F t0 : ℚ) = F (t0 - 1) + X.card := by exact_mod_cast hX
          nlinarith
        refine lt_of_le_of_lt ?_ hXν
        have hXm : X.card < m := by
          have h4 : 0 ≤ ((m : ℚ) - 1) * δ := mul_nonneg (by linarith) hδ0
          have : (X.card : ℚ) < m := by linarith
          exact_mod_cast this
        norm_cast
        refine card_le_card (fun i hi => ?_)
        obtain ⟨_, p, hp1, hp2, hp3⟩ := mem_filter.1 hi
        obtain ⟨p', hp', hready⟩ := exists_ready_le (t := t0 - 1) hs (by omega)
          (fun hc => hp3 (hc.mono (by omega)))
        have hdue' : w.deadline D (i, p') ≤ d := by
          have := release_mono hs i hp'
          simp only [Workload.deadline] at hp1 ⊢
          omega
        refine mem_filter.2 ⟨mem_univ _, p', ?_, hdue'⟩
        by_contra hnot
        obtain ⟨h4, h5⟩ := he (t0 - 1) (i, p') hready hnot
        have h6 : (σ (t0 - 1)).card ≤ X.card := by
          apply card_le_card_of_injOn (fun j => j.1)
          · intro j hj
            exact mem_filter.2 ⟨mem_univ _, j.2, hj, (h5 j hj).trans hdue'⟩
          · rintro ⟨a, x⟩ hj ⟨b, y⟩ hj' h
            simp only at h
            subst h
            rw [ready_unique (hv.ready (t0 - 1) _ hj) (hv.ready (t0 - 1) _ hj')]
        omega
    have h1 : ((S.card : ℤ) : ℚ) < ν := by exact_mod_cast hlt
    have h2 : (S.card : ℤ) < ⌈ν⌉ := Int.lt_ceil.2 h1
    have h3 : (S.card : ℤ) ≤ ⌈ν⌉ - 1 := by omega
    exact_mod_cast h3
  -- the remaining work
  have hrem : (E : ℚ) - F t0 ≤ ((∑ i, njobs (T i) (D i) L * C i : ℕ) : ℚ) + S.card * (δ * L) := by
    have htask : ∀ i, ((∑ p ∈ dueJobs w D d i, w.exec (i, p) : ℕ) : ℚ) - workDone w σ D d i t0 ≤
        ((njobs (T i) (D i) L * C i : ℕ) : ℚ) + if i ∈ S then δ * L else 0 := by
      intro i
      set N := (dueJobs w D d i).filter (fun p => t0 ≤ w.release (i, p)) with hN
      set O := (dueJobs w D d i).filter (fun p => ¬ t0 ≤ w.release (i, p)) with hO
      have hsplit : ((∑ p ∈ dueJobs w D d i, w.exec (i, p) : ℕ) : ℚ) - workDone w σ D d i t0 =
          ∑ p ∈ N, ((w.exec (i, p) : ℚ) - service σ (i, p) t0) + ∑ p ∈ O, ((w.exec (i, p) : ℚ) - service σ (i, p) t0) := by
        rw [hN, hO, sum_filter_add_sum_filter_not, sum_sub_distrib]
        unfold workDone
        push_cast
        rfl
      rw [hsplit]
      have hNc : N.card ≤ njobs (T i) (D i) L := by
        apply card_due_le hs (hT i) (a := t0)
        intro p hp
        obtain ⟨hp1, hp2⟩ := mem_filter.1 hp
        refine ⟨hp2, ?_⟩
        rw [show t0 + L = d by omega]
        exact (mem_dueJobs hs (hT i)).1 hp1
      have hNsum : ∑ p ∈ N, ((w.exec (i, p) : ℚ) - service σ (i, p) t0) ≤ ((njobs (T i) (D i) L * C i : ℕ) : ℚ) := by
        have h1 : ∑ p ∈ N, ((w.exec (i, p) : ℚ) - service σ (i, p) t0) ≤ N.card • (C i : ℚ) := by
          apply sum_le_card_nsmul
          intro p _
          have h2 : (w.exec (i, p) : ℚ) ≤ C i := by exact_mod_cast hs.wcet i p
          have h3 : (0 : ℚ) ≤ service σ (i, p) t0 := by positivity
          linarith
        refine h1.trans ?_
        rw [nsmul_eq_mul]
        exact_mod_cast Nat.mul_le_mul_right _ hNc
      have hδL : 0 ≤ δ * L := by positivity
      have hOsum : ∑ p ∈ O, ((w.exec (i, p) : ℚ) - service σ (i, p) t0) ≤ if i ∈ S then δ * L else 0 := by
        have hzero : ∀ p, Completed w σ (i, p) t0 → (w.exec (i, p) : ℚ) - service σ (i, p) t0 = 0 := by
          intro p hc
          have h1 := service_le_exec hv (i, p) t0
          have h2 : service σ (i, p) t0 = w.exec (i, p) := le_antisymm h1 hc
          rw [h2, sub_self]
        by_cases hall : ∀ p ∈ O, Completed w σ (i, p) t0
        · rw [sum_eq_zero (fun p hp => hzero p (hall p hp))]
          split_ifs
          · exact hδL
          · exact le_rfl
        · push Not at hall
          obtain ⟨p, hp, hinc⟩ := hall
          obtain ⟨hp1, hp2⟩ := mem_filter.1 hp
          have hdue := (mem_dueJobs hs (hT i)).1 hp1
          rw [if_pos (mem_filter.2 ⟨mem_univ _, p, hdue, by omega, hinc⟩)]
          rw [sum_eq_single p]
          · exact hcarry i p hdue (by omega) hinc
          · intro p' hp' hne
            apply hzero
            by_contra hinc'
            obtain ⟨hp1', hp2'⟩ := mem_filter.1 hp'
            have hdue' := (mem_dueJobs hs (hT i)).1 hp1'
            -- the earlier of the two jobs has finished
            have key : ∀ a b, a < b → w.release (i, b) < t0 → Completed w σ (i, a) t0 := by
              intro a b hab hb
              exact (hpred i b (by omega) a hab).mono hb.le
            rcases Nat.lt_or_gt_of_ne hne with hlt | hlt
            · exact hinc' (key _ _ hlt (by omega))
            · exact hinc (key _ _ hlt (by omega))
          · intro hn
            exact absurd hp hn
      linarith
    have hsum := sum_le_sum (fun i (_ : i ∈ univ) => htask i)
    rw [sum_add_distrib, sum_sub_distrib] at hsum
    have e1 : ∑ i, (if i ∈ S then δ * (L : ℚ) else 0) = S.card * (δ * L) := by
      rw [← sum_filter, sum_const, nsmul_eq_mul]
      congr 3
      ext i
      simp
    rw [e1] at hsum
    simp only [E, F]
    push_cast at hsum ⊢
    exact hsum
  have hδL : 0 ≤ δ * L := by positivity
  have := mul_le_mul_of_nonneg_right hScard hδL
  linarith

end Verif.Spec
