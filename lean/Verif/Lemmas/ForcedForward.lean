/-
The argument behind the FF-DBF test for global EDF: a deadline miss is preceded, for each
speed, by a window that ends at a deadline and in which the forced-forward demand exceeds
the bound.  The windows become longer with the speed.
-/
import Verif.Lemmas.Load
import Mathlib.Data.Nat.Find

namespace Verif.Spec
open Finset

variable {n m : ℕ} {C T D : Fin n → ℕ}

theorem njobs_le {T D x k : ℕ} (hT : 0 < T) : njobs T D x ≤ k ↔ x < k * T + D := by
  unfold njobs
  split_ifs with h
  · constructor
    · intro _
      omega
    · intro _
      omega
  · rw [Nat.succ_le_iff, Nat.div_lt_iff_lt_mul hT]
    omega

theorem njobs_mono {T D x y : ℕ} (hT : 0 < T) (h : x ≤ y) : njobs T D x ≤ njobs T D y := by
  rw [njobs_le hT]
  have := (njobs_le (D := D) (x := y) hT).1 le_rfl
  omega

/-- Forced-forward demand of a task in a window of length `x` at speed `s`: the jobs with
a deadline in the window and the part of the next job that is forced into it. -/
def ffDemand (C T D : ℕ) (s : ℚ) (x : ℕ) : ℚ :=
  njobs T D x * C + max 0 (C - (((njobs T D x * T + D : ℕ) : ℚ) - x) * s)

/-- A deadline miss under global EDF: for each speed the demand exceeds the bound at some
deadline, and a higher speed does not lead to an earlier one. -/
theorem ff_miss (hT : ∀ i, 0 < T i) (hD : ∀ i, 0 < D i) (hDT : ∀ i, D i ≤ T i) (hm : 0 < m)
    (hmiss : ¬ EdfSchedulable m C T D) :
    ∃ Q : ℚ → ℕ, (∀ s s', s ≤ s' → (∀ i, (C i : ℚ) ≤ s * D i) → 0 ≤ s → s' ≤ 1 → Q s ≤ Q s') ∧
      ∀ s, (∀ i, (C i : ℚ) ≤ s * D i) → 0 ≤ s → s ≤ 1 →
        (∃ i k, Q s = k * T i + D i) ∧
        (m - (m - 1) * s) * Q s < ∑ i, ffDemand (C i) (T i) (D i) s (Q s) := by
  classical
  unfold EdfSchedulable at hmiss
  push Not at hmiss
  obtain ⟨w, σ, hs, hv, he, hmiss⟩ := hmiss
  obtain ⟨⟨k, q⟩, hkq, hfirst⟩ := exists_first_miss hmiss
  set d := w.deadline D (k, q) with hd
  set r := w.release (k, q) with hr
  have hdr : d = r + D k := rfl
  have hDk := hD k
  have hmq : (1 : ℚ) ≤ m := by exact_mod_cast hm
  -- work
  let F : ℕ → ℕ := fun t => ∑ i, workDone w σ D d i t
  let E : ℕ := ∑ i, ∑ p ∈ dueJobs w D d i, w.exec (i, p)
  have hF : ∀ s l, ((∑ x, ((workDone w σ D d x (s + l) : ℤ) - workDone w σ D d x s)) : ℤ) = (F (s + l) : ℤ) - F s := by
    intro s l
    rw [sum_sub_distrib]
    simp only [F]
    push_cast
    rfl
  have hpred : ∀ i p, w.release (i, p) < d → ∀ l < p, Completed w σ (i, l) (w.release (i, p)) := by
    intro i p hp l hl
    have h1 := hs.separated i l
    have h2 := release_mono hs i (show l + 1 ≤ p from hl)
    have h3 := hDT i
    have h4 : w.deadline D (i, l) ≤ w.release (i, p) := by
      unfold Workload.deadline
      simp only
      omega
    exact (hfirst (i, l) (by omega)).mono h4
  -- the progress while a job is pending
  have hprog : ∀ i p t, w.deadline D (i, p) ≤ d → w.release (i, p) ≤ t → t ≤ d → ¬ Completed w σ (i, p) t →
      (m : ℚ) * (t - w.release (i, p) : ℕ) - (m - 1) * service σ (i, p) t ≤ F t - F (w.release (i, p)) := by
    intro i p t hdue hrt htd hinc
    have hrd : w.release (i, p) < d := by
      have := hD i
      unfold Workload.deadline at hdue
      simp only at hdue
      omega
    have h1 := progress_range (d := d) hs hv he hT hm (i := i) (s := w.release (i, p)) (l := t - w.release (i, p))
      (fun u hu1 hu2 => ⟨p, (mem_dueJobs hs (hT i)).2 hdue, ⟨hu1, fun hc => hinc (hc.mono (by omega))⟩,
        fun l hl => (hpred i p hrd l hl).mono hu1⟩)
    rw [hF, Nat.add_sub_cancel' hrt] at h1
    have h2 := workDone_job hs hv (hT i) hrt hdue hinc (hpred i p hrd)
    rw [h2] at h1
    push_cast at h1
    have h3 : ((m : ℤ) * (t - w.release (i, p) : ℕ) - (m - 1) * service σ (i, p) t : ℤ) ≤
        (F t : ℤ) - F (w.release (i, p)) := by
      have : (workDone w σ D d i (w.release (i, p)) : ℤ) + service σ (i, p) t -
        workDone w σ D d i (w.release (i, p)) = service σ (i, p) t := by ring
      rw [this] at h1
      exact h1
    exact_mod_cast h3
  have hFE : ∀ t, F t ≤ E := by
    intro t
    refine sum_le_sum (fun i _ => sum_le_sum (fun p _ => service_le_exec hv _ _))
  have hkmem : q ∈ dueJobs w D d k := (mem_dueJobs hs (hT k)).2 le_rfl
  -- the start of the window for a speed
  have hstart : ∀ s : ℚ, (∀ i, (C i : ℚ) ≤ s * D i) →
      ∃ t, t ≤ r ∧ (m - (m - 1) * s) * (d - t : ℕ) < (E : ℚ) - F t := by
    intro δ hδ
    refine ⟨r, le_rfl, ?_⟩
    have h1 := hprog k q d le_rfl (by omega) le_rfl hkq
    have h2 : service σ (k, q) d + 1 ≤ w.exec (k, q) := by
      unfold Completed at hkq
      omega
    have h3 : F d + 1 ≤ E := by
      refine Nat.succ_le_of_lt ?_
      refine sum_lt_sum (fun i _ => sum_le_sum (fun p _ => service_le_exec hv _ _)) ⟨k, mem_univ _, ?_⟩
      exact sum_lt_sum (fun p _ => service_le_exec hv _ _) ⟨q, hkmem, by omega⟩
    have h4 := hs.wcet k q
    have h5 : (service σ (k, q) d : ℚ) + 1 ≤ C k := by exact_mod_cast h2.trans h4
    have h6 : (F d : ℚ) + 1 ≤ E := by exact_mod_cast h3
    have h7 : ((d - r : ℕ) : ℚ) = D k := by
      congr 1
      omega
    rw [← hr] at h1
    rw [h7] at h1 ⊢
    have h8 := hδ k
    have h10 : ((m : ℚ) - 1) * service σ (k, q) d ≤ (m - 1) * (δ * D k) :=
      mul_le_mul_of_nonneg_left (by linarith) (by linarith)
    nlinarith
  let t0 : ℚ → ℕ := fun s => if h : ∃ t, t ≤ r ∧ (m - (m - 1) * s) * (d - t : ℕ) < (E : ℚ) - F t then Nat.find h else 0
  have ht0 : ∀ s : ℚ, (∀ i, (C i : ℚ) ≤ s * D i) →
      (t0 s ≤ r ∧ (m - (m - 1) * s) * (d - t0 s : ℕ) < (E : ℚ) - F (t0 s)) ∧
      ∀ t < t0 s, (E : ℚ) - F t ≤ (m - (m - 1) * s) * (d - t : ℕ) := by
    intro s hsp
    have hex := hstart s hsp
    have e : t0 s = Nat.find hex := dif_pos hex
    have hsp := Nat.find_spec hex
    rw [← e] at hsp
    refine ⟨hsp, fun t ht => ?_⟩
    by_contra hc
    refine Nat.find_min hex (by rw [← e]; exact ht) ⟨by omega, not_le.1 hc⟩
  let P : ℕ → Prop := fun x => ∃ i k, x = k * T i + D i
  refine ⟨fun s => Nat.findGreatest P (d - t0 s), ?_, ?_⟩
  · intro s s' hss hC hs0 hs1
    have hC' : ∀ i, (C i : ℚ) ≤ s' * D i := fun i =>
      (hC i).trans (mul_le_mul_of_nonneg_right hss (by positivity))
    have h1 := ht0 s hC
    have h2 := ht0 s' hC'
    have h3 : t0 s' ≤ t0 s := by
      by_contra hc
      have h4 := h2.2 (t0 s) (by omega)
      have h5 : ((m : ℚ) - (m - 1) * s') * (d - t0 s : ℕ) ≤ (m - (m - 1) * s) * (d - t0 s : ℕ) := by
        apply mul_le_mul_of_nonneg_right _ (by positivity)
        nlinarith
      linarith [h1.1.2]
    exact Nat.findGreatest_mono_right P (by omega)
  intro δ hδ hδ0 hδ1
  beta_reduce
  set ν : ℚ := m - (m - 1) * δ with hνd
  have hν : ν ≤ m - (m - 1) * δ := le_rfl
  have hν0 : 0 < ν := by nlinarith
  have hν1 : 1 ≤ ν := by nlinarith
  obtain ⟨⟨ht0r, ht0W⟩, hmin⟩ := ht0 δ hδ
  rw [← hνd] at ht0W hmin
  generalize t0 δ = t0 at ht0r ht0W hmin ⊢
  set L := d - t0 with hL
  have hLpos : 0 < L := by omega
  have hcarry : ∀ i p, w.deadline D (i, p) ≤ d → w.release (i, p) < t0 → ¬ Completed w σ (i, p) t0 →
      δ * (t0 - w.release (i, p) : ℕ) < service σ (i, p) t0 := by
    intro i p hdue hrel hinc
    have h1 := hprog i p t0 hdue hrel.le (by omega) hinc
    have h2 := hmin _ hrel
    have hφ : ((d - w.release (i, p) : ℕ) : ℚ) = (L : ℚ) + (t0 - w.release (i, p) : ℕ) := by
      rw [← Nat.cast_add]
      congr 1
      omega
    rw [hφ] at h2
    set φ : ℚ := ((t0 - w.release (i, p) : ℕ) : ℚ) with hφd
    have hφ0 : 0 ≤ φ := by positivity
    have h4 : ((m : ℚ) - 1) * (δ * φ) < (m - 1) * service σ (i, p) t0 := by nlinarith
    exact lt_of_mul_lt_mul_left h4 (by linarith)
  let S : Finset (Fin n) := univ.filter (fun i => ∃ p, w.deadline D (i, p) ≤ d ∧ w.release (i, p) < t0 ∧
    ¬ Completed w σ (i, p) t0)
  have hlt : (S.card : ℚ) < ν := by
    rcases Nat.eq_zero_or_pos t0 with h0 | h0
    · have : S = ∅ := by
        apply filter_eq_empty_iff.2
        rintro i _ ⟨p, _, h, _⟩
        omega
      rw [this]
      simpa using hν0
    · have h1 := hmin (t0 - 1) (by omega)
      have h2 : ((d - (t0 - 1) : ℕ) : ℚ) = (L : ℚ) + 1 := by
        have : d - (t0 - 1) = L + 1 := by omega
        rw [this]
        push_cast
        rfl
      rw [h2] at h1
      let X : Finset (Fin n) := univ.filter (fun i => ∃ p, (i, p) ∈ σ (t0 - 1) ∧ w.deadline D (i, p) ≤ d)
      have hX : F t0 = F (t0 - 1) + X.card := by
        have e : t0 = (t0 - 1) + 1 := by omega
        have h3 : F ((t0 - 1) + 1) = F (t0 - 1) + X.card := by
          simp only [F]
          rw [sum_congr rfl (fun i _ => workDone_succ hs hv (hT i) (t0 - 1)), sum_add_distrib]
          congr 1
          rw [card_filter]
        rwa [← e] at h3
      have hXν : (X.card : ℚ) < ν := by
        have : (F t0 : ℚ) = F (t0 - 1) + X.card := by exact_mod_cast hX
        nlinarith
      refine lt_of_le_of_lt ?_ hXν
      have hXm : X.card < m := by
        have h4 : 0 ≤ ((m : ℚ) - 1) * δ := mul_nonneg (by linarith) hδ0
        have : (X.card : ℚ) < m := by linarith
        exact_mod_cast this
      norm_cast
      refine card_le_card (fun i hi => ?_)
      obtain ⟨_, p, hp1, hp2, hp3⟩ := mem_filter.1 hi
      obtain ⟨p', hp', hready⟩ := exists_ready_le (t := t0 - 1) hs (by omega)
        (fun hc => hp3 (hc.mono (by omega)))
      have hdue' : w.deadline D (i, p') ≤ d := by
        have := release_mono hs i hp'
        simp only [Workload.deadline] at hp1 ⊢
        omega
      refine mem_filter.2 ⟨mem_univ _, p', ?_, hdue'⟩
      by_contra hnot
      obtain ⟨h4, h5⟩ := he (t0 - 1) (i, p') hready hnot
      have h6 : (σ (t0 - 1)).card ≤ X.card := by
        apply card_le_card_of_injOn (fun j => j.1)
        · intro j hj
          exact mem_filter.2 ⟨mem_univ _, j.2, hj, (h5 j hj).trans hdue'⟩
        · rintro ⟨a, x⟩ hj ⟨b, y⟩ hj' h
          simp only at h
          subst h
          rw [ready_unique (hv.ready (t0 - 1) _ hj) (hv.ready (t0 - 1) _ hj')]
      omega
  -- the last deadline in the window
  set Q := Nat.findGreatest P L with hQ
  have hDL : D k ≤ L := by omega
  have hPQ : P Q := Nat.findGreatest_spec (m := D k) hDL ⟨k, 0, by omega⟩
  refine ⟨hPQ, ?_⟩
  have hQL : Q ≤ L := Nat.findGreatest_le L
  have hnQ : ∀ i, njobs (T i) (D i) Q = njobs (T i) (D i) L := by
    intro i
    refine le_antisymm (njobs_mono (hT i) hQL) ?_
    by_contra hc
    push Not at hc
    have h1 : ¬ njobs (T i) (D i) L ≤ njobs (T i) (D i) Q := by omega
    rw [njobs_le (hT i)] at h1
    have h2 : njobs (T i) (D i) Q * T i + D i ≤ Q := Nat.le_findGreatest (by omega) ⟨i, _, rfl⟩
    have h3 := (njobs_le (D := D i) (x := Q) (hT i)).1 le_rfl
    omega
  -- the remaining work
  have htask : ∀ i, ((∑ p ∈ dueJobs w D d i, w.exec (i, p) : ℕ) : ℚ) - workDone w σ D d i t0 ≤
      ffDemand (C i) (T i) (D i) δ Q + if i ∈ S then δ * ((L : ℚ) - Q) else 0 := by
    intro i
    set N := (dueJobs w D d i).filter (fun p => t0 ≤ w.release (i, p)) with hN
    set O := (dueJobs w D d i).filter (fun p => ¬ t0 ≤ w.release (i, p)) with hO
    have hsplit : ((∑ p ∈ dueJobs w D d i, w.exec (i, p) : ℕ) : ℚ) - workDone w σ D d i t0 =
        ∑ p ∈ N, ((w.exec (i, p) : ℚ) - service σ (i, p) t0) + ∑ p ∈ O, ((w.exec (i, p) : ℚ) - service σ (i, p) t0) := by
      rw [hN, hO, sum_filter_add_sum_filter_not, sum_sub_distrib]
      unfold workDone
      push_cast
      rfl
    rw [hsplit]
    have hNsum : ∑ p ∈ N, ((w.exec (i, p) : ℚ) - service σ (i, p) t0) ≤ N.card * (C i : ℚ) := by
      rw [← nsmul_eq_mul]
      apply sum_le_card_nsmul
      intro p _
      have h2 : (w.exec (i, p) : ℚ) ≤ C i := by exact_mod_cast hs.wcet i p
      have h3 : (0 : ℚ) ≤ service σ (i, p) t0 := by positivity
      linarith
    have hNC : (0 : ℚ) ≤ C i := by positivity
    have hzero : ∀ p, Completed w σ (i, p) t0 → (w.exec (i, p) : ℚ) - service σ (i, p) t0 = 0 := by
      intro p hc
      have h1 := service_le_exec hv (i, p) t0
      have h2 : service σ (i, p) t0 = w.exec (i, p) := le_antisymm h1 hc
      rw [h2, sub_self]
    have hQLq : (Q : ℚ) ≤ L := by exact_mod_cast hQL
    by_cases hall : ∀ p ∈ O, Completed w σ (i, p) t0
    · rw [sum_eq_zero (s := O) (fun p hp => hzero p (hall p hp))]
      have hNc : N.card ≤ njobs (T i) (D i) L := by
        apply card_due_le hs (hT i) (a := t0)
        intro p hp
        obtain ⟨hp1, hp2⟩ := mem_filter.1 hp
        refine ⟨hp2, ?_⟩
        rw [show t0 + L = d by omega]
        exact (mem_dueJobs hs (hT i)).1 hp1
      have h1 : (N.card : ℚ) * C i ≤ njobs (T i) (D i) Q * C i := by
        rw [hnQ i]
        exact mul_le_mul_of_nonneg_right (by exact_mod_cast hNc) hNC
      have h2 : (0 : ℚ) ≤ if i ∈ S then δ * ((L : ℚ) - Q) else 0 := by
        split_ifs
        · exact mul_nonneg hδ0 (by linarith)
        · exact le_rfl
      unfold ffDemand
      have h3 := le_max_left (0 : ℚ) (C i - (((njobs (T i) (D i) Q * T i + D i : ℕ) : ℚ) - Q) * δ)
      linarith
    · push Not at hall
      obtain ⟨p, hp, hinc⟩ := hall
      obtain ⟨hp1, hp2⟩ := mem_filter.1 hp
      have hdue := (mem_dueJobs hs (hT i)).1 hp1
      rw [if_pos (mem_filter.2 ⟨mem_univ _, p, hdue, by omega, hinc⟩)]
      rw [sum_eq_single (s := O) p]
      · have hc := hcarry i p hdue (by omega) hinc
        set φ := t0 - w.release (i, p) with hφ
        have hφD : φ < D i := by
          by_contra hcon
          have hdl : w.deadline D (i, p) ≤ t0 := by
            simp only [Workload.deadline]
            omega
          exact hinc ((hfirst (i, p) (by omega)).mono hdl)
        have hpN : p ∉ N := by
          intro h
          exact hp2 (mem_filter.1 h).2
        have hcard : (insert p N).card ≤ njobs (T i) (D i) (L + φ) := by
          apply card_due_le hs (hT i) (a := w.release (i, p))
          intro p' hp'
          rw [show w.release (i, p) + (L + φ) = d by omega]
          rcases mem_insert.1 hp' with rfl | h
          · exact ⟨le_rfl, hdue⟩
          · obtain ⟨h1, h2⟩ := mem_filter.1 h
            exact ⟨by omega, (mem_dueJobs hs (hT i)).1 h1⟩
        rw [card_insert_of_notMem hpN] at hcard
        have hex : (w.exec (i, p) : ℚ) ≤ C i := by exact_mod_cast hs.wcet i p
        unfold ffDemand
        have hm1 := le_max_left (0 : ℚ) (C i - (((njobs (T i) (D i) Q * T i + D i : ℕ) : ℚ) - Q) * δ)
        have hm2 := le_max_right (0 : ℚ) (C i - (((njobs (T i) (D i) Q * T i + D i : ℕ) : ℚ) - Q) * δ)
        have hLQ : 0 ≤ δ * ((L : ℚ) - Q) := mul_nonneg hδ0 (by linarith)
        have hφ0 : 0 ≤ δ * (φ : ℚ) := by positivity
        rw [hnQ i] at hm1 hm2 ⊢
        have hb := (njobs_le (D := D i) (x := L) (hT i)).1 le_rfl
        by_cases hcase : N.card + 1 ≤ njobs (T i) (D i) L
        · have h1 : ((N.card : ℚ) + 1) * C i ≤ njobs (T i) (D i) L * C i :=
            mul_le_mul_of_nonneg_right (by exact_mod_cast hcase) hNC
          linarith
        · have h1 : ¬ njobs (T i) (D i) (L + φ) ≤ njobs (T i) (D i) L := by omega
          rw [njobs_le (hT i)] at h1
          have h2 : njobs (T i) (D i) (L + φ) ≤ njobs (T i) (D i) L + 1 := by
            rw [njobs_le (hT i)]
            have := hDT i
            rw [Nat.add_mul]
            omega
          have h3 : (N.card : ℚ) * C i ≤ njobs (T i) (D i) L * C i :=
            mul_le_mul_of_nonneg_right (by exact_mod_cast (by omega : N.card ≤ njobs (T i) (D i) L)) hNC
          have h4 : (((njobs (T i) (D i) L * T i + D i : ℕ) : ℚ) - L) * δ ≤ δ * φ := by
            rw [mul_comm]
            apply mul_le_mul_of_nonneg_left _ hδ0
            have : ((njobs (T i) (D i) L * T i + D i : ℕ) : ℚ) ≤ L + φ := by
              exact_mod_cast (by omega : njobs (T i) (D i) L * T i + D i ≤ L + φ)
            linarith
          linarith
      · intro p' hp' hne
        apply hzero
        by_contra hinc'
        obtain ⟨hp1', hp2'⟩ := mem_filter.1 hp'
        have hdue' := (mem_dueJobs hs (hT i)).1 hp1'
        -- the earlier of the two jobs has finished
        have key : ∀ a b, a < b → w.release (i, b) < t0 → Completed w σ (i, a) t0 := by
          intro a b hab hb
          exact (hpred i b (by omega) a hab).mono hb.le
        rcases Nat.lt_or_gt_of_ne hne with hlt | hlt
        · exact hinc' (key _ _ hlt (by omega))
        · exact hinc (key _ _ hlt (by omega))
      · intro hn
        exact absurd hp hn
  have hsum := sum_le_sum (fun i (_ : i ∈ univ) => htask i)
  rw [sum_add_distrib, sum_sub_distrib] at hsum
  have e1 : ∑ i, (if i ∈ S then δ * ((L : ℚ) - Q) else 0) = S.card * (δ * ((L : ℚ) - Q)) := by
    rw [← sum_filter, sum_const, nsmul_eq_mul]
    congr 3
    ext i
    simp
  rw [e1] at hsum
  have hEF : (E : ℚ) - F t0 ≤ ∑ i, ffDemand (C i) (T i) (D i) δ Q + S.card * (δ * ((L : ℚ) - Q)) := by
    simp only [E, F]
    push_cast at hsum ⊢
    exact hsum
  have hQLq : (0 : ℚ) ≤ L - Q := by
    have : (Q : ℚ) ≤ L := by exact_mod_cast hQL
    linarith
  have h1 : (S.card : ℚ) * δ ≤ ν := by
    have : (S.card : ℚ) * δ ≤ S.card * 1 := mul_le_mul_of_nonneg_left hδ1 (by positivity)
    linarith
  have h2 := mul_le_mul_of_nonneg_right h1 hQLq
  nlinarith

end Verif.Spec
