import Verif.Lemmas.EdfUni

/-! Busy windows of uniprocessor EDF: a job finishes by the first instant at which
the work that has arrived in its window is done. -/

namespace Verif.Spec
open Finset

variable {n : ℕ} {w : Workload n} {σ : Schedule n} {C T D : Fin n → ℕ}

/-- Work of jobs that are released in a window of length `g`, open on the right,
with deadlines at most `d` after its start. -/
def mixedDemand (C T D : Fin n → ℕ) (d g : ℕ) : ℕ :=
  ∑ i, min (if d < D i then 0 else (d - D i) / T i + 1) (if g = 0 then 0 else (g - 1) / T i + 1) * C i

theorem sum_exec_le_mixed (hs : w.Sporadic C T) (hT : ∀ i, 0 < T i) (S : Finset (Job n)) {a b f : ℕ}
    (hS : ∀ j ∈ S, a ≤ w.release j ∧ w.deadline D j ≤ b ∧ w.release j < f) :
    ∑ j ∈ S, w.exec j ≤ mixedDemand C T D (b - a) (f - a) := by
  classical
  have h1 : ∑ j ∈ S, w.exec j ≤ ∑ j ∈ S, C j.1 := sum_le_sum (fun j _ => hs.wcet j.1 j.2)
  refine h1.trans ?_
  have h2 : ∑ j ∈ S, C j.1 = ∑ i, ∑ j ∈ S.filter (fun j => j.1 = i), C j.1 :=
    (sum_fiberwise S (fun j => j.1) (fun j => C j.1)).symm
  rw [h2]
  unfold mixedDemand
  apply sum_le_sum
  intro i _
  have h3 : ∑ j ∈ S.filter (fun j => j.1 = i), C j.1 = (S.filter (fun j => j.1 = i)).card * C i := by
    rw [← smul_eq_mul, ← sum_const]
    apply sum_congr rfl
    intro j hj; rw [(mem_filter.1 hj).2]
  rw [h3]
  apply Nat.mul_le_mul_right
  have hcard : (S.filter (fun j => j.1 = i)).card
      = ((S.filter (fun j => j.1 = i)).image Prod.snd).card := by
    rw [card_image_of_injOn]
    rintro ⟨x, y⟩ hx ⟨x', y'⟩ hx' he
    simp only [coe_filter, Set.mem_setOf_eq] at hx hx' he
    rw [hx.2, hx'.2, he]
  rw [hcard]
  have hmem : ∀ k ∈ (S.filter (fun j => j.1 = i)).image Prod.snd,
      a ≤ w.release (i, k) ∧ w.release (i, k) + D i ≤ b ∧ w.release (i, k) < f := by
    intro k hk
    obtain ⟨⟨x, y⟩, hj, rfl⟩ := mem_image.1 hk
    obtain ⟨hj1, hj2⟩ := mem_filter.1 hj
    simp only at hj2
    subst hj2
    exact hS _ hj1
  rcases ((S.filter (fun j => j.1 = i)).image Prod.snd).eq_empty_or_nonempty with h0 | ⟨k0, hk0⟩
  · rw [h0]; simp
  have hk := hmem k0 hk0
  apply le_min
  · rw [if_neg (by omega)]
    have := card_released_le hs i (hT i) _ (a := a) (b := b - D i)
      (fun k hk => by have := hmem k hk; omega) (by omega)
    have e : b - D i - a = b - a - D i := by omega
    rwa [e] at this
  · rw [if_neg (by omega)]
    have := card_released_le hs i (hT i) _ (a := a) (b := f - 1)
      (fun k hk => by have := hmem k hk; omega) (by omega)
    have e : f - 1 - a = f - a - 1 := by omega
    rwa [e] at this

/-- Every job has a window that starts no later than its release, such that it is
released and finished before the arrived work of the window can be done. -/
theorem uni_busy (hs : w.Sporadic C T) (hT : ∀ i, 0 < T i) (hv : ValidSchedule 1 w σ) (hedf : EDF 1 w D σ)
    (j : Job n) :
    ∃ t0 ≤ w.release j, ∀ g, 0 < g → mixedDemand C T D (w.deadline D j - t0) g ≤ g →
      w.release j < t0 + g ∧ Completed w σ j (t0 + g) := by
  classical
  set td := w.deadline D j with htd
  let P : ℕ → Prop := fun s => ∀ j' : Job n, w.deadline D j' ≤ td → w.release j' < s → Completed w σ j' s
  have hP0 : P 0 := fun j' _ h => absurd h (Nat.not_lt_zero _)
  set t0 := Nat.findGreatest P (w.release j) with ht0
  have hPt0 : P t0 := Nat.findGreatest_spec (Nat.zero_le _) hP0
  have ht0le : t0 ≤ w.release j := Nat.findGreatest_le _
  refine ⟨t0, ht0le, fun g hg hM => ?_⟩
  set f := t0 + g with hf
  by_contra hcon
  -- `j` is late, or not yet released
  have hlate : f ≤ w.release j ∨ ¬ Completed w σ j f := by
    by_contra hc
    push Not at hc
    exact hcon ⟨by omega, hc.2⟩
  have hpend : ∀ s, t0 ≤ s → s < f → ∃ j', w.deadline D j' ≤ td ∧ Pending w σ j' s := by
    intro s hs1 hs2
    by_cases hsj : w.release j ≤ s
    · rcases hlate with h | h
      · omega
      · exact ⟨j, le_rfl, hsj, fun hc => h (hc.mono hs2.le)⟩
    · by_contra hno
      push Not at hno
      have hP : P (s + 1) := by
        intro j' hd hr
        have := hno j' hd
        unfold Pending at this
        push Not at this
        exact (this (by omega)).mono (by omega)
      have := Nat.le_findGreatest (P := P) (show s + 1 ≤ w.release j by omega) hP
      omega
  have hfin := sporadic_finite hs hT f
  set S := hfin.toFinset.filter (fun j' => t0 ≤ w.release j' ∧ w.deadline D j' ≤ td ∧ w.release j' < f) with hS
  have hmemS : ∀ j', t0 ≤ w.release j' → w.deadline D j' ≤ td → w.release j' < f → j' ∈ S := by
    intro j' h1 h2 h3
    rw [hS, mem_filter, Set.Finite.mem_toFinset]
    exact ⟨h3.le, h1, h2, h3⟩
  have hslot : ∀ s ∈ Ico t0 f, 1 ≤ (σ s ∩ S).card := by
    intro s hs'
    rw [mem_Ico] at hs'
    obtain ⟨⟨i, k⟩, hd, hp⟩ := hpend s hs'.1 hs'.2
    obtain ⟨k', _, hr, hrel⟩ := exists_ready hs hp
    have hd' : w.deadline D (i, k') ≤ td := by
      unfold Workload.deadline at hd ⊢; simp only at hd ⊢; omega
    have hex : ∃ x ∈ σ s, w.deadline D x ≤ td := by
      by_cases hin : (i, k') ∈ σ s
      · exact ⟨_, hin, hd'⟩
      · obtain ⟨hc, hall⟩ := hedf s _ hr hin
        obtain ⟨x, hx⟩ := card_pos.1 (show 0 < (σ s).card by omega)
        exact ⟨x, hx, (hall x hx).trans hd'⟩
    obtain ⟨x, hx, hxd⟩ := hex
    have hxr := hv.ready s x hx
    rw [Nat.one_le_iff_ne_zero, ← Nat.pos_iff_ne_zero, card_pos]
    refine ⟨x, mem_inter.2 ⟨hx, hmemS x ?_ hxd (lt_of_le_of_lt hxr.1.1 hs'.2)⟩⟩
    by_contra hlt
    have hcomp := (hPt0 x hxd (by omega)).mono hs'.1
    exact hxr.1.2 hcomp
  have hsum : f - t0 ≤ ∑ s ∈ Ico t0 f, (σ s ∩ S).card := by
    calc f - t0 = ∑ _s ∈ Ico t0 f, 1 := by simp
      _ ≤ _ := sum_le_sum hslot
  rw [sum_card_eq_sum_service] at hsum
  have hle := sum_exec_le_mixed (D := D) hs hT S (a := t0) (b := td) (f := f)
    (fun j' hj' => (mem_filter.1 hj').2)
  have hfg : f - t0 = g := by omega
  rw [hfg] at hle hsum
  -- all of it is done
  have hall : ∀ x ∈ S, Completed w σ x f := by
    intro x hx
    by_contra hnc
    have hlt : ∑ j' ∈ S, serviceIn σ j' t0 f < ∑ j' ∈ S, w.exec j' := by
      apply sum_lt_sum (fun j' _ => serviceIn_le_exec hv j' t0 f)
      refine ⟨x, hx, ?_⟩
      have := service_add σ x (show t0 ≤ f by omega)
      unfold Completed at hnc
      omega
    omega
  rcases hlate with h | h
  · have hPf : P f := by
      intro x hd hr
      by_cases hx : t0 ≤ w.release x
      · exact hall x (hmemS x hx hd hr)
      · exact (hPt0 x hd (by omega)).mono (by omega)
    have := Nat.le_findGreatest (P := P) h hPf
    omega
  · by_cases hr : w.release j < f
    · exact h (hall j (hmemS j ht0le le_rfl hr))
    · have hPf : P f := by
        intro x hd hr
        by_cases hx : t0 ≤ w.release x
        · exact hall x (hmemS x hx hd hr)
        · exact (hPt0 x hd (by omega)).mono (by omega)
      have := Nat.le_findGreatest (P := P) (show f ≤ w.release j by omega) hPf
      omega

theorem mixedDemand_le_demand (hT : ∀ i, 0 < T i) (d g : ℕ) : mixedDemand C T D d g ≤ demand C T D d := by
  unfold mixedDemand demand
  apply sum_le_sum
  intro i _
  rw [card_periodic _ _ _ (hT i)]
  exact Nat.mul_le_mul_right _ (min_le_left _ _)

end Verif.Spec
