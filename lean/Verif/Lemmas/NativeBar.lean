/-
The native tests of Baruah and of Liu and Anderson for global EDF reject every task set
with a deadline miss (constrained deadlines, no self-suspensions).
-/
import Verif.Lemmas.NativePoints
import Verif.Lemmas.NativeGedf

namespace Verif.Native
open Verif.Spec Finset

section
variable {n m : ℕ} {C T D : Fin n → ℕ}

theorem fresh_le_carry (hT : ∀ i, 0 < T i) (hDT : ∀ i, D i ≤ T i) (hCD : ∀ i, C i ≤ D i) (k : Fin n) (A : ℕ) (i : Fin n) :
    freshWork C T D k A i ≤ carryWork C T D k A i := by
  have hCT : C i ≤ T i := (hCD i).trans (hDT i)
  have hng : njobs (T i) (D i) (A + D k) * C i ≤ gwork (C i) (T i) (A + D k) := by
    unfold njobs
    split_ifs with hlt
    · simp
    · have e : D i + (A + D k - D i) / T i * T i ≤ A + D k := by
        have := Nat.div_mul_le_self (A + D k - D i) (T i)
        omega
      refine le_trans ?_ (gwork_mono (hT i) hCT e)
      generalize (A + D k - D i) / T i = a
      induction a with
      | zero => simpa using GEdf.le_gwork (hT i) hCT (hCD i)
      | succ a ih =>
        rw [show D i + (a + 1) * T i = D i + a * T i + T i by ring, gwork_add _ (hT i)]
        rw [Nat.add_mul (a + 1) 1]
        omega
  unfold freshWork carryWork
  split_ifs with hik
  · subst hik
    have : (njobs (T i) (D i) (A + D i) - 1) * C i ≤ gwork (C i) (T i) (A + D i) - C i := by
      rw [Nat.sub_mul]; omega
    exact min_le_min_right _ this
  · exact min_le_min_right _ hng

theorem gwork_le {c t L : ℕ} (hT : 0 < t) : ((gwork c t L : ℕ) : ℚ) ≤ (c : ℚ) / t * L + c := by
  have hTq : (0 : ℚ) < t := by exact_mod_cast hT
  unfold gwork
  have h1 : ((L / t : ℕ) : ℚ) ≤ (L : ℚ) / t := Nat.cast_div_le
  have h2 : ((min c (L % t) : ℕ) : ℚ) ≤ c := by exact_mod_cast Nat.min_le_left _ _
  have h3 : ((L / t : ℕ) : ℚ) * c ≤ (L : ℚ) / t * c := mul_le_mul_of_nonneg_right h1 (by positivity)
  have e : (c : ℚ) / t * L = (L : ℚ) / t * c := by ring
  rw [e]
  push_cast at h2 ⊢
  linarith

/-- A deadline miss violates the condition at a point within the bounds of both tests. -/
theorem miss_within (hT : ∀ i, 0 < T i) (hD : ∀ i, 0 < D i) (hDT : ∀ i, D i ≤ T i)
    (hCD : ∀ i, C i ≤ D i) (hm : 0 < m) (hmiss : ¬ EdfSchedulable m C T D) :
    ∃ (k : Fin n) (A : ℕ) (S : Finset (Fin n)), S.card + 1 ≤ m ∧ (∃ i j, A + D k = D i + j * T i) ∧
      m * (A + D k - C k + 1) ≤ ∑ i ∈ S, carryWork C T D k A i + ∑ i ∈ Sᶜ, freshWork C T D k A i ∧
      (A : ℚ) * (m - ∑ i, (C i : ℚ) / T i) ≤ ∑ i ∈ S, (C i : ℚ) - D k * (m - ∑ i, (C i : ℚ) / T i) +
        ∑ i, ((T i : ℚ) - D i) * ((C i : ℚ) / T i) + C k * m ∧
      ((A : ℚ) + D k) * (m - ∑ i, (C i : ℚ) / T i) ≤ m * C k + ∑ i, (C i : ℚ) := by
  obtain ⟨k, A, S, hS, hpt, hviol⟩ := bar_miss hT hD hDT hCD hm hmiss
  refine ⟨k, A, S, hS, hpt, hviol, ?_⟩
  have hCL : C k ≤ A + D k := by have := hCD k; omega
  have hmq : (1 : ℚ) ≤ m := by exact_mod_cast hm
  have hviolq : (m : ℚ) * (A + D k - C k + 1) ≤
      ∑ i ∈ S, (carryWork C T D k A i : ℚ) + ∑ i ∈ Sᶜ, (freshWork C T D k A i : ℚ) := by
    have h2 : ((m * (A + D k - C k + 1) : ℕ) : ℚ) ≤
      ((∑ i ∈ S, carryWork C T D k A i + ∑ i ∈ Sᶜ, freshWork C T D k A i : ℕ) : ℚ) := by exact_mod_cast hviol
    push_cast at h2
    rw [Nat.cast_sub hCL] at h2
    push_cast at h2
    exact h2
  set L := A + D k with hL
  have hLq : (L : ℚ) = A + D k := by rw [hL]; push_cast; rfl
  have hcg : ∀ i, carryWork C T D k A i ≤ gwork (C i) (T i) L := by
    intro i
    unfold carryWork
    split_ifs with hik
    · subst hik; exact (min_le_left _ _).trans (Nat.sub_le _ _)
    · exact min_le_left _ _
  have hfn : ∀ i, freshWork C T D k A i ≤ njobs (T i) (D i) L * C i := by
    intro i
    unfold freshWork
    split_ifs with hik
    · subst hik; exact (min_le_left _ _).trans (Nat.mul_le_mul_right _ (Nat.sub_le _ _))
    · exact min_le_left _ _
  have hfresh : ∀ i, (freshWork C T D k A i : ℚ) ≤ (C i : ℚ) / T i * (L + T i - D i) := by
    intro i
    have h4 := GEdf.njobs_mul_le (c := C i) (L := L) (hT i) (hDT i)
    have h6 : (freshWork C T D k A i : ℚ) ≤ ((njobs (T i) (D i) L * C i : ℕ) : ℚ) := by exact_mod_cast hfn i
    linarith
  constructor
  · have hterm : ∀ i, (carryWork C T D k A i : ℚ) ≤ (C i : ℚ) / T i * (L + T i - D i) + C i := by
      intro i
      have h3 := GEdf.gwork_le_njobs (c := C i) (L := L) (hT i) (hDT i)
      have h4 := GEdf.njobs_mul_le (c := C i) (L := L) (hT i) (hDT i)
      have h6 : (carryWork C T D k A i : ℚ) ≤ ((njobs (T i) (D i) L * C i + C i : ℕ) : ℚ) := by
        exact_mod_cast (hcg i).trans h3
      rw [Nat.cast_add] at h6
      linarith
    have hs1 := sum_le_sum (fun i (_ : i ∈ S) => hterm i)
    have hs2 := sum_le_sum (fun i (_ : i ∈ Sᶜ) => hfresh i)
    rw [sum_add_distrib] at hs1
    have hs3 := sum_add_sum_compl S (fun i => (C i : ℚ) / T i * (L + T i - D i))
    have hs4 : ∑ i, (C i : ℚ) / T i * (L + T i - D i) =
        (∑ i, (C i : ℚ) / T i) * L + ∑ i, ((T i : ℚ) - D i) * ((C i : ℚ) / T i) := by
      rw [sum_mul, ← sum_add_distrib]
      exact sum_congr rfl (fun i _ => by ring)
    rw [hs4] at hs3
    rw [hLq] at hs1 hs2 hs3
    nlinarith
  · have hall : ∀ i, (carryWork C T D k A i : ℚ) ≤ (C i : ℚ) / T i * L + C i := by
      intro i
      refine le_trans ?_ (gwork_le (hT i))
      exact_mod_cast hcg i
    have hs1 := sum_le_sum (fun i (_ : i ∈ S) => hall i)
    have hs2 := sum_le_sum (fun i (_ : i ∈ Sᶜ) => hall i)
    have hs5 : ∑ i ∈ Sᶜ, (freshWork C T D k A i : ℚ) ≤ ∑ i ∈ Sᶜ, (carryWork C T D k A i : ℚ) :=
      sum_le_sum (fun i _ => by exact_mod_cast fresh_le_carry hT hDT hCD k A i)
    have hs3 := sum_add_sum_compl S (fun i => (C i : ℚ) / T i * L + C i)
    have hs4 : ∑ i, ((C i : ℚ) / T i * L + C i) = (∑ i, (C i : ℚ) / T i) * L + ∑ i, (C i : ℚ) := by
      rw [sum_mul, ← sum_add_distrib]
    rw [hs4] at hs3
    rw [hLq] at hs1 hs2 hs3
    nlinarith

theorem sum_le_largestSum (f : Fin n → ℤ) (hf : ∀ i, 0 ≤ f i) (S : Finset (Fin n)) (hS : S.card + 1 ≤ m) :
    ∑ i ∈ S, f i ≤ largestSum m ((List.finRange n).map f) := by
  have h := GEdf.sum_finset_le_topsum (c := m - 1) f (fun x : ℤ => (x : ℚ)) (fun i => by exact_mod_cast hf i) S (by omega)
  have e : topsum ((List.finRange n).map f) (fun x : ℤ => (x : ℚ)) (m - 1) =
      ((largestSum m ((List.finRange n).map f) : ℤ) : ℚ) := by
    unfold topsum largestSum TaskSystem.sortDesc
    rw [if_neg (by omega), Int.cast_list_sum, List.map_take,
      List.map_insertionSort (fun a b => b ≤ a) (fun a b : ℚ => b ≤ a) (fun x : ℤ => (x : ℚ))]
    intro a _ b _
    exact Int.cast_le.symm
  rw [e] at h
  have h2 : ((∑ i ∈ S, f i : ℤ) : ℚ) ≤ ((largestSum m ((List.finRange n).map f) : ℤ) : ℚ) := by
    rw [Int.cast_sum]
    exact h
  exact_mod_cast h2

/-- The condition that both tests evaluate fails. -/
theorem condition_fails (hT : ∀ i, 0 < T i) (hDT : ∀ i, D i ≤ T i) (hCD : ∀ i, C i ≤ D i) (hm : 0 < m)
    {k : Fin n} {A : ℕ} {S : Finset (Fin n)} (hS : S.card + 1 ≤ m)
    (hviol : m * (A + D k - C k + 1) ≤ ∑ i ∈ S, carryWork C T D k A i + ∑ i ∈ Sᶜ, freshWork C T D k A i)
    {f g : Fin n → ℤ} (hf : ∀ i, f i = freshWork C T D k A i) (hg : ∀ i, g i = carryWork C T D k A i) :
    ¬ ((List.finRange n).map f).sum + largestSum m ((List.finRange n).map (fun i => g i - f i)) ≤
      ((A : ℤ) + D k - C k) * m := by
  have hCL : C k ≤ A + D k := by have := hCD k; omega
  have h1 := sum_le_largestSum (m := m) (fun i => g i - f i) (fun i => by
    rw [hf, hg]
    have := fresh_le_carry hT hDT hCD k A i
    omega) S hS
  rw [GEdf.sum_finRange_map]
  rw [sum_sub_distrib] at h1
  have h2 := sum_add_sum_compl S f
  have h3 : ((m * (A + D k - C k + 1) : ℕ) : ℤ) ≤ ∑ i ∈ S, g i + ∑ i ∈ Sᶜ, f i := by
    refine (Int.ofNat_le.2 hviol).trans (le_of_eq ?_)
    push_cast
    congr 1
    · exact sum_congr rfl (fun i _ => (hg i).symm)
    · exact sum_congr rfl (fun i _ => (hf i).symm)
  rw [Nat.cast_mul, Nat.cast_add, Nat.cast_sub hCL] at h3
  push_cast at h3
  have h4 : (1 : ℤ) ≤ m := by exact_mod_cast hm
  intro h5
  nlinarith

end

/-! ### The terms of the tests -/

theorem demand_eq {t : Task} (L : ℕ) :
    (t.boundDemand L : ℤ) = ((njobs t.period t.deadline L * t.wcet : ℕ) : ℤ) := by
  unfold Task.boundDemand njobs
  split_ifs <;> simp

theorem barDemand_eq {t : Task} (L : ℕ) :
    barDemand t L = ((njobs t.period t.deadline L * t.wcet : ℕ) : ℤ) := by
  unfold barDemand njobs
  split_ifs with h1 h2 h2
  · omega
  · rw [Int.tdiv_eq_ediv_of_nonneg h1]
    push_cast [Nat.cast_sub (not_lt.1 h2)]
    rfl
  · simp
  · omega

theorem barDemandCarry_eq {t : Task} (L : ℕ) : barDemandCarry t L = (gwork t.wcet t.period L : ℤ) := by
  unfold barDemandCarry gwork
  rw [Int.tdiv_eq_ediv_of_nonneg (by omega), Int.tmod_eq_emod_of_nonneg (by omega)]
  push_cast
  rfl

theorem laDelta_eq {t : Task} (hT : 0 < t.period) (hC : t.wcet ≤ t.period) {L : ℕ} (hL : 0 < L) :
    laDelta t L = (gwork t.wcet t.period L : ℤ) := by
  have hTz : (0 : ℤ) < t.period := by exact_mod_cast hT
  have hdm := Nat.div_add_mod L t.period
  have hlt := Nat.mod_lt L hT
  unfold laDelta gwork divideWithCeilZ cdivQ
  simp only
  set q := L / t.period with hq
  set r := L % t.period with hr
  have hLz : (L : ℤ) = q * t.period + r := by
    rw [← hdm]
    push_cast
    ring
  rcases Nat.eq_zero_or_pos r with h0 | h0
  · have hc : -(-(L : ℤ) / t.period) = q := by
      rw [hLz, h0]
      have : -((q : ℤ) * t.period + ((0 : ℕ) : ℤ)) = (-q) * t.period := by push_cast; ring
      rw [this, Int.mul_ediv_cancel _ hTz.ne']
      ring
    rw [hc, h0, hLz, h0]
    have e : (q : ℤ) * t.period + ((0 : ℕ) : ℤ) - q * t.period + t.period = t.period := by push_cast; ring
    rw [e, min_eq_left (by exact_mod_cast hC)]
    push_cast
    have : min (t.wcet : ℤ) 0 = 0 := by omega
    rw [this]
    ring
  · have hc : -(-(L : ℤ) / t.period) = q + 1 := by
      have : -(L : ℤ) / t.period = -(q + 1) := by
        rw [Int.ediv_eq_iff_of_pos hTz]
        rw [hLz]
        constructor
        · have : (r : ℤ) < t.period := by exact_mod_cast hlt
          nlinarith
        · have : (0 : ℤ) < r := by exact_mod_cast h0
          nlinarith
      rw [this]
      ring
    rw [hc, hLz]
    have e : (q : ℤ) * t.period + r - (q + 1) * t.period + t.period = r := by ring
    rw [e]
    push_cast
    ring

/-- Constrained deadlines, no self-suspensions and no tardiness. -/
def Simple (ts : TaskSet) : Prop := ∀ t ∈ ts, t.selfSuspension = 0 ∧ t.tardinessThreshold = 0

variable {ts : TaskSet} {m : ℕ}

theorem Plain.get (hp : Plain ts) (i : Fin ts.length) :
    0 < (ts.get i).wcet ∧ (ts.get i).wcet ≤ (ts.get i).deadline ∧ (ts.get i).deadline ≤ (ts.get i).period :=
  hp _ (List.get_mem ts i)

theorem le_gwork' (hp : Plain ts) (k : Fin ts.length) (A : ℕ) :
    (ts.get k).wcet ≤ gwork (ts.get k).wcet (ts.get k).period (A + (ts.get k).deadline) := by
  obtain ⟨h1, h2, h3⟩ := hp.get k
  exact GEdf.le_gwork (by omega) (by omega) (by omega)

theorem one_le_njobs (k : Fin ts.length) (A : ℕ) :
    1 ≤ njobs (ts.get k).period (ts.get k).deadline (A + (ts.get k).deadline) := by
  unfold njobs
  rw [if_neg (by omega)]
  exact Nat.le_add_left _ _

theorem fresh_cast (k i : Fin ts.length) (hk : (ts.get k).wcet ≤ (ts.get k).deadline) (A : ℕ) :
    (freshWork (fun i => (ts.get i).wcet) (fun i => (ts.get i).period) (fun i => (ts.get i).deadline) k A i : ℤ) =
    if i = k then min (((njobs (ts.get i).period (ts.get i).deadline (A + (ts.get k).deadline) * (ts.get i).wcet : ℕ) : ℤ)
      - (ts.get k).wcet) A
    else min ((njobs (ts.get i).period (ts.get i).deadline (A + (ts.get k).deadline) * (ts.get i).wcet : ℕ) : ℤ)
      ((A : ℤ) + (ts.get k).deadline - (ts.get k).wcet + 1) := by
  unfold freshWork
  simp only
  split_ifs with hik
  · subst hik
    rw [Nat.cast_min, Nat.cast_mul, Nat.cast_sub (one_le_njobs i A)]
    push_cast
    congr 1
    ring
  · rw [Nat.cast_min]
    congr 1
    omega

theorem carry_cast (hp : Plain ts) (k i : Fin ts.length) (A : ℕ) :
    (carryWork (fun i => (ts.get i).wcet) (fun i => (ts.get i).period) (fun i => (ts.get i).deadline) k A i : ℤ) =
    if i = k then min ((gwork (ts.get i).wcet (ts.get i).period (A + (ts.get k).deadline) : ℤ)
      - (ts.get k).wcet) A
    else min (gwork (ts.get i).wcet (ts.get i).period (A + (ts.get k).deadline) : ℤ)
      ((A : ℤ) + (ts.get k).deadline - (ts.get k).wcet + 1) := by
  have hk := (hp.get k).2.1
  unfold carryWork
  simp only
  split_ifs with hik
  · subst hik
    rw [Nat.cast_min, Nat.cast_sub (le_gwork' hp i A)]
  · rw [Nat.cast_min]
    congr 1
    omega

theorem same_iff (i k : Fin ts.length) : ((i : ℕ) == (k : ℕ)) = decide (i = k) := by
  rw [Bool.eq_iff_iff]
  simp [Fin.ext_iff]

theorem barI1_eq (hp : Plain ts) (k i : Fin ts.length) (A : ℕ) :
    barI1 ((i : ℕ) == (k : ℕ)) (ts.get i) (ts.get k) A =
    freshWork (fun i => (ts.get i).wcet) (fun i => (ts.get i).period) (fun i => (ts.get i).deadline) k A i := by
  obtain ⟨h1, h2, h3⟩ := hp.get k
  rw [fresh_cast k i h2, same_iff]
  unfold barI1
  have hd := barDemand_eq (t := ts.get i) (A + (ts.get k).deadline)
  have hu : ulSub (ts.get k).wcet 1 = (ts.get k).wcet - 1 := if_pos h1
  push_cast at hd ⊢
  simp only [hd, hu, decide_eq_true_eq]
  split_ifs with hik
  · rfl
  · congr 1
    omega

theorem barI2_eq (hp : Plain ts) (k i : Fin ts.length) (A : ℕ) :
    barI2 ((i : ℕ) == (k : ℕ)) (ts.get i) (ts.get k) A =
    carryWork (fun i => (ts.get i).wcet) (fun i => (ts.get i).period) (fun i => (ts.get i).deadline) k A i := by
  obtain ⟨h1, h2, h3⟩ := hp.get k
  rw [carry_cast hp k i, same_iff]
  unfold barI2
  have hd := barDemandCarry_eq (t := ts.get i) (A + (ts.get k).deadline)
  have hu : ulSub (ts.get k).wcet 1 = (ts.get k).wcet - 1 := if_pos h1
  push_cast at hd ⊢
  simp only [hd, hu, decide_eq_true_eq]
  split_ifs with hik
  · rfl
  · congr 1
    omega

theorem laNoCarry_eq (hp : Plain ts) (hs : Simple ts) (k i : Fin ts.length) (A : ℕ) :
    laNoCarry ((i : ℕ) == (k : ℕ)) (ts.get i) (ts.get k) A 0 =
    freshWork (fun i => (ts.get i).wcet) (fun i => (ts.get i).period) (fun i => (ts.get i).deadline) k A i := by
  obtain ⟨h1, h2, h3⟩ := hp.get k
  have h4 := (hs _ (List.get_mem ts k)).2
  rw [fresh_cast k i h2, same_iff]
  unfold laNoCarry laDbf
  have ht : ((A : ℤ) + (ts.get k).deadline).toNat = A + (ts.get k).deadline := by omega
  simp only [ht, demand_eq, decide_eq_true_eq]
  split_ifs with hik
  · congr 1
    rw [h4]
    omega
  · congr 1
    rw [h4]
    omega

theorem laCarryIn_eq (hp : Plain ts) (hs : Simple ts) (k i : Fin ts.length) (A : ℕ) :
    laCarryIn ((i : ℕ) == (k : ℕ)) (ts.get i) (ts.get k) A 0 =
    carryWork (fun i => (ts.get i).wcet) (fun i => (ts.get i).period) (fun i => (ts.get i).deadline) k A i := by
  obtain ⟨h1, h2, h3⟩ := hp.get k
  obtain ⟨h1', h2', h3'⟩ := hp.get i
  have h4 := (hs _ (List.get_mem ts k)).2
  have h5 := (hs _ (List.get_mem ts i)).2
  rw [carry_cast hp k i, same_iff]
  unfold laCarryIn
  have hd := laDelta_eq (t := ts.get i) (by omega) (by omega) (L := A + (ts.get k).deadline) (by omega)
  have hd' := laDelta_eq (t := ts.get k) (by omega) (by omega) (L := A + (ts.get k).deadline) (by omega)
  push_cast at hd hd'
  simp only [h4, h5, Nat.cast_zero, add_zero, hd, hd', decide_eq_true_eq]
  split_ifs with hik
  · subst hik
    congr 1
    omega
  · congr 1
    omega

/-! ### Soundness -/

theorem sum_map_get {M : Type} [AddCommMonoid M] (f : Task → M) (ts : TaskSet) :
    (ts.map f).sum = ∑ i : Fin ts.length, f (ts.get i) := by
  rw [← GEdf.sum_finRange_map]
  congr 1
  apply List.ext_getElem <;> simp

theorem truncate_ge {q : ℚ} {A : ℕ} (h : (A : ℚ) ≤ q) : (A : ℤ) ≤ truncate q := by
  have hq : 0 ≤ q := le_trans (by positivity) h
  unfold truncate
  rw [Int.tdiv_eq_ediv_of_nonneg (Rat.num_nonneg.2 hq)]
  have : q.num / (q.den : ℤ) = ⌊q⌋ := by
    rw [← Rat.floor_intCast_div_natCast, Rat.num_div_den]
  rw [this, Int.le_floor]
  exact_mod_cast h

/-- Baruah's test: safety. -/
theorem baruahCore_safe (hp : Plain ts) (hm : 0 < m) {pick : ℕ → (ℕ → ℤ) → ℕ} (hq : IsQueue pick) {late : ℕ → Bool}
    {fuel : ℕ} (h : baruahCore pick late fuel m ts = some true) :
    EdfSchedulable m (fun i => (ts.get i).wcet) (fun i => (ts.get i).period) (fun i => (ts.get i).deadline) := by
  by_contra hmiss
  have hT : ∀ t ∈ ts, 0 < t.period := fun t ht => by have := hp t ht; omega
  obtain ⟨k, A, S, hS, ⟨i, j, hpt⟩, hviol, hb, _⟩ := miss_within (fun i => by have := hp.get i; omega)
    (fun i => by have := hp.get i; omega) (fun i => (hp.get i).2.2) (fun i => (hp.get i).2.1) hm hmiss
  obtain ⟨hU, hall⟩ := baruahCore_all hT hq (by have := k.2; omega) h
  have hUeq : ts.utilization = ∑ i : Fin ts.length, ((ts.get i).wcet : ℚ) / (ts.get i).period := sum_map_get _ ts
  have hA : point ts (ts.get k) i j = A := by
    unfold point
    have : ((A + (ts.get k).deadline : ℕ) : ℤ) = (((ts.get i).deadline + j * (ts.get i).period : ℕ) : ℤ) := by
      exact_mod_cast hpt
    push_cast at this
    linarith
  have hbound : (A : ℤ) ≤ barMaxPoint m ts ((m : ℚ) - ts.utilization) (ts.get k) := by
    refine truncate_ge ?_
    rw [le_div_iff₀ (by linarith)]
    have h1 : ∑ i ∈ S, ((ts.get i).wcet : ℚ) ≤ ((largestSum m (ts.map (fun t => (t.wcet : ℤ))) : ℤ) : ℚ) := by
      have := sum_le_largestSum (m := m) (fun i : Fin ts.length => ((ts.get i).wcet : ℤ)) (fun i => by omega) S hS
      have e : (List.finRange ts.length).map (fun i => ((ts.get i).wcet : ℤ)) = ts.map (fun t => (t.wcet : ℤ)) := by
        apply List.ext_getElem <;> simp
      rw [e] at this
      have h2 : ((∑ i ∈ S, ((ts.get i).wcet : ℤ) : ℤ) : ℚ) ≤ ((largestSum m (ts.map (fun t => (t.wcet : ℤ))) : ℤ) : ℚ) := by
        exact_mod_cast this
      push_cast at h2
      exact h2
    have h3 : (ts.map (fun t => (ulSub t.period t.deadline : ℚ) * t.utilization)).sum =
        ∑ i : Fin ts.length, (((ts.get i).period : ℚ) - (ts.get i).deadline) * (((ts.get i).wcet : ℚ) / (ts.get i).period) := by
      rw [sum_map_get]
      refine sum_congr rfl (fun i _ => ?_)
      have : ulSub (ts.get i).period (ts.get i).deadline = (ts.get i).period - (ts.get i).deadline :=
        if_pos (hp.get i).2.2
      rw [this, Nat.cast_sub (hp.get i).2.2]
      rfl
    rw [h3, hUeq]
    linarith
  have htest : barTask m ts k (ts.get k) (point ts (ts.get k) i j) = true := hall k i j (by omega) (by omega)
  rw [hA] at htest
  unfold barTask at htest
  simp only [decide_eq_true_eq] at htest
  refine condition_fails (fun i => by have := hp.get i; omega) (fun i => (hp.get i).2.2) (fun i => (hp.get i).2.1) hm hS
    hviol (fun i => barI1_eq hp k i A) (fun i => barI2_eq hp k i A) ?_
  rw [GEdf.zipIdx_eq, List.map_map, List.map_map] at htest
  exact htest

/-- Liu and Anderson's test: safety without self-suspensions and tardiness. -/
theorem laCore_safe (hp : Plain ts) (hs : Simple ts) (hm : 0 < m) {pick : ℕ → (ℕ → ℤ) → ℕ} (hq : IsQueue pick)
    {late : ℕ → ℕ → ℕ → Bool} {fuel : ℕ} (h : laCore pick late fuel m ts = some true) :
    EdfSchedulable m (fun i => (ts.get i).wcet) (fun i => (ts.get i).period) (fun i => (ts.get i).deadline) := by
  by_contra hmiss
  have hT : ∀ t ∈ ts, 0 < t.period := fun t ht => by have := hp t ht; omega
  obtain ⟨k, A, S, hS, ⟨i, j, hpt⟩, hviol, _, hb⟩ := miss_within (fun i => by have := hp.get i; omega)
    (fun i => by have := hp.get i; omega) (fun i => (hp.get i).2.2) (fun i => (hp.get i).2.1) hm hmiss
  obtain ⟨hU, hall⟩ := laCore_all hT hq (by have := k.2; omega) h
  have hUeq : ts.utilization = ∑ i : Fin ts.length, ((ts.get i).wcet : ℚ) / (ts.get i).period := sum_map_get _ ts
  have hA : point ts (ts.get k) i j = A := by
    unfold point
    have : ((A + (ts.get k).deadline : ℕ) : ℤ) = (((ts.get i).deadline + j * (ts.get i).period : ℕ) : ℤ) := by
      exact_mod_cast hpt
    push_cast at this
    linarith
  have hbound : (A : ℤ) ≤ laMaxPoint m ((m : ℚ) - ts.utilization)
      (ts.map (fun t => (t.wcet : ℚ) + t.utilization * t.tardinessThreshold)).sum ts.utilization (ts.get k) 0 := by
    unfold laMaxPoint
    rw [roundUp_eq]
    have h1 : (ts.map (fun t => (t.wcet : ℚ) + t.utilization * t.tardinessThreshold)).sum =
        ∑ i : Fin ts.length, ((ts.get i).wcet : ℚ) := by
      rw [sum_map_get]
      refine sum_congr rfl (fun i _ => ?_)
      rw [(hs _ (List.get_mem ts i)).2]
      simp
    have h2 : (A : ℚ) ≤ ((m : ℚ) * ((ts.get k).wcet + 0 : ℕ) - ts.utilization * (ts.get k).tardinessThreshold +
        (ts.map (fun t => (t.wcet : ℚ) + t.utilization * t.tardinessThreshold)).sum) / ((m : ℚ) - ts.utilization) := by
      rw [le_div_iff₀ (by linarith), h1, (hs _ (List.get_mem ts k)).2, hUeq]
      rw [hUeq] at hU
      have h3 : 0 ≤ ((ts.get k).deadline : ℚ) * (m - ∑ i : Fin ts.length, ((ts.get i).wcet : ℚ) / (ts.get i).period) :=
        mul_nonneg (by positivity) (by linarith)
      push_cast
      linarith
    have h4 : (A : ℚ) ≤ ((⌈((m : ℚ) * ((ts.get k).wcet + 0 : ℕ) - ts.utilization * (ts.get k).tardinessThreshold +
        (ts.map (fun t => (t.wcet : ℚ) + t.utilization * t.tardinessThreshold)).sum) / ((m : ℚ) - ts.utilization)⌉ : ℤ) : ℚ) :=
      h2.trans (Int.le_ceil _)
    exact_mod_cast h4
  have htest : laInterval m ts k (ts.get k) 0 (point ts (ts.get k) i j) = true :=
    hall k 0 (Nat.zero_le _) i j (by omega) (by omega)
  rw [hA] at htest
  unfold laInterval at htest
  simp only [decide_eq_true_eq] at htest
  refine condition_fails (fun i => by have := hp.get i; omega) (fun i => (hp.get i).2.2) (fun i => (hp.get i).2.1) hm hS
    hviol (fun i => laNoCarry_eq hp hs k i A) (fun i => laCarryIn_eq hp hs k i A) ?_
  have hns : ∀ i : Fin ts.length, (ts.get i).isSelfSuspending = false := by
    intro i
    unfold Task.isSelfSuspending
    rw [(hs _ (List.get_mem ts i)).1]
    rfl
  rw [GEdf.zipIdx_eq, List.map_map, List.map_map, (hs _ (List.get_mem ts k)).2] at htest
  simp only [Function.comp_def, hns, Bool.false_eq_true, if_false, Nat.cast_zero, add_zero, sub_zero] at htest
  exact htest

end Verif.Native
