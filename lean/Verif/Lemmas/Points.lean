/-
Lemmas on the point generators and on `uniq`/`merge`.
-/
import Verif.Spec.Change
import Verif.Model.Tasks
import Mathlib.Tactic.Linarith
import Mathlib.Tactic.Positivity
import Mathlib.Data.List.Pairwise

namespace Verif
open Spec

theorem mem_countUpTo {step : ℚ} (hs : 0 < step) (maxT : ℚ) (start x : ℚ) :
    x ∈ countUpTo start step maxT ↔ x ≤ maxT ∧ ∃ k : ℕ, x = start + k * step := by
  induction start using countUpTo.induct (step := step) (maxT := maxT) with
  | case1 start h ih =>
    rw [countUpTo, dif_pos h, List.mem_cons, ih]
    constructor
    · rintro (rfl | ⟨h1, k, rfl⟩)
      · exact ⟨h.2, 0, by simp⟩
      · exact ⟨h1, k + 1, by push_cast; ring⟩
    · rintro ⟨h1, k, rfl⟩
      rcases k with _ | k
      · left; simp
      · right; exact ⟨h1, k, by push_cast; ring⟩
  | case2 start h =>
    rw [countUpTo, dif_neg h]
    simp only [List.not_mem_nil, false_iff, not_and, not_exists]
    rintro h1 k rfl
    apply h
    refine ⟨hs, ?_⟩
    have : 0 ≤ (k : ℚ) * step := by positivity
    linarith

theorem countUpTo_sorted (start step maxT : ℚ) :
    (countUpTo start step maxT).Pairwise (· < ·) := by
  induction start using countUpTo.induct (step := step) (maxT := maxT) with
  | case1 start h ih =>
    rw [countUpTo, dif_pos h, List.pairwise_cons]
    refine ⟨fun y hy => ?_, ih⟩
    obtain ⟨_, k, rfl⟩ := (mem_countUpTo h.1 _ _ _).1 hy
    have := h.1
    have : 0 ≤ (k : ℚ) * step := by positivity
    linarith
  | case2 start h => rw [countUpTo, dif_neg h]; exact List.Pairwise.nil

/-- What `dropwhile(< 0)` leaves of an arithmetic progression. -/
theorem dropNegative_spec {step : ℚ} (hs : 0 < step) (start : ℚ) :
    ∀ x, (∃ k : ℕ, x = dropNegative start step + k * step) ↔
      ((∃ k : ℕ, x = start + k * step) ∧ (0 ≤ x ∨ 0 ≤ start)) := by
  intro x
  induction start using dropNegative.induct (step := step) with
  | case1 start h ih =>
    rw [dropNegative, dif_pos h, ih]
    have h2 := h.2
    constructor
    · rintro ⟨⟨k, rfl⟩, h3⟩
      refine ⟨⟨k + 1, by push_cast; ring⟩, ?_⟩
      left
      have : 0 ≤ (k : ℚ) * step := by positivity
      rcases h3 with h3 | h3 <;> linarith
    · rintro ⟨⟨k, rfl⟩, h3⟩
      have h3 : 0 ≤ start + k * step := by
        rcases h3 with h3 | h3
        · exact h3
        · linarith
      rcases k with _ | k
      · exfalso; simp at h3; linarith
      · exact ⟨⟨k, by push_cast; ring⟩, Or.inl h3⟩
  | case2 start h =>
    rw [dropNegative, dif_neg h]
    have : 0 ≤ start := by
      by_contra h'
      exact h ⟨hs, by linarith⟩
    simp [this]

theorem mem_uniqFrom {α : Type} [DecidableEq α] (l : List α) (a x : α) :
    (x = a ∨ x ∈ uniqFrom a l) ↔ x = a ∨ x ∈ l := by
  induction l generalizing a with
  | nil => simp [uniqFrom]
  | cons y ys ih =>
    rw [uniqFrom]
    split_ifs with h
    · have := ih y
      rw [List.mem_cons, List.mem_cons, this]
    · rw [not_not] at h
      subst h
      rw [ih y, List.mem_cons]
      tauto

theorem mem_uniq {α : Type} [DecidableEq α] (l : List α) (x : α) : x ∈ uniq l ↔ x ∈ l := by
  cases l with
  | nil => simp [uniq]
  | cons a l => rw [uniq, List.mem_cons, List.mem_cons, mem_uniqFrom]

theorem uniqFrom_sorted {α : Type} [LinearOrder α] (l : List α) (a : α)
    (h : (a :: l).Pairwise (· ≤ ·)) : (a :: uniqFrom a l).Pairwise (· < ·) := by
  induction l generalizing a with
  | nil => simp [uniqFrom]
  | cons y ys ih =>
    rw [List.pairwise_cons] at h
    rw [uniqFrom]
    split_ifs with hy
    · have ih' := ih y h.2
      rw [List.pairwise_cons]
      refine ⟨fun z hz => ?_, ih'⟩
      have hay : a < y := lt_of_le_of_ne (h.1 y (by simp)) (Ne.symm hy)
      rw [List.mem_cons] at hz
      rcases hz with rfl | hz
      · exact hay
      · exact hay.trans ((List.pairwise_cons.1 ih').1 z hz)
    · rw [not_not] at hy
      subst hy
      exact ih y h.2

theorem uniq_sorted {α : Type} [LinearOrder α] (l : List α)
    (h : l.Pairwise (· ≤ ·)) : (uniq l).Pairwise (· < ·) := by
  cases l with
  | nil => simp [uniq]
  | cons a l => exact uniqFrom_sorted l a h

theorem mem_heapqMerge (its : List (List ℚ)) (x : ℚ) :
    x ∈ heapqMerge its ↔ ∃ l ∈ its, x ∈ l := by
  induction its with
  | nil => simp [heapqMerge]
  | cons l ls ih =>
    have : heapqMerge (l :: ls) = merge2 l (heapqMerge ls) := rfl
    rw [this, merge2, List.mem_merge, ih]
    simp

theorem heapqMerge_sorted (its : List (List ℚ)) (h : ∀ l ∈ its, l.Pairwise (· ≤ ·)) :
    (heapqMerge its).Pairwise (· ≤ ·) := by
  induction its with
  | nil => simp [heapqMerge]
  | cons l ls ih =>
    have e : heapqMerge (l :: ls) = merge2 l (heapqMerge ls) := rfl
    rw [e, merge2]
    have h1 := h l (by simp)
    have h2 := ih (fun l hl => h l (by simp [hl]))
    have := List.pairwise_merge (le := fun x y : ℚ => decide (x ≤ y))
      (fun a b c hab hbc => by simp at *; linarith)
      (fun a b => by simp; exact le_total a b)
      (l₁ := l) (l₂ := heapqMerge ls)
      (h1.imp (by simp)) (h2.imp (by simp))
    exact this.imp (by simp)

/-! ### Change points of monotone functions -/

theorem changesAt_iff {f : ℚ → ℚ} (hf : Monotone f) (x : ℚ) :
    ChangesAt f x ↔ ∀ y < x, f y < f x := by
  constructor
  · intro h y hy
    obtain ⟨z, h1, h2, h3⟩ := h (x - y) (by linarith)
    have : f y ≤ f z := hf (by linarith)
    exact lt_of_le_of_lt this (lt_of_le_of_ne (hf h2.le) h3)
  · intro h ε hε
    exact ⟨x - ε / 2, by linarith, by linarith, (h _ (by linarith)).ne⟩

theorem changesAt_add {f g : ℚ → ℚ} (hf : Monotone f) (hg : Monotone g) (x : ℚ) :
    ChangesAt (fun t => f t + g t) x ↔ ChangesAt f x ∨ ChangesAt g x := by
  rw [changesAt_iff (hf.add hg), changesAt_iff hf, changesAt_iff hg]
  constructor
  · intro h
    by_contra hn
    push Not at hn
    obtain ⟨⟨y, hy, hfy⟩, ⟨z, hz, hgz⟩⟩ := hn
    have h1 := h (max y z) (max_lt hy hz)
    have h2 := hf (le_max_left y z)
    have h3 := hg (le_max_right y z)
    have h4 := hf (max_lt hy hz).le
    linarith
  · rintro (h | h) y hy
    · have := h y hy
      have := hg hy.le
      linarith
    · have := h y hy
      have := hf hy.le
      linarith

theorem not_changesAt_zero (x : ℚ) : ¬ ChangesAt (fun _ => 0) x := by
  intro h
  obtain ⟨y, _, _, h⟩ := h 1 one_pos
  exact h rfl

theorem monotone_listSum {ι : Type} (l : List ι) (f : ι → ℚ → ℚ) (h : ∀ i ∈ l, Monotone (f i)) :
    Monotone (fun t => (l.map (fun i => f i t)).sum) := by
  induction l with
  | nil => simpa using monotone_const
  | cons i is ih =>
    simp only [List.map_cons, List.sum_cons]
    exact (h i (by simp)).add (ih (fun j hj => h j (by simp [hj])))

theorem changesAt_listSum {ι : Type} (l : List ι) (f : ι → ℚ → ℚ)
    (h : ∀ i ∈ l, Monotone (f i)) (x : ℚ) :
    ChangesAt (fun t => (l.map (fun i => f i t)).sum) x ↔ ∃ i ∈ l, ChangesAt (f i) x := by
  induction l with
  | nil => simpa using not_changesAt_zero x
  | cons i is ih =>
    simp only [List.map_cons, List.sum_cons]
    have h2 := fun j hj => h j (List.mem_cons_of_mem i hj)
    rw [changesAt_add (h i (by simp)) (monotone_listSum is f h2), ih h2]
    simp

/-! ### Monotonicity and change points of `dbf` and `rbf` -/

theorem dbf_nonneg (tsk : SporadicTask) (t : ℚ) : 0 ≤ tsk.dbf t := by
  unfold SporadicTask.dbf
  split_ifs
  · exact le_rfl
  · exact le_max_left _ _

theorem dbf_mono (tsk : SporadicTask) (hT : 0 < tsk.period) (hC : 0 ≤ tsk.cost) :
    Monotone tsk.dbf := by
  intro a b hab
  by_cases ha : a ≤ 0
  · rw [SporadicTask.dbf, if_pos ha]; exact dbf_nonneg _ _
  · have hb : ¬ b ≤ 0 := by linarith
    rw [SporadicTask.dbf, if_neg ha, SporadicTask.dbf, if_neg hb]
    apply max_le_max le_rfl
    apply mul_le_mul_of_nonneg_right _ hC
    have : ⌊(a - tsk.deadline) / tsk.period⌋ ≤ ⌊(b - tsk.deadline) / tsk.period⌋ :=
      Int.floor_le_floor (by gcongr)
    have : ((⌊(a - tsk.deadline) / tsk.period⌋ : ℤ) : ℚ)
        ≤ ((⌊(b - tsk.deadline) / tsk.period⌋ : ℤ) : ℚ) := by exact_mod_cast this
    linarith

theorem rbf_nonneg (tsk : SporadicTask) (hT : 0 < tsk.period) (hC : 0 ≤ tsk.cost) (t : ℚ) :
    0 ≤ tsk.rbf t := by
  unfold SporadicTask.rbf
  split_ifs with h
  · exact le_rfl
  · have : (0 : ℤ) ≤ ⌊t / tsk.period⌋ :=
      Int.floor_nonneg.mpr (div_nonneg (not_lt.mp h) hT.le)
    have : (0 : ℚ) ≤ ((⌊t / tsk.period⌋ : ℤ) : ℚ) := by exact_mod_cast this
    positivity

theorem rbf_mono (tsk : SporadicTask) (hT : 0 < tsk.period) (hC : 0 ≤ tsk.cost) :
    Monotone tsk.rbf := by
  intro a b hab
  by_cases ha : a < 0
  · rw [SporadicTask.rbf, if_pos ha]; exact rbf_nonneg _ hT hC _
  · have hb : ¬ b < 0 := by linarith
    rw [SporadicTask.rbf, if_neg ha, SporadicTask.rbf, if_neg hb]
    apply mul_le_mul_of_nonneg_right _ hC
    have : ⌊a / tsk.period⌋ ≤ ⌊b / tsk.period⌋ :=
      Int.floor_le_floor (by gcongr)
    have : ((⌊a / tsk.period⌋ : ℤ) : ℚ) ≤ ((⌊b / tsk.period⌋ : ℤ) : ℚ) := by exact_mod_cast this
    linarith

theorem dbf_of_lt (tsk : SporadicTask) (hT : 0 < tsk.period) (hC : 0 ≤ tsk.cost) (t : ℚ)
    (h : t < tsk.deadline) : tsk.dbf t = 0 := by
  unfold SporadicTask.dbf
  split_ifs
  · rfl
  · apply max_eq_left
    apply mul_nonpos_of_nonpos_of_nonneg _ hC
    have : ⌊(t - tsk.deadline) / tsk.period⌋ < 0 := by
      rw [Int.floor_lt]
      simp only [Int.cast_zero]
      exact div_neg_of_neg_of_pos (by linarith) hT
    have : ⌊(t - tsk.deadline) / tsk.period⌋ + 1 ≤ 0 := by omega
    exact_mod_cast this

theorem dbf_of_ge (tsk : SporadicTask) (hT : 0 < tsk.period) (hD : 0 < tsk.deadline)
    (hC : 0 ≤ tsk.cost) (t : ℚ)
    (h : tsk.deadline ≤ t) :
    tsk.dbf t = ((⌊(t - tsk.deadline) / tsk.period⌋ : ℤ) + 1) * tsk.cost := by
  rw [SporadicTask.dbf, if_neg (by linarith), max_eq_right]
  have : (0 : ℤ) ≤ ⌊(t - tsk.deadline) / tsk.period⌋ :=
    Int.floor_nonneg.mpr (div_nonneg (by linarith) hT.le)
  have : (0 : ℚ) ≤ ((⌊(t - tsk.deadline) / tsk.period⌋ : ℤ) : ℚ) := by exact_mod_cast this
  positivity

/-- The value of `dbf` at `t ≥ D` is the value at the last point of change. -/
theorem dbf_last_point (tsk : SporadicTask) (hT : 0 < tsk.period) (hD : 0 < tsk.deadline)
    (hC : 0 ≤ tsk.cost) (t : ℚ) (h : tsk.deadline ≤ t) :
    ∃ k : ℕ, tsk.deadline + k * tsk.period ≤ t ∧
      tsk.dbf (tsk.deadline + k * tsk.period) = tsk.dbf t := by
  have h0 : (0 : ℤ) ≤ ⌊(t - tsk.deadline) / tsk.period⌋ :=
    Int.floor_nonneg.mpr (div_nonneg (by linarith) hT.le)
  refine ⟨⌊(t - tsk.deadline) / tsk.period⌋.toNat, ?_, ?_⟩
  · have h1 := Int.floor_le ((t - tsk.deadline) / tsk.period)
    rw [le_div_iff₀ hT] at h1
    have e : ((⌊(t - tsk.deadline) / tsk.period⌋.toNat : ℕ) : ℚ)
        = ((⌊(t - tsk.deadline) / tsk.period⌋ : ℤ) : ℚ) := by
      exact_mod_cast Int.toNat_of_nonneg h0
    rw [e]; linarith
  · have e : ((⌊(t - tsk.deadline) / tsk.period⌋.toNat : ℕ) : ℚ)
        = ((⌊(t - tsk.deadline) / tsk.period⌋ : ℤ) : ℚ) := by
      exact_mod_cast Int.toNat_of_nonneg h0
    rw [dbf_of_ge _ hT hD hC _ h, dbf_of_ge _ hT hD hC, e]
    · congr 2
      rw [add_sub_cancel_left, mul_div_assoc, div_self hT.ne', mul_one, Int.floor_intCast]
    · have : 0 ≤ ((⌊(t - tsk.deadline) / tsk.period⌋.toNat : ℕ) : ℚ) * tsk.period := by positivity
      linarith

theorem changesAt_dbf (tsk : SporadicTask) (hT : 0 < tsk.period) (hD : 0 < tsk.deadline)
    (hC : 0 < tsk.cost) (x : ℚ) :
    ChangesAt tsk.dbf x ↔ ∃ k : ℕ, x = tsk.deadline + k * tsk.period := by
  rw [changesAt_iff (dbf_mono tsk hT hC.le)]
  constructor
  · intro h
    have hx : tsk.deadline ≤ x := by
      by_contra hx
      have h1 := h (x - 1) (by linarith)
      rw [dbf_of_lt _ hT hC.le _ (not_le.mp hx)] at h1
      exact absurd (dbf_nonneg tsk (x - 1)) (not_le.mpr h1)
    obtain ⟨k, hk1, hk2⟩ := dbf_last_point tsk hT hD hC.le x hx
    refine ⟨k, ?_⟩
    by_contra hne
    have := h _ (lt_of_le_of_ne hk1 (Ne.symm hne))
    linarith
  · rintro ⟨k, rfl⟩ y hy
    have hk0 : 0 ≤ (k : ℚ) * tsk.period := by positivity
    rw [dbf_of_ge _ hT hD hC.le (tsk.deadline + k * tsk.period) (by linarith),
      add_sub_cancel_left, mul_div_assoc, div_self hT.ne', mul_one, Int.floor_natCast]
    rcases lt_or_ge y tsk.deadline with hy' | hy'
    · rw [dbf_of_lt _ hT hC.le _ hy']
      positivity
    · rw [dbf_of_ge _ hT hD hC.le _ hy']
      apply mul_lt_mul_of_pos_right _ hC
      have : ⌊(y - tsk.deadline) / tsk.period⌋ < (k : ℤ) := by
        rw [Int.floor_lt, div_lt_iff₀ hT]
        push_cast
        linarith
      have : ((⌊(y - tsk.deadline) / tsk.period⌋ : ℤ) : ℚ) < ((k : ℤ) : ℚ) := by exact_mod_cast this
      push_cast at *
      linarith

theorem changesAt_rbf (tsk : SporadicTask) (hT : 0 < tsk.period)
    (hC : 0 < tsk.cost) (x : ℚ) :
    ChangesAt tsk.rbf x ↔ ∃ k : ℕ, x = k * tsk.period := by
  rw [changesAt_iff (rbf_mono tsk hT hC.le)]
  constructor
  · intro h
    have hx : 0 ≤ x := by
      by_contra hx
      have h1 := h (x - 1) (by linarith)
      rw [SporadicTask.rbf, if_pos (by linarith), SporadicTask.rbf, if_pos (by linarith)] at h1
      exact lt_irrefl _ h1
    have h0 : (0 : ℤ) ≤ ⌊x / tsk.period⌋ := Int.floor_nonneg.mpr (div_nonneg hx hT.le)
    have e : ((⌊x / tsk.period⌋.toNat : ℕ) : ℚ) = ((⌊x / tsk.period⌋ : ℤ) : ℚ) := by
      exact_mod_cast Int.toNat_of_nonneg h0
    refine ⟨⌊x / tsk.period⌋.toNat, ?_⟩
    by_contra hne
    have hle : ((⌊x / tsk.period⌋.toNat : ℕ) : ℚ) * tsk.period ≤ x := by
      have := Int.floor_le (x / tsk.period)
      rw [le_div_iff₀ hT] at this
      rw [e]; exact this
    have := h _ (lt_of_le_of_ne hle (Ne.symm hne))
    have hn : 0 ≤ ((⌊x / tsk.period⌋.toNat : ℕ) : ℚ) * tsk.period := by positivity
    rw [SporadicTask.rbf, if_neg (not_lt.mpr hn), SporadicTask.rbf, if_neg (not_lt.mpr hx),
      mul_div_assoc, div_self hT.ne', mul_one, e, Int.floor_intCast] at this
    exact lt_irrefl _ this
  · rintro ⟨k, rfl⟩ y hy
    have hk0 : 0 ≤ (k : ℚ) * tsk.period := by positivity
    rw [SporadicTask.rbf, SporadicTask.rbf, if_neg (not_lt.mpr hk0),
      mul_div_assoc, div_self hT.ne', mul_one, Int.floor_natCast]
    split_ifs with hy'
    · positivity
    · apply mul_lt_mul_of_pos_right _ hC
      have : ⌊y / tsk.period⌋ < (k : ℤ) := by
        rw [Int.floor_lt, div_lt_iff₀ hT]
        push_cast
        linarith
      have : ((⌊y / tsk.period⌋ : ℤ) : ℚ) < ((k : ℤ) : ℚ) := by exact_mod_cast this
      push_cast at *
      linarith

/-- Membership in the point list of one task, for any start. -/
theorem mem_points {T : ℚ} (hT : 0 < T) (s maxT offset x : ℚ) :
    x ∈ countUpTo (if offset > 0 then dropNegative (s - offset) T else s - offset) T maxT ↔
      x ≤ maxT ∧ (∃ k : ℕ, x + offset = s + k * T) ∧ (0 < offset → 0 ≤ x) := by
  rw [mem_countUpTo hT]
  have key : (∃ k : ℕ, x = s - offset + k * T) ↔ (∃ k : ℕ, x + offset = s + k * T) :=
    exists_congr fun k => by constructor <;> intro h <;> linarith
  split_ifs with h
  · rw [dropNegative_spec hT, key]
    refine and_congr_right fun _ => and_congr_right fun hk => ?_
    constructor
    · rintro (h1 | h1) _
      · exact h1
      · obtain ⟨k, hk⟩ := hk
        have : 0 ≤ (k : ℚ) * T := by positivity
        linarith
    · intro h1; exact Or.inl (h1 h)
  · rw [key]; simp [h]

end Verif
