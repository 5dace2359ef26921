/-
From fractions of processors to slots: a matrix of rational rates whose row and column
sums are at most one is realised by finitely many slots in each of which every task is
served by at most one processor and every processor serves at most one task.
-/
import Mathlib.Analysis.Convex.Birkhoff
import Mathlib.Algebra.Order.Ring.Rat
import Mathlib.Data.Matrix.Block
import Mathlib.Data.Rat.Lemmas
import Mathlib.Algebra.Order.Field.Basic
import Mathlib.Tactic.Linarith
import Mathlib.Tactic.FieldSimp
import Mathlib.Data.Fintype.Perm

namespace Verif.ApaFeas
open Matrix Finset

variable {ι κ : Type} [Fintype ι] [DecidableEq ι] [Fintype κ] [DecidableEq κ]

/-- The doubly stochastic matrix around a matrix of rates. -/
def around (A : Matrix ι κ ℚ) : Matrix (ι ⊕ κ) (ι ⊕ κ) ℚ :=
  fromBlocks (diagonal fun i => 1 - ∑ j, A i j) A Aᵀ (diagonal fun j => 1 - ∑ i, A i j)

theorem around_mem (A : Matrix ι κ ℚ) (h0 : ∀ i j, 0 ≤ A i j)
    (hrow : ∀ i, ∑ j, A i j ≤ 1) (hcol : ∀ j, ∑ i, A i j ≤ 1) :
    around A ∈ doublyStochastic ℚ (ι ⊕ κ) := by
  rw [mem_doublyStochastic_iff_sum]
  refine ⟨?_, ?_, ?_⟩
  · rintro (i | i) (j | j)
    · simp only [around, fromBlocks_apply₁₁, diagonal_apply]
      split_ifs
      · linarith [hrow i]
      · exact le_rfl
    · simp only [around, fromBlocks_apply₁₂]
      exact h0 _ _
    · simp only [around, fromBlocks_apply₂₁, transpose_apply]
      exact h0 _ _
    · simp only [around, fromBlocks_apply₂₂, diagonal_apply]
      split_ifs
      · linarith [hcol i]
      · exact le_rfl
  · rintro (i | i)
    · simp [around, Fintype.sum_sum_type, diagonal_apply]
    · simp [around, Fintype.sum_sum_type, diagonal_apply]
  · rintro (i | i)
    · simp [around, Fintype.sum_sum_type, diagonal_apply]
    · simp [around, Fintype.sum_sum_type, diagonal_apply]

/-- Finitely many non-negative rational numbers have a common denominator. -/
theorem common_denominator {α : Type} [Fintype α] (w : α → ℚ) (h : ∀ a, 0 ≤ w a) :
    ∃ q : ℕ, 0 < q ∧ ∃ c : α → ℕ, ∀ a, w a * q = c a := by
  classical
  refine ⟨∏ a, (w a).den, Finset.prod_pos fun a _ => (w a).den_pos,
    fun a => (w a).num.toNat * ∏ b ∈ univ.erase a, (w b).den, fun a => ?_⟩
  have hsplit : ((∏ b, (w b).den : ℕ) : ℚ) = (w a).den * ((∏ b ∈ univ.erase a, (w b).den : ℕ) : ℚ) := by
    rw [← Finset.mul_prod_erase univ (fun b => (w b).den) (mem_univ a)]
    push_cast
    rfl
  have hnum : ((w a).num.toNat : ℚ) = (w a).num := by
    have : ((w a).num.toNat : ℤ) = (w a).num := Int.toNat_of_nonneg (Rat.num_nonneg.mpr (h a))
    exact_mod_cast this
  rw [hsplit]
  push_cast
  rw [hnum, ← mul_assoc, Rat.mul_den_eq_num]

theorem slots_exist (A : Matrix ι κ ℚ) (h0 : ∀ i j, 0 ≤ A i j)
    (hrow : ∀ i, ∑ j, A i j ≤ 1) (hcol : ∀ j, ∑ i, A i j ≤ 1) :
    ∃ q : ℕ, 0 < q ∧ ∃ f : Fin q → κ → Option ι,
      (∀ s j j' i, f s j = some i → f s j' = some i → j = j') ∧
      ∀ i j, ((univ.filter fun s => f s j = some i).card : ℚ) = A i j * q := by
  classical
  obtain ⟨w, hw, hsum, hM⟩ :=
    exists_eq_sum_perm_of_mem_doublyStochastic (around_mem A h0 hrow hcol)
  obtain ⟨q, hq, c, hc⟩ := common_denominator w hw
  have hcq : ∑ σ, c σ = q := by
    have : ((∑ σ, c σ : ℕ) : ℚ) = q := by
      push_cast
      simp only [← hc]
      rw [← Finset.sum_mul, hsum, one_mul]
    exact_mod_cast this
  -- slots with their permutation
  have hcard : Fintype.card (Fin q) = Fintype.card ((σ : Equiv.Perm (ι ⊕ κ)) × Fin (c σ)) := by
    simp [hcq]
  let e : Fin q ≃ (σ : Equiv.Perm (ι ⊕ κ)) × Fin (c σ) := Fintype.equivOfCardEq hcard
  let perm : Fin q → Equiv.Perm (ι ⊕ κ) := fun s => (e s).1
  have hperm : ∀ σ, (univ.filter fun s => perm s = σ).card = c σ := by
    intro σ
    have : (univ.filter fun s => perm s = σ).card =
        (univ.filter fun x : (σ : Equiv.Perm (ι ⊕ κ)) × Fin (c σ) => x.1 = σ).card := by
      apply Finset.card_bij (fun s _ => e s)
      · intro s hs
        simpa [perm] using hs
      · intro a _ b _ h
        exact e.injective h
      · intro x hx
        exact ⟨e.symm x, by simpa [perm] using hx, by simp⟩
    rw [this]
    have h2 : (univ.filter fun x : (σ : Equiv.Perm (ι ⊕ κ)) × Fin (c σ) => x.1 = σ) =
        (univ : Finset (Fin (c σ))).map ⟨fun y => ⟨σ, y⟩, fun a b h => by simpa using h⟩ := by
      ext x
      obtain ⟨τ, y⟩ := x
      simp only [mem_filter, mem_univ, true_and, mem_map, Function.Embedding.coeFn_mk]
      constructor
      · rintro rfl
        exact ⟨y, rfl⟩
      · rintro ⟨z, hz⟩
        exact (congrArg Sigma.fst hz).symm
    rw [h2, card_map]
    simp
  refine ⟨q, hq, fun s j => match (perm s).symm (.inr j) with
    | .inl i => some i
    | .inr _ => none, ?_, ?_⟩
  · intro s j j' i h h'
    have key : ∀ j, (match (perm s).symm (.inr j) with
        | .inl i => some i
        | .inr _ => none) = some i → (perm s).symm (.inr j) = .inl i := by
      intro j h
      cases hx : (perm s).symm (.inr j) with
      | inl x => rw [hx] at h; simp only [Option.some.injEq] at h; rw [h]
      | inr x => rw [hx] at h; simp at h
    have h1 := key j h
    have h2 := key j' h'
    have := (perm s).symm.injective (h1.trans h2.symm)
    simpa using this
  · intro i j
    have key : ∀ s, (match (perm s).symm (.inr j) with
        | .inl i => some i
        | .inr _ => none) = some i ↔ perm s (.inl i) = .inr j := by
      intro s
      rw [← Equiv.eq_symm_apply (perm s)]
      cases hx : (perm s).symm (.inr j) with
      | inl x => simp [eq_comm]
      | inr x => simp
    simp only [key]
    have hA : A i j = ∑ σ, w σ * (if σ (.inl i) = .inr j then 1 else 0) := by
      have := congrFun (congrFun hM (.inl i)) (.inr j)
      simp only [around, fromBlocks_apply₁₂] at this
      rw [← this, Matrix.sum_apply]
      apply Finset.sum_congr rfl
      intro σ _
      simp [Equiv.Perm.permMatrix, PEquiv.toMatrix_apply, Equiv.toPEquiv_apply]
    have hcount : (univ.filter fun s => perm s (.inl i) = .inr j).card =
        ∑ σ, if σ (.inl i) = .inr j then c σ else 0 := by
      rw [Finset.card_eq_sum_card_fiberwise (f := perm) (t := univ) (by intro s _; simp)]
      apply Finset.sum_congr rfl
      intro σ _
      rw [filter_filter]
      by_cases h : σ (.inl i) = .inr j
      · rw [if_pos h, ← hperm σ]
        congr 1
        ext s
        simp only [mem_filter, mem_univ, true_and]
        constructor
        · exact fun h => h.2
        · rintro rfl; exact ⟨h, rfl⟩
      · rw [if_neg h, card_eq_zero]
        ext s
        simp only [mem_filter, mem_univ, true_and, notMem_empty, iff_false]
        rintro ⟨h1, rfl⟩
        exact h h1
    rw [hcount, hA, Finset.sum_mul]
    push_cast
    apply Finset.sum_congr rfl
    intro σ _
    by_cases h : σ (.inl i) = .inr j
    · simp [h, hc]
    · simp [h]

end Verif.ApaFeas
