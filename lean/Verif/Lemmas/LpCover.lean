/-
Certificates for the optimum of a mixed integer linear program that use constraints with negative coefficients.
-/
import Verif.Lemmas.LpDual

namespace Verif.SR.Lp
open Verif.Spec

/-- Non-negative multiples of constraints whose sum covers the objective in each variable. -/
def Covers (P : Program) (cert : List (ℚ × ℕ)) : Prop :=
  (∀ c ∈ cert, 0 ≤ c.1) ∧
    ∀ v ∈ P.objective.map (·.2) ++ cert.flatMap (fun c => (constraintAt P c.2).1.map (·.2)),
      coeff P.objective v ≤ (cert.map (fun c => c.1 * coeff (constraintAt P c.2).1 v)).sum

instance (P : Program) (cert : List (ℚ × ℕ)) : Decidable (Covers P cert) := by
  unfold Covers
  infer_instance

theorem Covers.le {P : Program} {cert : List (ℚ × ℕ)} (h : Covers P cert) (hi : P.integers = []) {y : Key → ℚ}
    (hy : P.Feasible y) :
    termSum y P.objective ≤ (cert.map (fun c => c.1 * (constraintAt P c.2).2)).sum := by
  classical
  obtain ⟨h1, h2⟩ := h
  have hpos : ∀ v, 0 ≤ y v := fun v => (hy.range v (by rw [hi]; simp)).1
  let S : Finset Key :=
    (P.objective.map (·.2) ++ cert.flatMap (fun c => (constraintAt P c.2).1.map (·.2))).toFinset
  have hS : ∀ t ∈ P.objective, t.2 ∈ S := fun t ht =>
    List.mem_toFinset.2 (List.mem_append_left _ (List.mem_map_of_mem ht))
  have hC : ∀ c ∈ cert, ∀ t ∈ (constraintAt P c.2).1, t.2 ∈ S := fun c hc t ht =>
    List.mem_toFinset.2 (List.mem_append_right _ (List.mem_flatMap.2 ⟨c, hc, List.mem_map_of_mem ht⟩))
  have hsum : (cert.map (fun c => c.1 * termSum y (constraintAt P c.2).1)).sum ≤
      (cert.map (fun c => c.1 * (constraintAt P c.2).2)).sum := by
    apply List.sum_le_sum
    intro c hc
    exact mul_le_mul_of_nonneg_left (constraintAt_le hy _) (h1 c hc)
  refine le_trans ?_ hsum
  rw [termSum_coeff y P.objective S hS]
  calc ∑ v ∈ S, coeff P.objective v * y v
      ≤ ∑ v ∈ S, (cert.map (fun c => c.1 * coeff (constraintAt P c.2).1 v)).sum * y v := by
        apply Finset.sum_le_sum
        intro v hv
        exact mul_le_mul_of_nonneg_right (h2 v (List.mem_toFinset.1 hv)) (hpos _)
    _ = _ := by
        clear h2 hsum h1
        clear_value S
        induction cert with
        | nil => simp
        | cons c cert ih =>
          simp only [List.map_cons, List.sum_cons, add_mul, Finset.sum_add_distrib]
          rw [ih (fun d hd => hC d (List.mem_cons_of_mem _ hd)),
            termSum_coeff y _ S (hC c List.mem_cons_self), Finset.mul_sum]
          simp only [mul_assoc]

/-- Feasibility of a listed assignment, in decidable form. -/
def ListedMixed (P : Program) (l : Exp) : Prop :=
  P.integers = [] ∧ (∀ v ∈ P.binaries, coeff l v = 0 ∨ coeff l v = 1) ∧
    (∀ c ∈ P.equalities, termSum (listed l) c.1 = c.2) ∧
    (∀ c ∈ P.inequalities, termSum (listed l) c.1 ≤ c.2) ∧ ∀ t ∈ l, 0 ≤ t.1 ∧ coeff l t.2 ≤ 1

instance (P : Program) (l : Exp) : Decidable (ListedMixed P l) := by
  unfold ListedMixed
  infer_instance

theorem ListedMixed.feasible {P : Program} {l : Exp} (h : ListedMixed P l) : P.Feasible (listed l) where
  eq := h.2.2.1
  le := h.2.2.2.1
  integer := by rw [h.1]; simp
  binary := h.2.1
  range := by
    intro v _
    refine ⟨coeff_nonneg (fun t ht => (h.2.2.2.2 t ht).1) v, ?_⟩
    unfold listed
    by_cases hv : ∃ t ∈ l, t.2 = v
    · obtain ⟨t, ht, rfl⟩ := hv
      exact (h.2.2.2.2 t ht).2
    · have : l.filter (fun t => t.2 = v) = [] := by
        rw [List.filter_eq_nil_iff]
        intro t ht hc
        exact hv ⟨t, ht, by simpa using hc⟩
      unfold coeff
      rw [this]
      simp

/-- A listed assignment of value `v` and a certificate that no assignment has a larger value. -/
def CoverOpt (P : Program) (l : Exp) (cert : List (ℚ × ℕ)) (v : ℕ) : Prop :=
  ListedMixed P l ∧ Covers P cert ∧ termSum (listed l) P.objective = v ∧
    (cert.map (fun c => c.1 * (constraintAt P c.2).2)).sum ≤ v ∧ (lrint (v : ℚ)).toNat = v

instance (P : Program) (l : Exp) (cert : List (ℚ × ℕ)) (v : ℕ) : Decidable (CoverOpt P l cert v) := by
  unfold CoverOpt
  infer_instance

theorem CoverOpt.solved {P : Program} {l : Exp} {cert : List (ℚ × ℕ)} {v : ℕ} (h : CoverOpt P l cert v)
    {solve : Solver} (h1 : ∀ P x, solve P = some x → P.Maximum x) (h2 : ∀ P x, P.Maximum x → (solve P).isSome) :
    solved solve P = some v := by
  obtain ⟨hf, hc, hv, hle, hr⟩ := h
  have hmax : P.Maximum (listed l) := ⟨hf.feasible, fun y hy => by
    rw [hv]
    exact (hc.le hf.1 hy).trans hle⟩
  obtain ⟨x, hx⟩ := Option.isSome_iff_exists.1 (h2 P _ hmax)
  have hm := h1 P x hx
  have e : termSum x P.objective = v := by
    refine le_antisymm ?_ ?_
    · rw [← hv]
      exact hmax.best x hm.feasible
    · rw [← hv]
      exact hm.best _ hmax.feasible
  unfold Lp.solved
  rw [hx]
  simp only [Option.map_some, e, hr]

/-- The same for a program that may fail to exist. -/
theorem bind_cover {o : Option Program} (l : Exp) (cert : List (ℚ × ℕ)) {v : ℕ}
    (h : o.any (fun P => decide (CoverOpt P l cert v)) = true) {solve : Solver}
    (h1 : ∀ P x, solve P = some x → P.Maximum x) (h2 : ∀ P x, P.Maximum x → (solve P).isSome) :
    o.bind (solved solve) = some v := by
  obtain ⟨P, rfl, hd⟩ := (Option.any_eq_true _ _).1 h
  exact (of_decide_eq_true hd).solved h1 h2

end Verif.SR.Lp
