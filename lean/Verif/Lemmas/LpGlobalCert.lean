/-
Certificates for the optimum of the LPs for global scheduling.
-/
import Verif.Lemmas.LpGlobal

namespace Verif.SR.Lp.Glob
open Verif.Spec

/-- The coefficient of a variable in an expression. -/
def coeff (e : Exp) (v : Var) : ℚ := ((e.filter (fun t => t.2 = v)).map (fun t => t.1)).sum

theorem termSum_coeff (x : Var → ℚ) (e : Exp) (S : Finset Var) (hS : ∀ t ∈ e, t.2 ∈ S) :
    termSum x e = ∑ v ∈ S, coeff e v * x v := by
  induction e with
  | nil => simp [termSum, coeff]
  | cons t e ih =>
    have h1 : termSum x (t :: e) = t.1 * x t.2 + termSum x e := by simp [termSum]
    rw [h1, ih (fun u hu => hS u (List.mem_cons_of_mem _ hu))]
    have h2 : ∀ v, coeff (t :: e) v = (if t.2 = v then t.1 else 0) + coeff e v := by
      intro v
      unfold coeff
      rw [List.filter_cons]
      by_cases h : t.2 = v <;> simp [h]
    simp only [h2, add_mul, Finset.sum_add_distrib]
    congr 1
    rw [Finset.sum_eq_single t.2]
    · rw [if_pos rfl]
    · intro v _ hv
      rw [if_neg (Ne.symm hv), zero_mul]
    · intro h
      exact absurd (hS t List.mem_cons_self) h

/-- The inequality with index `n`. -/
def constraintAt (P : Program) (n : ℕ) : Exp × ℚ := (P.inequalities[n]?).getD ([], 0)

theorem constraintAt_le {P : Program} {y : Var → ℚ} (hy : P.Feasible y) (n : ℕ) :
    termSum y (constraintAt P n).1 ≤ (constraintAt P n).2 := by
  unfold constraintAt
  rcases h : P.inequalities[n]? with _ | c
  · simp [termSum]
  · rw [Option.getD_some]
    exact hy.le c (List.mem_of_getElem? h)

/-- Non-negative multiples of constraints whose sum covers the objective in each variable. -/
def Covers (P : Program) (cert : List (ℚ × ℕ)) : Prop :=
  (∀ c ∈ cert, 0 ≤ c.1) ∧
    ∀ v ∈ P.objective.map (·.2) ++ cert.flatMap (fun c => (constraintAt P c.2).1.map (·.2)),
      coeff P.objective v ≤ (cert.map (fun c => c.1 * coeff (constraintAt P c.2).1 v)).sum

instance (P : Program) (cert : List (ℚ × ℕ)) : Decidable (Covers P cert) := by
  unfold Covers
  infer_instance

theorem Covers.le {P : Program} {cert : List (ℚ × ℕ)} (h : Covers P cert) {y : Var → ℚ} (hy : P.Feasible y) :
    termSum y P.objective ≤ (cert.map (fun c => c.1 * (constraintAt P c.2).2)).sum := by
  classical
  obtain ⟨h1, h2⟩ := h
  let S : Finset Var :=
    (P.objective.map (·.2) ++ cert.flatMap (fun c => (constraintAt P c.2).1.map (·.2))).toFinset
  have hS : ∀ t ∈ P.objective, t.2 ∈ S := fun t ht =>
    List.mem_toFinset.2 (List.mem_append_left _ (List.mem_map_of_mem ht))
  have hC : ∀ c ∈ cert, ∀ t ∈ (constraintAt P c.2).1, t.2 ∈ S := fun c hc t ht =>
    List.mem_toFinset.2 (List.mem_append_right _ (List.mem_flatMap.2 ⟨c, hc, List.mem_map_of_mem ht⟩))
  have hsum : (cert.map (fun c => c.1 * termSum y (constraintAt P c.2).1)).sum ≤
      (cert.map (fun c => c.1 * (constraintAt P c.2).2)).sum := by
    apply List.sum_le_sum
    intro c hc
    exact mul_le_mul_of_nonneg_left (constraintAt_le hy _) (h1 c hc)
  refine le_trans ?_ hsum
  rw [termSum_coeff y P.objective S hS]
  calc ∑ v ∈ S, coeff P.objective v * y v
      ≤ ∑ v ∈ S, (cert.map (fun c => c.1 * coeff (constraintAt P c.2).1 v)).sum * y v := by
        apply Finset.sum_le_sum
        intro v hv
        exact mul_le_mul_of_nonneg_right (h2 v (List.mem_toFinset.1 hv)) (hy.nonneg _)
    _ = _ := by
        clear h2 hsum h1
        clear_value S
        induction cert with
        | nil => simp
        | cons c cert ih =>
          simp only [List.map_cons, List.sum_cons, add_mul, Finset.sum_add_distrib]
          rw [ih (fun d hd => hC d (List.mem_cons_of_mem _ hd)),
            termSum_coeff y _ S (hC c List.mem_cons_self), Finset.mul_sum]
          simp only [mul_assoc]

/-- A listed assignment; other variables are zero. -/
def listed (l : Exp) (v : Var) : ℚ := coeff l v

/-- A feasible listed assignment of value `v`, and a certificate that no assignment has a larger value. -/
def CoverOpt (P : Program) (l : Exp) (cert : List (ℚ × ℕ)) (v : ℕ) : Prop :=
  (∀ c ∈ P.inequalities, termSum (listed l) c.1 ≤ c.2) ∧ (∀ t ∈ l, 0 ≤ t.1 ∧ (t.2 ∈ P.unbounded ∨ coeff l t.2 ≤ 1)) ∧
    Covers P cert ∧ termSum (listed l) P.objective = v ∧ (cert.map (fun c => c.1 * (constraintAt P c.2).2)).sum ≤ v

instance (P : Program) (l : Exp) (cert : List (ℚ × ℕ)) (v : ℕ) : Decidable (CoverOpt P l cert v) := by
  unfold CoverOpt
  infer_instance

theorem CoverOpt.maximum {P : Program} {l : Exp} {cert : List (ℚ × ℕ)} {v : ℕ} (h : CoverOpt P l cert v) :
    P.Maximum (listed l) := by
  obtain ⟨h1, h2, h3, h4, h5⟩ := h
  have hz : ∀ v, (¬ ∃ t ∈ l, t.2 = v) → listed l v = 0 := by
    intro v hv
    have : l.filter (fun t => t.2 = v) = [] := by
      rw [List.filter_eq_nil_iff]
      intro t ht hc
      exact hv ⟨t, ht, by simpa using hc⟩
    unfold listed coeff
    rw [this]
    simp
  refine ⟨⟨h1, ?_, ?_⟩, ?_⟩
  · intro v
    unfold listed coeff
    apply List.sum_nonneg
    intro a ha
    obtain ⟨t, ht, rfl⟩ := List.mem_map.1 ha
    exact (h2 t (List.mem_filter.1 ht).1).1
  · intro v hv
    by_cases hvl : ∃ t ∈ l, t.2 = v
    · obtain ⟨t, ht, rfl⟩ := hvl
      rcases (h2 t ht).2 with hc | hc
      · exact absurd hc hv
      · exact hc
    · rw [hz v hvl]
      norm_num
  · intro y hy
    rw [h4]
    exact (h3.le hy).trans h5

theorem CoverOpt.solved {P : Program} {l : Exp} {cert : List (ℚ × ℕ)} {v : ℕ} (h : CoverOpt P l cert v)
    {solve : Solver} (h1 : ∀ P x, solve P = some x → P.Maximum x) (h2 : ∀ P x, P.Maximum x → (solve P).isSome)
    {ti : TaskInfo} (hc : ti.cost ≤ ti.response) : solved solve ti P = some v := by
  have hmax := h.maximum
  have hv := h.2.2.2.1
  obtain ⟨x, hx⟩ := Option.isSome_iff_exists.1 (h2 P _ hmax)
  have hm := h1 P x hx
  have e : termSum x P.objective = v := by
    refine le_antisymm ?_ ?_
    · rw [← hv]
      exact hmax.best x hm.feasible
    · rw [← hv]
      exact hm.best _ hmax.feasible
  unfold Glob.solved
  rw [hx]
  simp only [e]
  rw [if_neg (by omega), if_neg]
  · simp
  · rintro ⟨h3, h4⟩
    have h5 : v < ti.response - ti.cost := by exact_mod_cast h3
    have h6 : ((v + 1 : ℕ) : ℚ) ≤ ((ti.response - ti.cost : ℕ) : ℚ) := by exact_mod_cast h5
    push_cast at h6
    linarith

/-- There is a solver that finds an optimal solution whenever there is one. -/
theorem exists_solver : ∃ solve : Solver, (∀ P x, solve P = some x → P.Maximum x) ∧
    ∀ P x, P.Maximum x → (solve P).isSome := by
  classical
  refine ⟨fun P => if h : ∃ x, P.Maximum x then some h.choose else none, ?_, ?_⟩
  · intro P x hx
    dsimp only at hx
    split_ifs at hx with h
    cases hx
    exact h.choose_spec
  · intro P x hx
    dsimp only
    rw [dif_pos ⟨x, hx⟩]
    rfl

end Verif.SR.Lp.Glob
