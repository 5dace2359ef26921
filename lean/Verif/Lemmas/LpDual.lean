/-
Certificates for the optimum of a linear program: multiples of the constraints that dominate the objective.
-/
import Verif.Lemmas.LpExample
import Mathlib.Algebra.BigOperators.Ring.Finset
import Mathlib.Algebra.Order.BigOperators.Group.Finset

namespace Verif.SR.Lp
open Verif.Spec

/-- The coefficient of a variable in an expression. -/
def coeff (e : Exp) (v : Key) : ℚ := ((e.filter (fun t => t.2 = v)).map (fun t => t.1)).sum

theorem termSum_coeff (x : Key → ℚ) (e : Exp) (S : Finset Key) (hS : ∀ t ∈ e, t.2 ∈ S) :
    termSum x e = ∑ v ∈ S, coeff e v * x v := by
  induction e with
  | nil => simp [termSum, coeff]
  | cons t e ih =>
    have h1 : termSum x (t :: e) = t.1 * x t.2 + termSum x e := by simp [termSum]
    rw [h1, ih (fun u hu => hS u (List.mem_cons_of_mem _ hu))]
    have h2 : ∀ v, coeff (t :: e) v = (if t.2 = v then t.1 else 0) + coeff e v := by
      intro v
      unfold coeff
      rw [List.filter_cons]
      by_cases h : t.2 = v <;> simp [h]
    simp only [h2, add_mul, Finset.sum_add_distrib]
    congr 1
    rw [Finset.sum_eq_single t.2]
    · rw [if_pos rfl]
    · intro v _ hv
      rw [if_neg (Ne.symm hv), zero_mul]
    · intro h
      exact absurd (hS t List.mem_cons_self) h

/-- The constraint with index `n`; the equalities come after the inequalities. -/
def constraintAt (P : Program) (n : ℕ) : Exp × ℚ := ((P.inequalities ++ P.equalities)[n]?).getD ([], 0)

theorem constraintAt_le {P : Program} {y : Key → ℚ} (hy : P.Feasible y) (n : ℕ) :
    termSum y (constraintAt P n).1 ≤ (constraintAt P n).2 := by
  unfold constraintAt
  rcases h : (P.inequalities ++ P.equalities)[n]? with _ | c
  · simp [termSum]
  · rw [Option.getD_some]
    rcases List.mem_append.1 (List.mem_of_getElem? h) with h | h
    · exact hy.le c h
    · exact (hy.eq c h).le

/-- Non-negative multiples of constraints whose sum dominates the objective in each variable. -/
def Dominates (P : Program) (cert : List (ℚ × ℕ)) : Prop :=
  (∀ c ∈ cert, 0 ≤ c.1) ∧ (∀ c ∈ cert, ∀ t ∈ (constraintAt P c.2).1, 0 ≤ t.1) ∧
    ∀ t ∈ P.objective, coeff P.objective t.2 ≤ (cert.map (fun c => c.1 * coeff (constraintAt P c.2).1 t.2)).sum

instance (P : Program) (cert : List (ℚ × ℕ)) : Decidable (Dominates P cert) := by
  unfold Dominates
  infer_instance

theorem coeff_nonneg {e : Exp} (h : ∀ t ∈ e, 0 ≤ t.1) (v : Key) : 0 ≤ coeff e v := by
  unfold coeff
  apply List.sum_nonneg
  intro a ha
  obtain ⟨t, ht, rfl⟩ := List.mem_map.1 ha
  exact h t (List.mem_filter.1 ht).1

theorem Dominates.le {P : Program} {cert : List (ℚ × ℕ)} (h : Dominates P cert) (hi : P.integers = []) {y : Key → ℚ}
    (hy : P.Feasible y) :
    termSum y P.objective ≤ (cert.map (fun c => c.1 * (constraintAt P c.2).2)).sum := by
  classical
  obtain ⟨h1, h2, h3⟩ := h
  have hpos : ∀ v, 0 ≤ y v := fun v => (hy.range v (by rw [hi]; simp)).1
  have hsum : ∀ cert : List (ℚ × ℕ), (∀ c ∈ cert, 0 ≤ c.1) →
      (cert.map (fun c => c.1 * termSum y (constraintAt P c.2).1)).sum ≤
        (cert.map (fun c => c.1 * (constraintAt P c.2).2)).sum := by
    intro cert h1
    apply List.sum_le_sum
    intro c hc
    exact mul_le_mul_of_nonneg_left (constraintAt_le hy _) (h1 c hc)
  refine le_trans ?_ (hsum cert h1)
  let S : Finset Key := (P.objective.map (·.2)).toFinset
  have hS : ∀ t ∈ P.objective, t.2 ∈ S := fun t ht => List.mem_toFinset.2 (List.mem_map_of_mem ht)
  rw [termSum_coeff y P.objective S hS]
  have h4 : ∀ n, (∀ t ∈ (constraintAt P n).1, 0 ≤ t.1) →
      ∑ v ∈ S, coeff (constraintAt P n).1 v * y v ≤ termSum y (constraintAt P n).1 := by
    intro n hn
    rw [termSum_coeff y (constraintAt P n).1 (S ∪ ((constraintAt P n).1.map (·.2)).toFinset)
      (fun t ht => Finset.mem_union_right _ (List.mem_toFinset.2 (List.mem_map_of_mem ht)))]
    exact Finset.sum_le_sum_of_subset_of_nonneg Finset.subset_union_left
      (fun v _ _ => mul_nonneg (coeff_nonneg hn v) (hpos v))
  calc ∑ v ∈ S, coeff P.objective v * y v
      ≤ ∑ v ∈ S, (cert.map (fun c => c.1 * coeff (constraintAt P c.2).1 v)).sum * y v := by
        apply Finset.sum_le_sum
        intro v hv
        obtain ⟨t, ht, rfl⟩ := List.mem_map.1 (List.mem_toFinset.1 hv)
        exact mul_le_mul_of_nonneg_right (h3 t ht) (hpos _)
    _ ≤ _ := by
        clear h3 hsum
        induction cert with
        | nil => simp
        | cons c cert ih =>
          simp only [List.map_cons, List.sum_cons, add_mul, Finset.sum_add_distrib]
          refine add_le_add ?_ (ih (fun d hd => h1 d (List.mem_cons_of_mem _ hd))
            (fun d hd => h2 d (List.mem_cons_of_mem _ hd)))
          simp only [mul_assoc]
          rw [← Finset.mul_sum]
          exact mul_le_mul_of_nonneg_left (h4 _ (h2 c List.mem_cons_self)) (h1 c List.mem_cons_self)

/-- The assignment that maps the listed variables to the given values and the others to 0. -/
def listed (l : Exp) (v : Key) : ℚ := coeff l v

/-- A feasible point whose value is that of a certificate is optimal. -/
theorem maximum_of_dominates {P : Program} {x : Key → ℚ} (cert : List (ℚ × ℕ)) (hf : P.Feasible x)
    (hi : P.integers = []) (hd : Dominates P cert)
    (hv : (cert.map (fun c => c.1 * (constraintAt P c.2).2)).sum ≤ termSum x P.objective) : P.Maximum x :=
  ⟨hf, fun _ hy => (hd.le hi hy).trans hv⟩

/-- Feasibility of a listed assignment, in decidable form. -/
def ListedFeasible (P : Program) (l : Exp) : Prop :=
  P.integers = [] ∧ P.binaries = [] ∧ (∀ c ∈ P.equalities, termSum (listed l) c.1 = c.2) ∧
    (∀ c ∈ P.inequalities, termSum (listed l) c.1 ≤ c.2) ∧ ∀ t ∈ l, 0 ≤ t.1 ∧ coeff l t.2 ≤ 1

instance (P : Program) (l : Exp) : Decidable (ListedFeasible P l) := by
  unfold ListedFeasible
  infer_instance

theorem ListedFeasible.feasible {P : Program} {l : Exp} (h : ListedFeasible P l) : P.Feasible (listed l) where
  eq := h.2.2.1
  le := h.2.2.2.1
  integer := by rw [h.1]; simp
  binary := by rw [h.2.1]; simp
  range := by
    intro v _
    refine ⟨coeff_nonneg (fun t ht => (h.2.2.2.2 t ht).1) v, ?_⟩
    unfold listed
    by_cases hv : ∃ t ∈ l, t.2 = v
    · obtain ⟨t, ht, rfl⟩ := hv
      exact (h.2.2.2.2 t ht).2
    · have : l.filter (fun t => t.2 = v) = [] := by
        rw [List.filter_eq_nil_iff]
        intro t ht hc
        exact hv ⟨t, ht, by simpa using hc⟩
      unfold coeff
      rw [this]
      simp

/-- A listed assignment and a certificate of its optimality. -/
theorem maximum_listed {P : Program} {l : Exp} (cert : List (ℚ × ℕ))
    (h : ListedFeasible P l ∧ Dominates P cert ∧
      (cert.map (fun c => c.1 * (constraintAt P c.2).2)).sum ≤ termSum (listed l) P.objective) :
    P.Maximum (listed l) :=
  maximum_of_dominates cert h.1.feasible h.1.1 h.2.1 h.2.2

end Verif.SR.Lp
