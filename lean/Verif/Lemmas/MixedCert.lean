/-
Certificates for the optimum of mixed-integer linear programs.
-/
import Verif.Spec.MixedProgram
import Mathlib.Algebra.BigOperators.Ring.Finset
import Mathlib.Algebra.Order.BigOperators.Group.Finset
import Mathlib.Algebra.Order.BigOperators.Group.List
import Mathlib.Tactic.Ring
import Mathlib.Data.Nat.Cast.Order.Ring

namespace Verif.Spec.Mixed

variable {V : Type} [DecidableEq V]

/-- The coefficient of a variable in an expression. -/
def coeff (e : List (ℚ × V)) (v : V) : ℚ := ((e.filter (fun t => t.2 = v)).map (fun t => t.1)).sum

theorem valueOf_coeff (x : V → ℚ) (e : List (ℚ × V)) (S : Finset V) (hS : ∀ t ∈ e, t.2 ∈ S) :
    valueOf x e = ∑ v ∈ S, coeff e v * x v := by
  induction e with
  | nil => simp [valueOf, coeff]
  | cons t e ih =>
    have h1 : valueOf x (t :: e) = t.1 * x t.2 + valueOf x e := by simp [valueOf]
    rw [h1, ih (fun u hu => hS u (List.mem_cons_of_mem _ hu))]
    have h2 : ∀ v, coeff (t :: e) v = (if t.2 = v then t.1 else 0) + coeff e v := by
      intro v
      unfold coeff
      rw [List.filter_cons]
      by_cases h : t.2 = v <;> simp [h]
    simp only [h2, add_mul, Finset.sum_add_distrib]
    congr 1
    rw [Finset.sum_eq_single t.2]
    · rw [if_pos rfl]
    · intro v _ hv
      rw [if_neg (Ne.symm hv), zero_mul]
    · intro h
      exact absurd (hS t List.mem_cons_self) h

/-- The inequality with index `n`. -/
def constraintAt (P : MixedProgram V) (n : ℕ) : List (ℚ × V) × ℚ := (P.inequalities[n]?).getD ([], 0)

omit [DecidableEq V] in
theorem constraintAt_le {P : MixedProgram V} {y : V → ℚ} (hy : P.Feasible y) (n : ℕ) :
    valueOf y (constraintAt P n).1 ≤ (constraintAt P n).2 := by
  unfold constraintAt
  rcases h : P.inequalities[n]? with _ | c
  · simp [valueOf]
  · rw [Option.getD_some]
    exact hy.le c (List.mem_of_getElem? h)

/-- Non-negative multiples of constraints whose sum covers the objective in each variable, and all variables are
non-negative or binary. -/
def Covers (P : MixedProgram V) (cert : List (ℚ × ℕ)) : Prop :=
  (∀ c ∈ cert, 0 ≤ c.1) ∧
    ∀ v ∈ P.objective.map (·.2) ++ cert.flatMap (fun c => (constraintAt P c.2).1.map (·.2)), (v ∈ P.nonneg ∨ v ∈ P.binaries) ∧
      coeff P.objective v ≤ (cert.map (fun c => c.1 * coeff (constraintAt P c.2).1 v)).sum

instance (P : MixedProgram V) (cert : List (ℚ × ℕ)) : Decidable (Covers P cert) := by
  unfold Covers
  infer_instance

theorem Covers.le {P : MixedProgram V} {cert : List (ℚ × ℕ)} (h : Covers P cert) {y : V → ℚ} (hy : P.Feasible y) :
    valueOf y P.objective ≤ (cert.map (fun c => c.1 * (constraintAt P c.2).2)).sum := by
  obtain ⟨h1, h2⟩ := h
  let S : Finset V :=
    (P.objective.map (·.2) ++ cert.flatMap (fun c => (constraintAt P c.2).1.map (·.2))).toFinset
  have hS : ∀ t ∈ P.objective, t.2 ∈ S := fun t ht =>
    List.mem_toFinset.2 (List.mem_append_left _ (List.mem_map_of_mem ht))
  have hC : ∀ c ∈ cert, ∀ t ∈ (constraintAt P c.2).1, t.2 ∈ S := fun c hc t ht =>
    List.mem_toFinset.2 (List.mem_append_right _ (List.mem_flatMap.2 ⟨c, hc, List.mem_map_of_mem ht⟩))
  have hsum : (cert.map (fun c => c.1 * valueOf y (constraintAt P c.2).1)).sum ≤
      (cert.map (fun c => c.1 * (constraintAt P c.2).2)).sum := by
    apply List.sum_le_sum
    intro c hc
    exact mul_le_mul_of_nonneg_left (constraintAt_le hy _) (h1 c hc)
  refine le_trans ?_ hsum
  rw [valueOf_coeff y P.objective S hS]
  calc ∑ v ∈ S, coeff P.objective v * y v
      ≤ ∑ v ∈ S, (cert.map (fun c => c.1 * coeff (constraintAt P c.2).1 v)).sum * y v := by
        apply Finset.sum_le_sum
        intro v hv
        obtain ⟨h3, h4⟩ := h2 v (List.mem_toFinset.1 hv)
        refine mul_le_mul_of_nonneg_right h4 ?_
        rcases h3 with h3 | h3
        · exact hy.nonneg _ h3
        · rcases hy.binary _ h3 with h | h <;> rw [h]
          exact zero_le_one
    _ = _ := by
        clear h2 hsum h1
        clear_value S
        induction cert with
        | nil => simp
        | cons c cert ih =>
          simp only [List.map_cons, List.sum_cons, add_mul, Finset.sum_add_distrib]
          rw [ih (fun d hd => hC d (List.mem_cons_of_mem _ hd)),
            valueOf_coeff y _ S (hC c List.mem_cons_self), Finset.mul_sum]
          simp only [mul_assoc]

/-- The assignment of natural numbers to the listed variables; other variables are zero. -/
def listed (l : List (ℕ × V)) (v : V) : ℚ := (((l.filter (fun t => t.2 = v)).map (fun t => t.1)).sum : ℕ)

/-- A feasible assignment of value `v`, and a certificate that no assignment has a larger value. -/
def Certified (P : MixedProgram V) (l : List (ℕ × V)) (cert : List (ℚ × ℕ)) (v : ℕ) : Prop :=
  (∀ c ∈ P.inequalities, valueOf (listed l) c.1 ≤ c.2) ∧ (∀ v ∈ P.binaries, listed l v = 0 ∨ listed l v = 1) ∧ Covers P cert ∧
    valueOf (listed l) P.objective = v ∧ (cert.map (fun c => c.1 * (constraintAt P c.2).2)).sum ≤ v

instance (P : MixedProgram V) (l : List (ℕ × V)) (cert : List (ℚ × ℕ)) (v : ℕ) : Decidable (Certified P l cert v) := by
  unfold Certified
  infer_instance

theorem Certified.maximum {P : MixedProgram V} {l : List (ℕ × V)} {cert : List (ℚ × ℕ)} {v : ℕ}
    (h : Certified P l cert v) : P.Maximum (listed l) ∧ valueOf (listed l) P.objective = v := by
  obtain ⟨h1, h2, h3, h4, h5⟩ := h
  refine ⟨⟨⟨h1, fun v _ => Nat.cast_nonneg _, h2, fun v _ => ⟨_, (Int.cast_natCast _).symm⟩⟩, ?_⟩, h4⟩
  intro y hy
  rw [h4]
  exact (h3.le hy).trans h5

theorem Maximum.eq {P : MixedProgram V} {x y : V → ℚ} (hx : P.Maximum x) (hy : P.Maximum y) :
    valueOf x P.objective = valueOf y P.objective :=
  le_antisymm (hy.best x hx.feasible) (hx.best y hy.feasible)

/-- No constraint excludes that all variables are zero. -/
def ZeroOk {V : Type} (P : MixedProgram V) : Prop := ∀ c ∈ P.inequalities, 0 ≤ c.2

omit [DecidableEq V] in
theorem ZeroOk.feasible {P : MixedProgram V} (h : ZeroOk P) : P.Feasible (fun _ => 0) := by
  refine ⟨fun c hc => ?_, fun v _ => le_rfl, fun v _ => Or.inl rfl, fun v _ => ⟨0, by simp⟩⟩
  have : valueOf (fun _ : V => (0 : ℚ)) c.1 = 0 := by simp [valueOf]
  rw [this]
  exact h c hc

end Verif.Spec.Mixed
