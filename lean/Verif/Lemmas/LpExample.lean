/-
A solver for examples: it returns an optimal solution if there is one.
-/
import Verif.Model.LpCommon
import Verif.Lemmas.LpCharge

namespace Verif.SR.Lp
open Verif.Spec

open Classical in
/-- An optimal solution, if there is one. -/
noncomputable def best : Solver := fun P => if h : ∃ x, P.Maximum x then some h.choose else none

theorem best_maximum (P : Program) (x : Key → ℚ) (h : best P = some x) : P.Maximum x := by
  unfold best at h
  by_cases hx : ∃ x, P.Maximum x
  · rw [dif_pos hx] at h
    cases h
    exact hx.choose_spec
  · rw [dif_neg hx] at h
    cases h

theorem solved_best {P : Program} {x : Key → ℚ} {v : ℕ} (h : P.Maximum x)
    (hv : (lrint (termSum x P.objective)).toNat = v) : solved best P = some v := by
  have hx : ∃ x, P.Maximum x := ⟨x, h⟩
  unfold solved best
  rw [dif_pos hx, Option.map_some, ← hv]
  have h1 := hx.choose_spec.best x h.feasible
  have h2 := h.best _ hx.choose_spec.feasible
  rw [le_antisymm h2 h1]

theorem bind_best {o : Option Program} {x : Key → ℚ} {v : ℕ} (p : Program → Prop)
    (ho : ∃ P ∈ o, p P) (h : ∀ P, p P → P.Maximum x)
    (hv : ∀ P, p P → (lrint (termSum x P.objective)).toNat = v) : o.bind (solved best) = some v := by
  obtain ⟨P, hP, hp⟩ := ho
  rw [Option.mem_def] at hP
  rw [hP]
  exact solved_best (h P hp) (hv P hp)

theorem mapM_three {α : Type} {f : α → Option ℕ} {a b c : α} {x y z : ℕ} (ha : f a = some x) (hb : f b = some y)
    (hc : f c = some z) : [a, b, c].mapM f = some [x, y, z] := by
  simp [ha, hb, hc]

end Verif.SR.Lp
