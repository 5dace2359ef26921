/-
The results of the LP-based analysis of the MPCP for a task, from optimal solutions of both linear programs.
-/
import Verif.Model.LpMpcp
import Verif.Lemmas.LpDual

namespace Verif.SR.Lp
open Verif.Spec

/-- What has to be checked for the optimum of a program. -/
def Optimal (P : Program) (l : Exp) (cert : List (ℚ × ℕ)) (v : ℕ) : Prop :=
  ListedFeasible P l ∧ Dominates P cert ∧
    (cert.map (fun c => c.1 * (constraintAt P c.2).2)).sum ≤ termSum (listed l) P.objective ∧
    (lrint (termSum (listed l) P.objective)).toNat = v

instance (P : Program) (l : Exp) (cert : List (ℚ × ℕ)) (v : ℕ) : Decidable (Optimal P l cert v) := by
  unfold Optimal
  infer_instance

theorem Optimal.solved {P : Program} {l : Exp} {cert : List (ℚ × ℕ)} {v : ℕ} (h : Optimal P l cert v) {solve : Solver}
    (h1 : ∀ P x, solve P = some x → P.Maximum x) (h2 : ∀ P x, P.Maximum x → (solve P).isSome) :
    ∃ x, solve P = some x ∧ (lrint (termSum x P.objective)).toNat = v := by
  obtain ⟨a, b, c, d⟩ := h
  have hm := maximum_listed cert ⟨a, b, c⟩
  obtain ⟨x, hx⟩ := Option.isSome_iff_exists.1 (h2 P _ hm)
  refine ⟨x, hx, ?_⟩
  rw [← d]
  have := h1 P x hx
  rw [le_antisymm (hm.best _ this.feasible) (this.best _ hm.feasible)]

theorem lpMpcpTask_eq {solve : Solver} (h1 : ∀ P x, solve P = some x → P.Maximum x)
    (h2 : ∀ P x, P.Maximum x → (solve P).isSome) {info : Info} {fuel i : ℕ} {ti : TaskInfo}
    (ds : List (ℕ × Option ℕ)) (l l' : Exp) (cert cert' : List (ℚ × ℕ)) {total remote : ℕ}
    (hd : remoteDelays info fuel i ti = some ds)
    (ht : Optimal (mpcpConstraints info ds i ti { objective := partObjective info i ti }) l cert total)
    (hr : Optimal { mpcpConstraints info ds i ti { objective := partObjective info i ti } with
      objective := remoteObjective info i ti } l' cert' remote) :
    ∃ loc, lpMpcpTask solve info fuel i ti = some ⟨total, remote, loc⟩ := by
  obtain ⟨x, hx, hxv⟩ := ht.solved h1 h2
  obtain ⟨y, hy, hyv⟩ := hr.solved h1 h2
  unfold lpMpcpTask
  simp only [hd, Option.bind_eq_bind, Option.bind_some, hx, hy, hxv, hyv]
  exact ⟨_, rfl⟩

theorem best_some (P : Program) (x : Key → ℚ) (h : P.Maximum x) : (best P).isSome := by
  unfold best
  rw [dif_pos ⟨x, h⟩]
  rfl

end Verif.SR.Lp
