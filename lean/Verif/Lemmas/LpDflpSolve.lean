/-
The results of the LP-based analysis of the DFLP for a task, from an optimal solution of the linear program.
-/
import Verif.Model.LpDflp
import Verif.Lemmas.LpDpcpSolve

namespace Verif.SR.Lp
open Verif.Spec
open Verif.SR.Dpcp (Locality)

/-- Both parts are determined if the total is the sum of their bounds. -/
theorem dflpTask_mixed {solve : Solver} (h1 : ∀ P x, solve P = some x → P.Maximum x)
    (h2 : ∀ P x, P.Maximum x → (solve P).isSome) {info : Info} {l : Locality} {i : ℕ} {ti : TaskInfo}
    (e : Exp) (cert cert' cert'' : List (ℚ × ℕ)) {rem loc : ℕ} (hl : located info l i = true)
    (ht : Optimal (dflpConstraints info l i ti { objective := partObjective info i ti }) e cert (rem + loc))
    (hv : termSum (listed e) (dflpConstraints info l i ti { objective := partObjective info i ti }).objective =
      rem + loc)
    (ho : (dflpConstraints info l i ti { objective := partObjective info i ti }).objective = partObjective info i ti)
    (hr : Dominates { dflpConstraints info l i ti { objective := partObjective info i ti } with
        objective := distRemoteObjective info l i ti } cert' ∧
      (cert'.map (fun c => c.1 * (constraintAt { dflpConstraints info l i ti { objective := partObjective info i ti } with
        objective := distRemoteObjective info l i ti } c.2).2)).sum ≤ rem)
    (hlo : Dominates { dflpConstraints info l i ti { objective := partObjective info i ti } with
        objective := distLocalObjective info l i ti } cert'' ∧
      (cert''.map (fun c => c.1 * (constraintAt { dflpConstraints info l i ti { objective := partObjective info i ti } with
        objective := distLocalObjective info l i ti } c.2).2)).sum ≤ loc)
    (hi : (dflpConstraints info l i ti { objective := partObjective info i ti }).integers = []) :
    dflpTask solve info l i ti = some ⟨rem + loc, rem, loc⟩ := by
  obtain ⟨x, hx, _⟩ := ht.solved h1 h2
  set P := dflpConstraints info l i ti { objective := partObjective info i ti } with hP
  have hmx := h1 P x hx
  have hfx := hmx.feasible
  have hle : termSum x (distRemoteObjective info l i ti) ≤ rem :=
    (hr.1.le hi ⟨hfx.eq, hfx.le, hfx.integer, hfx.binary, hfx.range⟩).trans hr.2
  have hle' : termSum x (distLocalObjective info l i ti) ≤ loc :=
    (hlo.1.le hi ⟨hfx.eq, hfx.le, hfx.integer, hfx.binary, hfx.range⟩).trans hlo.2
  have hge := hmx.best _ ht.1.feasible
  rw [hv, ho, dist_split info l i ti x] at hge
  have hloc : termSum x (distLocalObjective info l i ti) = loc := by linarith
  have htot : termSum x P.objective = ((rem + loc : ℕ) : ℚ) := by
    rw [ho, dist_split info l i ti x]
    push_cast
    linarith
  unfold dflpTask
  rw [if_pos hl]
  simp only [Option.bind_eq_bind, Option.bind_some, ← hP, hx, htot, hloc, Int.floor_natCast, Int.toNat_natCast,
    Nat.add_sub_cancel]

end Verif.SR.Lp
