/-
The results of the LP-based analysis of the DPCP for a task, from an optimal solution of the linear program.
-/
import Verif.Model.LpDpcp
import Verif.Lemmas.LpMpcpSolve
import Verif.Lemmas.LpCharge

namespace Verif.SR.Lp
open Verif.Spec
open Verif.SR.Dpcp (Locality)

/-- The part of the objective for resources on other processors. -/
def distRemoteObjective (info : Info) (l : Locality) (i : ℕ) (ti : TaskInfo) : Exp :=
  (others info i).flatMap (fun t => (t.2.requests.filter (fun r => ¬ IsLocal l ti r)).flatMap (fun r =>
    terms ti [.direct, .indirect, .preempt] t r r.length))

theorem dist_split (info : Info) (l : Locality) (i : ℕ) (ti : TaskInfo) (x : Key → ℚ) :
    termSum x (partObjective info i ti) =
      termSum x (distLocalObjective info l i ti) + termSum x (distRemoteObjective info l i ti) := by
  unfold partObjective blockingTerms distLocalObjective distRemoteObjective
  rw [termSum_flatMap, termSum_flatMap, termSum_flatMap, ← List.sum_map_add]
  congr 1
  apply List.map_congr_left
  intro t _
  rw [termSum_flatMap, termSum_flatMap, termSum_flatMap]
  induction t.2.requests with
  | nil => simp
  | cons r rs ih =>
    rw [List.map_cons, List.sum_cons, ih, List.filter_cons, List.filter_cons]
    by_cases h : IsLocal l ti r
    · simp only [h, decide_true, if_true, not_true, decide_false, List.map_cons, List.sum_cons]
      rw [add_assoc]
      rfl
    · simp only [h, decide_true, if_true, not_false_eq_true, decide_false, List.map_cons, List.sum_cons]
      rw [add_left_comm]
      rfl

theorem dpcpTask_remote {solve : Solver} (h1 : ∀ P x, solve P = some x → P.Maximum x)
    (h2 : ∀ P x, P.Maximum x → (solve P).isSome) {info : Info} {l : Locality} {useRta : Bool} {fuel i : ℕ} {ti : TaskInfo}
    (ws : Option (List (ℕ × Option ℕ))) (e : Exp) (cert : List (ℚ × ℕ)) {total : ℕ} (hl : located info l i = true)
    (hd : rtaTimes info l useRta fuel ti = some ws)
    (ht : Optimal (dpcpConstraints info l ws i ti { objective := partObjective info i ti }) e cert total)
    (h0 : distLocalObjective info l i ti = []) :
    dpcpTask solve info l useRta fuel i ti = some ⟨total, total, 0⟩ := by
  obtain ⟨x, hx, hxv⟩ := ht.solved h1 h2
  unfold dpcpTask
  rw [if_pos hl]
  simp only [hd, Option.bind_eq_bind, Option.bind_some, hx, hxv, h0]
  have : (lrint (termSum x [])).toNat = 0 := by
    unfold termSum
    rw [List.map_nil, List.sum_nil]
    decide +kernel
  rw [this]
  rfl

theorem dpcpTask_local {solve : Solver} (h1 : ∀ P x, solve P = some x → P.Maximum x)
    (h2 : ∀ P x, P.Maximum x → (solve P).isSome) {info : Info} {l : Locality} {useRta : Bool} {fuel i : ℕ} {ti : TaskInfo}
    (ws : Option (List (ℕ × Option ℕ))) (e : Exp) (cert cert' : List (ℚ × ℕ)) {total : ℕ}
    (hl : located info l i = true) (hd : rtaTimes info l useRta fuel ti = some ws)
    (ht : Optimal (dpcpConstraints info l ws i ti { objective := partObjective info i ti }) e cert total)
    (ho : (dpcpConstraints info l ws i ti { objective := partObjective info i ti }).objective = partObjective info i ti)
    (hr : Dominates { dpcpConstraints info l ws i ti { objective := partObjective info i ti } with
        objective := distRemoteObjective info l i ti } cert' ∧
      (cert'.map (fun c => c.1 * (constraintAt { dpcpConstraints info l ws i ti { objective := partObjective info i ti } with
        objective := distRemoteObjective info l i ti } c.2).2)).sum ≤ 0)
    (hi : (dpcpConstraints info l ws i ti { objective := partObjective info i ti }).integers = []) :
    dpcpTask solve info l useRta fuel i ti = some ⟨total, 0, total⟩ := by
  obtain ⟨x, hx, hxv⟩ := ht.solved h1 h2
  set P := dpcpConstraints info l ws i ti { objective := partObjective info i ti } with hP
  have hmx := h1 P x hx
  have hle : termSum x (distRemoteObjective info l i ti) ≤ 0 :=
    (hr.1.le hi ⟨hmx.feasible.eq, hmx.feasible.le, hmx.feasible.integer, hmx.feasible.binary, hmx.feasible.range⟩).trans
      hr.2
  have hge : 0 ≤ termSum x (distRemoteObjective info l i ti) := by
    unfold termSum
    apply List.sum_nonneg
    intro a ha
    obtain ⟨t, ht', rfl⟩ := List.mem_map.1 ha
    apply mul_nonneg
    · unfold distRemoteObjective terms at ht'
      simp only [List.mem_flatMap, List.mem_map] at ht'
      obtain ⟨_, _, r, _, _, _, _, _, rfl⟩ := ht'
      simp
    · exact (hmx.feasible.range t.2 (by rw [hi]; simp)).1
  have hloc : termSum x (distLocalObjective info l i ti) = termSum x P.objective := by
    rw [ho, dist_split info l i ti x]
    linarith
  unfold dpcpTask
  rw [if_pos hl]
  simp only [hd, Option.bind_eq_bind, Option.bind_some, ← hP, hx, hxv, hloc, Nat.sub_self]

/-- Both parts are determined if the total is the sum of their bounds. -/
theorem dpcpTask_mixed {solve : Solver} (h1 : ∀ P x, solve P = some x → P.Maximum x)
    (h2 : ∀ P x, P.Maximum x → (solve P).isSome) {info : Info} {l : Locality} {useRta : Bool} {fuel i : ℕ} {ti : TaskInfo}
    (ws : Option (List (ℕ × Option ℕ))) (e : Exp) (cert cert' cert'' : List (ℚ × ℕ)) {rem loc : ℕ}
    (hl : located info l i = true) (hd : rtaTimes info l useRta fuel ti = some ws)
    (ht : Optimal (dpcpConstraints info l ws i ti { objective := partObjective info i ti }) e cert (rem + loc))
    (hv : termSum (listed e) (dpcpConstraints info l ws i ti { objective := partObjective info i ti }).objective =
      rem + loc)
    (ho : (dpcpConstraints info l ws i ti { objective := partObjective info i ti }).objective = partObjective info i ti)
    (hr : Dominates { dpcpConstraints info l ws i ti { objective := partObjective info i ti } with
        objective := distRemoteObjective info l i ti } cert' ∧
      (cert'.map (fun c => c.1 * (constraintAt { dpcpConstraints info l ws i ti { objective := partObjective info i ti } with
        objective := distRemoteObjective info l i ti } c.2).2)).sum ≤ rem)
    (hlo : Dominates { dpcpConstraints info l ws i ti { objective := partObjective info i ti } with
        objective := distLocalObjective info l i ti } cert'' ∧
      (cert''.map (fun c => c.1 * (constraintAt { dpcpConstraints info l ws i ti { objective := partObjective info i ti } with
        objective := distLocalObjective info l i ti } c.2).2)).sum ≤ loc)
    (hi : (dpcpConstraints info l ws i ti { objective := partObjective info i ti }).integers = []) :
    dpcpTask solve info l useRta fuel i ti = some ⟨rem + loc, rem, loc⟩ := by
  obtain ⟨x, hx, hxv⟩ := ht.solved h1 h2
  set P := dpcpConstraints info l ws i ti { objective := partObjective info i ti } with hP
  have hmx := h1 P x hx
  have hfx := hmx.feasible
  have hle : termSum x (distRemoteObjective info l i ti) ≤ rem :=
    (hr.1.le hi ⟨hfx.eq, hfx.le, hfx.integer, hfx.binary, hfx.range⟩).trans hr.2
  have hle' : termSum x (distLocalObjective info l i ti) ≤ loc :=
    (hlo.1.le hi ⟨hfx.eq, hfx.le, hfx.integer, hfx.binary, hfx.range⟩).trans hlo.2
  have hge := hmx.best _ ht.1.feasible
  rw [hv, ho, dist_split info l i ti x] at hge
  have hloc : termSum x (distLocalObjective info l i ti) = loc := by linarith
  have hlr : (lrint (loc : ℚ)).toNat = loc := by
    have : lrint (loc : ℚ) = loc := by
      unfold lrint
      rw [Int.floor_natCast]
      simp
    rw [this]
    simp
  unfold dpcpTask
  rw [if_pos hl]
  simp only [hd, Option.bind_eq_bind, Option.bind_some, ← hP, hx, hxv, hloc, hlr, Nat.add_sub_cancel]

end Verif.SR.Lp
