/-
C153: task sets for the comparison of preemptive and non-preemptive spin locks without order.
-/
import Verif.Props.LpSpinPreemptUnordered

namespace Verif.SR.Lp
open Verif.Spec

section
variable {solve : Solver} (h1 : ∀ P x, solve P = some x → P.Maximum x) (h2 : ∀ P x, P.Maximum x → (solve P).isSome)
include h1 h2

theorem exTwo_preemptUnordered : preemptUnorderedBounds 50 solve exTwo = some [6, 1] := by
  have e0 : (preemptUnorderedProgram 50 exTwo 0 exTwo[0]).bind (solved solve) = some 6 :=
    bind_cover [(1, dir 1 0), (1, dir 1 1), (1, dir 1 2)] [(2, 5), (2, 6)] (by decide +kernel) h1 h2
  have e1 : (preemptUnorderedProgram 50 exTwo 1 exTwo[1]).bind (solved solve) = some 1 :=
    bind_cover [(1, dir 0 0)] [(1, 0)] (by decide +kernel) h1 h2
  change [(0, exTwo[0]), (1, exTwo[1])].mapM _ = _
  simp only [List.mapM_cons, List.mapM_nil, e0, e1]
  rfl

theorem exTwo_unordered : unorderedBounds 50 solve exTwo = some [6, 1] := by
  have e0 : (unorderedProgram 50 exTwo 0 exTwo[0]).bind (solved solve) = some 6 :=
    bind_cover [(1, dir 1 0), (1, dir 1 1), (1, dir 1 2)] [(6, 4), (2, 5), (2, 6)] (by decide +kernel) h1 h2
  have e1 : (unorderedProgram 50 exTwo 1 exTwo[1]).bind (solved solve) = some 1 :=
    bind_cover [(1, dir 0 0)] [(1, 0)] (by decide +kernel) h1 h2
  change [(0, exTwo[0]), (1, exTwo[1])].mapM _ = _
  simp only [List.mapM_cons, List.mapM_nil, e0, e1]
  rfl

theorem wideWait_preemptUnordered : preemptUnorderedBounds 50 solve wideWait = some [23, 1, 1] := by
  have e0 : (preemptUnorderedProgram 50 wideWait 0 wideWait[0]).bind (solved solve) = some 23 :=
    bind_cover [(1, dir 1 0), (1, dir 1 1), (1, dir 1 2), (1, ⟨.direct, 2, 0, 1⟩)] [(1, 9), (20, 10), (1, 11), (20, 12)]
      (by decide +kernel) h1 h2
  have e1 : (preemptUnorderedProgram 50 wideWait 1 wideWait[1]).bind (solved solve) = some 1 :=
    bind_cover [(1, dir 0 0)] [(1, 0), (1, 5), (20, 6), (1, 8), (20, 9)] (by decide +kernel) h1 h2
  have e2 : (preemptUnorderedProgram 50 wideWait 2 wideWait[2]).bind (solved solve) = some 1 :=
    bind_cover [(1, ⟨.direct, 0, 0, 1⟩)] [(1, 1), (1, 10), (1, 11), (1, 12), (1, 13)] (by decide +kernel) h1 h2
  change [(0, wideWait[0]), (1, wideWait[1]), (2, wideWait[2])].mapM _ = _
  simp only [List.mapM_cons, List.mapM_nil, e0, e1, e2]
  rfl

theorem wideWait_unordered : unorderedBounds 50 solve wideWait = some [21, 1, 1] := by
  have e0 : (unorderedProgram 50 wideWait 0 wideWait[0]).bind (solved solve) = some 21 :=
    bind_cover [(1, dir 1 0), (1, ⟨.direct, 2, 0, 1⟩)] [(20, 8), (1, 9), (1, 10), (20, 11), (20, 12)]
      (by decide +kernel) h1 h2
  have e1 : (unorderedProgram 50 wideWait 1 wideWait[1]).bind (solved solve) = some 1 :=
    bind_cover [(1, dir 0 0)] [(1, 0), (21, 4), (1, 5), (20, 6), (1, 10), (20, 12)] (by decide +kernel) h1 h2
  have e2 : (unorderedProgram 50 wideWait 2 wideWait[2]).bind (solved solve) = some 1 :=
    bind_cover [(1, ⟨.direct, 0, 0, 1⟩)] [(1, 1), (2, 9), (1, 10), (1, 11), (1, 13), (1, 15)] (by decide +kernel) h1 h2
  change [(0, wideWait[0]), (1, wideWait[1]), (2, wideWait[2])].mapM _ = _
  simp only [List.mapM_cons, List.mapM_nil, e0, e1, e2]
  rfl

end

theorem best_isSome (P : Program) (x : Key → ℚ) (h : P.Maximum x) : (best P).isSome := by
  unfold best
  rw [dif_pos ⟨x, h⟩]
  rfl

/-- The hypotheses of `C153_le_baseline_partial` and `C153_one_resource_partial` hold for two tasks and an optimal solver. -/
example : (∀ P x, best P = some x → P.Maximum x) ∧ preemptUnorderedBounds 50 best exTwo = some [6, 1] ∧
    unorderedBounds 50 best exTwo = some [6, 1] ∧ baselineBounds best exTwo = some [6, 1] ∧
    (∀ j, ∀ hj : j < exTwo.length, exTwo[j].cluster = exTwo[0].cluster → j = 0) ∧
    ∀ r ∈ exTwo[0].requests, ∀ r' ∈ exTwo[0].requests, r.resId = r'.resId :=
  ⟨best_maximum, exTwo_preemptUnordered best_maximum best_isSome, exTwo_unordered best_maximum best_isSome, exTwo_baseline,
    by decide, by decide⟩

/-- **C153** (violated): even if no other task is on the processor of a task, its bound for preemptive spin locks without
order may exceed that for non-preemptive ones.  The wait for a resource includes requests for all other resources that the
task uses. -/
theorem C153_not_preempted_violated (s s' : Solver) (hs : ∀ P x, s P = some x → P.Maximum x)
    (hs' : ∀ P x, s' P = some x → P.Maximum x) (ha : ∀ P x, P.Maximum x → (s P).isSome)
    (ha' : ∀ P x, P.Maximum x → (s' P).isSome) : ∃ (info : Info) (fuel i b b' : ℕ) (bs bs' : List ℕ)
    (hi : i < info.length), (∀ j, ∀ hj : j < info.length, info[j].cluster = info[i].cluster → j = i) ∧
    preemptUnorderedBounds fuel s info = some bs ∧ unorderedBounds fuel s' info = some bs' ∧
    bs[i]? = some b ∧ bs'[i]? = some b' ∧ b' < b :=
  ⟨wideWait, 50, 0, 23, 21, _, _, by decide, by decide, wideWait_preemptUnordered hs ha, wideWait_unordered hs' ha', rfl, rfl,
    by decide⟩

end Verif.SR.Lp
