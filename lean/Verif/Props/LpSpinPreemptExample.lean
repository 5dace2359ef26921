/-
C149: a concrete case.  C150: the bounds for preemptive FIFO spin locks depend on the linear solver.
-/
import Verif.Props.LpSpinPreempt
import Verif.Lemmas.LpExample
import Mathlib.Tactic.IntervalCases

namespace Verif.SR.Lp
open Verif.Spec Verif.LpBackend

/-- The assignment of 1 to some variables. -/
def ones (S : List Key) (k : Key) : ℚ := if k ∈ S then 1 else 0

theorem best_ones {P : Program} (S : List Key) {v : ℕ}
    (hc : (∀ c ∈ P.equalities, termSum (ones S) c.1 = c.2) ∧ (∀ c ∈ P.inequalities, termSum (ones S) c.1 ≤ c.2) ∧
      termSum (ones S) P.objective = v) (hb : ∀ y, P.Feasible y → termSum y P.objective ≤ v) :
    solved best P = some v := by
  have h01 : ∀ k, ones S k = 0 ∨ ones S k = 1 := by
    intro k
    unfold ones
    split_ifs
    · exact Or.inr rfl
    · exact Or.inl rfl
  have hf : P.Feasible (ones S) := by
    refine ⟨hc.1, hc.2.1, fun k _ => ?_, fun k _ => h01 k, fun k _ => ?_⟩
    · rcases h01 k with h | h
      · exact ⟨0, by rw [h]; rfl⟩
      · exact ⟨1, by rw [h]; rfl⟩
    · rcases h01 k with h | h <;> rw [h] <;> norm_num
  refine solved_best (x := ones S) ⟨hf, fun y hy => (hb y hy).trans hc.2.2.ge⟩ ?_
  rw [hc.2.2]
  unfold lrint
  simp

/-- Two processors with one task each; the second task has three requests. -/
def exTwo : Info := [⟨0, 100, 100, 10, 0, 1, [⟨0, 1, 1, false⟩]⟩, ⟨0, 100, 100, 10, 1, 3, [⟨0, 3, 2, false⟩]⟩]

def dir (t v : ℕ) : Key := ⟨.direct, t, v, 0⟩
def arr (t v : ℕ) : Key := ⟨.indirect, t, v, 0⟩

theorem exTwo_objective0 (P : Program) (h : P.objective = []) : (setObjective exTwo 0 exTwo[0] P).objective =
    [(2, dir 1 0), (2, arr 1 0), (2, dir 1 1), (2, arr 1 1), (2, dir 1 2), (2, arr 1 2)] := by
  unfold setObjective
  dsimp only
  rw [h]
  decide +kernel

theorem exTwo_objective1 (P : Program) (h : P.objective = []) : (setObjective exTwo 1 exTwo[1] P).objective =
    [(1, dir 0 0), (1, arr 0 0)] := by
  unfold setObjective
  dsimp only
  rw [h]
  decide +kernel

theorem exTwo_one {P : Program} (ho : P.objective = [(1, dir 0 0), (1, arr 0 0)])
    (hm : ([(1, dir 0 0), (1, arr 0 0)], 1) ∈ P.inequalities) (y : Key → ℚ) (hy : P.Feasible y) :
    termSum y P.objective ≤ (1 : ℕ) := by
  have := hy.le _ hm
  rw [ho]
  exact_mod_cast this

theorem exTwo_preemptive : preemptFifoBounds best exTwo = some [2, 1] := by
  have h0 : solved best (preemptFifoProgram exTwo 0 exTwo[0]) = some 2 := by
    refine best_ones [dir 1 0] (by decide +kernel) (fun y hy => ?_)
    have h1 := hy.le ([(1, dir 1 0), (1, dir 1 1), (1, dir 1 2), (-1, preemptionsOf 0)], 1) (by decide +kernel)
    have h2 := hy.le ([(1, arr 1 0), (1, arr 1 1), (1, arr 1 2)], 0) (by decide +kernel)
    have h3 := hy.le ([(1, preemptionsOf 0)], 0) (by decide +kernel)
    rw [show (preemptFifoProgram exTwo 0 exTwo[0]).objective = _ from exTwo_objective0 _ objective_preemptFifo]
    simp only [termSum, List.map_cons, List.map_nil, List.sum_cons, List.sum_nil] at h1 h2 h3 ⊢
    push_cast
    linarith
  have h1 : solved best (preemptFifoProgram exTwo 1 exTwo[1]) = some 1 :=
    best_ones [dir 0 0] (by decide +kernel) (exTwo_one (exTwo_objective1 _ objective_preemptFifo) (by decide +kernel))
  change [(0, exTwo[0]), (1, exTwo[1])].mapM _ = _
  simp [h0, h1]

theorem exTwo_msrp : msrpBounds best exTwo = some [2, 1] := by
  have h0 : solved best (msrpProgram exTwo 0 exTwo[0]) = some 2 := by
    refine best_ones [dir 1 0] (by decide +kernel) (fun y hy => ?_)
    have h1 := hy.le ([(1, dir 1 0), (1, dir 1 1), (1, dir 1 2)], 1) (by decide +kernel)
    have h2 := hy.le ([(1, arr 1 0), (1, arr 1 1), (1, arr 1 2), (-1, arrivalEnabled 0)], 0) (by decide +kernel)
    have h3 := hy.le ([(1, arrivalEnabled 0)], 0) (by decide +kernel)
    rw [show (msrpProgram exTwo 0 exTwo[0]).objective = _ from
      exTwo_objective0 _ (by rw [objective_fifo, objective_common])]
    simp only [termSum, List.map_cons, List.map_nil, List.sum_cons, List.sum_nil] at h1 h2 h3 ⊢
    push_cast
    linarith
  have h1 : solved best (msrpProgram exTwo 1 exTwo[1]) = some 1 :=
    best_ones [dir 0 0] (by decide +kernel)
      (exTwo_one (exTwo_objective1 _ (by rw [objective_fifo, objective_common])) (by decide +kernel))
  change [(0, exTwo[0]), (1, exTwo[1])].mapM _ = _
  simp [h0, h1]

theorem exTwo_baseline : baselineBounds best exTwo = some [6, 1] := by
  have h0 : solved best (baselineProgram exTwo 0 exTwo[0]) = some 6 := by
    refine best_ones [dir 1 0, dir 1 1, dir 1 2] (by decide +kernel) (fun y hy => ?_)
    have h1 := hy.le ([(1, dir 1 0), (1, arr 1 0)], 1) (by decide +kernel)
    have h2 := hy.le ([(1, dir 1 1), (1, arr 1 1)], 1) (by decide +kernel)
    have h3 := hy.le ([(1, dir 1 2), (1, arr 1 2)], 1) (by decide +kernel)
    rw [show (baselineProgram exTwo 0 exTwo[0]).objective = _ from exTwo_objective0 _ (by rw [objective_common])]
    simp only [termSum, List.map_cons, List.map_nil, List.sum_cons, List.sum_nil] at h1 h2 h3 ⊢
    push_cast
    linarith
  have h1 : solved best (baselineProgram exTwo 1 exTwo[1]) = some 1 :=
    best_ones [dir 0 0] (by decide +kernel) (exTwo_one (exTwo_objective1 _ (by rw [objective_common])) (by decide +kernel))
  change [(0, exTwo[0]), (1, exTwo[1])].mapM _ = _
  simp [h0, h1]

/-- The hypotheses of the theorems of C149 hold for the two tasks and an optimal solver; FIFO order improves the bound
from 6 to 2. -/
example : (∀ P x, best P = some x → P.Maximum x) ∧ preemptFifoBounds best exTwo = some [2, 1] ∧
    baselineBounds best exTwo = some [6, 1] ∧ msrpBounds best exTwo = some [2, 1] ∧
    ∀ i, ∀ hi : i < exTwo.length, ∀ t ∈ exTwo, t.cluster = exTwo[i].cluster → exTwo[i].priority ≤ t.priority ∧
      t.priority ≤ exTwo[i].priority :=
  ⟨best_maximum, exTwo_preemptive, exTwo_baseline, exTwo_msrp, by decide⟩

/-! ### The linear solver -/

/-- A task with one request that is preempted twice, and a task on another processor with three requests. -/
def exPreempted : Info :=
  [⟨0, 5, 5, 2, 0, 1, []⟩, ⟨1, 100, 100, 10, 0, 1, [⟨0, 1, 1, false⟩]⟩, ⟨0, 100, 100, 10, 1, 3, [⟨0, 3, 2, false⟩]⟩]

/-- The variables of the program of the second task. -/
def exKeys : List Key :=
  [dir 2 0, arr 2 0, dir 2 1, arr 2 1, dir 2 2, arr 2 2, arrivalEnabled 0, preemptionsOf 0]

/-- The program of the second task. -/
def exMilp : RangedMilp := numbered (fun k => exKeys.idxOf k) (preemptFifoProgram exPreempted 1 exPreempted[1])

/-- The numbers are those that the look-ups of the variables provide. -/
example : (({} : VarMapper).lookups exKeys).map Prod.fst = some (exKeys.map (fun k => exKeys.idxOf k)) := by
  decide +kernel

theorem exMilp_built : Built exMilp 8 := by
  constructor <;> decide +kernel

theorem exMilp_distinct : Distinct exMilp := by
  constructor <;> decide +kernel

/-- **C150**: the bounds for preemptive FIFO spin locks depend on the solver.  If the library is built with GLPK, there is a
solution with a spin delay of 6, while with CPLEX, no solution has a spin delay above 4. -/
theorem C150_solver_dependent : ∃ (info : Info) (i : ℕ) (ti : TaskInfo) (f : Key → ℕ) (n : ℕ),
    info[i]? = some ti ∧ (∃ ks m, ({} : VarMapper).lookups ks = some (ks.map f, m) ∧ m.next = n ∧
      ∀ e ∈ (preemptFifoProgram info i ti).objective :: ((preemptFifoProgram info i ti).equalities ++
        (preemptFifoProgram info i ti).inequalities).map Prod.fst, ∀ t ∈ e, t.2 ∈ ks) ∧
    (∃ Q x, glpk (numbered f (preemptFifoProgram info i ti)) n = some Q ∧ Q.Feasible x ∧
      rowValue Q.cols Q.objective x = 6) ∧
    ∃ Q, cpx (numbered f (preemptFifoProgram info i ti)) n = some Q ∧
      ∀ x, Q.Feasible x → rowValue Q.cols Q.objective x ≤ 4 := by
  refine ⟨exPreempted, 1, exPreempted[1], fun k => exKeys.idxOf k, 8, rfl, ⟨exKeys, _, rfl, by decide +kernel,
    by decide +kernel⟩, ?_, ?_⟩
  · obtain ⟨Q, hQ, hF⟩ := C148_glpk_partial exMilp 8 exMilp_built exMilp_distinct (by decide +kernel)
    refine ⟨Q, fun v => if v = 7 then 2 else if v = 0 ∨ v = 2 ∨ v = 4 then 1 else 0, hQ, (hF _).1.2 ?_, ?_⟩
    · refine ⟨by decide +kernel, by decide +kernel, fun v _ => ?_, ?_, ?_, fun v hv _ => ?_⟩
      · split_ifs
        · exact ⟨2, rfl⟩
        · exact ⟨1, rfl⟩
        · exact ⟨0, rfl⟩
      · decide +kernel
      · intro r hr
        cases hr
      · have hi : exMilp.integers = [7] := by decide +kernel
        rw [hi]
        split_ifs with h1 h2
        · exact ⟨by norm_num, fun hn => absurd (by simp [h1]) hn⟩
        · exact ⟨by norm_num, fun _ => le_rfl⟩
        · exact ⟨le_rfl, fun _ => zero_le_one⟩
    · rw [(hF _).2]
      decide +kernel
  · refine ⟨⟨8, setCoeffs exMilp.objective, cpxTypes exMilp.integers exMilp.binaries (setRanges exMilp.ranges),
      LpBackend.rows exMilp⟩, ?_, fun x hx => ?_⟩
    · change cpx exMilp 8 = _
      unfold cpx
      rw [if_neg (by decide), if_neg (not_not.2 (exMilp_built.length_le exMilp_distinct.objective)),
        if_neg (not_not.2 exMilp_built.allInRange)]
    · have hrow : ∀ c ∈ exMilp.inequalities, termSum x c.1 ≤ c.2 := by
        intro c hc
        have := hx.row ⟨setCoeffs c.1, c.2, false⟩ (List.mem_append_right _ (List.mem_map.2 ⟨c, hc, rfl⟩))
        simp only [Bool.false_eq_true, if_false] at this
        rwa [rowValue_setCoeffs x _ (exMilp_built.inequalities c hc).2 (exMilp_distinct.inequalities c hc)] at this
      have h7 : x 7 ≤ 1 := by
        have := hx.column 7 (by decide)
        dsimp only at this
        rw [cpxTypes_eq] at this
        exact this.1.2 1 rfl
      have h1 := hrow ([(1, 0), (1, 2), (1, 4), (-1, 7)], 1) (by decide +kernel)
      have h2 := hrow ([(1, 1), (1, 3), (1, 5)], 0) (by decide +kernel)
      have ho : exMilp.objective = [(2, 0), (2, 1), (2, 2), (2, 3), (2, 4), (2, 5)] := by decide +kernel
      dsimp only
      rw [rowValue_setCoeffs x _ exMilp_built.objective exMilp_distinct.objective, ho]
      simp only [termSum, List.map_cons, List.map_nil, List.sum_cons, List.sum_nil] at h1 h2 ⊢
      linarith

end Verif.SR.Lp
