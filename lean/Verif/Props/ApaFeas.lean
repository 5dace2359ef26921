/-
C113: the feasibility test for implicit-deadline tasks with arbitrary processor
affinities is exact.
-/
import Verif.Lemmas.ApaFeas

namespace Verif.ApaFeas
open Verif.Spec Finset

/-- The tasks and affinities given to the test. -/
def system (ts : List Tsk) (calls : List (ℕ × ℕ)) : AffinityTasks ts.length where
  cost i := ts[i].wcet
  period i := ts[i].period
  may i p := ((i : ℕ), p) ∈ calls

/-- Proper input: implicit deadlines, no self-suspensions, positive costs, and at least one
processor for each task. -/
structure ProperInput (ts : List Tsk) (calls : List (ℕ × ℕ)) : Prop where
  implicit : ∀ t ∈ ts, t.deadline = t.period
  noSuspension : ∀ t ∈ ts, t.suspension = 0
  pos : ∀ t ∈ ts, 0 < t.wcet
  known : ∀ c ∈ calls, c.1 < ts.length
  some : ∀ i < ts.length, ∃ p, (i, p) ∈ calls

variable {solve : Solver} {ts : List Tsk} {calls : List (ℕ × ℕ)}

theorem affinities_length (h : ProperInput ts calls) : ts.length = (addCpus calls).length := by
  have hr := addCpus_reflects calls
  apply le_antisymm
  · by_contra hlt
    have h0 : ts.length - 1 < ts.length := by omega
    obtain ⟨p, hp⟩ := h.some _ h0
    have := (hr.length (ts.length - 1)).mpr ⟨_, hp, le_rfl⟩
    omega
  · by_contra hlt
    obtain ⟨c, hc, hle⟩ := (hr.length ts.length).mp (by omega)
    have := h.known c hc
    omega

theorem solve_exact (hs : ExactSolver solve) (h : ProperInput ts calls) :
    (∀ x, linprogSolve solve (program ts (addCpus calls)) = some x →
      (program ts (addCpus calls)).Feasible x) ∧
    (linprogSolve solve (program ts (addCpus calls)) = none →
      ¬ ∃ x, (program ts (addCpus calls)).Feasible x) := by
  have hr := addCpus_reflects calls
  unfold linprogSolve
  by_cases he : ((program ts (addCpus calls)).equalities ++
      (program ts (addCpus calls)).inequalities).all (fun c => c.1.isEmpty) = true
  · rw [if_pos he]
    refine ⟨?_, by simp⟩
    rintro x hx
    have hn : ts.length = 0 := by
      by_contra hne
      obtain ⟨p, hp⟩ := h.some 0 (by omega)
      rw [List.all_eq_true] at he
      have := he (((addCpus calls).getD 0 []).map fun cpu => (1, (0, cpu)), 1)
        (List.mem_append_left _ (List.mem_map.mpr ⟨0, List.mem_range.mpr (by omega), rfl⟩))
      have hmem := (hr.mem 0 p).mpr hp
      simp only [List.isEmpty_iff, List.map_eq_nil_iff] at this
      rw [this] at hmem
      simp at hmem
    rw [feasible_iff hr]
    simp only [Option.some.injEq] at hx
    subst hx
    refine ⟨fun i hi => by omega, ?_, fun v => ⟨le_rfl, by norm_num⟩⟩
    intro p _
    simp
  · rw [if_neg he]
    refine ⟨fun x hx => (hs _).1 x hx, ?_⟩
    intro hnone hex
    have := (hs _).2 hex
    rw [hnone] at this
    simp at this

theorem result_eq (h : ProperInput ts calls) :
    apaFeasible solve ts (addCpus calls) = some
      (if ts.all Tsk.isFeasible then
        (linprogSolve solve (program ts (addCpus calls))).map
          (getSolution ts.length (addCpus calls))
      else none) := by
  unfold apaFeasible construct
  have h1 : ¬ ts.all (fun t => t.deadline = t.period) = false := by
    simp only [Bool.not_eq_false, List.all_eq_true, decide_eq_true_eq]
    exact h.implicit
  have h2 : ¬ ts.all (fun t => t.suspension = 0) = false := by
    simp only [Bool.not_eq_false, List.all_eq_true, decide_eq_true_eq]
    exact h.noSuspension
  rw [if_neg h1, if_neg h2, if_neg (by rw [not_not]; exact affinities_length h)]
  by_cases hf : ts.all Tsk.isFeasible = true
  · rw [if_pos hf, if_pos hf]; rfl
  · rw [if_neg hf, if_neg hf]; rfl

/-- C113 (a). On proper input, the test does not abort. -/
theorem C113_decides (h : ProperInput ts calls) :
    apaFeasible solve ts (addCpus calls) ≠ none := by
  rw [result_eq h]
  simp

theorem accepted (hs : ExactSolver solve) (h : ProperInput ts calls) {sol : ℕ → ℕ → ℚ}
    (hr : apaFeasible solve ts (addCpus calls) = some (some sol)) :
    (∀ t ∈ ts, t.wcet ≤ t.period) ∧
    ∃ x, (program ts (addCpus calls)).Feasible x ∧
      sol = getSolution ts.length (addCpus calls) x := by
  rw [result_eq h] at hr
  simp only [Option.some.injEq] at hr
  by_cases hf : ts.all Tsk.isFeasible = true
  · rw [if_pos hf, Option.map_eq_some_iff] at hr
    obtain ⟨x, hx, hsol⟩ := hr
    refine ⟨?_, x, (solve_exact hs h).1 x hx, hsol.symm⟩
    intro t ht
    have := (List.all_eq_true.mp hf) t ht
    simp only [Tsk.isFeasible, Bool.and_eq_true, decide_eq_true_eq] at this
    omega
  · rw [if_neg hf] at hr
    simp at hr

/-- C113 (b). The fractions of an accepted task set are non-negative, are zero on processors
that a task may not use, sum to one for each task, and do not overload any processor. -/
theorem C113_fractions (hs : ExactSolver solve) (h : ProperInput ts calls) (sol : ℕ → ℕ → ℚ)
    (hr : apaFeasible solve ts (addCpus calls) = some (some sol)) :
    (∀ i p, 0 ≤ sol i p) ∧ (∀ i p, (i, p) ∉ calls → sol i p = 0) ∧
    (∀ i < ts.length, ∑ p ∈ (calls.map Prod.snd).toFinset, sol i p = 1) ∧
    ∀ p, ∑ i : Fin ts.length, ((ts[i].wcet : ℚ) / ts[i].period) * sol i p ≤ 1 := by
  have hrf := addCpus_reflects calls
  obtain ⟨_, x, hx, rfl⟩ := accepted hs h hr
  obtain ⟨h1, h2, h3⟩ := (feasible_iff hrf x).mp hx
  refine ⟨?_, ?_, ?_, ?_⟩
  · intro i p
    unfold getSolution
    split_ifs
    · exact (h3 _).1
    · exact le_rfl
  · intro i p hip
    unfold getSolution
    rw [if_neg]
    rintro ⟨_, hm⟩
    exact hip ((hrf.mem i p).mp hm)
  · intro i hi
    rw [← h1 i hi]
    symm
    have hsub : ((addCpus calls).getD i []).toFinset ⊆ (calls.map Prod.snd).toFinset := by
      intro p hp
      rw [List.mem_toFinset] at hp ⊢
      exact List.mem_map.mpr ⟨_, (hrf.mem i p).mp hp, rfl⟩
    rw [← Finset.sum_subset hsub]
    · apply Finset.sum_congr rfl
      intro p hp
      rw [List.mem_toFinset] at hp
      simp only [getSolution]
      rw [if_pos ⟨hi, hp⟩]
    · intro p _ hp
      simp only [getSolution]
      rw [if_neg]
      rintro ⟨_, hm⟩
      exact hp (List.mem_toFinset.mpr hm)
  · intro p
    by_cases hp : p ∈ allCpus (addCpus calls)
    · refine le_trans ?_ (h2 p hp)
      apply Finset.sum_le_sum
      intro i _
      apply mul_le_mul_of_nonneg_left
      · simp only [getSolution]
        split_ifs
        · exact le_rfl
        · exact (h3 _).1
      · positivity
    · have : ∀ i : Fin ts.length, getSolution ts.length (addCpus calls) x i p = 0 := by
        intro i
        simp only [getSolution]
        rw [if_neg]
        rintro ⟨_, hm⟩
        exact hp ((mem_allCpus hrf p).mpr ⟨_, (hrf.mem _ p).mp hm⟩)
      simp [this]

/-- C113 (c). If the test accepts, there is a slot length such that for every legal arrival
sequence there is a preemptive schedule that respects the affinities and meets all
deadlines. -/
theorem C113_accept (hs : ExactSolver solve) (h : ProperInput ts calls) (sol : ℕ → ℕ → ℚ)
    (hr : apaFeasible solve ts (addCpus calls) = some (some sol)) :
    ∃ q, 0 < q ∧ ∀ A, (system ts calls).Legal A →
      ∃ σ, (system ts calls).Schedule A q σ ∧ (system ts calls).MeetsAll A q σ := by
  classical
  obtain ⟨h1, h2, h3, h4⟩ := C113_fractions hs h sol hr
  obtain ⟨hle, _⟩ := accepted hs h hr
  have hle' : ∀ i : Fin ts.length, ts[i].wcet ≤ ts[i].period :=
    fun i => hle _ (List.getElem_mem i.2)
  have hpos : ∀ i : Fin ts.length, 0 < ts[i].wcet := fun i => h.pos _ (List.getElem_mem i.2)
  apply schedule_of_rates (system ts calls)
    (fun i => lt_of_lt_of_le (hpos i) (hle' i)) (calls.map Prod.snd).toFinset
    (fun i p => ((ts[i].wcet : ℚ) / ts[i].period) * sol i p)
  · intro i p
    exact mul_nonneg (by positivity) (h1 i p)
  · intro i p _ hne
    by_contra hno
    exact hne (by rw [h2 i p hno, mul_zero])
  · intro i
    rw [← Finset.mul_sum, h3 i i.2, mul_one]
    rfl
  · exact hle'
  · intro p _
    exact h4 p

/-- C113 (d). If the test rejects, there is a legal arrival sequence such that no schedule,
however short its slots, respects the affinities and meets all deadlines. -/
theorem C113_reject (hs : ExactSolver solve) (h : ProperInput ts calls)
    (hr : apaFeasible solve ts (addCpus calls) = some none) :
    ∃ A, (system ts calls).Legal A ∧ ∀ q, 0 < q → ∀ σ, (system ts calls).Schedule A q σ →
      ¬ (system ts calls).MeetsAll A q σ := by
  classical
  refine ⟨synchronous _, synchronous_legal _, ?_⟩
  intro q hq σ hσ hm
  have hrf := addCpus_reflects calls
  have hpos : ∀ i : Fin ts.length, 0 < ts[i].wcet := fun i => h.pos _ (List.getElem_mem i.2)
  have hle : ∀ i : Fin ts.length, ts[i].wcet ≤ ts[i].period :=
    fun i => cost_le_of_meets _ q hq σ hm i
  have hT : ∀ i : Fin ts.length, 0 < ts[i].period := fun i => lt_of_lt_of_le (hpos i) (hle i)
  have hfeas : ts.all Tsk.isFeasible = true := by
    rw [List.all_eq_true]
    intro t ht
    obtain ⟨k, hk, rfl⟩ := List.getElem_of_mem ht
    have h1 := hle ⟨k, hk⟩
    have h2 := h.implicit _ ht
    have h3 := h.noSuspension _ ht
    have h4 := h.pos _ ht
    simp only [Fin.getElem_fin] at h1
    simp only [Tsk.isFeasible, Bool.and_eq_true, decide_eq_true_eq]
    omega
  rw [result_eq h, if_pos hfeas] at hr
  simp only [Option.some.injEq, Option.map_eq_none_iff] at hr
  apply (solve_exact hs h).2 hr
  -- a hyperperiod
  let H := ∏ i : Fin ts.length, ts[i].period
  have hH : 0 < H := Finset.prod_pos fun i _ => hT i
  have hdiv : ∀ i : Fin ts.length, ts[i].period ∣ H := fun i =>
    Finset.dvd_prod_of_mem (fun i : Fin ts.length => ts[i].period) (mem_univ i)
  let cpus := (allCpus (addCpus calls)).toFinset
  let U : ℕ → ℕ → ℚ := fun i p =>
    if hi : i < ts.length then (usage σ (H * q) ⟨i, hi⟩ p : ℚ) else 0
  let S : ℕ → ℚ := fun i => ∑ p ∈ ((addCpus calls).getD i []).toFinset, U i p
  have hU0 : ∀ i p, 0 ≤ U i p := by
    intro i p
    simp only [U]
    split_ifs
    · positivity
    · exact le_rfl
  have hS : ∀ i : Fin ts.length, (ts[i].wcet : ℚ) / ts[i].period * (H * q : ℕ) ≤ S i := by
    intro i
    obtain ⟨N, hN⟩ := hdiv i
    have := usage_row (system ts calls) q σ hσ hm ((addCpus calls).getD i []).toFinset i
      (fun p hp => List.mem_toFinset.mpr ((hrf.mem i p).mpr hp)) N
    have hN' : N * (system ts calls).period i * q = H * q := by
      rw [hN]
      simp only [system]
      ring
    rw [hN'] at this
    have hcast : ((N * ((system ts calls).cost i * q) : ℕ) : ℚ) ≤ S i := by
      have h1 : S i = ((∑ p ∈ ((addCpus calls).getD i []).toFinset,
          usage σ (H * q) i p : ℕ) : ℚ) := by
        simp only [S, U]
        push_cast
        apply Finset.sum_congr rfl
        intro p _
        rw [dif_pos i.2]
      rw [h1]
      exact_mod_cast this
    refine le_trans (le_of_eq ?_) hcast
    rw [hN]
    have hne : (ts[i].period : ℚ) ≠ 0 := by exact_mod_cast (hT i).ne'
    simp only [system]
    push_cast
    field_simp
  have hSpos : ∀ i : Fin ts.length, 0 < S i := by
    intro i
    refine lt_of_lt_of_le ?_ (hS i)
    have h1 : (0 : ℚ) < ts[i].wcet := by exact_mod_cast hpos i
    have h2 : (0 : ℚ) < ts[i].period := by exact_mod_cast hT i
    have h3 : (0 : ℚ) < (H * q : ℕ) := by exact_mod_cast Nat.mul_pos hH hq
    positivity
  let x : ℕ × ℕ → ℚ := fun v =>
    if v.1 < ts.length ∧ v.2 ∈ (addCpus calls).getD v.1 [] then U v.1 v.2 / S v.1 else 0
  refine ⟨x, (feasible_iff hrf x).mpr ⟨?_, ?_, ?_⟩⟩
  · intro i hi
    have hne : S i ≠ 0 := (hSpos ⟨i, hi⟩).ne'
    calc ∑ p ∈ ((addCpus calls).getD i []).toFinset, x (i, p)
        = ∑ p ∈ ((addCpus calls).getD i []).toFinset, U i p / S i := by
          apply Finset.sum_congr rfl
          intro p hp
          simp only [x]
          rw [if_pos ⟨hi, List.mem_toFinset.mp hp⟩]
      _ = S i / S i := by rw [Finset.sum_div]
      _ = 1 := div_self hne
  · intro p _
    have hHq : (0 : ℚ) < (H * q : ℕ) := by exact_mod_cast Nat.mul_pos hH hq
    calc ∑ i : Fin ts.length, ts[i].utilization * x ((i : ℕ), p)
        ≤ ∑ i : Fin ts.length, (usage σ (H * q) i p : ℚ) / (H * q : ℕ) := by
          apply Finset.sum_le_sum
          intro i _
          by_cases hv : p ∈ (addCpus calls).getD i []
          · have hx : x ((i : ℕ), p) = (usage σ (H * q) i p : ℚ) / S i := by
              simp only [x, U]
              rw [if_pos ⟨i.2, hv⟩, dif_pos i.2]
            rw [hx, ← mul_div_assoc, div_le_div_iff₀ (hSpos i) hHq]
            have := mul_le_mul_of_nonneg_left (hS i)
              (by positivity : (0 : ℚ) ≤ usage σ (H * q) i p)
            simp only [Tsk.utilization]
            linarith
          · have hx : x ((i : ℕ), p) = 0 := by
              simp only [x]
              rw [if_neg (fun hc => hv hc.2)]
            rw [hx, mul_zero]
            positivity
      _ = ((∑ i, usage σ (H * q) i p : ℕ) : ℚ) / (H * q : ℕ) := by
          rw [← Finset.sum_div]
          push_cast
          rfl
      _ ≤ 1 := by
          rw [div_le_one hHq]
          exact_mod_cast usage_col σ (H * q) p
  · rintro ⟨i, p⟩
    simp only [x]
    split_ifs with hv
    · refine ⟨div_nonneg (hU0 _ _) (hSpos ⟨i, hv.1⟩).le, ?_⟩
      rw [div_le_one (hSpos ⟨i, hv.1⟩)]
      exact Finset.single_le_sum (f := fun p => U i p) (fun p _ => hU0 i p)
        (List.mem_toFinset.mpr hv.2)
    · exact ⟨le_rfl, by norm_num⟩

/-! ### Examples -/

/-- There are exact solvers. -/
theorem exact_solver_exists : ∃ solve : Solver, ExactSolver solve := by
  classical
  refine ⟨fun P => if h : ∃ x, P.Feasible x then some h.choose else none, fun P => ⟨?_, ?_⟩⟩
  · intro x hx
    by_cases h : ∃ x, P.Feasible x
    · simp only [dif_pos h, Option.some.injEq] at hx
      rw [← hx]
      exact h.choose_spec
    · simp only [dif_neg h] at hx
      simp at hx
  · intro h
    simp [dif_pos h]

/-- The task set of `tests/apa.py:241-254`: the third task must be split. -/
def splitTasks : List Tsk := [⟨7, 10, 10, 0⟩, ⟨6, 10, 10, 0⟩, ⟨10, 20, 20, 0⟩]

def splitCalls : List (ℕ × ℕ) := [(0, 1), (1, 2), (2, 1), (2, 2)]

theorem split_proper : ProperInput splitTasks splitCalls :=
  ⟨by decide, by decide, by decide, by decide, by
    intro i hi
    have : i < 3 := hi
    interval_cases i
    · exact ⟨1, by decide⟩
    · exact ⟨2, by decide⟩
    · exact ⟨1, by decide⟩⟩

theorem split_feasible : (program splitTasks (addCpus splitCalls)).Feasible
    (fun v => if v = (0, 1) then 1 else if v = (1, 2) then 1 else if v = (2, 1) then 3 / 5
      else if v = (2, 2) then 2 / 5 else 0) := by
  refine ⟨by decide +kernel, by decide +kernel, by simp [program], by simp [program], ?_⟩
  intro v _
  beta_reduce
  split_ifs <;> norm_num

/-- The hypotheses of C113 hold for a task set that is accepted, … -/
example : ∃ solve, ExactSolver solve ∧ ProperInput splitTasks splitCalls ∧
    ∃ sol, apaFeasible solve splitTasks (addCpus splitCalls) = some (some sol) := by
  obtain ⟨solve, hs⟩ := exact_solver_exists
  refine ⟨solve, hs, split_proper, ?_⟩
  rw [result_eq split_proper, if_pos (by decide)]
  cases hx : linprogSolve solve (program splitTasks (addCpus splitCalls)) with
  | none => exact absurd ⟨_, split_feasible⟩ ((solve_exact hs split_proper).2 hx)
  | some x => exact ⟨_, rfl⟩

/-- … and for one that is rejected: a task of utilization 3/10 does not fit any more. -/
def fullTasks : List Tsk := splitTasks ++ [⟨30, 100, 100, 0⟩]

def fullCalls : List (ℕ × ℕ) := splitCalls ++ [(3, 1), (3, 2)]

theorem full_proper : ProperInput fullTasks fullCalls :=
  ⟨by decide, by decide, by decide, by decide, by
    intro i hi
    have : i < 4 := hi
    interval_cases i
    · exact ⟨1, by decide⟩
    · exact ⟨2, by decide⟩
    · exact ⟨1, by decide⟩
    · exact ⟨1, by decide⟩⟩

example : ∃ solve, ExactSolver solve ∧ ProperInput fullTasks fullCalls ∧
    apaFeasible solve fullTasks (addCpus fullCalls) = some none := by
  obtain ⟨solve, hs⟩ := exact_solver_exists
  refine ⟨solve, hs, full_proper, ?_⟩
  rw [result_eq full_proper, if_pos (by decide)]
  cases hx : linprogSolve solve (program fullTasks (addCpus fullCalls)) with
  | none => rfl
  | some x =>
    exfalso
    have hf := (solve_exact hs full_proper).1 x hx
    have e0 := hf.eq ([(1, (0, 1))], 1) (by decide +kernel)
    have e1 := hf.eq ([(1, (1, 2))], 1) (by decide +kernel)
    have e2 := hf.eq ([(1, (2, 1)), (1, (2, 2))], 1) (by decide +kernel)
    have e3 := hf.eq ([(1, (3, 1)), (1, (3, 2))], 1) (by decide +kernel)
    have c1 := hf.le ([(7 / 10, (0, 1)), (6 / 10, (1, 1)), (1 / 2, (2, 1)), (3 / 10, (3, 1))], 1)
      (by decide +kernel)
    have c2 := hf.le ([(7 / 10, (0, 2)), (6 / 10, (1, 2)), (1 / 2, (2, 2)), (3 / 10, (3, 2))], 1)
      (by decide +kernel)
    have r1 := (hf.range (1, 1) (by simp [program])).1
    have r2 := (hf.range (0, 2) (by simp [program])).1
    simp only [termSum, List.map_cons, List.map_nil, List.sum_cons, List.sum_nil] at *
    linarith

end Verif.ApaFeas
