/-
C122, C123: tardiness bounds for global schedulers with fair relative lateness (`schedcat/sched/gfrl.py`).
-/
import Verif.Model.Gfrl
import Verif.Lemmas.FairRatio
import Mathlib.Tactic.FinCases

namespace Verif.Gfrl
open Verif.Spec Verif.Gel Finset

variable {n m : ℕ} {ts : Fin n → GTask}

/-- Relative deadlines of the tasks. -/
def deadlines (ts : Fin n → GTask) (i : Fin n) : ℕ := (ts i).deadline

/-! ### The function of the code -/

theorem fairPoint_eq (L s : ℚ) (i : Fin n) : fairPoint m (costs ts i) (deadlines ts i) L s = lineAt m ts L i - s := by
  unfold fairPoint lineAt costs deadlines
  ring

theorem sVal_spec {L s : ℚ} (h : sVal m ts L = some s) : (∀ i, s ≤ lineAt m ts L i) ∧ ∃ i, lineAt m ts L i = s := by
  unfold sVal at h
  rw [List.min?_eq_some_iff] at h
  obtain ⟨h1, h2⟩ := h
  refine ⟨fun i => h2 _ (List.mem_map.2 ⟨i, List.mem_finRange i, rfl⟩), ?_⟩
  obtain ⟨i, _, hi⟩ := List.mem_map.1 h1
  exact ⟨i, hi⟩

theorem SiVal_eq (hT : ∀ i, 0 < (ts i).period) (s L : ℚ) (i : Fin n) :
    SiVal m ts s L i = gelSQ (costs ts i) (periods ts i) (fairPoint m (costs ts i) (deadlines ts i) L s) := by
  rw [fairPoint_eq]
  have hT' : ((ts i).period : ℚ) ≠ 0 := by exact_mod_cast (hT i).ne'
  have e : ((ts i).cost : ℚ) - util ts i * (lineAt m ts L i - s) =
      (costs ts i : ℚ) * (1 - (lineAt m ts L i - s) / (periods ts i)) := by
    unfold util costs periods
    field_simp
  unfold SiVal gelSQ
  simp only
  rw [e]
  split_ifs with h
  · rw [max_eq_left h.le]
  · rw [max_eq_right (not_lt.1 h)]

theorem GiVal_eq (hT : ∀ i, 0 < (ts i).period) (s L : ℚ) (i : Fin n) :
    GiVal m ts s L i = gelGQ m (costs ts i) (periods ts i) (fairPoint m (costs ts i) (deadlines ts i) L s) s := by
  unfold GiVal gelGQ
  rw [SiVal_eq hT]
  rfl

theorem SVal_eq (hT : ∀ i, 0 < (ts i).period) (s L : ℚ) : SVal m ts s L =
    ∑ i, gelSQ (costs ts i) (periods ts i) (fairPoint m (costs ts i) (deadlines ts i) L s) := by
  unfold SVal
  rw [← List.sum_toFinset _ (List.nodup_finRange n)]
  simp only [List.toFinset_finRange]
  exact sum_congr rfl fun i _ => SiVal_eq hT s L i

/-- A zero of the function of the code is the fair ratio. -/
theorem fairRatio_of_zero (hT : ∀ i, 0 < (ts i).period) {L s : ℚ} (hs : sVal m ts L = some s)
    (hf : funcVal m ts L = some 0) : FairRatio m (costs ts) (periods ts) (deadlines ts) L s := by
  obtain ⟨h1, i, hi⟩ := sVal_spec hs
  refine ⟨fun i => ?_, ⟨i, ?_⟩, ?_⟩
  · rw [fairPoint_eq]; linarith [h1 i]
  · rw [fairPoint_eq]; linarith
  · unfold funcVal at hf
    rw [hs, Option.map_some, Option.some_inj, SVal_eq hT] at hf
    unfold GVal at hf
    rw [nlargest_sum] at hf
    refine ⟨(nlargestIdx (⌈utilSum ts⌉ - 1) (GiVal m ts s L)).toFinset, ?_, ?_⟩
    · rw [← utilSum_eq]
      have := nlargestIdx_largest (⌈utilSum ts⌉ - 1) (GiVal m ts s L)
      have e : GiVal m ts s L = fun i => gelGQ m (costs ts i) (periods ts i) (fairPoint m (costs ts i) (deadlines ts i) L s) s :=
        funext fun i => GiVal_eq hT s L i
      rw [← e]
      exact this
    · simp only [GiVal_eq hT] at hf
      linarith

/-! ### C122: bounds are never returned -/

/-- **C122 is violated**: whatever the tasks, `bound_response_times` never returns `True`; for tasks with bounded tardiness
it raises an exception. -/
theorem C122_gfrl_no_bounds {fuel : ℕ} {o : Outcome n} (h : boundResponseTimes m ts fuel = some o) :
    o.result ≠ .ok true ∧
      (totalUtilization (costs ts) (periods ts) ≤ m → (∀ i, (ts i).cost ≤ (ts i).period) → ∃ e, o.result = .error e) := by
  unfold boundResponseTimes at h
  split_ifs at h with hb
  · cases h
    refine ⟨by simp, fun h1 h2 => ?_⟩
    rw [bounded_iff.2 ⟨h1, h2⟩] at hb
    cases hb
  · split at h
    · cases h
    · cases h
      exact ⟨by simp, fun _ _ => ⟨_, rfl⟩⟩
    · split at h
      · split_ifs at h <;> cases h <;> exact ⟨by simp, fun _ _ => ⟨_, rfl⟩⟩
      · cases h
        exact ⟨by simp, fun _ _ => ⟨_, rfl⟩⟩

/-- **C122**, the part that holds: the result `False` means that the tasks overload the processors or that one of them
exceeds its period. -/
theorem C122_gfrl_rejects_partial (fuel : ℕ) : (∃ o, boundResponseTimes m ts fuel = some o ∧ o.result = .ok false) ↔
    ¬ (totalUtilization (costs ts) (periods ts) ≤ m ∧ ∀ i, (ts i).cost ≤ (ts i).period) := by
  constructor
  · rintro ⟨o, h, hr⟩ ⟨h1, h2⟩
    obtain ⟨e, he⟩ := (C122_gfrl_no_bounds h).2 h1 h2
    rw [hr] at he
    cases he
  · intro h
    refine ⟨⟨none, .ok false⟩, ?_, rfl⟩
    unfold boundResponseTimes
    rw [if_pos]
    rw [← bounded_iff] at h
    simpa using h

/-! ### C123: the priority points -/

/-- **C123**: if a call assigns priority points, then they are the ones for the common ratio `L` of response times and
deadlines, limited by the periods, and under a global scheduler with these priority points the response time of each job
is at most `L` times the deadline of its task. -/
theorem C123_gfrl_points {fuel : ℕ} {o : Outcome n} {pp : Fin n → ℚ} (hm : 0 < m) (hT : ∀ i, 0 < (ts i).period)
    (h : boundResponseTimes m ts fuel = some o) (hp : o.points = some pp) :
    ∃ L s, FairRatio m (costs ts) (periods ts) (deadlines ts) L s ∧
      (∀ i, pp i = min (fairPoint m (ts i).cost (ts i).deadline L s) (ts i).period) ∧
      ResponseTimesBoundedQ m (costs ts) (periods ts) pp (fun i => L * (ts i).deadline) := by
  unfold boundResponseTimes at h
  split_ifs at h with hb
  · cases h; cases hp
  · have hb' : hasBoundedTardiness m ts = true := by simpa using hb
    obtain ⟨hU, hCT⟩ := bounded_iff.1 hb'
    split at h
    · cases h
    · cases h; cases hp
    · rename_i z _
      split at h
      · rename_i s v hs hv
        split_ifs at h with hz
        · cases h
          cases hp
          subst hz
          have hF := fairRatio_of_zero hT hs hv
          have e : ∀ i, pointsOf m ts z s i = min (fairPoint m (ts i).cost (ts i).deadline z s) (ts i).period := by
            intro i
            have := fairPoint_eq (m := m) (ts := ts) z s i
            unfold costs deadlines at this
            rw [this]
            rfl
          refine ⟨z, s, hF, e, ?_⟩
          have := hF.bounded hm hT hCT hU
          have e' : pointsOf m ts z s = fun i => min (fairPoint m (costs ts i) (deadlines ts i) z s) (periods ts i) := funext e
          rw [e']
          exact this
        · cases h; cases hp
      · cases h; cases hp

/-- **C123**: there is only one such ratio. -/
theorem C123_unique {C T D : Fin n → ℕ} (hm : 0 < m) (hT : ∀ i, 0 < T i) (hCT : ∀ i, C i ≤ T i) (hD : ∀ i, 0 < D i)
    (hU : totalUtilization C T ≤ m) {L L' s s' : ℚ} (h : FairRatio m C T D L s) (h' : FairRatio m C T D L' s') : L = L' :=
  le_antisymm (h'.le hm hT hCT hD hU h) (h.le hm hT hCT hD hU h')

/-! ### An example -/

/-- Three tasks for two processors. -/
def exTasks : Fin 3 → GTask := ![⟨2, 3, 3⟩, ⟨2, 3, 4⟩, ⟨4, 6, 6⟩]

/-- The call stores the priority points 0, 12/7 and 29/7 and raises an exception. -/
theorem exTasks_outcome : ∃ o pp, boundResponseTimes 2 exTasks 100 = some o ∧ o.points = some pp ∧
    pp = ![0, 12 / 7, 29 / 7] ∧ o.result = .error .type := by
  have h1 : (boundResponseTimes 2 exTasks 100).map (fun o => o.points.map (fun p => (p 0, p 1, p 2))) =
      some (some (0, 12 / 7, 29 / 7)) := by decide +kernel
  have h2 : (boundResponseTimes 2 exTasks 100).map (fun o => match o.result with | .error e => some e | .ok _ => none) =
      some (some .type) := by decide +kernel
  rcases h : boundResponseTimes 2 exTasks 100 with _ | ⟨_ | pp, e | b⟩
  · rw [h] at h1; cases h1
  · rw [h] at h1; simp at h1
  · rw [h] at h1; simp at h1
  · rw [h] at h1 h2
    simp only [Option.map_some, Option.some_inj, Prod.mk.injEq] at h1 h2
    subst h2
    refine ⟨_, pp, rfl, rfl, ?_, rfl⟩
    funext i
    fin_cases i
    · exact h1.1
    · exact h1.2.1
    · exact h1.2.2
  · rw [h] at h2; simp at h2

/-- The hypotheses of `C123_gfrl_points` are met. -/
example : 0 < 2 ∧ (∀ i, 0 < (exTasks i).period) ∧
    ∃ o pp, boundResponseTimes 2 exTasks 100 = some o ∧ o.points = some pp :=
  ⟨by norm_num, by decide, by obtain ⟨o, pp, h1, h2, _⟩ := exTasks_outcome; exact ⟨o, pp, h1, h2⟩⟩

/-- The hypotheses of `C122_gfrl_no_bounds` are met by tasks with bounded tardiness. -/
example : totalUtilization (costs exTasks) (periods exTasks) ≤ 2 ∧ (∀ i, (exTasks i).cost ≤ (exTasks i).period) ∧
    ∃ o, boundResponseTimes 2 exTasks 100 = some o := by
  refine ⟨?_, by decide, by obtain ⟨o, _, h1, _⟩ := exTasks_outcome; exact ⟨o, h1⟩⟩
  simp [totalUtilization, Fin.sum_univ_three, costs, periods, exTasks]
  norm_num

end Verif.Gfrl
