/-
Properties C08, C09 and C10: the exact uniprocessor EDF test of
`native/src/edf/qpa.cpp` and the C=D budget computation.
-/
import Verif.Lemmas.Qpa
import Verif.Lemmas.EdfUni
import Mathlib.Algebra.BigOperators.Fin

namespace Verif.Native
open TaskSet Spec

/-- Costs, periods and deadlines of the tasks of a set. -/
def costs (ts : TaskSet) : Fin ts.length → ℕ := fun i => (ts.get i).wcet
def periods (ts : TaskSet) : Fin ts.length → ℕ := fun i => (ts.get i).period
def deadlines (ts : TaskSet) : Fin ts.length → ℕ := fun i => (ts.get i).deadline

theorem sum_get {M : Type} [AddCommMonoid M] (ts : TaskSet) (f : Task → M) :
    (ts.map f).sum = ∑ i : Fin ts.length, f (ts.get i) := by
  rw [← List.sum_ofFn]
  congr 1
  apply List.ext_getElem <;> simp

theorem periods_pos {ts : TaskSet} (hT : ∀ t ∈ ts, 0 < t.period) (i) : 0 < periods ts i :=
  hT _ (List.get_mem _ _)

/-- The code's demand bound is the demand of the synchronous periodic jobs. -/
theorem boundDemand_eq_demand {ts : TaskSet} (hT : ∀ t ∈ ts, 0 < t.period) (x : ℕ) :
    boundDemand ts x = demand (costs ts) (periods ts) (deadlines ts) x := by
  unfold boundDemand demand
  rw [sum_get]
  apply Finset.sum_congr rfl
  intro i _
  rw [card_periodic _ _ _ (periods_pos hT i)]
  unfold Task.boundDemand deadlines periods costs
  split_ifs <;> simp

theorem utilization_eq (ts : TaskSet) :
    utilization ts = totalUtilization (costs ts) (periods ts) := by
  unfold utilization totalUtilization
  rw [sum_get]; rfl

theorem util_le_of_demand {ts : TaskSet} (hT : ∀ t ∈ ts, 0 < t.period)
    (h : ∀ x, boundDemand ts x ≤ x) : utilization ts ≤ 1 := by
  rw [utilization_eq]
  apply utilization_le_of_demand (D := deadlines ts) (periods_pos hT)
  intro t
  rw [← boundDemand_eq_demand hT]
  exact h t

theorem qpaIsSchedulable_eq (fuel : ℕ) (ts : TaskSet) :
    qpaIsSchedulable fuel ts =
      if !(hasNoSelfSuspendingTasks ts && hasOnlyFeasibleTasks ts) then some false
      else if utilization ts > 1 then some false
      else (qpaScan fuel ts).map (fun r => !exceeds r.2 (minRelativeDeadline ts)) := by
  unfold qpaIsSchedulable qpaScan
  split_ifs
  · rfl
  · rfl
  · cases maxInterval fuel ts (utilization ts) with
    | none => rfl
    | some M =>
      simp only
      cases qpaLoop (boundDemand ts) ts (minRelativeDeadline ts) fuel (largestTestpoint ts M) <;> rfl

theorem exceeds_true {ts : TaskSet} {demand : ℕ}
    (h : exceeds demand (minRelativeDeadline ts) = true) : ∃ t ∈ ts, t.deadline < demand := by
  cases hm : minRelativeDeadline ts with
  | none => rw [hm] at h; simp [exceeds] at h
  | some d =>
    rw [hm] at h
    simp only [exceeds, decide_eq_true_eq] at h
    obtain ⟨t, ht, e⟩ := minRelativeDeadline_mem hm
    exact ⟨t, ht, by omega⟩

theorem feasible_pos {ts : TaskSet} (h : hasOnlyFeasibleTasks ts = true) :
    ∀ t ∈ ts, 0 < t.wcet ∧ 0 < t.period ∧ 0 < t.deadline ∧ t.wcet ≤ t.deadline ∧ t.wcet ≤ t.period := by
  intro t ht
  have := List.all_eq_true.1 h t ht
  simp only [Task.isFeasible, Bool.and_eq_true, decide_eq_true_eq] at this
  omega

/-- **C08**, termination: for every task set the test ends. -/
theorem C08_qpa_terminates (ts : TaskSet) :
    ∃ N b, ∀ fuel ≥ N, qpaIsSchedulable fuel ts = some b := by
  by_cases hpre : (hasNoSelfSuspendingTasks ts && hasOnlyFeasibleTasks ts) = true
  · by_cases hU : utilization ts > 1
    · exact ⟨0, false, fun fuel _ => by rw [qpaIsSchedulable_eq]; simp [hU]⟩
    · rw [Bool.and_eq_true] at hpre
      obtain ⟨N, r, h⟩ := qpaScan_terminates (fun t ht => (feasible_pos hpre.2 t ht).2.1) (not_lt.1 hU)
      exact ⟨N, !exceeds r.2 (minRelativeDeadline ts), fun fuel hf => by
        rw [qpaIsSchedulable_eq, h fuel hf]; simp [hpre, hU]⟩
  · exact ⟨0, false, fun fuel _ => by
      rw [qpaIsSchedulable_eq]; simp only [Bool.not_eq_true] at hpre; simp [hpre]⟩

/-- **C08**, exactness: the answer is `true` exactly if no task is
self-suspending, every task is feasible on its own, the total utilization is at
most 1 and the demand of every interval is at most its length. -/
theorem C08_qpa_exact (ts : TaskSet) (fuel : ℕ) (b : Bool)
    (h : qpaIsSchedulable fuel ts = some b) :
    b = true ↔
      (∀ t ∈ ts, t.selfSuspension = 0 ∧ 0 < t.wcet ∧ t.wcet ≤ t.deadline ∧ t.wcet ≤ t.period) ∧
      totalUtilization (costs ts) (periods ts) ≤ 1 ∧
      ∀ x, demand (costs ts) (periods ts) (deadlines ts) x ≤ x := by
  have hpreiff : (hasNoSelfSuspendingTasks ts && hasOnlyFeasibleTasks ts) = true ↔
      ∀ t ∈ ts, t.selfSuspension = 0 ∧ 0 < t.wcet ∧ t.wcet ≤ t.deadline ∧ t.wcet ≤ t.period := by
    simp only [hasNoSelfSuspendingTasks, hasOnlyFeasibleTasks, Bool.and_eq_true, List.all_eq_true,
      Task.isSelfSuspending, Task.isFeasible, Bool.not_eq_true', decide_eq_false_iff_not,
      decide_eq_true_eq]
    constructor
    · rintro ⟨h1, h2⟩ t ht
      have := h1 t ht; have := h2 t ht; omega
    · intro h1
      exact ⟨fun t ht => by have := h1 t ht; omega, fun t ht => by have := h1 t ht; omega⟩
  rw [qpaIsSchedulable_eq] at h
  rw [← hpreiff]
  split_ifs at h with h1 h2
  · rw [Option.some.injEq] at h
    subst h
    simp only [Bool.not_eq_true'] at h1
    simp [h1]
  · rw [Option.some.injEq] at h
    subst h
    rw [← utilization_eq]
    constructor
    · intro hc; cases hc
    · rintro ⟨_, hU, _⟩; exact absurd hU (not_le.2 h2)
  · simp only [Bool.not_eq_true', Bool.not_eq_false] at h1
    have hpos := feasible_pos ((Bool.and_eq_true _ _ ▸ h1).2)
    have hT := fun t ht => (hpos t ht).2.1
    have hD := fun t ht => (hpos t ht).2.2.1
    simp only [← boundDemand_eq_demand hT, ← utilization_eq]
    rw [Option.map_eq_some_iff] at h
    obtain ⟨⟨interval, dem⟩, hscan, hb⟩ := h
    obtain ⟨s1, s2, s3⟩ := qpaScan_spec hT hD hscan
    simp only at hb
    constructor
    · intro hbt
      rw [hbt] at hb
      exact ⟨h1, not_lt.1 h2, s2 (by simpa using hb)⟩
    · rintro ⟨_, _, hall⟩
      by_contra hbf
      have hex : exceeds dem (minRelativeDeadline ts) = true := by
        rw [← hb] at hbf; simpa using hbf
      have := s3 hex
      have := hall interval
      omega

/-- **C09**, soundness: an accepted task set misses no deadline, in any EDF
schedule of any legal arrival sequence. -/
theorem C09_edf_sound (ts : TaskSet) (fuel : ℕ) (h : qpaIsSchedulable fuel ts = some true) :
    EdfSchedulable 1 (costs ts) (periods ts) (deadlines ts) := by
  obtain ⟨h1, _, h3⟩ := (C08_qpa_exact ts fuel true h).1 rfl
  rw [edfSchedulable_iff]
  · exact h3
  · exact periods_pos (fun t ht => by have := h1 t ht; omega)

/-- **C09**, completeness: for a rejected set of feasible tasks there is a legal
arrival sequence that no uniprocessor schedule whatsoever can serve. -/
theorem C09_edf_complete (ts : TaskSet) (fuel : ℕ)
    (hf : ∀ t ∈ ts, t.selfSuspension = 0 ∧ 0 < t.wcet ∧ t.wcet ≤ t.deadline ∧ t.wcet ≤ t.period)
    (h : qpaIsSchedulable fuel ts = some false) :
    ∃ w : Workload ts.length, w.Sporadic (costs ts) (periods ts) ∧
      ∀ σ, ValidSchedule 1 w σ → ¬ MeetsDeadlines w (deadlines ts) σ := by
  have hT : ∀ t ∈ ts, 0 < t.period := fun t ht => by have := hf t ht; omega
  have hx : ∃ x, x < demand (costs ts) (periods ts) (deadlines ts) x := by
    by_contra hc
    push Not at hc
    have := (C08_qpa_exact ts fuel false h).2
      ⟨hf, utilization_le_of_demand (D := deadlines ts) (periods_pos hT) hc, hc⟩
    cases this
  obtain ⟨x, hx⟩ := hx
  exact ⟨periodic _ _, periodic_sporadic _ _, fun σ hv => uni_necessary hx (periods_pos hT) hv⟩

/-- Non-vacuity of C08 and C09: an accepted and a rejected set of feasible tasks. -/
example : qpaIsSchedulable 100 [⟨2, 5, 4, 4, 0, 0⟩, ⟨3, 7, 7, 7, 0, 0⟩] = some true := by decide +kernel
example : qpaIsSchedulable 100 [⟨2, 5, 3, 3, 0, 0⟩, ⟨3, 7, 4, 4, 0, 0⟩] = some false := by decide +kernel

/-! ### C=D splitting -/

theorem withSplit_period {ts : TaskSet} {w period : ℕ} (hT : ∀ t ∈ ts, 0 < t.period)
    (hp : 0 < period) : ∀ t ∈ withSplit ts w period, 0 < t.period := by
  intro t ht
  rcases List.mem_append.1 ht with h | h
  · exact hT t h
  · rw [List.mem_singleton] at h; subst h; exact hp

theorem withSplit_deadline {ts : TaskSet} {w period : ℕ} (hD : ∀ t ∈ ts, 0 < t.deadline)
    (hp : 0 < w) : ∀ t ∈ withSplit ts w period, 0 < t.deadline := by
  intro t ht
  rcases List.mem_append.1 ht with h | h
  · exact hD t h
  · rw [List.mem_singleton] at h; subst h; exact hp

theorem boundDemand_withSplit (ts : TaskSet) (w period x : ℕ) :
    boundDemand (withSplit ts w period) x
      = boundDemand ts x + if x < w then 0 else ((x - w) / period + 1) * w := by
  unfold withSplit
  rw [boundDemand_append]
  simp [boundDemand, Task.boundDemand]

theorem utilization_withSplit (ts : TaskSet) (w period : ℕ) :
    utilization (withSplit ts w period) = utilization ts + (w : ℚ) / period := by
  unfold withSplit
  rw [utilization_append]
  simp [utilization, Task.utilization]

/-- The budget `w` fits. -/
def Fits (ts : TaskSet) (period w : ℕ) : Prop := ∀ x, boundDemand (withSplit ts w period) x ≤ x

theorem njobs_eq {I w period : ℕ} (hp : 0 < period) (h : w ≤ I) :
    (I + period - w) / period = (I - w) / period + 1 := by
  have e : I + period - w = (I - w) + period := by omega
  rw [e, Nat.add_div_right _ hp]

theorem feasibleCostLoop_spec {slack I period : ℕ} (hp : 0 < period) (fuel : ℕ) :
    ∀ start, start ≤ I → slack / ((I + period - start) / period) ≤ start →
    (start < fuel → ∃ r, feasibleCostLoop slack (I + period) period fuel start = some r) ∧
    (∀ r, feasibleCostLoop slack (I + period) period fuel start = some r →
      r ≤ slack / ((I + period - start) / period) ∧
      ∀ w, 0 < w → w ≤ start → ((I - w) / period + 1) * w ≤ slack → w ≤ r) := by
  induction fuel with
  | zero => intro start _ _; exact ⟨fun h => by omega, fun r h => by simp [feasibleCostLoop] at h⟩
  | succ fuel ih =>
    intro start hsI hle
    rw [feasibleCostLoop]
    have hkey : ∀ w, 0 < w → w ≤ start → ((I - w) / period + 1) * w ≤ slack →
        w ≤ slack / ((I + period - start) / period) := by
      intro w hw hws hfit
      rw [njobs_eq hp hsI, Nat.le_div_iff_mul_le (Nat.succ_pos _)]
      refine le_trans ?_ hfit
      rw [Nat.mul_comm]
      apply Nat.mul_le_mul_right
      have := Nat.div_le_div_right (c := period) (show I - start ≤ I - w by omega)
      omega
    split_ifs with hc
    · set w' := slack / ((I + period - start) / period) with hw'
      have hle' : slack / ((I + period - w') / period) ≤ w' := by
        conv_rhs => rw [hw']
        apply Nat.div_le_div_left
        · exact Nat.div_le_div_right (by omega)
        · rw [njobs_eq hp hsI]; exact Nat.succ_pos _
      obtain ⟨i1, i2⟩ := ih w' (by omega) hle'
      refine ⟨fun hf => i1 (by omega), fun r hr => ?_⟩
      obtain ⟨j1, j2⟩ := i2 r hr
      exact ⟨j1.trans hle', fun w hw hws hfit => j2 w hw (hkey w hw hws hfit) hfit⟩
    · refine ⟨fun _ => ⟨_, rfl⟩, fun r hr => ?_⟩
      rw [Option.some.injEq] at hr
      rw [← hr]
      exact ⟨le_rfl, hkey⟩

/-- A violation in the scan: shrinking the budget. -/
theorem findFeasibleCost_spec {ts : TaskSet} {period w I : ℕ} (hp : 0 < period)
    (hts : ∀ x, boundDemand ts x ≤ x) (hviol : I < boundDemand (withSplit ts w period) I)
    (fuel : ℕ) :
    (w < fuel → ∃ r, findFeasibleCost fuel I (boundDemand ts I) period w = some r) ∧
    (∀ r, findFeasibleCost fuel I (boundDemand ts I) period w = some r → r < w ∧
      ∀ v, 0 < v → v ≤ w → Fits ts period v → v ≤ r) := by
  have hI := hts I
  rw [boundDemand_withSplit] at hviol
  have hwI : w ≤ I := by
    by_contra hc
    rw [if_pos (by omega)] at hviol; omega
  rw [if_neg (by omega)] at hviol
  set slack := I - boundDemand ts I with hslack
  have hlt : slack / ((I + period - w) / period) < w := by
    rw [njobs_eq hp hwI, Nat.div_lt_iff_lt_mul (Nat.succ_pos _), Nat.mul_comm]
    change slack < ((I - w) / period + 1) * w
    omega
  obtain ⟨h1, h2⟩ := feasibleCostLoop_spec (slack := slack) hp fuel w hwI hlt.le
  unfold findFeasibleCost
  rw [if_pos hI]
  refine ⟨h1, fun r hr => ?_⟩
  obtain ⟨h3, h4⟩ := h2 r hr
  refine ⟨by omega, fun v hv hvw hfit => h4 v hv hvw ?_⟩
  have := hfit I
  rw [boundDemand_withSplit, if_neg (by omega)] at this
  omega

theorem cEqualDLoop_eq (innerFuel : ℕ) (ts : TaskSet) (period fuel w : ℕ) :
    cEqualDLoop innerFuel ts period (fuel + 1) w =
    if w = 0 then some 0
    else match qpaScan innerFuel (withSplit ts w period) with
      | none => none
      | some (interval, demand) =>
        if !exceeds demand (minRelativeDeadline (withSplit ts w period)) then some w
        else match findFeasibleCost innerFuel interval (boundDemand ts interval) period w with
          | none => none
          | some w' => cEqualDLoop innerFuel ts period fuel w' := by
  rw [cEqualDLoop]
  unfold qpaScan
  split_ifs
  · rfl
  · simp only
    cases maxInterval innerFuel (withSplit ts w period) (utilization (withSplit ts w period)) <;> rfl

theorem cEqualDLoop_spec {ts : TaskSet} {period : ℕ} (hp : 0 < period)
    (hT : ∀ t ∈ ts, 0 < t.period) (hD : ∀ t ∈ ts, 0 < t.deadline)
    (hts : ∀ x, boundDemand ts x ≤ x) (innerFuel fuel : ℕ) :
    ∀ w r, cEqualDLoop innerFuel ts period fuel w = some r →
      r ≤ w ∧ (0 < r → Fits ts period r) ∧ ∀ v, 0 < v → v ≤ w → Fits ts period v → v ≤ r := by
  induction fuel with
  | zero => intro w r h; simp [cEqualDLoop] at h
  | succ fuel ih =>
    intro w r h
    rw [cEqualDLoop_eq] at h
    split_ifs at h with h0
    · rw [Option.some.injEq] at h
      subst h0
      exact ⟨by omega, fun hr => by omega, fun v hv hv' _ => by omega⟩
    · split at h
      · simp at h
      · rename_i interval dem hscan
        obtain ⟨s1, s2, s3⟩ := qpaScan_spec (withSplit_period hT hp)
          (withSplit_deadline hD (Nat.pos_of_ne_zero h0)) hscan
        split_ifs at h with hex
        · rw [Option.some.injEq] at h
          subst h
          exact ⟨le_rfl, fun _ => s2 (by simpa using hex), fun v _ hv _ => hv⟩
        · have hex' : exceeds dem (minRelativeDeadline (withSplit ts w period)) = true := by
            simpa using hex
          have hviol := s3 hex'
          rw [s1] at hviol
          split at h
          · simp at h
          · rename_i w' hw'
            obtain ⟨f1, f2⟩ := (findFeasibleCost_spec hp hts hviol innerFuel).2 w' hw'
            obtain ⟨i1, i2, i3⟩ := ih w' r h
            exact ⟨by omega, i2, fun v hv hvw hfit => i3 v hv (f2 v hv hvw hfit) hfit⟩

theorem cEqualDLoop_terminates {ts : TaskSet} {period : ℕ} (hp : 0 < period)
    (hT : ∀ t ∈ ts, 0 < t.period) (hD : ∀ t ∈ ts, 0 < t.deadline)
    (hts : ∀ x, boundDemand ts x ≤ x) (W : ℕ)
    (hU : utilization (withSplit ts W period) ≤ 1) :
    ∃ N r, ∀ innerFuel ≥ N, ∀ fuel ≥ W + 1, cEqualDLoop innerFuel ts period fuel W = some r := by
  induction W using Nat.strong_induction_on with
  | _ W ih =>
    rcases Nat.eq_zero_or_pos W with h0 | h0
    · refine ⟨0, 0, fun innerFuel _ fuel hf => ?_⟩
      obtain ⟨f, rfl⟩ : ∃ f, fuel = f + 1 := ⟨fuel - 1, by omega⟩
      rw [cEqualDLoop_eq, if_pos h0]
    · obtain ⟨N1, ⟨interval, dem⟩, hscan⟩ := qpaScan_terminates (withSplit_period hT hp) hU
      obtain ⟨s1, s2, s3⟩ := qpaScan_spec (withSplit_period hT hp)
          (withSplit_deadline hD h0) (hscan N1 le_rfl)
      by_cases hex : exceeds dem (minRelativeDeadline (withSplit ts W period)) = true
      · have hviol := s3 hex
        rw [s1] at hviol
        -- the result of the inner loop does not depend on its fuel
        obtain ⟨w', hw'⟩ := (findFeasibleCost_spec hp hts hviol (W + 1)).1 (by omega)
        have hmono : ∀ f ≥ W + 1, findFeasibleCost f interval (boundDemand ts interval) period W
            = some w' := by
          have aux : ∀ (f : ℕ) (s : ℕ) (r : ℕ) (a b c : ℕ), feasibleCostLoop a b c f s = some r →
              ∀ f' ≥ f, feasibleCostLoop a b c f' s = some r := by
            intro f
            induction f with
            | zero => intro s r a b c h; simp [feasibleCostLoop] at h
            | succ f ih2 =>
              intro s r a b c h f' hf'
              obtain ⟨g, rfl⟩ : ∃ g, f' = g + 1 := ⟨f' - 1, by omega⟩
              rw [feasibleCostLoop] at h ⊢
              split_ifs at h ⊢ with hc
              · exact ih2 _ _ _ _ _ h g (by omega)
              · exact h
          intro f hf
          unfold findFeasibleCost at hw' ⊢
          split_ifs at hw' ⊢ with hc
          exact aux _ _ _ _ _ _ hw' f hf
        obtain ⟨f1, _⟩ := (findFeasibleCost_spec hp hts hviol (W + 1)).2 w' hw'
        have hU' : utilization (withSplit ts w' period) ≤ 1 := by
          rw [utilization_withSplit] at hU ⊢
          have hpq : (0 : ℚ) < period := by exact_mod_cast hp
          have : (w' : ℚ) / period ≤ (W : ℚ) / period := by
            apply div_le_div_of_nonneg_right _ hpq.le
            exact_mod_cast f1.le
          linarith
        obtain ⟨N2, r, h2⟩ := ih w' f1 hU'
        refine ⟨max (max N1 N2) (W + 1), r, fun innerFuel hi fuel hf => ?_⟩
        obtain ⟨f, rfl⟩ : ∃ f, fuel = f + 1 := ⟨fuel - 1, by omega⟩
        rw [cEqualDLoop_eq, if_neg (by omega), hscan innerFuel (by omega)]
        simp only [hex, Bool.not_true, Bool.false_eq_true, if_false]
        rw [hmono innerFuel (by omega)]
        exact h2 innerFuel (by omega) f (by omega)
      · refine ⟨N1, W, fun innerFuel hi fuel hf => ?_⟩
        obtain ⟨f, rfl⟩ : ∃ f, fuel = f + 1 := ⟨fuel - 1, by omega⟩
        rw [cEqualDLoop_eq, if_neg (by omega), hscan innerFuel hi]
        simp only [Bool.not_eq_true] at hex
        simp [hex]

/-- The initial budget is at most the requested one, leaves the processor not
over-utilized, and excludes no budget that does so. -/
theorem initialBudget_spec (ts : TaskSet) (wcet : ℕ) {period : ℕ} (hp : 0 < period) :
    initialBudget ts wcet period ≤ wcet ∧
    utilization ts + (initialBudget ts wcet period : ℚ) / period ≤ 1 ∧
    (∀ v : ℕ, v ≤ wcet → utilization ts + (v : ℚ) / period ≤ 1 → (v : ℤ) ≤ initialBudget ts wcet period) ∧
    (utilization ts + (wcet : ℚ) / period ≤ 1 → 0 ≤ initialBudget ts wcet period) := by
  have hpq : (0 : ℚ) < period := by exact_mod_cast hp
  unfold initialBudget
  simp only
  split_ifs with hU
  · have hexp : (utilization ts + (wcet : ℚ) / period - 1) * period
        = (utilization ts - 1) * period + wcet := by field_simp; ring
    have hpos : 0 < roundUp ((utilization ts + (wcet : ℚ) / period - 1) * period) := by
      rw [roundUp_eq]
      rw [Int.ceil_pos]
      have : 0 < utilization ts + (wcet : ℚ) / period - 1 := by linarith
      positivity
    refine ⟨by omega, ?_, ?_, fun h => absurd h (not_le.2 hU)⟩
    · rw [roundUp_eq]
      have := Int.le_ceil ((utilization ts + (wcet : ℚ) / period - 1) * period)
      rw [hexp] at this ⊢
      push_cast
      rw [← le_sub_iff_add_le', div_le_iff₀ hpq]
      linarith
    · intro v _ hv
      have h1 : roundUp ((utilization ts + (wcet : ℚ) / period - 1) * period) ≤ (wcet : ℤ) - v := by
        rw [roundUp_eq]
        rw [Int.ceil_le, hexp]
        push_cast
        rw [← le_sub_iff_add_le', div_le_iff₀ hpq] at hv
        linarith
      omega
  · refine ⟨le_rfl, ?_, fun v hv _ => by exact_mod_cast hv, fun _ => by omega⟩
    push_cast
    exact not_lt.1 hU

theorem fits_iff {ts : TaskSet} {period w : ℕ} (hp : 0 < period) (hT : ∀ t ∈ ts, 0 < t.period) :
    Fits ts period w ↔ EdfSchedulable 1 (costs (withSplit ts w period))
      (periods (withSplit ts w period)) (deadlines (withSplit ts w period)) := by
  rw [edfSchedulable_iff (periods_pos (withSplit_period hT hp))]
  unfold Fits
  simp only [boundDemand_eq_demand (withSplit_period hT hp)]

theorem maxCEqualDCost_spec {ts : TaskSet} {period : ℕ} (hp : 0 < period)
    (hT : ∀ t ∈ ts, 0 < t.period) (hD : ∀ t ∈ ts, 0 < t.deadline)
    (hts : ∀ x, boundDemand ts x ≤ x) (wcet : ℕ) :
    (∃ N r, ∀ fuel ≥ N, maxCEqualDCost fuel ts wcet period = some r) ∧
    ∀ fuel r, maxCEqualDCost fuel ts wcet period = some r →
      r ≤ wcet ∧ (0 < r → Fits ts period r) ∧ ∀ v, 0 < v → v ≤ wcet → Fits ts period v → v ≤ r := by
  obtain ⟨b1, b2, b3, b4⟩ := initialBudget_spec ts wcet hp
  have hfit : ∀ v, v ≤ wcet → Fits ts period v → (v : ℤ) ≤ initialBudget ts wcet period := by
    intro v hv hf
    apply b3 v hv
    rw [← utilization_withSplit]
    exact util_le_of_demand (withSplit_period hT hp) hf
  unfold maxCEqualDCost
  by_cases hc : utilization ts + (wcet : ℚ) / period > 1 ∧ initialBudget ts wcet period ≤ 0
  · simp only [if_pos hc]
    refine ⟨⟨0, 0, fun _ _ => rfl⟩, fun fuel r h => ?_⟩
    rw [Option.some.injEq] at h
    subst h
    refine ⟨by omega, fun h => by omega, fun v hv hvw hf => ?_⟩
    have := hfit v hvw hf
    omega
  · simp only [if_neg hc]
    have hnn : 0 ≤ initialBudget ts wcet period := by
      by_cases hU : utilization ts + (wcet : ℚ) / period ≤ 1
      · exact b4 hU
      · have : ¬ initialBudget ts wcet period ≤ 0 := fun h => hc ⟨not_le.1 hU, h⟩
        omega
    have hcast := Int.toNat_of_nonneg hnn
    set B := (initialBudget ts wcet period).toNat with hB
    constructor
    · have hU : utilization (withSplit ts B period) ≤ 1 := by
        rw [utilization_withSplit]
        rw [← hcast, Int.cast_natCast] at b2
        exact b2
      obtain ⟨N, r, h⟩ := cEqualDLoop_terminates hp hT hD hts B hU
      exact ⟨max N (B + 1), r, fun fuel hf => h fuel (by omega) fuel (by omega)⟩
    · intro fuel r h
      obtain ⟨c1, c2, c3⟩ := cEqualDLoop_spec hp hT hD hts fuel fuel B r h
      exact ⟨by omega, c2, fun v hv hvw hf => c3 v hv (by have := hfit v hvw hf; omega) hf⟩

/-- **C10**: for an EDF-schedulable partition, the budget search ends, and its
result is the largest budget `w ≤ wcet` such that the partition together with a
task of cost `w`, the given period and deadline `w` is EDF-schedulable, or 0 if
there is no such budget. -/
theorem C10_c_equal_d_max (ts : TaskSet) (wcet period : ℕ) (hp : 0 < period)
    (hT : ∀ t ∈ ts, 0 < t.period) (hD : ∀ t ∈ ts, 0 < t.deadline)
    (hsched : EdfSchedulable 1 (costs ts) (periods ts) (deadlines ts)) :
    let ok := fun w : ℕ =>
      let ts' : TaskSet := ts ++ [{ wcet := w, period := period, deadline := w, prioPt := w,
                                    selfSuspension := 0, tardinessThreshold := 0 }]
      EdfSchedulable 1 (costs ts') (periods ts') (deadlines ts')
    (∃ N r, ∀ fuel ≥ N, maxCEqualDCost fuel ts wcet period = some r) ∧
    ∀ fuel r, maxCEqualDCost fuel ts wcet period = some r →
      r ≤ wcet ∧ (0 < r → ok r) ∧ ∀ w, r < w → w ≤ wcet → ¬ ok w := by
  have hts : ∀ x, boundDemand ts x ≤ x := by
    intro x
    rw [boundDemand_eq_demand hT]
    exact (edfSchedulable_iff (periods_pos hT)).1 hsched x
  obtain ⟨h1, h2⟩ := maxCEqualDCost_spec hp hT hD hts wcet
  refine ⟨h1, fun fuel r h => ?_⟩
  obtain ⟨h3, h4, h5⟩ := h2 fuel r h
  refine ⟨h3, fun hr => (fits_iff hp hT).1 (h4 hr), fun w hrw hw hok => ?_⟩
  have := h5 w (by omega) hw ((fits_iff hp hT).2 hok)
  omega

/-- Non-vacuity of C10: the partition is schedulable and the result is neither 0
nor the requested cost. -/
example : EdfSchedulable 1 (costs [⟨2, 5, 4, 4, 0, 0⟩]) (periods [⟨2, 5, 4, 4, 0, 0⟩])
    (deadlines [⟨2, 5, 4, 4, 0, 0⟩]) :=
  C09_edf_sound [⟨2, 5, 4, 4, 0, 0⟩] 100 (by decide +kernel)
example : maxCEqualDCost 100 [⟨2, 5, 4, 4, 0, 0⟩] 6 10 = some 2 := by decide +kernel

end Verif.Native
