/-
Model of `native/src/edf/qpa.cpp`.

A `do … while` loop is a function of the number of iterations allowed (`fuel`);
it returns `none` if the loop has not ended within that many iterations.
-/
import Verif.Model.NativeTasks

namespace Verif.Native
open TaskSet

/-- The body of the loop of `edf_busy_interval`, `qpa.cpp:41-47`. -/
def busyStep (ts : TaskSet) (interval : ℕ) : ℕ :=
  (ts.map (fun t => divideWithCeil interval t.period * t.wcet)).sum

/-- The loop of `edf_busy_interval`, `qpa.cpp:39-48`. -/
def busyLoop (ts : TaskSet) : ℕ → ℕ → Option ℕ
  | 0, _ => none
  | fuel + 1, interval =>
    let totalCost := busyStep ts interval
    if interval = totalCost then some interval else busyLoop ts fuel totalCost

/-- `edf_busy_interval`, `qpa.cpp:29-51`. -/
def edfBusyInterval (fuel : ℕ) (ts : TaskSet) : Option ℕ :=
  busyLoop ts fuel (ts.map Task.wcet).sum

/-- `zhang_burns_interval`, `qpa.cpp:53-79`.  The variable `interval` starts at 0
and only grows, so the result is a natural number. -/
def zhangBurnsInterval (ts : TaskSet) : ℕ :=
  let interval : ℤ := ts.foldl (fun acc t => max acc ((t.deadline : ℤ) - t.period)) 0
  let totalScaledDelta : ℚ :=
    (ts.map (fun t => ((t.period : ℚ) - t.deadline) * t.utilization)).sum
  (max interval (roundUp (totalScaledDelta / (1 - utilization ts)))).toNat

/-- `max_deadline`, `qpa.cpp:100-108`; only called if `deadline < max_time`. -/
def maxDeadline (t : Task) (maxTime : ℕ) : ℕ :=
  (maxTime - t.deadline) / t.period * t.period + t.deadline

/-- `min_relative_deadline`, `qpa.cpp:111-119`; `none` stands for `ULONG_MAX`,
the result for an empty task set. -/
def minRelativeDeadline : TaskSet → Option ℕ
  | [] => none
  | t :: ts => match minRelativeDeadline ts with
    | none => some t.deadline
    | some d => some (min t.deadline d)

/-- The candidate of one task in `get_largest_testpoint`, `qpa.cpp:128-133`. -/
def taskTestpoint (t : Task) (maxTime : ℕ) : Option ℕ :=
  if t.deadline < maxTime then
    let maxDl := maxDeadline t maxTime
    if maxDl = maxTime then some (maxDl - t.period) else some maxDl
  else none

/-- `get_largest_testpoint`, `qpa.cpp:121-140`. -/
def largestTestpoint (ts : TaskSet) (maxTime : ℕ) : ℕ :=
  ts.foldl (fun point t => match taskTestpoint t maxTime with
    | some maxDl => if maxDl > point then maxDl else point
    | none => point) 0

/-- `QPATest::get_max_interval`, `qpa.cpp:149-157` (also `qpa.cpp:266-271`). -/
def maxInterval (fuel : ℕ) (ts : TaskSet) (util : ℚ) : Option ℕ :=
  match edfBusyInterval fuel ts with
  | none => none
  | some busy => some (if util < 1 then min busy (zhangBurnsInterval ts) else busy)

/-- `demand > min_interval`, where the minimum may be `ULONG_MAX`. -/
def exceeds (demand : ℕ) : Option ℕ → Bool
  | none => false
  | some d => decide (demand > d)

/-- The main loop of QPA, `qpa.cpp:182-194` (and `277-286`); returns the values
of `interval` and `demand` at the end.  `dem` is the virtual function `get_demand`,
`boundDemand ts` in class `QPATest` (`qpa.cpp:142-147`). -/
def qpaLoop (dem : ℕ → ℕ) (ts : TaskSet) (minInterval : Option ℕ) : ℕ → ℕ → Option (ℕ × ℕ)
  | 0, _ => none
  | fuel + 1, interval =>
    let demand := dem interval
    let next := if demand < interval then demand else largestTestpoint ts interval
    if demand ≤ interval ∧ exceeds demand minInterval = true then qpaLoop dem ts minInterval fuel next
    else some (interval, demand)

/-- `QPATest::is_schedulable`, `qpa.cpp:159-197`, with
`check_preconditions = true`. -/
def qpaIsSchedulable (fuel : ℕ) (ts : TaskSet) : Option Bool :=
  if !(hasNoSelfSuspendingTasks ts && hasOnlyFeasibleTasks ts) then some false
  else if utilization ts > 1 then some false
  else
    match maxInterval fuel ts (utilization ts) with
    | none => none
    | some maxInt =>
      match qpaLoop (boundDemand ts) ts (minRelativeDeadline ts) fuel (largestTestpoint ts maxInt) with
      | none => none
      | some (_, demand) => some (!exceeds demand (minRelativeDeadline ts))

/-- The loop of `find_feasible_cost_fixpoint`, `qpa.cpp:215-226`; the result is
the final value of `wcet`.  `slack` and `baseLength` are as in lines 208-209. -/
def feasibleCostLoop (slack baseLength period : ℕ) : ℕ → ℕ → Option ℕ
  | 0, _ => none
  | fuel + 1, start =>
    let njobs := (baseLength - start) / period
    let wcet := slack / njobs
    if start ≠ wcet ∧ wcet > 0 then feasibleCostLoop slack baseLength period fuel wcet
    else some wcet

/-- `find_feasible_cost_fixpoint`, `qpa.cpp:200-227`.  The assertion of line 211
is part of the model: a negative slack gives `none`. -/
def findFeasibleCost (fuel interval demandOfOthers period wcet : ℕ) : Option ℕ :=
  if demandOfOthers ≤ interval then
    feasibleCostLoop (interval - demandOfOthers) (interval + period) period fuel wcet
  else none

/-- `ts_with_split`, `qpa.cpp:258-259` and `296-297`: the C=D task is the last
one. -/
def withSplit (ts : TaskSet) (w period : ℕ) : TaskSet := ts ++ [⟨w, period, w, w, 0, 0⟩]

/-- The loop of `qpa_get_max_C_equal_D_cost`, `qpa.cpp:264-299`. -/
def cEqualDLoop (innerFuel : ℕ) (ts : TaskSet) (period : ℕ) : ℕ → ℕ → Option ℕ
  | 0, _ => none
  | fuel + 1, w =>
    if w = 0 then some 0
    else
      let tsw := withSplit ts w period
      match maxInterval innerFuel tsw (utilization tsw) with
      | none => none
      | some maxInt =>
        match qpaLoop (boundDemand tsw) tsw (minRelativeDeadline tsw) innerFuel (largestTestpoint tsw maxInt) with
        | none => none
        | some (interval, demand) =>
          if !exceeds demand (minRelativeDeadline tsw) then some w
          else
            match findFeasibleCost innerFuel interval (boundDemand ts interval) period w with
            | none => none
            | some w' => cEqualDLoop innerFuel ts period fuel w'

/-- The initial budget, `qpa.cpp:238-255`, before the conversion to
`unsigned long`. -/
def initialBudget (ts : TaskSet) (wcet period : ℕ) : ℤ :=
  let util := utilization ts + (wcet : ℚ) / period
  if util > 1 then (wcet : ℤ) - roundUp ((util - 1) * period) else wcet

/-- `qpa_get_max_C_equal_D_cost`, `qpa.cpp:232-302`. -/
def maxCEqualDCost (fuel : ℕ) (ts : TaskSet) (wcet period : ℕ) : Option ℕ :=
  if utilization ts + (wcet : ℚ) / period > 1 ∧ initialBudget ts wcet period ≤ 0 then some 0
  else cEqualDLoop fuel ts period fuel (initialBudget ts wcet period).toNat

end Verif.Native
