/-
Model of `schedcat/sched/fp/rta.py`: uniprocessor fixed-priority response-time
analysis.  Python numbers are exact rationals; the attribute `response_time` of
an already analysed task is paired with the task.
-/
import Mathlib.Data.Rat.Floor
import Mathlib.Algebra.BigOperators.Group.List.Basic

namespace Verif.Fp

/-- The attributes of a task that the analysis reads.  A missing `jitter`,
`suspended` or `prio_inversion` is 0 (getters, `rta.py:18-25`); for `blocked` the
code also asks whether the attribute exists (line 80). -/
structure FpTask where
  cost : ℚ
  period : ℚ
  deadline : ℚ
  jitter : ℚ := 0
  suspended : ℚ := 0
  prioInversion : ℚ := 0
  blocked : Option ℚ := none
deriving DecidableEq

/-- `get_blocked`, `rta.py:15-16`. -/
def FpTask.getBlocked (t : FpTask) : ℚ := t.blocked.getD 0

/-- `suspension_jitter`, `rta.py:27-32`. -/
def suspensionJitter (t : FpTask × ℚ) : ℚ :=
  if t.1.suspended > 0 then t.2 - t.1.cost else t.1.jitter

/-- `get_jitter`, `rta.py:18-19`, of an analysed task. -/
def getJitter (t : FpTask × ℚ) : ℚ := t.1.jitter

/-- The demand computed in the loop body, `rta.py:38-40`. -/
def demandAt (own : ℚ) (hp : List (FpTask × ℚ)) (hpJitter : FpTask × ℚ → ℚ) (delta : ℚ) : ℚ :=
  own + (hp.map (fun t => t.1.cost * (⌈(delta + hpJitter t) / t.1.period⌉ : ℤ))).sum

/-- The loop of `_rta_jitter_aware`, `rta.py:37-49`; the outer `none` means that
it has not ended within `fuel` iterations, `some none` that it returned `False`,
`some (some delta)` that it found the fixpoint `delta`. -/
def rtaLoop (deadline own : ℚ) (hp : List (FpTask × ℚ)) (hpJitter : FpTask × ℚ → ℚ) :
    ℕ → ℚ → Option (Option ℚ)
  | 0, _ => none
  | fuel + 1, delta =>
    if delta ≤ deadline then
      let demand := demandAt own hp hpJitter delta
      if demand = delta then some (some delta) else rtaLoop deadline own hp hpJitter fuel demand
    else some none

/-- `_rta_jitter_aware`, `rta.py:34-49`; the result is the new `response_time`. -/
def rtaTask (fuel : ℕ) (t : FpTask) (own : ℚ) (hp : List (FpTask × ℚ))
    (hpJitter : FpTask × ℚ → ℚ) : Option (Option ℚ) :=
  (rtaLoop t.deadline own hp hpJitter fuel ((hp.map (fun t => t.1.cost)).sum + own)).map
    (fun r => r.map (fun delta => delta + t.jitter))

/-- `rta_jitter_aware`, `rta.py:51-54`. -/
def rtaJitterAware (fuel : ℕ) (t : FpTask) (hp : List (FpTask × ℚ)) : Option (Option ℚ) :=
  rtaTask fuel t (t.prioInversion + t.cost) hp getJitter

/-- `rta_suspension_aware`, `rta.py:56-61`. -/
def rtaSuspensionAware (fuel : ℕ) (t : FpTask) (hp : List (FpTask × ℚ)) : Option (Option ℚ) :=
  rtaTask fuel t (t.prioInversion + t.cost + t.suspended) hp suspensionJitter

/-- `legacy_rta_jitter_aware`, `rta.py:63-66`. -/
def legacyRtaJitterAware (fuel : ℕ) (t : FpTask) (hp : List (FpTask × ℚ)) : Option (Option ℚ) :=
  rtaTask fuel t (t.getBlocked + t.cost) hp getJitter

/-- `legacy_rta_suspension_aware`, `rta.py:68-73`. -/
def legacyRtaSuspensionAware (fuel : ℕ) (t : FpTask) (hp : List (FpTask × ℚ)) :
    Option (Option ℚ) :=
  rtaTask fuel t (t.getBlocked + t.cost) hp suspensionJitter

/-- `has_self_suspensions`, `rta.py:75-79`. -/
def hasSelfSuspensions (ts : List FpTask) : Bool := ts.any (fun t => decide (t.suspended ≠ 0))

/-- `uses_legacy_blocked_field`, `rta.py:81-85`. -/
def usesLegacyBlockedField (ts : List FpTask) : Bool := ts.any (fun t => t.blocked.isSome)

/-- `taskset.only_constrained_deadlines()`. -/
def onlyConstrained (ts : List FpTask) : Bool := ts.all (fun t => decide (t.deadline ≤ t.period))

/-- The loop over the tasks, `rta.py:107-110`: returns whether all tasks passed,
and the tasks whose `response_time` was set. -/
def boundLoop (rta : FpTask → List (FpTask × ℚ) → Option (Option ℚ)) :
    List (FpTask × ℚ) → List FpTask → Option (Bool × List (FpTask × ℚ))
  | done, [] => some (true, done)
  | done, t :: ts =>
    match rta t done with
    | none => none
    | some none => some (false, done)
    | some (some r) => boundLoop rta (done ++ [(t, r)]) ts

/-- The analysis chosen in `rta.py:97-106`. -/
def chooseRta (ts : List FpTask) : ℕ → FpTask → List (FpTask × ℚ) → Option (Option ℚ) :=
  if usesLegacyBlockedField ts && hasSelfSuspensions ts then legacyRtaSuspensionAware
  else if usesLegacyBlockedField ts then legacyRtaJitterAware
  else if hasSelfSuspensions ts then rtaSuspensionAware
  else rtaJitterAware

/-- `bound_response_times`, `rta.py:87-111`. -/
def boundResponseTimes (fuel noCpus : ℕ) (ts : List FpTask) : Option (Bool × List (FpTask × ℚ)) :=
  if !(decide (noCpus = 1) && onlyConstrained ts) then some (false, [])
  else boundLoop (chooseRta ts fuel) [] ts

end Verif.Fp
