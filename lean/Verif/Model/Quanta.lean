/-
Model of quantum-based overhead accounting: `schedcat/overheads/quanta.py` and
`schedcat/overheads/pfair.py`.

`quanta.py` compares remainders with `is 0`, which holds for the `int` 0 and
not for the `float` 0.0.  Numbers whose Python type matters are therefore
tagged (`PyNum`); values are exact.  The functions change tasks in place and
return the task list or `False`; the model returns the changed list.
-/
import Mathlib.Data.Rat.Floor
import Mathlib.Algebra.Order.Ring.Rat

namespace Verif.Oh

/-- What a call does: raise, return `False`, or return the (changed) tasks. -/
inductive Outcome (α : Type) where
  | raised
  | rejected
  | accepted (a : α)
deriving DecidableEq, Repr

/-- A Python number: `int`/`long`, or `float` (exact). -/
inductive PyNum where
  | int (z : ℤ)
  | float (q : ℚ)
deriving DecidableEq, Repr

namespace PyNum

/-- The value of a Python number. -/
def val : PyNum → ℚ
  | int z => z
  | float q => q

/-- `a - b`. -/
def sub : PyNum → PyNum → PyNum
  | int a, int b => int (a - b)
  | a, b => float (a.val - b.val)

/-- `a + b`. -/
def add : PyNum → PyNum → PyNum
  | int a, int b => int (a + b)
  | a, b => float (a.val + b.val)

/-- `n * q` for an `int` `n`. -/
def nmul (n : ℤ) : PyNum → PyNum
  | int z => int (n * z)
  | float q => float (n * q)

end PyNum

/-- A task under quantum-based scheduling. -/
structure QTask where
  cost : ℚ
  period : PyNum
  deadline : PyNum
deriving DecidableEq, Repr

/-- `SporadicTask.density` (`schedcat/model/tasks.py:40-41`); `none` is a
`ZeroDivisionError`. -/
def QTask.density (t : QTask) : Option ℚ :=
  let m := min t.period.val t.deadline.val
  if m = 0 then none else some (t.cost / m)

/-- The loops of this file: change each task, raise on a division by zero,
return `False` at the first task with `density() >= 1`. -/
def sweep (f : QTask → Option QTask) : List QTask → Outcome (List QTask)
  | [] => .accepted []
  | t :: ts =>
    match f t with
    | none => .raised
    | some t' =>
      match t'.density with
      | none => .raised
      | some d =>
        if d ≥ 1 then .rejected
        else
          match sweep f ts with
          | .accepted ts' => .accepted (t' :: ts')
          | o => o

/-- `schedcat/overheads/quanta.py:7-8`.  `value % qlen is 0`: for two `int`s
iff the remainder is zero, never for floats; `none` is a `ZeroDivisionError`. -/
def isQuantumMultiple (qlen value : PyNum) : Option Bool :=
  match value, qlen with
  | .int v, .int q => if q = 0 then none else some (decide (v % q = 0))
  | _, q => if q.val = 0 then none else some false

/-- Body of the loop in `quantize_wcet`, `quanta.py:22-24`. -/
def quantizeCost (qlen eff : ℚ) (t : QTask) : QTask :=
  { t with cost := (⌈t.cost / eff⌉ : ℤ) * qlen }

/-- `schedcat/overheads/quanta.py:13-27` (`quantize_wcet`); lines 18-19 are the
caller's choice of `eff`.  Failed assertions are `raised`. -/
def quantizeWcet (qlen : ℚ) (tasks : List QTask) (eff : ℚ) : Outcome (List QTask) :=
  if ¬ eff > 0 then .raised
  else if ¬ qlen > 0 then .raised
  else sweep (fun t => some (quantizeCost qlen eff t)) tasks

/-- `quanta.py:37-40` and `:41-44`: round one parameter down to a multiple of
the quantum, unless `is_quantum_multiple(value, qlen)`.  The parameter is
passed first, as in the code. -/
def roundParam (qlen value : PyNum) : Option PyNum :=
  match isQuantumMultiple value qlen with
  | none => none
  | some true => some value
  | some false =>
    if qlen.val = 0 then none
    else some (PyNum.nmul ⌊value.val / qlen.val⌋ qlen)

/-- Body of the loop in `quantize_period`, `quanta.py:37-44`. -/
def quantizeParams1 (qlen : PyNum) (deadline : Bool) (t : QTask) : Option QTask :=
  match roundParam qlen t.period with
  | none => none
  | some p =>
    if deadline then
      match roundParam qlen t.deadline with
      | none => none
      | some d => some { t with period := p, deadline := d }
    else some { t with period := p }

/-- `schedcat/overheads/quanta.py:29-47` (`quantize_period`). -/
def quantizePeriod (qlen : PyNum) (tasks : List QTask) (deadline : Bool := false) :
    Outcome (List QTask) :=
  sweep (quantizeParams1 qlen deadline) tasks

/-- `schedcat/overheads/quanta.py:49-59` (`account_for_delayed_release`). -/
def accountForDelayedRelease (delay : PyNum) (tasks : List QTask) : Outcome (List QTask) :=
  sweep (fun t => some
    { t with period := t.period.sub delay, deadline := t.deadline.sub delay }) tasks

/-- `schedcat/overheads/quanta.py:61-62` (`stagger_latency`); a true division,
so the result is a `float`; `none` is a `ZeroDivisionError`. -/
def staggerLatency (qlen numCpus : ℚ) : Option ℚ :=
  if numCpus = 0 then none else some ((numCpus - 1) / numCpus * qlen)

/-- `schedcat/overheads/quanta.py:64-77` (`account_for_staggering`). -/
def accountForStaggering (qlen : ℚ) (numCpus : ℕ) (tasks : List QTask) :
    Outcome (List QTask) :=
  match staggerLatency qlen numCpus with
  | none => .raised
  | some r => accountForDelayedRelease (.float r) tasks

/-- Values of the overhead functions that `pfair.py` reads. -/
structure PfairOheads where
  quantum : PyNum
  releaseLatency : PyNum
  release : PyNum
  tick : ℚ
  schedule : ℚ
  ctxSwitch : ℚ
  cacheAffinityLoss : ℚ

/-- Effective quantum length, `pfair.py:16-25`. -/
def PfairOheads.qeff (o : PfairOheads) (dedicatedIrq : Bool) (n : ℕ) : ℚ :=
  let q := o.quantum.val - o.releaseLatency.val - o.tick - o.schedule - o.ctxSwitch
    - o.cacheAffinityLoss
  if dedicatedIrq then q else q - ((n : ℚ) - 1) * o.release.val

/-- Release delay, `pfair.py:37-52`.  The call in line 52 is
`stagger_latency(total_cpus, qlen)`. -/
def PfairOheads.releaseDelay (o : PfairOheads) (numCpus : ℕ) (staggered : Bool)
    (totalCpus : Option ℕ) (aligned : Bool) : Option PyNum :=
  let d := if aligned then PyNum.int 0
    else (o.quantum.add o.releaseLatency).add o.release
  if staggered then
    match staggerLatency ((totalCpus.getD numCpus : ℕ) : ℚ) o.quantum.val with
    | none => none
    | some s => some (d.add (.float s))
  else some d

/-- `schedcat/overheads/pfair.py:5-58` (`charge_scheduling_overheads`) with an
overhead object whose functions evaluate to `o`.  `oheads=None` is the trivial
case of line 8. -/
def pfairCharge (o : PfairOheads) (numCpus : ℕ) (dedicatedIrq : Bool) (tasks : List QTask)
    (staggered : Bool := false) (totalCpus : Option ℕ := none) (aligned : Bool := false) :
    Outcome (List QTask) :=
  if tasks = [] then .accepted tasks
  else
    let qeff := o.qeff dedicatedIrq tasks.length
    if qeff ≤ 0 then .rejected
    else
      match quantizeWcet o.quantum.val tasks qeff with
      | .raised => .raised
      | .rejected => .rejected
      | .accepted ts₁ =>
        match o.releaseDelay numCpus staggered totalCpus aligned with
        | none => .raised
        | some delay =>
          match accountForDelayedRelease delay ts₁ with
          | .raised => .raised
          | .rejected => .rejected
          | .accepted ts₂ => quantizePeriod o.quantum ts₂ true

end Verif.Oh
