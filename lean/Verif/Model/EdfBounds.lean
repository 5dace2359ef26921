/-
Model of `bound_response_times` for global EDF (`schedcat/sched/edf/__init__.py`).
-/
import Verif.Model.Da
import Verif.Model.NativeGedf

namespace Verif.GEdf

/-- What `bound_response_times` does: it raises an exception, returns `False`, or returns
`True` after it has stored a response time for each task. -/
inductive Bounds
  | error
  | noBounds
  | bounds (rs : List ℤ)
deriving DecidableEq

/-- The result of `da_tardiness_bounds` (`da.py:82-92`). -/
def daBounds (m : ℕ) (ts : List ITask) : Bounds :=
  match Da.boundResponseTimes m (fun i : Fin ts.length => ⟨(ts.get i).cost, (ts.get i).period, (ts.get i).deadline⟩)
    true with
  | none => .error
  | some none => .noBounds
  | some (some R) => .bounds (List.ofFn R)

/-- `__init__.py:112-131` (`bound_response_times`); `sched` is the result of
`is_schedulable`, and `rtaStep` the argument `rta_min_step` if it is given and 0
otherwise. `none`: not ended within `fuel` iterations. -/
def edfBounds (sched : Option Bool) (fuel m : ℕ) (ts : List ITask) (rtaStep : ℕ := 0) : Option Bounds :=
  sched.bind (fun s =>
    if s then
      (rtaBoundResponseTimes fuel m ts (minFixpointStep := rtaStep)).map (fun r =>
        match r with
        | some rs => .bounds rs
        | none => .bounds (ts.map (fun t => (t.deadline : ℤ))))
    else some (daBounds m ts))

end Verif.GEdf
