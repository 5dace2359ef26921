/-
Model of `schedcat/sched/edf/gy_rta.py`.

`none` as a slack is `float("inf")`, and then the response time is `-inf`.  The
functions that contain loops take the number of iterations after which they give
up; the answer `none` means that they do not end by then, or raise an exception.
-/
import Verif.Model.Tasks

namespace Verif.GyRta

/-- `schedcat/sched/edf/gy_rta.py:30-40` (`find_L_prime`), from `l_prime = l` on. -/
def findLPrime (rbf sbf : ℚ → ℚ) : ℕ → ℚ → Option ℚ
  | 0, _ => none
  | fuel + 1, l => if rbf l ≤ sbf l then some l else findLPrime rbf sbf fuel (l + (rbf l - sbf l))

/-- `schedcat/model/tasks.py:244-245` (`max_deadline`); `max` of no numbers raises an
exception. -/
def maxDeadline (ts : TaskSystem) : Option ℚ := (ts.map (·.deadline)).max?

/-- `schedcat/sched/edf/gy_rta.py:42-46` (`find_L`). -/
def findL (fuel : ℕ) (ts : TaskSystem) (sbf : ℚ → ℚ) : Option ℚ :=
  (findLPrime (TaskSystem.rbf ts) sbf fuel 0).bind fun l => (maxDeadline ts).map fun d => l + d

/-- `schedcat/sched/edf/gy_rta.py:48-53` (`delta_values`). -/
def deltaValues (fuel : ℕ) (ts : TaskSystem) (sbf : ℚ → ℚ) : Option (List ℚ) :=
  (findL fuel ts sbf).map fun L => TaskSystem.dbfPointsOfChange ts L

/-- `min` of a slack and a number. -/
def minInf : Option ℚ → ℚ → Option ℚ
  | none, x => some x
  | some a, x => some (min a x)

/-- `min` of two slacks. -/
def minSlack : Option ℚ → Option ℚ → Option ℚ
  | none, b => b
  | some a, none => some a
  | some a, some b => some (min a b)

/-- `schedcat/sched/edf/gy_rta.py:70-74` and `112-116`. -/
def advance (ts : TaskSystem) (i : ℕ) (delta : ℚ) : ℕ :=
  match ts[i + 1]? with
  | some t => if delta ≥ t.deadline then i + 1 else i
  | none => i

/-- `schedcat/sched/edf/gy_rta.py:69-75` and `111-123`: the loop over `delta`, for
the position `i` and the list `s`; `upd` computes the new value of `s[i]`. -/
def sweep (ts : TaskSystem) (upd : Option ℚ → ℚ → Option (Option ℚ)) :
    List ℚ → ℕ → List (Option ℚ) → Option (List (Option ℚ))
  | [], _, s => some s
  | delta :: rest, i, s =>
    let i' := advance ts i delta
    (upd (s.getD i' none) delta).bind fun x => sweep ts upd rest i' (s.set i' x)

/-- `schedcat/sched/edf/gy_rta.py:76-79` and `124-127`: `s[i-1] = min(s[i], s[i-1])`
from the last element on. -/
def suffixMin : List (Option ℚ) → List (Option ℚ)
  | [] => []
  | a :: l =>
    match suffixMin l with
    | [] => [a]
    | b :: l' => minSlack b a :: b :: l'

/-- `schedcat/sched/edf/gy_rta.py:76-79`: the tasks with their attribute
`response_time`. -/
def responses (ts : TaskSystem) (s : List (Option ℚ)) : List (SporadicTask × Option ℚ) :=
  (ts.zip (suffixMin s)).map fun p => (p.1, p.2.map fun x => p.1.deadline - x)

/-- The part that `approx_wcrt` and `exact_wcrt` have in common.  `some none` is the
answer `False`; otherwise the sorted task set with its response times. -/
def wcrt (fuel : ℕ) (ts : TaskSystem) (sbf : ℚ → ℚ) (upd : TaskSystem → Option ℚ → ℚ → Option (Option ℚ)) :
    Option (Option (List (SporadicTask × Option ℚ))) :=
  if TaskSystem.utilization ts > 1 then some none
  else
    let sorted := TaskSystem.sortByDeadline ts
    (deltaValues fuel sorted sbf).bind fun deltas =>
      (sweep sorted (upd sorted) deltas 0 (List.replicate sorted.length none)).map fun s =>
        some (responses sorted s)

/-- `schedcat/sched/edf/gy_rta.py:75`. -/
def approxUpd (inv : ℚ → ℚ) (ts : TaskSystem) (s : Option ℚ) (delta : ℚ) : Option (Option ℚ) :=
  some (minInf s (delta - inv (TaskSystem.dbf ts delta)))

/-- `schedcat/sched/edf/gy_rta.py:55-79` (`approx_wcrt`). -/
def approxWcrt (fuel : ℕ) (ts : TaskSystem) (sbf inv : ℚ → ℚ) :
    Option (Option (List (SporadicTask × Option ℚ))) :=
  wcrt fuel ts sbf (approxUpd inv)

/-- `schedcat/sched/edf/gy_rta.py:81-95` (`mbf_i`, `mbf`). -/
def mbf (ts : TaskSystem) (delta gamma : ℚ) : ℚ :=
  (ts.map fun t => min (t.dbf delta) (t.rbf gamma)).sum

/-- `schedcat/sched/edf/gy_rta.py:120-122`: the loop for `gamma_old` and
`gamma_new`. -/
def gammaLoop (f : ℚ → ℚ) : ℕ → ℚ → ℚ → Option ℚ
  | 0, _, _ => none
  | fuel + 1, old, new => if new ≠ old then gammaLoop f fuel new (f new) else some new

/-- `delta - ... < s[i]` in `schedcat/sched/edf/gy_rta.py:117`. -/
def ltInf (x : ℚ) : Option ℚ → Bool
  | none => true
  | some a => x < a

/-- `schedcat/sched/edf/gy_rta.py:117-123`. -/
def exactUpd (fuel : ℕ) (inv : ℚ → ℚ) (ts : TaskSystem) (s : Option ℚ) (delta : ℚ) : Option (Option ℚ) :=
  if ltInf (delta - inv (TaskSystem.dbf ts delta)) s then
    (gammaLoop (fun gamma => inv (mbf ts delta gamma)) fuel 0 (inv (mbf ts delta 0))).map
      fun gamma => minInf s (delta - gamma)
  else some s

/-- `schedcat/sched/edf/gy_rta.py:97-127` (`exact_wcrt`). -/
def exactWcrt (fuel : ℕ) (ts : TaskSystem) (sbf inv : ℚ → ℚ) :
    Option (Option (List (SporadicTask × Option ℚ))) :=
  wcrt fuel ts sbf (exactUpd fuel inv)

/-- `schedcat/sched/edf/gy_rta.py:18-28` (`sbf_uniprocessor` and
`sbf_inverse_uniprocessor`), the default arguments. -/
def uniprocessor (t : ℚ) : ℚ := t

end Verif.GyRta
