/-
Model of `schedcat/sched/canbus/broster.py`.

`w f` stands for `msgs.get_wctt_fast(m, f)` (see `Verif.Can`) and `P k t` for
`get_prob_poisson(k, t, msgs.mfr)`.  The values of `mpmath` are rationals; their sums and
products are exact here.
-/
import Mathlib.Algebra.Order.Ring.Rat
import Mathlib.Algebra.BigOperators.Group.Finset.Basic

namespace Verif.Can.Broster

variable (w : ℕ → ℚ) (P : ℕ → ℚ → ℚ) (jitter deadline : ℚ)

/-- `broster.py:59-68`: `vec` is `m.prob_vec`. -/
def prob (vec : List ℚ) (faults : ℕ) : ℚ :=
  P faults (w faults) -
    (List.range faults).foldl (fun e i => e + vec.getD i 0 * P (faults - i) (w faults - w i)) 0

/-- The loop of `broster.py:51-71`: the new `prob_vec`.  `none`: not ended within `fuel`
iterations, or the assertion of line 69 fails. -/
def loop (maxfaults : Option ℕ) : ℕ → ℕ → List ℚ → Option (List ℚ)
  | 0, _, _ => none
  | fuel + 1, faults, vec =>
    if maxfaults.all (fun m => decide (faults ≤ m)) then
      if w faults + jitter > deadline then some vec
      else
        let p := prob w P vec faults
        if p ≤ 1 then loop maxfaults fuel (faults + 1) (vec ++ [p]) else none
    else some vec

/-- The sum of `broster.py:82-86`. -/
def cumulate : ℚ → List ℚ → ℚ
  | r, [] => r
  | r, p :: ps => if r + p ≤ 1 then cumulate (r + p) ps else r

/-- The return value and the assertion, `broster.py:73-92`. -/
def result (maxfaults : Option ℕ) (vec : List ℚ) : Option ℚ :=
  let retval := match maxfaults with
    | some m => if vec.length ≥ m + 1 then vec.getD m 0 else 0
    | none => cumulate 0 vec
  if retval ≤ 1 then some (min retval 1) else none

/-- `get_prob_schedulable`, `broster.py:30-92`: the value and the new `prob_vec`. -/
def query (fuel : ℕ) (vec : List ℚ) (maxfaults : Option ℕ) : Option (ℚ × List ℚ) :=
  match maxfaults with
  | some m =>
    if vec.length > m + 1 then some (vec.getD m 0, vec)
    else (loop w P jitter deadline (some m) fuel vec.length vec).bind
      (fun v => (result (some m) v).map (fun r => (r, v)))
  | none =>
    (loop w P jitter deadline none fuel 0 vec).bind
      (fun v => (result none v).map (fun r => (r, v)))

/-- A sequence of queries on the same message. -/
def queries (fuel : ℕ) : List ℚ → List (Option ℕ) → Option (List ℚ)
  | _, [] => some []
  | vec, q :: qs =>
    (query w P jitter deadline fuel vec q).bind (fun r => (queries fuel r.2 qs).map (r.1 :: ·))

end Verif.Can.Broster
