/-
Model of `schedcat/sched/gfrl.py`.

Costs, periods and deadlines are natural numbers, as in `Verif/Model/Gel.lean`; all other numbers of the code are exact
fractions.  A list indexed by task is a function on `Fin n`.  The helper functions that compute slopes, `gfrl.py:38-41`,
`53-63`, `68-69`, `77-80`, `87-92` and `98-100`, are never called and are not modelled.
-/
import Verif.Model.Gel

namespace Verif.Gfrl
open Verif.Gel (GTask utilSum hasBoundedTardiness nlargest nlargestIdx)

/-- The exceptions that are raised. -/
inductive Exc
  | index
  | zeroDivision
  | type
  | assertion
deriving DecidableEq, Repr

/-! ### The function -/

section
variable {n : ℕ} (m : ℕ) (ts : Fin n → GTask)

/-- `Fraction(task.cost, task.period)`. -/
def util (i : Fin n) : ℚ := ((ts i).cost : ℚ) / (ts i).period

/-- The value at `L` of the line of a task, `gfrl.py:35-36`. -/
def lineAt (L : ℚ) (i : Fin n) : ℚ := L * (ts i).deadline - ((m : ℚ) - 1) * (ts i).cost / m

/-- `s_val`, `gfrl.py:34-36`; `none` is the exception for no tasks. -/
def sVal (L : ℚ) : Option ℚ := ((List.finRange n).map (lineAt m ts L)).min?

/-- `Si_val`, `gfrl.py:43-51`, with the value of `s_val`. -/
def SiVal (s L : ℚ) (i : Fin n) : ℚ :=
  let raw := (ts i).cost - util ts i * (lineAt m ts L i - s)
  if raw < 0 then 0 else raw

/-- `S_val`, `gfrl.py:65-66`. -/
def SVal (s L : ℚ) : ℚ := ((List.finRange n).map (SiVal m ts s L)).sum

/-- `Gi_val`, `gfrl.py:71-75`. -/
def GiVal (s L : ℚ) (i : Fin n) : ℚ :=
  (s - ((ts i).cost : ℚ) / m) * util ts i + (ts i).cost - SiVal m ts s L i

/-- `G_val`, `gfrl.py:82-85`. -/
def GVal (s L : ℚ) : ℚ := (nlargest (⌈utilSum ts⌉ - 1) ((List.finRange n).map (GiVal m ts s L))).sum

/-- `func_val`, `gfrl.py:94-96`. -/
def funcVal (L : ℚ) : Option ℚ := (sVal m ts L).map (fun s => GVal m ts s L + SVal m ts s L - m * s)

/-! ### Slope changes -/

/-- `SlopeChange`, `gfrl.py:24-31`, for each of the kinds, `gfrl.py:19-22`. -/
inductive Change (n : ℕ)
  | bigS (loc : ℚ) (i : Fin n) (slope1 slope2 : ℚ)
  | littleS (loc : ℚ) (i j : Fin n) (slope1 slope2 : ℚ)
  | bigG (loc : ℚ) (i j : Fin n) (slope1 slope2 : ℚ)
  | dummy (loc : ℚ)
deriving DecidableEq, Repr

/-- `location`. -/
def Change.loc : Change n → ℚ
  | .bigS l _ _ _ => l
  | .littleS l _ _ _ _ => l
  | .bigG l _ _ _ _ => l
  | .dummy l => l

/-- `kind`, `gfrl.py:19-22`. -/
def Change.kind : Change n → ℕ
  | .bigS .. => 0
  | .littleS .. => 1
  | .bigG .. => 2
  | .dummy _ => 3

/-- A change of the slope of `s`: the location and the two tasks. -/
structure Corner (n : ℕ) where
  loc : ℚ
  i : Fin n
  j : Fin n
deriving DecidableEq, Repr

/-- `s_intercepts`, `gfrl.py:114-115`. -/
def intercept (i : Fin n) : ℚ := -1 * ((m : ℚ) - 1) * (ts i).cost / m

/-- The order of `ordered_tuples`, `gfrl.py:118-120`: descending triples of deadline, cost and position. -/
def before (i j : Fin n) : Prop :=
  (ts j).deadline < (ts i).deadline ∨ ((ts j).deadline = (ts i).deadline ∧
    ((ts j).cost < (ts i).cost ∨ ((ts j).cost = (ts i).cost ∧ j ≤ i)))

instance : DecidableRel (before ts) := fun i j => by unfold before; infer_instance

/-- `ordered_tasks`, `gfrl.py:118-121`. -/
def ordered : List (Fin n) := (List.finRange n).insertionSort (before ts)

/-- The tasks with another deadline than the one before them, `gfrl.py:123-125`. -/
def keepFirst : Fin n → List (Fin n) → List (Fin n)
  | _, [] => []
  | i, j :: l => if (ts i).deadline ≠ (ts j).deadline then j :: keepFirst j l else keepFirst j l

/-- `next_intersect`, `gfrl.py:134-136`; the deadlines of the two tasks differ. -/
def crossing (i j : Fin n) : ℚ := (intercept m ts i - intercept m ts j) / ((ts j).deadline - (ts i).deadline)

/-- The inner loop, `gfrl.py:137-145`, with the last element of `s_slope_changes` first. -/
def popCorners (cur : Fin n) : Fin n → List (Corner n) → Fin n × List (Corner n)
  | prev, [] => (prev, [])
  | prev, c :: rest => if c.loc ≥ crossing m ts prev cur then popCorners cur c.i rest else (prev, c :: rest)

/-- The outer loop, `gfrl.py:129-153`: the result is `zero_task_index` and the reversed `s_slope_changes`. -/
def corners : Fin n → Fin n → List (Corner n) → List (Fin n) → Fin n × List (Corner n)
  | zero, _, stack, [] => (zero, stack)
  | zero, prev, stack, cur :: l =>
    let r := popCorners m ts cur prev stack
    let x := crossing m ts r.1 cur
    if x ≤ 0 then corners cur cur r.2 l else corners zero cur (⟨x, r.1, cur⟩ :: r.2) l

/-- The rounds of the inner loop for the slope changes of `S_i`, `gfrl.py:189-235`, from the location `L` with the raw
value `v` and the raw slope `p`.  The last round is the one without a next location, `gfrl.py:202-210`. -/
def bigSChanges (i : Fin n) : List (Corner n) → ℚ → ℚ → ℚ → List (Change n)
  | [], L, v, p =>
    let next : ℚ := if p < 0 then -1 else v
    if v < 0 then (if next > 0 then [.bigS (L - v / p) i 0 p] else [])
    else if v > 0 ∧ next < 0 then [.bigS (L - v / p) i p 0]
    else []
  | c :: rest, L, v, p =>
    let next := v + (c.loc - L) * p
    let slope := p + util ts i * ((ts c.j).deadline - (ts c.i).deadline)
    let within : List (Change n) × ℚ :=
      if v < 0 then (if next > 0 then ([.bigS (L - v / p) i 0 p], p) else ([], 0))
      else if v > 0 ∧ next < 0 then ([.bigS (L - v / p) i p 0], 0)
      else if v = 0 ∧ p < 0 then ([], 0)
      else ([], p)
    let after : ℚ := if next < 0 then 0 else if next = 0 ∧ slope < 0 then 0 else slope
    within.1 ++ (if within.2 ≠ after then [.bigS c.loc i within.2 after] else []) ++ bigSChanges i rest c.loc next slope

/-- `S_i_r` at 0, `gfrl.py:170-171`. -/
def rawS (zero i : Fin n) : ℚ := (ts i).cost - util ts i * (intercept m ts i - intercept m ts zero)

/-- `S_i_r_p` at 0, `gfrl.py:172-173`. -/
def rawSlope (zero i : Fin n) : ℚ := util ts i * (-1 * (ts i).deadline + (ts zero).deadline)

/-- `S_i` and `S_i_p`, `gfrl.py:174-179`. -/
def startS (zero i : Fin n) : ℚ × ℚ :=
  if rawS m ts zero i < 0 ∨ (rawS m ts zero i = 0 ∧ rawSlope ts zero i < 0) then (0, 0)
  else (rawS m ts zero i, rawSlope ts zero i)

/-- `G_vals` at 0, `gfrl.py:182-183`. -/
def startG (zero i : Fin n) : ℚ :=
  (intercept m ts zero - ((ts i).cost : ℚ) / m) * util ts i + (ts i).cost - (startS m ts zero i).1

/-- `G_slopes` at 0, `gfrl.py:184`. -/
def startGSlope (zero i : Fin n) : ℚ := (ts zero).deadline * util ts i - (startS m ts zero i).2

/-- The key `(location, kind)`, `gfrl.py:238`. -/
def keyLe (a b : Change n) : Prop := a.loc < b.loc ∨ (a.loc = b.loc ∧ a.kind ≤ b.kind)

instance : DecidableRel (keyLe (n := n)) := fun a b => by unfold keyLe; infer_instance

/-- `slope_changes`, `gfrl.py:237-238`. -/
def slopeChanges (zero : Fin n) (cs : List (Corner n)) : List (Change n) :=
  (cs.map (fun c => Change.littleS c.loc c.i c.j (ts c.i).deadline (ts c.j).deadline) ++
    (List.finRange n).flatMap (fun i => bigSChanges ts i cs 0 (rawS m ts zero i) (rawSlope ts zero i))).insertionSort keyLe

/-! ### Tracing the function -/

/-- The variables of the loop: `task_pres`, `G_vals`, `G_slopes`, `current_value`, `current_slope`, `rindex`, the rest of
`G_slope_changes` from `gindex` on, `next_change`. -/
structure State (n : ℕ) where
  pres : Fin n → Bool
  G : Fin n → ℚ
  Gs : Fin n → ℚ
  value : ℚ
  slope : ℚ
  rindex : ℕ
  gs : List (Change n)
  next : Change n

/-- The change of the order of two lines between the current location `l` and the next one, `gfrl.py:294-310`. -/
def swapOf (G Gs : Fin n → ℚ) (l : ℚ) (next : Option ℚ) (i j : Fin n) : Option (Change n) :=
  if Gs i ≠ Gs j then
    let x := (G j - G i) / (Gs i - Gs j) + l
    if x ≥ l ∧ (next.all (fun b => decide (x < b))) = true then
      if Gs i < Gs j then some (.bigG x i j (Gs i) (Gs j)) else some (.bigG x j i (Gs j) (Gs i))
    else none
  else none

/-- `slope1` of a change. -/
def Change.slope1 : Change n → ℚ
  | .bigS _ _ p _ => p
  | .littleS _ _ _ p _ => p
  | .bigG _ _ _ p _ => p
  | .dummy _ => 0

/-- The key `(location, slope1)`, `gfrl.py:323`. -/
def swapLe (a b : Change n) : Prop := a.loc < b.loc ∨ (a.loc = b.loc ∧ a.slope1 ≤ b.slope1)

instance : DecidableRel (swapLe (n := n)) := fun a b => by unfold swapLe; infer_instance

/-- `G_slope_changes`, `gfrl.py:287-323`. -/
def swaps (G Gs : Fin n → ℚ) (l : ℚ) (next : Option ℚ) : List (Change n) :=
  ((List.finRange n).flatMap (fun i => ((List.finRange n).filter (fun j => i < j)).filterMap (fun j =>
    swapOf G Gs l next i j))).insertionSort swapLe

/-- The beginning of a round, `gfrl.py:273-329`: the next change, `rindex` and the rest of `G_slope_changes`. -/
def choose (slopes : List (Change n)) (st : State n) : Except Exc (Option (Change n) × ℕ × List (Change n)) :=
  let first : Option (Change n) × ℕ × List (Change n) :=
    match st.gs with
    | g :: gs => (some g, st.rindex, gs)
    | [] => match slopes[st.rindex]? with
      | some c => (some c, st.rindex + 1, [])
      | none => (none, st.rindex, [])
  if st.next.kind ≠ 2 ∧ (first.1.all (fun c => decide (st.next.loc ≠ c.loc))) = true then
    if first.2.2 ≠ [] then .error .assertion
    else
      match swaps st.G st.Gs st.next.loc (first.1.map Change.loc) with
      | [] => .ok (first.1, first.2.1, [])
      | g :: gs => .ok (some g, if first.1.isSome then first.2.1 - 1 else first.2.1, gs)
  else .ok first

/-- The end of the segment, `gfrl.py:331-337`. -/
def zeroOf (st : State n) : Option ℚ :=
  if st.slope ≠ 0 then
    let z := st.next.loc - st.value / st.slope
    if z < st.next.loc then none else some z
  else none

/-- The values at the next location, `gfrl.py:343-347`; for equal locations the difference is 0. -/
def advance (st : State n) (l : ℚ) : State n :=
  { st with
    value := st.value + (l - st.next.loc) * st.slope
    G := fun i => st.G i + (l - st.next.loc) * st.Gs i }

/-- The effect of a change on the slopes, `gfrl.py:349-371`. -/
def apply (st : State n) : Change n → State n
  | .bigG _ i j p q =>
    if st.pres i = true ∧ st.pres j = false then
      { st with
        pres := fun k => if k = j then true else if k = i then false else st.pres k
        slope := st.slope - p + q }
    else st
  | .littleS _ _ _ p q =>
    { st with
      slope := st.slope + -1 * m * (q - p) +
        ((List.finRange n).map (fun i => if st.pres i = true then util ts i * (q - p) else 0)).sum
      Gs := fun i => st.Gs i + util ts i * (q - p) }
  | .bigS _ i p q =>
    { st with
      slope := st.slope + (q - p) - (if st.pres i = true then q - p else 0)
      Gs := fun k => if k = i then st.Gs k - (q - p) else st.Gs k }
  | .dummy _ => st

/-- The loop, `gfrl.py:272-374`; `none` if it does not end within `fuel` rounds. -/
def traceLoop (slopes : List (Change n)) : ℕ → State n → Option (Except Exc ℚ)
  | 0, _ => none
  | fuel + 1, st =>
    match choose slopes st with
    | .error e => some (.error e)
    | .ok (none, _, _) =>
      match zeroOf st with
      | none => some (.error .type)
      | some z => some (.ok z)
    | .ok (some c, rindex, gs) =>
      let st' := apply m ts { advance st c.loc with rindex := rindex, gs := gs, next := c } c
      match zeroOf st with
      | none => traceLoop slopes fuel st'
      | some z => if z > c.loc then traceLoop slopes fuel st' else some (.ok z)

/-- The initial values, `gfrl.py:248-271`. -/
def startState (zero : Fin n) : State n :=
  let init := nlargestIdx (⌈utilSum ts⌉ - 1) (startG m ts zero)
  { pres := fun i => decide (i ∈ init)
    G := startG m ts zero
    Gs := startGSlope m ts zero
    value := -1 * m * intercept m ts zero + ((List.finRange n).map (fun i => (startS m ts zero i).1)).sum +
      (init.map (startG m ts zero)).sum
    slope := -1 * m * (ts zero).deadline + ((List.finRange n).map (fun i => (startS m ts zero i).2)).sum +
      (init.map (startGSlope m ts zero)).sum
    rindex := 0
    gs := []
    next := .dummy 0 }

/-- The value `zero`, `gfrl.py:110-374`.  With no tasks, `filtered_tasks[0]` raises an exception; with no processors, the
intercepts do. -/
def findZero (fuel : ℕ) : Option (Except Exc ℚ) :=
  match ordered ts with
  | [] => some (.error .index)
  | first :: l =>
    if m = 0 then some (.error .zeroDivision)
    else
      let r := corners m ts first first [] (keepFirst ts first l)
      traceLoop m ts (slopeChanges m ts r.1 r.2.reverse) fuel (startState m ts r.1)

/-- What a call does: the attributes `gfrl_pp` that it assigns, and its result. -/
structure Outcome (n : ℕ) where
  points : Option (Fin n → ℚ)
  result : Except Exc Bool

/-- `analysis_pps`, `gfrl.py:382-384`. -/
def pointsOf (L s : ℚ) (i : Fin n) : ℚ := min (lineAt m ts L i - s) (ts i).period

/-- `bound_response_times`, `gfrl.py:102-404`; `none` is divergence.  `gel_pl.compute_response_bounds` has the three
parameters `no_cpus`, `tasks` and `rounds`, `edf/gel_pl.py:68`, but gets four arguments, `gfrl.py:387-388`. -/
def boundResponseTimes (fuel : ℕ) : Option (Outcome n) :=
  if hasBoundedTardiness m ts = false then some ⟨none, .ok false⟩
  else
    match findZero m ts fuel with
    | none => none
    | some (.error e) => some ⟨none, .error e⟩
    | some (.ok z) =>
      match sVal m ts z, funcVal m ts z with
      | some s, some v => if v = 0 then some ⟨some (pointsOf m ts z s), .error .type⟩ else some ⟨none, .error .assertion⟩
      | _, _ => some ⟨none, .error .assertion⟩

end

end Verif.Gfrl
