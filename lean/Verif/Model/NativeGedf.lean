/-
Model of the native schedulability tests for global EDF: `native/src/edf/gfb.cpp`,
`baker.cpp`, `bcl.cpp`, `bcl_iterative.cpp`, `rta.cpp`, `baruah.cpp`, `la.cpp`,
`load.cpp` and `gedf.cpp` with their headers in `native/include/edf/`.

* `m` is the number of processors.  The code divides by `m`; a division by zero cannot
  occur for tasks that passed the checks, because a feasible task has a positive
  utilization.
* `integral_t` is ℤ (division truncates), `fractional_t` is ℚ.  `unsigned long` is ℕ;
  a difference of two such numbers wraps around (`ulSub`), sums and products are taken
  to fit, except where the code itself tests for it.
* `none` stands for an assertion that fails or for a loop that has not ended within
  `fuel` steps.
* The run-time limits of the tests of Baruah and of Liu and Anderson are modelled by a
  function that says in which iteration the limit is exceeded.
-/
import Verif.Model.NativeLoad
import Verif.Model.Qpa
import Verif.Model.GlobalEdf
import Mathlib.Data.List.FinRange

namespace Verif.Native

/-- A difference of two numbers of type `unsigned long` (64 bits). -/
def ulSub (a b : ℕ) : ℕ := if b ≤ a then a - b else a + 2 ^ 64 - b

/-! ### Density test -/

/-- The preconditions that most tests check, e.g. `gfb.cpp:8-15`. -/
def preconditions (m : ℕ) (ts : TaskSet) : Bool :=
  ts.hasOnlyFeasibleTasks && ts.isNotOverutilized m && ts.hasOnlyConstrainedDeadlines &&
    ts.hasNoSelfSuspendingTasks

/-- `gfb.cpp:17-24`. -/
def gfbCore (m : ℕ) (ts : TaskSet) : Bool :=
  decide (ts.density ≤ (m : ℚ) - ((m : ℚ) - 1) * ts.maxDensity)

/-- `GFBGedf::is_schedulable`, `gfb.cpp:6-25`. -/
def gfb (m : ℕ) (ts : TaskSet) (check : Bool := true) : Bool :=
  if check && !preconditions m ts then false else gfbCore m ts

/-! ### Baker's test -/

/-- `BakerGedf::beta`, `baker.cpp:10-33`. -/
def bakerBeta (ti tk : Task) (lambda : ℚ) : ℚ :=
  let beta := ((ulSub ti.period ti.deadline : ℚ) / tk.deadline + 1) * ti.utilization
  if lambda < ti.utilization then beta + ((ti.wcet : ℚ) - lambda * ti.period) / tk.deadline else beta

/-- The loop `baker.cpp:44-48`. -/
def bakerLoop (tk : Task) (lambda bound : ℚ) : TaskSet → ℚ → ℚ
  | [], sum => sum
  | ti :: ts, sum => if sum ≤ bound then bakerLoop tk lambda bound ts (sum + min (bakerBeta ti tk lambda) 1) else sum

/-- `BakerGedf::is_task_schedulable`, `baker.cpp:35-51`. -/
def bakerTask (m : ℕ) (tk : Task) (ts : TaskSet) : Bool :=
  let lambda := tk.density
  let bound := (m : ℚ) * (1 - lambda) + lambda
  decide (bakerLoop tk lambda bound ts 0 ≤ bound)

/-- `baker.cpp:64-68`. -/
def bakerCore (m : ℕ) (ts : TaskSet) : Bool := ts.all (fun tk => bakerTask m tk ts)

/-- `BakerGedf::is_schedulable`, `baker.cpp:53-69`. -/
def baker (m : ℕ) (ts : TaskSet) (check : Bool := true) : Bool :=
  if check && !(ts.hasOnlyFeasibleTasks && ts.isNotOverutilized m && ts.hasNoSelfSuspendingTasks) then false
  else bakerCore m ts

/-! ### The test of Bertogna, Cirinei and Lipari -/

/-- `BCLGedf::max_jobs_contained`, `bcl.cpp:10-16`. -/
def bclJobs (ti tk : Task) : ℕ :=
  if tk.deadline < ti.deadline then 0 else 1 + (tk.deadline - ti.deadline) / ti.period

/-- `BCLGedf::beta`, `bcl.cpp:18-37`. -/
def bclBeta (ti tk : Task) : ℚ :=
  let n := bclJobs ti tk
  let tmp := if n * ti.period < tk.deadline then tk.deadline - n * ti.period else 0
  ((n * ti.wcet + min ti.wcet tmp : ℕ) : ℚ) / tk.deadline

/-- `BCLGedf::is_task_schedulable`, `bcl.cpp:39-64`; `others` are the tasks other than
the `k`-th. -/
def bclTask (m : ℕ) (tk : Task) (others : TaskSet) : Bool :=
  let lambda := 1 - tk.density
  let betaSum := (others.map (fun ti => min (bclBeta ti tk) lambda)).sum
  let small := others.any (fun ti => decide (0 < bclBeta ti tk ∧ bclBeta ti tk ≤ lambda))
  decide (betaSum < lambda * m) || (small && decide (betaSum = lambda * m))

/-- `bcl.cpp:78-82`. -/
def bclCore (m : ℕ) (ts : TaskSet) : Bool := ts.zipIdx.all (fun p => bclTask m p.1 (ts.eraseIdx p.2))

/-- `BCLGedf::is_schedulable`, `bcl.cpp:66-83`. -/
def bcl (m : ℕ) (ts : TaskSet) (check : Bool := true) : Bool :=
  if check && !preconditions m ts then false else bclCore m ts

/-! ### Iterative test of Bertogna, Cirinei and Lipari -/

/-- A task and its entry in the array `slack`. -/
abbrev Slacked := Task × ℕ

/-- `interfering_workload`, `bcl_iterative.cpp:11-26`. -/
def bcliWork (ti : Slacked) (tk : Task) : ℕ :=
  let njobs := tk.deadline / ti.1.period
  let tmp := ti.2 + njobs * ti.1.period
  njobs * ti.1.wcet + (if tmp ≤ tk.deadline then min ti.1.wcet (tk.deadline - tmp) else 0)

/-- The value `tmp` of `BCLIterativeGedf::slack_update`, `bcl_iterative.cpp:33-48`:
the cost and the delay due to the other tasks.  `none`: one of the assertions fails. -/
def bcliEstimate (m : ℕ) (tk : Task) (others : List Slacked) : Option ℕ :=
  let bound := ulSub tk.deadline tk.wcet + 1
  let work := (others.map (fun ti => min (bcliWork ti tk) bound)).sum / m
  if work < 2 ^ 64 ∧ work < (tk.wcet + work) % 2 ^ 64 then some ((tk.wcet + work) % 2 ^ 64) else none

/-- State of the round loops: the array `slack` next to the tasks, and the variables
`schedulable` and `updated`. -/
structure RoundState where
  tasks : List Slacked
  ok : Bool
  updated : Bool
deriving DecidableEq

/-- `bcl_iterative.cpp:92-97` with the second part of `slack_update`
(`bcl_iterative.cpp:50-66`), for the `k`-th task. -/
def bcliStep (m : ℕ) (s : RoundState) (k : ℕ) : Option RoundState :=
  match s.tasks[k]? with
  | none => some s
  | some (tk, slack) =>
    (bcliEstimate m tk (s.tasks.eraseIdx k)).map (fun tmp =>
      if tmp ≤ tk.deadline then
        if slack < tk.deadline - tmp then { s with tasks := s.tasks.set k (tk, tk.deadline - tmp), updated := true }
        else s
      else { s with ok := false })

/-- One round, `bcl_iterative.cpp:89-98`. -/
def bcliRound (m : ℕ) (tasks : List Slacked) : Option RoundState :=
  (List.range tasks.length).foldlM (bcliStep m) ⟨tasks, true, false⟩

/-- `bcl_iterative.cpp:87-99`; `maxRounds = 0` means no limit. -/
def bcliRounds (m maxRounds : ℕ) : ℕ → ℕ → RoundState → Option Bool
  | 0, _, _ => none
  | fuel + 1, round, s =>
    if s.updated && !s.ok && (maxRounds == 0 || decide (round < maxRounds)) then
      (bcliRound m s.tasks).bind (fun s' => bcliRounds m maxRounds fuel (round + 1) s')
    else some s.ok

/-- `bcl_iterative.cpp:78-101`. -/
def bcliCore (fuel m maxRounds : ℕ) (ts : TaskSet) : Option Bool :=
  bcliRounds m maxRounds fuel 0 ⟨ts.map (fun t => (t, 0)), false, true⟩

/-- `BCLIterativeGedf::is_schedulable`, `bcl_iterative.cpp:68-102`. -/
def bcli (fuel m : ℕ) (ts : TaskSet) (maxRounds : ℕ := 0) (check : Bool := true) : Option Bool :=
  if check && !preconditions m ts then some false
  else if check && ts.isEmpty then some true
  else bcliCore fuel m maxRounds ts

/-! ### Response-time analysis -/

/-- `rta_interfering_workload`, `rta.cpp:14-34`. -/
def rtaWork (ti : Slacked) (response : ℕ) : ℤ :=
  let interval : ℤ := (response : ℤ) + ulSub ti.1.deadline ti.1.wcet - ti.2
  let rest := interval.tmod ti.1.period
  ti.1.wcet * interval.tdiv ti.1.period + (if (ti.1.wcet : ℤ) < rest then (ti.1.wcet : ℤ) else rest)

/-- `edf_interfering_workload`, `rta.cpp:37-53`. -/
def edfWork (ti : Slacked) (tk : Task) : ℕ :=
  let njobs := tk.deadline / ti.1.period
  let tmp := tk.deadline % ti.1.period
  njobs * ti.1.wcet + (if ti.2 < tmp then min ti.1.wcet (tmp - ti.2) else 0)

/-- `RTAGedf::response_estimate`, `rta.cpp:55-87`; `none`: the value does not fit into
an `unsigned long`. -/
def responseEstimate (m : ℕ) (tk : Task) (others : List Slacked) (response : ℕ) : Option ℕ :=
  let bound : ℤ := ulSub response tk.wcet + 1
  let work := (others.map (fun ti => min (min (edfWork ti tk : ℤ) (rtaWork ti response)) bound)).sum
  let total := work.tdiv m + tk.wcet
  if 0 ≤ total ∧ total < 2 ^ 64 then some total.toNat else none

/-- The loop `rta.cpp:100-107` with the variables `last` and `response` (`none` if `ok` is
false).  The inner `none` is the result `false` of `rta_fixpoint`. -/
def rtaLoop (m minDelta : ℕ) (tk : Task) (others : List Slacked) : ℕ → ℕ → Option ℕ → Option (Option ℕ)
  | 0, _, _ => none
  | _ + 1, _, none => some none
  | fuel + 1, last, some response =>
    if last ≠ response ∧ response ≤ tk.deadline then
      let last' := if last < response ∧ response - last < minDelta then min (last + minDelta) tk.deadline
        else response
      rtaLoop m minDelta tk others fuel last' (responseEstimate m tk others last')
    else some (if response ≤ tk.deadline then some response else none)

/-- `RTAGedf::rta_fixpoint`, `rta.cpp:89-110`. -/
def rtaFixpoint (fuel m minDelta : ℕ) (tk : Task) (others : List Slacked) : Option (Option ℕ) :=
  rtaLoop m minDelta tk others fuel tk.wcet (responseEstimate m tk others tk.wcet)

/-- `rta.cpp:142-157`, for the `k`-th task. -/
def rtaStep (fuel m minDelta : ℕ) (s : RoundState) (k : ℕ) : Option RoundState :=
  match s.tasks[k]? with
  | none => some s
  | some (tk, slack) =>
    (rtaFixpoint fuel m minDelta tk (s.tasks.eraseIdx k)).map (fun r =>
      match r with
      | some response =>
        if tk.deadline - response ≠ slack then
          { s with tasks := s.tasks.set k (tk, tk.deadline - response), updated := true }
        else s
      | none => { s with ok := false })

/-- One round, `rta.cpp:137-158`. -/
def rtaRound (fuel m minDelta : ℕ) (tasks : List Slacked) : Option RoundState :=
  (List.range tasks.length).foldlM (rtaStep fuel m minDelta) ⟨tasks, true, false⟩

/-- `rta.cpp:135-159`. -/
def rtaRounds (fuel m minDelta maxRounds : ℕ) : ℕ → ℕ → RoundState → Option Bool
  | 0, _, _ => none
  | rounds + 1, round, s =>
    if s.updated && !s.ok && (maxRounds == 0 || decide (round < maxRounds)) then
      (rtaRound fuel m minDelta s.tasks).bind (fun s' => rtaRounds fuel m minDelta maxRounds rounds (round + 1) s')
    else some s.ok

/-- `rta.cpp:126-161`. -/
def rtaCore (fuel m minDelta maxRounds : ℕ) (ts : TaskSet) : Option Bool :=
  rtaRounds fuel m minDelta maxRounds fuel 0 ⟨ts.map (fun t => (t, 0)), false, true⟩

/-- `RTAGedf::is_schedulable`, `rta.cpp:112-162`.  The fourth precondition repeats the
first one, so self-suspending tasks are not rejected. -/
def rta (fuel m : ℕ) (ts : TaskSet) (minDelta : ℕ := 0) (maxRounds : ℕ := 25) (check : Bool := true) : Option Bool :=
  if check && !(ts.hasOnlyFeasibleTasks && ts.isNotOverutilized m && ts.hasOnlyConstrainedDeadlines &&
    ts.hasOnlyFeasibleTasks) then some false
  else if check && ts.isEmpty then some true
  else rtaCore fuel m minDelta maxRounds ts

/-! ### Points at which the demand changes -/

/-- The loop `while (cur < 0) next()` of `DBFPointsOfChange::init`, `baruah.cpp:54-57`
and `la.cpp:48-51`. -/
def skipNegative (period : ℕ) : ℕ → ℤ → Option ℤ
  | 0, _ => none
  | fuel + 1, cur => if cur < 0 then skipNegative period fuel (cur + period) else some cur

/-- `AllDBFPointsOfChange`, `baruah.cpp:82-91`, and `LA::AllTestPoints`,
`la.cpp:77-83`: the current point of each task, and the last point returned. -/
structure Points where
  cur : ℕ → ℤ
  last : ℤ

/-- `AllDBFPointsOfChange::init`, `baruah.cpp:93-103`; `AllTestPoints`, `la.cpp:86-96`. -/
def pointsInit (fuel : ℕ) (ts : TaskSet) (tk : Task) : Option Points :=
  (ts.mapM (fun ti => skipNegative ti.period fuel ((ti.deadline : ℤ) - tk.deadline))).map
    (fun l => ⟨fun i => l.getD i 0, -1⟩)

/-- The loop of `get_next`, `baruah.cpp:116-123` and `la.cpp:109-116`: take the top
element of the queue until it differs from `last`.  `pick` is the choice of the priority
queue among the elements. -/
def nextPoint (pick : ℕ → (ℕ → ℤ) → ℕ) (ts : TaskSet) : ℕ → Points → Option (Points × ℤ)
  | 0, _ => none
  | fuel + 1, p =>
    let i := pick ts.length p.cur
    let t := p.cur i
    let cur := Function.update p.cur i (t + ((ts[i]?).map (·.period)).getD 0)
    if t = p.last then nextPoint pick ts fuel ⟨cur, p.last⟩ else some (⟨cur, t⟩, t)

/-- `get_next`, `baruah.cpp:110-127` and `la.cpp:103-120`: the next point, if it is within
the bound. -/
def getNext (pick : ℕ → (ℕ → ℤ) → ℕ) (fuel : ℕ) (ts : TaskSet) (bound : ℤ) (p : Points) : Option (Points × Option ℤ) :=
  if bound < p.last then some (p, none)
  else (nextPoint pick ts fuel p).map (fun r => (r.1, if r.2 ≤ bound then some r.2 else none))

/-- A queue returns an element that no other one precedes. -/
def IsQueue (pick : ℕ → (ℕ → ℤ) → ℕ) : Prop :=
  ∀ n cur, 0 < n → pick n cur < n ∧ ∀ i < n, cur (pick n cur) ≤ cur i

/-- The sum of the largest `m - 1` values, `baruah.cpp:190-194` and `la.cpp:212-218`
(`m - 1` is computed on `unsigned int`). -/
def largestSum (m : ℕ) (l : List ℤ) : ℤ :=
  ((l.insertionSort (fun a b => b ≤ a)).take (if m = 0 then 2 ^ 32 - 1 else m - 1)).sum

/-! ### Baruah's test -/

/-- `demand_bound_function`, `baruah.cpp:20-34`. -/
def barDemand (t : Task) (time : ℤ) : ℤ :=
  if 0 ≤ time - t.deadline then ((time - t.deadline).tdiv t.period + 1) * t.wcet else 0

/-- `interval1`, `baruah.cpp:130-143`; `same`: the tasks are at the same position. -/
def barI1 (same : Bool) (ti tk : Task) (ilen : ℤ) : ℤ :=
  let dbf := barDemand ti (ilen + tk.deadline)
  if same then min (dbf - tk.wcet) ilen
  else min dbf (ilen + tk.deadline - ulSub tk.wcet 1)

/-- `demand_bound_function_prime`, `baruah.cpp:146-155`. -/
def barDemandCarry (t : Task) (time : ℤ) : ℤ :=
  time.tdiv t.period * t.wcet + min (t.wcet : ℤ) (time.tmod t.period)

/-- `interval2`, `baruah.cpp:157-171`. -/
def barI2 (same : Bool) (ti tk : Task) (ilen : ℤ) : ℤ :=
  let dbf := barDemandCarry ti (ilen + tk.deadline)
  if same then min (dbf - tk.wcet) ilen
  else min dbf (ilen + tk.deadline - ulSub tk.wcet 1)

/-- `BaruahGedf::is_task_schedulable`, `baruah.cpp:181-204`. -/
def barTask (m : ℕ) (ts : TaskSet) (k : ℕ) (tk : Task) (ilen : ℤ) : Bool :=
  let i1 := ts.zipIdx.map (fun p => barI1 (p.2 == k) p.1 tk ilen)
  let idiff := ts.zipIdx.map (fun p => barI2 (p.2 == k) p.1 tk ilen - barI1 (p.2 == k) p.1 tk ilen)
  decide (i1.sum + largestSum m idiff ≤ (ilen + tk.deadline - tk.wcet) * m)

/-- Truncation of a fraction, as in the conversion from `fractional_t` to `integral_t`. -/
def truncate (q : ℚ) : ℤ := q.num.tdiv q.den

/-- `BaruahGedf::get_max_test_points`, `baruah.cpp:206-240`, for one task. -/
def barMaxPoint (m : ℕ) (ts : TaskSet) (mMinusU : ℚ) (tk : Task) : ℤ :=
  let csigma := largestSum m (ts.map (fun t => (t.wcet : ℤ)))
  let tdu := (ts.map (fun t => (ulSub t.period t.deadline : ℚ) * t.utilization)).sum
  truncate (((csigma : ℚ) - tk.deadline * mMinusU + tdu + tk.wcet * m) / mMinusU)

/-- `baruah.cpp:304-310`: one pass over the tasks; the queues and bounds are given for
each task.  The result says whether all points passed and whether any was in range. -/
def barPass (pick : ℕ → (ℕ → ℤ) → ℕ) (fuel m : ℕ) (ts : TaskSet) :
    List (ℕ × Task × ℤ × Points) → Option (List (ℕ × Task × ℤ × Points) × Bool × Bool)
  | [] => some ([], true, false)
  | (k, tk, bound, p) :: rest => do
    let r ← getNext pick fuel ts bound p
    match r.2 with
    | none =>
      let s ← barPass pick fuel m ts rest
      return ((k, tk, bound, r.1) :: s.1, s.2)
    | some ilen =>
      if barTask m ts k tk ilen then
        let s ← barPass pick fuel m ts rest
        return ((k, tk, bound, r.1) :: s.1, s.2.1, true)
      else return ((k, tk, bound, r.1) :: rest, false, true)

/-- `baruah.cpp:293-311`: the loop over the points; `iter` counts the iterations and
`late` says when the time limit is exceeded. -/
def barLoop (pick : ℕ → (ℕ → ℤ) → ℕ) (late : ℕ → Bool) (fuel m : ℕ) (ts : TaskSet) :
    ℕ → ℕ → List (ℕ × Task × ℤ × Points) → Option Bool
  | 0, _, _ => none
  | rounds + 1, iter, qs =>
    if (iter + 1) % 10 = 0 ∧ late (iter + 1) = true then some false
    else do
      let s ← barPass pick fuel m ts qs
      if s.2.1 && s.2.2 then barLoop pick late fuel m ts rounds (iter + 1) s.1 else return s.2.1

/-- `baruah.cpp:257-319`. -/
def baruahCore (pick : ℕ → (ℕ → ℤ) → ℕ) (late : ℕ → Bool) (fuel m : ℕ) (ts : TaskSet) : Option Bool :=
  let mMinusU := (m : ℚ) - ts.utilization
  if mMinusU ≤ 0 then some false
  else do
    let qs ← ts.zipIdx.mapM (fun p => (pointsInit fuel ts p.1).map (fun q => (p.2, p.1, barMaxPoint m ts mMinusU p.1, q)))
    barLoop pick late fuel m ts fuel 0 qs

/-- `BaruahGedf::is_schedulable`, `baruah.cpp:242-320`. -/
def baruah (pick : ℕ → (ℕ → ℤ) → ℕ) (late : ℕ → Bool) (fuel m : ℕ) (ts : TaskSet) (check : Bool := true) : Option Bool :=
  if check && !preconditions m ts then some false
  else if check && ts.isEmpty then some true
  else baruahCore pick late fuel m ts

/-! ### The test of Liu and Anderson -/

/-- `Task::dbf`, `tasks.h` (`bound_demand` on a number that is not negative here). -/
def laDbf (t : Task) (time : ℤ) : ℤ := t.boundDemand time.toNat

/-- `work_no_carry`, `la.cpp:125-148`; `same`: the tasks are at the same position.
Additions of `unsigned long` to an `integral_t` do not wrap. -/
def laNoCarry (same : Bool) (ti tl : Task) (ilen : ℤ) (susp : ℕ) : ℤ :=
  let tmp := ilen + tl.deadline
  if same then min (laDbf ti tmp - tl.wcet) (max (tmp - tl.deadline) (tmp + tl.tardinessThreshold - tl.period))
  else min (laDbf ti tmp) (tmp + tl.tardinessThreshold - tl.wcet - susp + 1)

/-- `delta`, `la.cpp:151-167`. -/
def laDelta (t : Task) (time : ℤ) : ℤ :=
  let tmp := divideWithCeilZ time t.period
  (tmp - 1) * t.wcet + min (t.wcet : ℤ) (time - tmp * t.period + t.period)

/-- `work_carry_in`, `la.cpp:169-193`. -/
def laCarryIn (same : Bool) (ti tl : Task) (ilen : ℤ) (susp : ℕ) : ℤ :=
  let tmp := ilen + tl.deadline
  if same then min (laDelta tl (tmp + tl.tardinessThreshold) - tl.wcet)
    (max (tmp - tl.deadline) (tmp + tl.tardinessThreshold - tl.period))
  else min (laDelta ti (tmp + ti.tardinessThreshold)) (tmp + tl.tardinessThreshold - tl.wcet - susp + 1)

/-- `LAGedf::is_task_schedulable_for_interval`, `la.cpp:203-247`. -/
def laInterval (m : ℕ) (ts : TaskSet) (l : ℕ) (tl : Task) (susp : ℕ) (ilen : ℤ) : Bool :=
  let sum := (ts.zipIdx.map (fun p =>
    let i1 := laNoCarry (p.2 == l) p.1 tl ilen susp
    let i2 := laCarryIn (p.2 == l) p.1 tl ilen susp
    if p.1.isSelfSuspending then max i1 i2 else i1)).sum
  let idiff := ts.zipIdx.map (fun p =>
    let i1 := laNoCarry (p.2 == l) p.1 tl ilen susp
    let i2 := laCarryIn (p.2 == l) p.1 tl ilen susp
    if p.1.isSelfSuspending then 0 else i2 - i1)
  decide (sum + largestSum m idiff ≤ (ilen + tl.deadline + tl.tardinessThreshold - tl.wcet - susp) * m)

/-- `LAGedf::get_max_test_point`, `la.cpp:249-275`. -/
def laMaxPoint (m : ℕ) (mMinusU testPointSum usum : ℚ) (tl : Task) (susp : ℕ) : ℤ :=
  roundUp (((m : ℚ) * (tl.wcet + susp : ℕ) - usum * tl.tardinessThreshold + testPointSum) / mMinusU)

/-- The loop `la.cpp:304-313`. -/
def laLoop (pick : ℕ → (ℕ → ℤ) → ℕ) (late : ℕ → Bool) (fuel m : ℕ) (ts : TaskSet) (l : ℕ) (tl : Task)
    (susp : ℕ) (bound : ℤ) : ℕ → ℕ → Points → Option Bool
  | 0, _, _ => none
  | rounds + 1, iter, p => do
    let r ← getNext pick fuel ts bound p
    match r.2 with
    | none => return true
    | some ilen =>
      if (iter + 1) % 10 = 0 ∧ late (iter + 1) = true then return false
      else if laInterval m ts l tl susp ilen then laLoop pick late fuel m ts l tl susp bound rounds (iter + 1) r.1
      else return false

/-- `LAGedf::is_task_schedulable_for_suspension_length`, `la.cpp:278-318`. -/
def laSuspension (pick : ℕ → (ℕ → ℤ) → ℕ) (late : ℕ → Bool) (fuel m : ℕ) (ts : TaskSet) (l : ℕ) (tl : Task)
    (susp : ℕ) : Option Bool := do
  let usum := ts.utilization
  let testPointSum := (ts.map (fun t => (t.wcet : ℚ) + t.utilization * t.tardinessThreshold)).sum
  let p ← pointsInit fuel ts tl
  laLoop pick late fuel m ts l tl susp (laMaxPoint m ((m : ℚ) - usum) testPointSum usum tl susp) fuel 0 p

/-- A loop that ends at the first `false`, such as `la.cpp:356-369`. -/
def allM {α : Type} (f : α → Option Bool) : List α → Option Bool
  | [] => some true
  | a :: l => do if ← f a then allM f l else return false

/-- `la.cpp:331-371`. -/
def laCore (pick : ℕ → (ℕ → ℤ) → ℕ) (late : ℕ → ℕ → ℕ → Bool) (fuel m : ℕ) (ts : TaskSet) : Option Bool :=
  if (m : ℚ) - ts.utilization ≤ 0 then some false
  else allM (fun p => allM (fun susp => laSuspension pick (late p.2 susp) fuel m ts p.2 p.1 susp)
    (List.range (p.1.selfSuspension + 1))) ts.zipIdx

/-- `LAGedf::is_schedulable`, `la.cpp:320-372`. -/
def la (pick : ℕ → (ℕ → ℤ) → ℕ) (late : ℕ → ℕ → ℕ → Bool) (fuel m : ℕ) (ts : TaskSet) (check : Bool := true) : Option Bool :=
  if check && !(ts.hasOnlyFeasibleTasks && ts.isNotOverutilized m) then some false
  else if check && ts.isEmpty then some true
  else laCore pick late fuel m ts

/-! ### Load test -/

/-- `load.cpp:27-50`. -/
def loadCore (m : ℕ) (epsilon : ℚ) (ts : TaskSet) : Bool :=
  let d := ts.maxDensity
  let mu := (m : ℚ) - ((m : ℚ) - 1) * d
  let muCeil : ℚ := (roundUp mu : ℤ)
  let cond1 := mu - (muCeil - 1) * d
  let cond2 := (muCeil - 1) - (muCeil - 2) * d
  decide (ts.approxLoad epsilon ≤ max cond1 cond2)

/-- `LoadGedf::is_schedulable`, `load.cpp:16-51`; the default of `epsilon` is 100/1000. -/
def load (m : ℕ) (ts : TaskSet) (epsilon : ℚ := 1 / 10) (check : Bool := true) : Bool :=
  if check && !(ts.hasOnlyFeasibleTasks && ts.isNotOverutilized m && ts.hasNoSelfSuspendingTasks) then false
  else loadCore m epsilon ts

/-! ### Combined test -/

/-- `||` on tests that may not end. -/
def orM (a b : Option Bool) : Option Bool := do if ← a then return true else b

/-- The options of `GlobalEDF`, `gedf.h:16-29`, except `want_ffdbf` (see `gedf`). -/
structure GedfOptions where
  rtaStep : ℕ := 1
  wantBaruah : Bool := true
  wantRta : Bool := true
  wantLoad : Bool := false
  wantLa : Bool := true

/-- `GlobalEDF::is_schedulable`, `gedf.cpp:15-67`. The last argument stands for
`want_ffdbf && FFDBFGedf(m).is_schedulable(ts, false)`; without the option it is false. -/
def gedf (pick : ℕ → (ℕ → ℤ) → ℕ) (late : ℕ → Bool) (lateLa : ℕ → ℕ → ℕ → Bool) (fuel m : ℕ) (o : GedfOptions)
    (ts : TaskSet) (check : Bool := true) (ffdbf : Option Bool := some false) : Option Bool :=
  if check && !(ts.hasOnlyFeasibleTasks && ts.isNotOverutilized m) then some false
  else if check && ts.isEmpty then some true
  else if !ts.hasNoSelfSuspendingTasks then
    if o.wantLa then la pick lateLa fuel m ts false else some false
  else if m == 1 && decide (ts.density ≤ 1) then some true
  else if baker m ts false then some true
  else
    orM (if ts.hasOnlyConstrainedDeadlines then
        orM (some (gfb m ts false)) (orM (if o.wantRta then rta fuel m ts o.rtaStep 25 false else some false)
          (orM (if o.wantBaruah then baruah pick late fuel m ts false else some false) ffdbf))
      else some false)
    (orM (if o.wantLa then la pick lateLa fuel m ts false else some false)
      (if o.wantLoad then some (load m ts (1 / 10) false) else some false))

/-! ### The Python interface -/

/-- `get_native_taskset`, `schedcat/sched/__init__.py:9-24`, for tasks without an
attribute `prio_pt`. -/
def getNativeTaskset (ts : List GEdf.ITask) : TaskSet := ts.map (fun t => Task.init t.cost t.period t.deadline)

/-- `is_schedulable_cpp`, `schedcat/sched/edf/__init__.py:85-100`. -/
def isSchedulableCpp (pick : ℕ → (ℕ → ℤ) → ℕ) (late : ℕ → Bool) (lateLa : ℕ → ℕ → ℕ → Bool) (fuel m : ℕ)
    (ts : List GEdf.ITask) (rtaMinStep : ℕ := 1) (wantBaruah wantRta : Bool := true) (wantLoad : Bool := false)
    (ffdbf : Option Bool := some false) : Option Bool :=
  if m = 1 then qpaIsSchedulable fuel (getNativeTaskset ts)
  else gedf pick late lateLa fuel m ⟨rtaMinStep, wantBaruah, wantRta, wantLoad, true⟩ (getNativeTaskset ts)
    true ffdbf

end Verif.Native
