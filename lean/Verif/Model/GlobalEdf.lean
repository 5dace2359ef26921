/-
Model of the global EDF schedulability tests in `schedcat/sched/edf/`: `gfb.py`,
`bak.py`, `bcl.py`, `bcl_iterative.py`, `rta.py`, `bar.py` and the combined test
in `__init__.py`.

`m` is the number of processors (`no_cpus`); it is assumed positive where the
code divides by it.  Python numbers are exact rationals.  The iterative tests
("assumes integral time") are modelled on integers: task parameters are natural
numbers, all intermediate values are integers, `int(floor(a / b))` is floor
division and `%` the modulo with non-negative result.

The tests skip the task under analysis with `ti != tk`.  `SporadicTask` defines no
comparison, so this compares object identities; in the model it compares list
positions.  (The same object occurring twice in a task system is not modelled.)
-/
import Verif.Model.Tasks

namespace Verif.GEdf

/-! ### Density test -/

/-- `gfb.py:4-12`. -/
def gfb (m : ℕ) : TaskSystem → Bool
  | [] => true
  | t :: ts =>
    let dmax := ts.foldl (fun d t => max d t.density) t.density
    let bound := (m : ℚ) - (m - 1) * dmax
    decide (TaskSystem.density (t :: ts) ≤ bound)

/-! ### Baker's test -/

/-- `bak.py:10-18`. -/
def bakBeta (ti tk : SporadicTask) (l : ℚ) : ℚ :=
  let part1 := ti.utilization * (1 + (ti.period - ti.deadline) / tk.deadline)
  if l < ti.utilization then part1 + (ti.cost - l * ti.period) / tk.deadline else part1

/-- `bak.py:20-25`. -/
def bakTask (ts : TaskSystem) (tk : SporadicTask) (m : ℕ) : Bool :=
  let l := tk.density
  if l > 1 then false
  else decide ((ts.map (fun ti => min 1 (bakBeta ti tk l))).sum ≤ m - (m - 1) * l)

/-- `bak.py:27-28`. -/
def bak (m : ℕ) (ts : TaskSystem) : Bool := ts.all (fun tk => bakTask ts tk m)

/-! ### The test of Bertogna, Cirinei and Lipari -/

/-- `bcl.py:8-10` (`N`). -/
def bclN (tk ti : SporadicTask) : ℤ := ⌊(tk.deadline - ti.deadline) / ti.period⌋ + 1

/-- `bcl.py:12-17`. -/
def bclBeta (tk ti : SporadicTask) : ℚ :=
  (bclN tk ti * ti.cost + min ti.cost (max 0 (tk.deadline - bclN tk ti * ti.period))) / tk.deadline

/-- `bcl.py:19-25`; `others` are the tasks other than `tk`. -/
def bclTask (others : TaskSystem) (tk : SporadicTask) (m : ℕ) : Bool :=
  let lk := tk.density
  let cap := (m : ℚ) * (1 - lk)
  let allBeta := others.map (bclBeta tk)
  let betaSum := (allBeta.map (fun b => min b (1 - lk))).sum
  decide (betaSum < cap) ||
    (decide (betaSum = cap) && allBeta.any (fun b => decide (0 < b ∧ b ≤ 1 - lk)))

/-- `bcl.py:27-28`. -/
def bcl (m : ℕ) (ts : TaskSystem) : Bool :=
  ts.zipIdx.all (fun p => bclTask (ts.eraseIdx p.2) p.1 m)

/-! ### Baruah's test -/

/-- Python's `%` for a positive divisor. -/
def pyMod (x y : ℚ) : ℚ := x - ⌊x / y⌋ * y

/-- `bar.py:25-31`; `same` says that both tasks are the same object. -/
def barI1 (same : Bool) (ti tk : SporadicTask) (a : ℚ) : ℚ :=
  if same then min (ti.dbf (a + tk.deadline) - tk.cost) a
  else min (ti.dbf (a + tk.deadline)) (a + tk.deadline - (tk.cost - 1))

/-- `bar.py:33-35` (`dbf_`). -/
def barDbf (tsk : SporadicTask) (t : ℚ) : ℚ :=
  ⌊t / tsk.period⌋ * tsk.cost + min tsk.cost (pyMod t tsk.period)

/-- `bar.py:37-43`. -/
def barI2 (same : Bool) (ti tk : SporadicTask) (a : ℚ) : ℚ :=
  if same then min (barDbf ti (a + tk.deadline) - tk.cost) a
  else min (barDbf ti (a + tk.deadline)) (a + tk.deadline - (tk.cost - 1))

/-- `bar.py:48-53`; `k` is the position of `tk` in the task system. -/
def barOffset (ts : TaskSystem) (k : ℕ) (tk : SporadicTask) (a : ℚ) (m : ℕ) : Bool :=
  let i1s := ts.zipIdx.map (fun p => barI1 (p.2 == k) p.1 tk a)
  let idiffs := ts.zipIdx.map (fun p => barI2 (p.2 == k) p.1 tk a - barI1 (p.2 == k) p.1 tk a)
  decide (i1s.sum + topsum idiffs id (m - 1) ≤ m * (a + tk.deadline - tk.cost))

/-- `bar.py:55-63` (`ak_bounds`) for one task. -/
def barBound (ts : TaskSystem) (m : ℕ) (tk : SporadicTask) : ℚ :=
  let u := TaskSystem.utilization ts
  let cSigma := topsum ts (·.cost) (m - 1)
  let y := (ts.map (fun t => (t.period - t.deadline) * t.utilization)).sum
  let mu := (m : ℚ) - u
  (cSigma - tk.deadline * mu + y + m * tk.cost) / mu

/-- `bar.py:65-74`. -/
def bar (m : ℕ) (ts : TaskSystem) : Bool :=
  if TaskSystem.utilization ts ≥ m || !ts.all (·.constrainedDeadline) then false
  else ts.zipIdx.all (fun p =>
    (TaskSystem.dbfPointsOfChange ts (barBound ts m p.1) p.1.deadline).all (fun a =>
      barOffset ts p.2 p.1 a m))

/-! ### Integral task parameters -/

/-- A `SporadicTask` with integral parameters. -/
structure ITask where
  cost : ℕ
  period : ℕ
  deadline : ℕ
deriving DecidableEq, Repr

/-- The same task with rational parameters. -/
def ITask.toTask (t : ITask) : SporadicTask := ⟨t.cost, t.period, t.deadline⟩

/-- The same task system with rational parameters. -/
def system (ts : List ITask) : TaskSystem := ts.map ITask.toTask

/-- A task together with its attribute `bcl_slack` or `rta_slack`. -/
abbrev Slacked := ITask × ℤ

/-! ### Iterative test of Bertogna, Cirinei and Lipari -/

/-- `bcl_iterative.py:25-29`. -/
def bcliWork (length : ℤ) (ti : Slacked) : ℤ :=
  let jobs := length / ti.1.period
  jobs * ti.1.cost + min (ti.1.cost : ℤ) (max 0 (length - ti.2 - jobs * ti.1.period))

/-- `bcl_iterative.py:31-41`; `others` are the tasks other than `tk`. -/
def bcliSlackUpdate (tk : ITask) (others : List Slacked) (m : ℕ) : ℤ :=
  let otherWork := (others.map (fun ti =>
    min (bcliWork tk.deadline ti) ((tk.deadline : ℤ) - tk.cost + 1))).sum
  (tk.deadline : ℤ) - tk.cost - otherWork / m

/-- State of the round loops: tasks with slacks, the flag `feasible` or
`schedulable`, and the flag `updated`. -/
structure RoundState where
  tasks : List Slacked
  ok : Bool
  updated : Bool
deriving DecidableEq

/-- `bcl_iterative.py:58-61`: the body of the inner loop for the `k`-th task. -/
def bcliStep (m : ℕ) (s : RoundState) (k : ℕ) : RoundState :=
  match s.tasks[k]? with
  | none => s
  | some (tk, slack) =>
    let newBound := bcliSlackUpdate tk (s.tasks.eraseIdx k) m
    { tasks := s.tasks.set k (tk, max slack newBound)
      ok := s.ok && decide (newBound ≥ 0)
      updated := s.updated || decide (newBound > slack) }

/-- `bcl_iterative.py:54-61`: one round. -/
def bcliRound (m : ℕ) (tasks : List Slacked) : RoundState :=
  (List.range tasks.length).foldl (bcliStep m) ⟨tasks, true, false⟩

/-- `bcl_iterative.py:53-62`; a missing `round_limit` is 0.  `none`: the loop has not
ended within `fuel` rounds. -/
def bcliRounds (m roundLimit : ℕ) : ℕ → ℕ → RoundState → Option Bool
  | 0, _, _ => none
  | fuel + 1, round, s =>
    if s.updated && !s.ok && (roundLimit == 0 || decide (round < roundLimit)) then
      bcliRounds m roundLimit fuel (round + 1) (bcliRound m s.tasks)
    else some s.ok

/-- `bcl_iterative.py:43-62`. -/
def bcli (fuel m : ℕ) (ts : List ITask) (roundLimit : ℕ := 0) : Option Bool :=
  bcliRounds m roundLimit fuel 0 ⟨ts.map (fun t => (t, 0)), false, true⟩

/-! ### Response-time analysis -/

/-- `rta.py:16-20`. -/
def rtaWork (length : ℤ) (ti : Slacked) : ℤ :=
  let interval := length + ti.1.deadline - ti.1.cost - ti.2
  let jobs := interval / ti.1.period
  jobs * ti.1.cost + min (ti.1.cost : ℤ) (interval % ti.1.period)

/-- `rta.py:22-27`. -/
def edfWork (length : ℤ) (ti : Slacked) : ℤ :=
  let jobs := length / ti.1.period
  jobs * ti.1.cost + min (ti.1.cost : ℤ) (max 0 (length % ti.1.period - ti.2))

/-- `rta.py:29-37`; `others` are the tasks other than `tk`. -/
def responseEstimate (tk : ITask) (others : List Slacked) (m : ℕ) (responseTime : ℤ) : ℤ :=
  let delayLimit := responseTime - tk.cost + 1
  let cumulativeWork := (others.map (fun ti =>
    min (min (rtaWork responseTime ti) (edfWork tk.deadline ti)) delayLimit)).sum
  tk.cost + cumulativeWork / m

/-- `rta.py:45-50`: the loop with the variables `last` and `resp`. -/
def rtaLoop (tk : ITask) (others : List Slacked) (m minDelta : ℕ) : ℕ → ℤ → ℤ → Option ℤ
  | 0, _, _ => none
  | fuel + 1, last, resp =>
    if last ≠ resp ∧ resp ≤ tk.deadline then
      let resp := if resp > last ∧ resp - last < minDelta
        then min (last + minDelta) (tk.deadline : ℤ) else resp
      rtaLoop tk others m minDelta fuel resp (responseEstimate tk others m resp)
    else some resp

/-- `rta.py:39-50`. -/
def rtaFixpoint (fuel : ℕ) (tk : ITask) (others : List Slacked) (m minDelta : ℕ) : Option ℤ :=
  rtaLoop tk others m minDelta fuel tk.cost (responseEstimate tk others m tk.cost)

/-- `rta.py:69-80`: the body of the inner loop for the `k`-th task. -/
def rtaStep (fuel m minDelta : ℕ) (s : RoundState) (k : ℕ) : Option RoundState :=
  match s.tasks[k]? with
  | none => some s
  | some (tk, slack) =>
    (rtaFixpoint fuel tk (s.tasks.eraseIdx k) m minDelta).map (fun (response : ℤ) =>
      if response ≤ tk.deadline then
        let newSlack := (tk.deadline : ℤ) - response
        if newSlack ≠ slack then { s with tasks := s.tasks.set k (tk, newSlack), updated := true }
        else s
      else { s with ok := false })

/-- `rta.py:66-80`: one round. -/
def rtaRound (fuel m minDelta : ℕ) (tasks : List Slacked) : Option RoundState :=
  (List.range tasks.length).foldlM (rtaStep fuel m minDelta) ⟨tasks, true, false⟩

/-- `rta.py:63-80`; `round_limit = 0` (or `None`) means no limit. -/
def rtaRounds (fuel m minDelta roundLimit : ℕ) : ℕ → ℕ → RoundState → Option RoundState
  | 0, _, _ => none
  | rounds + 1, round, s =>
    if s.updated && !s.ok && (roundLimit == 0 || decide (round < roundLimit)) then
      (rtaRound fuel m minDelta s.tasks).bind (fun s' =>
        rtaRounds fuel m minDelta roundLimit rounds (round + 1) s')
    else some s

/-- `rta.py:52-81`: the state after the analysis; `ok` is the value returned by
`is_schedulable`. -/
def rtaRun (fuel m : ℕ) (ts : List ITask) (roundLimit : ℕ := 25) (minFixpointStep : ℕ := 0) :
    Option RoundState :=
  rtaRounds fuel m minFixpointStep roundLimit fuel 0 ⟨ts.map (fun t => (t, 0)), false, true⟩

/-- `rta.py:52-81`. -/
def rta (fuel m : ℕ) (ts : List ITask) (roundLimit : ℕ := 25) (minFixpointStep : ℕ := 0) :
    Option Bool :=
  (rtaRun fuel m ts roundLimit minFixpointStep).map (·.ok)

/-- `rta.py:83-89`: `some none` is the result `False`; `some (some rs)` is the
result `True` with the attributes `response_time`. -/
def rtaBoundResponseTimes (fuel m : ℕ) (ts : List ITask) (roundLimit : ℕ := 25)
    (minFixpointStep : ℕ := 0) : Option (Option (List ℤ)) :=
  (rtaRun fuel m ts roundLimit minFixpointStep).map (fun s =>
    if s.ok then some (s.tasks.map (fun t => (t.1.deadline : ℤ) - t.2)) else none)

/-! ### Combined test -/

/-- The argument `want_baruah`: `True`, `False` or a threshold. -/
inductive WantBaruah
  | always
  | never
  | threshold (x : ℚ)
deriving DecidableEq

/-- `__init__.py:31-43`. -/
def shouldUseBaruah (w : WantBaruah) (ts : TaskSystem) (m : ℕ) : Bool :=
  match w with
  | .always => true
  | .never => false
  | .threshold x =>
    let slack := (m : ℚ) - TaskSystem.utilization ts
    if slack = 0 then false
    else
      let score := (ts.length : ℚ) * (m * m) / (slack * slack)
      decide (score ≤ x)

/-- `__init__.py:46-82` (`is_schedulable_py`). The last argument stands for
`want_ffdbf and ffdbf_test(no_cpus, tasks)`; without the option it is false.
`none`: the response-time analysis or the FF-DBF test has not ended within `fuel`
iterations. -/
def isSchedulablePy (fuel m : ℕ) (ts : List ITask) (rtaMinStep : ℕ := 1)
    (wantBaruah : WantBaruah := .threshold 3000) (wantRta : Bool := true) (ffdbf : Option Bool := some false) :
    Option Bool :=
  if TaskSystem.utilization (system ts) > m || !ts.all (fun t => decide (t.period ≥ t.cost)) then
    some false
  else
    let notArbitrary := (system ts).onlyConstrainedDeadlines
    if m = 1 ∧ TaskSystem.density (system ts) ≤ 1 then some true
    else if m > 1 then
      if bak m (system ts) then some true
      else if notArbitrary then
        if gfb m (system ts) then some true
        else if shouldUseBaruah wantBaruah (system ts) m && bar m (system ts) then some true
        else (if wantRta then rta fuel m ts (minFixpointStep := rtaMinStep) else some false).bind
          (fun r => if r then some true else ffdbf)
      else some false
    else some false

end Verif.GEdf
