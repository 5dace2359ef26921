/-
Model of the task generators: `schedcat/generator/tasks.py`,
`schedcat/generator/tasksets.py`, and of the utilization and period draws of
`schedcat/generator/generator_emstada.py`.

Random draws are arbitrary sequences; what `random.randint(a, b)` and
`random.uniform(a, b)` promise (a value between `a` and `b`) is a hypothesis of
the theorems.  Floats are exact rationals; values of `exp`, `log` and `**` are
arbitrary draws.
-/
import Verif.Model.Tasks

namespace Verif.Gen
open Verif

/-- `int(x)` and `math.trunc(x)`: towards zero. -/
def truncQ (x : ℚ) : ℤ := if 0 ≤ x then ⌊x⌋ else ⌈x⌉

/-! ### `tasks.py` -/

/-- `log_uniform_int`, `tasks.py:29-37`: `draw` is the value of `draw_float()`. -/
def logUniformInt (minval maxval : ℤ) (draw : ℚ) : ℤ :=
  min maxval (max minval (truncQ draw))

/-- `uniform_choice`, `tasks.py:39-44`: `idx` is the value of `selector()`, a draw
from `randint(0, len(choices) - 1)`; `none` is an error of `randint` or an index
error. -/
def uniformChoice {α : Type} (choices : List α) (idx : ℤ) : Option α :=
  if choices.length = 0 then none else choices[idx.toNat]?

/-- `truncate`, `tasks.py:46-52`. -/
def truncate (minval maxval val : ℚ) : ℚ := min maxval (max minval val)

/-- `redraw`, `tasks.py:54-63`: the values drawn one after the other; `none`: no
value in the range within `fuel` draws.  Returns the value and the number of
draws that were made. -/
def redraw (minval maxval : ℚ) (draws : ℕ → ℚ) : (fuel : ℕ) → (k : ℕ) → Option (ℚ × ℕ)
  | 0, _ => none
  | fuel + 1, k =>
    if minval ≤ draws k ∧ draws k ≤ maxval then some (draws k, k + 1)
    else redraw minval maxval draws fuel (k + 1)

/-- The loop of `multimodal`, `tasks.py:83-87`: the index of the distribution to
draw from; `none` is the failed assertion. -/
def multimodalLoop (x : ℚ) : (wsum : ℚ) → (k : ℕ) → List ℚ → Option ℕ
  | _, _, [] => none
  | wsum, k, w :: ws =>
    if wsum + w ≥ x then some k else multimodalLoop x (wsum + w) (k + 1) ws

/-- `multimodal`, `tasks.py:75-89`. -/
def multimodal (weights : List ℚ) (x : ℚ) : Option ℕ := multimodalLoop x 0 0 weights

/-- `uniform_slack`, `tasksets.py:48-61`; `draw` stands for `random.uniform`. -/
def uniformSlack (minRatio maxRatio : ℚ) (draw : ℚ → ℚ → ℚ) (cost period : ℚ) : ℚ :=
  let slack := period - cost
  cost + draw (slack * minRatio) (slack * maxRatio)

/-- `TaskGenerator`, `tasks.py:93-101`: the values that the `k`-th calls of the
three functions return. -/
structure Source where
  period : ℕ → ℚ
  util : ℕ → ℚ
  deadline : ℕ → ℚ → ℚ → ℚ

/-- Lines 115-124: the parameters of the `k`-th task after the conversion to
integers; `conv` is `int(time_conversion(_))`. -/
def Source.task (g : Source) (conv : ℚ → ℤ) (k : ℕ) : SporadicTask :=
  let period := g.period k
  let util := g.util k
  let cost := period * util
  let deadline := g.deadline k cost period
  ⟨(max 1 (conv cost) : ℤ), (max 1 (conv period) : ℤ), (max 1 (conv deadline) : ℤ)⟩

/-- `max_tasks is None or count < max_tasks`, `tasks.py:114`. -/
def fewer (maxTasks : Option ℕ) (count : ℕ) : Bool :=
  match maxTasks with
  | none => true
  | some b => decide (count < b)

/-- `max_util is None or usum < max_util`, `tasks.py:115`. -/
def below (maxUtil : Option ℚ) (usum : ℚ) : Bool :=
  match maxUtil with
  | none => true
  | some b => decide (usum < b)

/-- `max_util and usum > max_util`, `tasks.py:127`: a limit of 0 counts as none. -/
def exceeds (maxUtil : Option ℚ) (usum : ℚ) : Bool :=
  match maxUtil with
  | none => false
  | some b => decide (b ≠ 0) && decide (usum > b)

/-- `TaskGenerator.tasks`, `tasks.py:103-135`, from a state of the loop on: the
tasks yielded within `fuel` rounds, and whether the generator has ended. -/
def tasksLoop (g : Source) (conv : ℚ → ℤ) (maxTasks : Option ℕ) (maxUtil : Option ℚ)
    (squeeze : Bool) : (fuel : ℕ) → (count : ℕ) → (usum : ℚ) → List SporadicTask × Bool
  | 0, _, _ => ([], false)
  | fuel + 1, count, usum =>
    if fewer maxTasks count && below maxUtil usum then
      let t := g.task conv count
      let util := t.cost / t.period
      let usum := usum + util
      if exceeds maxUtil usum then
        if squeeze then
          let util := util - (usum - maxUtil.getD 0)
          let t : SporadicTask := { t with cost := (truncQ (t.period * util) : ℤ) }
          let rest := tasksLoop g conv maxTasks maxUtil squeeze fuel (count + 1) usum
          (t :: rest.1, rest.2)
        else ([], true)
      else
        let rest := tasksLoop g conv maxTasks maxUtil squeeze fuel (count + 1) usum
        (t :: rest.1, rest.2)
    else ([], true)

/-- `TaskGenerator.tasks`, `tasks.py:103-135`. -/
def tasks (g : Source) (conv : ℚ → ℤ := truncQ) (maxTasks : Option ℕ := none)
    (maxUtil : Option ℚ := none) (squeeze : Bool := false) (fuel : ℕ) :
    List SporadicTask × Bool :=
  tasksLoop g conv maxTasks maxUtil squeeze fuel 0 0

/-! ### `generator_emstada.py` -/

/-- The loop over the dimensions in `StaffordRandFixedSum`,
`generator_emstada.py:104-114`, for one task set (`nsets = 1`), from dimension `i`
down: `e i j` says whether `rt <= t[i-1, j-1]` (1 or 0) and `sx i` is the next
simplex coordinate.  The computation of the table `t` (lines 75-97) is not
modelled: `e` is arbitrary. -/
def stafford (e : ℕ → ℤ → Bool) (sx : ℕ → ℚ) : (i : ℕ) → (s sm pr : ℚ) → (j : ℤ) → List ℚ
  | 0, s, sm, pr, _ => [sm + pr * s]
  | i + 1, s, sm, pr, j =>
    let ei : ℚ := if e (i + 1) j then 1 else 0
    let x := sx (i + 1)
    let sm := sm + (1 - x) * pr * s / ((i : ℚ) + 2)
    let pr := x * pr
    (sm + pr * ei) :: stafford e sx i (s - ei) sm pr (if e (i + 1) j then j - 1 else j)

/-- `StaffordRandFixedSum(n, u, 1)`, `generator_emstada.py:68-121`, before the
random permutation of lines 118-119. -/
def staffordRandFixedSum (e : ℕ → ℤ → Bool) (sx : ℕ → ℚ) (n : ℕ) (u : ℚ) : List ℚ :=
  if n = 1 then [u] else stafford e sx (n - 1) u 0 1 (⌊u⌋ + 1)

/-- `gen_periods` (lines 123-143) and the maximum of line 167, for one drawn
value. -/
def genPeriod (periodMin gran : ℚ) (draw : ℚ) : ℚ :=
  max (⌊draw / gran⌋ * gran) (max periodMin gran)

/-- `gen_taskset`, `generator_emstada.py:151-178`, with `want_integral=False`;
`scale` is applied to numbers. `utils` is the value of `StaffordRandFixedSum`. -/
def genTaskset (periodMin : ℚ) (gran : Option ℚ) (scale : ℚ → ℚ) (utils draws : List ℚ) :
    List SporadicTask :=
  let gran := gran.getD periodMin
  let periods := draws.map (genPeriod periodMin gran)
  List.zipWith (fun x p => SporadicTask.mk' (scale (x * p)) (scale p)) utils periods

/-- `quantize_params`, `schedcat/overheads/jlfp.py:88-99`, seen from a caller that
ignores the result: the tasks as they are afterwards. -/
def quantized : List SporadicTask → List SporadicTask
  | [] => []
  | t :: ts =>
    let t : SporadicTask := ⟨(⌈t.cost⌉ : ℤ), (⌊t.period⌋ : ℤ), (⌊t.deadline⌋ : ℤ)⟩
    if min t.period t.deadline = 0 ∨ t.density > 1 then t :: ts
    else t :: quantized ts

/-- `gen_taskset`, `generator_emstada.py:151-178`, with `want_integral=True`. -/
def genTasksetIntegral (periodMin : ℚ) (gran : Option ℚ) (scale : ℚ → ℚ) (utils draws : List ℚ) :
    List SporadicTask :=
  quantized (genTaskset periodMin gran scale utils draws)

end Verif.Gen
