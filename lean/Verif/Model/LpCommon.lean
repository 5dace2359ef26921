/-
Model of `native/include/linprog/{model,varmapperbase,solver}.h`, `native/include/lp_common.h` and
`native/include/iter-helper.h`: how the LP-based analyses build linear programs and use the solution.

Floating-point numbers are exact rationals; other numbers are natural numbers, and wrap-around of
`unsigned int` and `unsigned long` is not modelled.
-/
import Verif.Model.SharedRes
import Verif.Spec.Milp
import Mathlib.Data.Rat.Floor

namespace Verif.SR.Lp
open Verif.Spec

/-! ### Numbers of variables -/

/-- `blocking_type`, `lp_common.h:15-21`. -/
inductive BlockingType
  | direct
  | indirect
  | preempt
  | other
deriving DecidableEq, Repr

/-- The value of the enumeration constant. -/
def BlockingType.num : BlockingType → ℕ
  | direct => 0
  | indirect => 1
  | preempt => 2
  | other => 3

/-- What a variable is looked up for. -/
structure Key where
  ty : BlockingType
  task : ℕ
  req : ℕ
  res : ℕ
deriving DecidableEq, Repr

/-- `VarMapper::encode_request`, `lp_common.h:29-38`, with 64-bit numbers; `none` is a failing assertion. -/
def encodeRequest (k : Key) : Option ℕ :=
  if k.task < 1 <<< 30 ∧ k.res < 1 <<< 10 ∧ k.req < 1 <<< 22 ∧ k.ty.num < 1 <<< 2 then
    some (((k.ty.num <<< 62) ||| (k.task <<< 30) ||| (k.req <<< 10) ||| k.res) % 2 ^ 64)
  else none

/-- `VarMapperBase`, `varmapperbase.h:10-64`: the map from keys to numbers, the next number and whether the map
is sealed. -/
structure VarMapper where
  map : List (ℕ × ℕ) := []
  next : ℕ := 0
  sealed_ : Bool := false
deriving DecidableEq, Repr

/-- `var_for_key`, `varmapperbase.h:37-42`, with `insert`, `18-25`; `none` is a failing assertion. -/
def VarMapper.varForKey (m : VarMapper) (key : ℕ) : Option (ℕ × VarMapper) :=
  match m.map.lookup key with
  | some v => some (v, m)
  | none =>
    if m.next < 2 ^ 32 - 1 ∧ m.sealed_ = false then
      some (m.next, { m with map := (key, m.next) :: m.map, next := m.next + 1 })
    else none

/-- `VarMapper::lookup`, `lp_common.h:66-71`. -/
def VarMapper.lookup (m : VarMapper) (k : Key) : Option (ℕ × VarMapper) :=
  match encodeRequest k with
  | none => none
  | some key => m.varForKey key

/-- A sequence of lookups. -/
def VarMapper.lookups (m : VarMapper) : List Key → Option (List ℕ × VarMapper)
  | [] => some ([], m)
  | k :: ks =>
    match m.lookup k with
    | none => none
    | some (v, m') =>
      match m'.lookups ks with
      | none => none
      | some (vs, m'') => some (v :: vs, m'')

/-! ### Linear programs

The programs below have `Key`s as variables instead of the numbers that `lookup` assigns to them. -/

/-- `LinearExpression`, `model.h:15-67`. -/
abbrev Exp := List (ℚ × Key)

/-- `LinearProgram`, `model.h:87-140`; no modelled analysis declares bounds of variables. -/
abbrev Program := Milp Key

/-- `add_inequality`, `model.h:148-154`. -/
def addInequality (lp : Program) (e : Exp) (b : ℚ) : Program :=
  if e.isEmpty then lp else { lp with inequalities := lp.inequalities ++ [(e, b)] }

/-- `add_equality`, `model.h:156-162`. -/
def addEquality (lp : Program) (e : Exp) (b : ℚ) : Program :=
  if e.isEmpty then lp else { lp with equalities := lp.equalities ++ [(e, b)] }

/-- `declare_variable_binary`, `model.h:125-128`. -/
def declareBinary (lp : Program) (k : Key) : Program := { lp with binaries := k :: lp.binaries }

/-- `declare_variable_integer`, `model.h:120-123`. -/
def declareInteger (lp : Program) (k : Key) : Program := { lp with integers := k :: lp.integers }

/-- `foreach_request_instance`, `iter-helper.h:4-13`: the number of requests `r` of task `tx` while `ti` is
pending. -/
def instances (ti tx : TaskInfo) (r : Request) : ℕ := tx.maxNumJobs ti.response * r.num

/-- `foreach_request_instance(*request, ti, v) exp->add_var(vars.lookup(t, q, v, ty))`. -/
def vars (ti : TaskInfo) (ty : BlockingType) (t : ℕ × TaskInfo) (r : Request) : Exp :=
  (List.range (instances ti t.2 r)).map (fun v => (1, ⟨ty, t.1, v, r.resId⟩))

/-- The tasks with their ids. -/
def tasks (info : Info) : List (ℕ × TaskInfo) := info.zipIdx.map (fun t => (t.2, t.1))

/-- `foreach_task_except`, `iter-helper.h:15-18`. -/
def others (info : Info) (i : ℕ) : List (ℕ × TaskInfo) := (tasks info).filter (fun t => t.1 ≠ i)

/-- `TaskInfo::get_num_requests`, `sharedres_types.h:162-168`. -/
def numRequests (t : TaskInfo) (res : ℕ) : ℕ :=
  match t.requests.find? (fun r => r.resId = res) with
  | some r => r.num
  | none => 0

/-- `TaskInfo::uni_fp_local_get_max_num_jobs`, `sharedres.cpp:68-73`. -/
def localJobs (t : TaskInfo) (interval : ℕ) : ℕ := Native.divideWithCeil interval t.period

/-- `lrint` in the default rounding mode: to the nearest integer, to the even one of two. -/
def lrint (q : ℚ) : ℤ :=
  if q - ⌊q⌋ < 1 / 2 then ⌊q⌋
  else if 1 / 2 < q - ⌊q⌋ then ⌊q⌋ + 1
  else if ⌊q⌋ % 2 = 0 then ⌊q⌋ else ⌊q⌋ + 1

/-- A solver, `linprog_solve`, `solver.h:36-49`: `none` is `NULL`. -/
abbrev Solver := Program → Option (Key → ℚ)

/-- The end of e.g. `apply_baseline_bounds_for_task`, `lp_spinlocks.cpp:634-643`: the objective's value in the
solution; `none` is the failing assertion. -/
def solved (solve : Solver) (lp : Program) : Option ℕ :=
  (solve lp).map (fun x => (lrint (termSum x lp.objective)).toNat)

end Verif.SR.Lp
