/-
Model of `native/src/blocking/global-pip.cpp` and `native/src/blocking/ppcp.cpp`, called from
`apply_classic_pip_bounds` and `apply_classic_ppcp_bounds`, `schedcat/locking/bounds.py:174-206`.

As in `Verif.Model.SharedRes`, numbers are natural numbers (wrap-around is not modelled) and
pointers are indices.
-/
import Verif.Model.Msrp
import Verif.Model.GlobalFp
import Verif.Model.LockBounds

namespace Verif.SR
namespace Pip

/-- `common_sr_time`, `global-pip.cpp:15-41`. -/
def commonSrTime (tsk tx : TaskInfo) : ℕ :=
  tsk.requests.foldl (fun sum q => tx.requests.foldl
    (fun sum q' => if q.resId = q'.resId then sum + q'.length * q'.num else sum) sum) 0

/-- `N_l_tx`, `global-pip.cpp:46-54`. -/
def numJobs (t : ℕ) (task : TaskInfo) (x : ℕ) : ℕ := (t + task.deadline - x) / task.period

/-- `W_l_tx`, `global-pip.cpp:59-72`. -/
def workload (t : ℕ) (task : TaskInfo) (x : ℕ) : ℕ :=
  x * numJobs t task x + min x (t + task.deadline - x - task.period * numJobs t task x)

/-- `Ihp_i_dsr`, `global-pip.cpp:78-93`. -/
def ihpDsr (info : Info) (tsk : TaskInfo) : ℕ :=
  info.foldl (fun acc th => if th.priority < tsk.priority then
    acc + workload tsk.response th (commonSrTime tsk th) else acc) 0

/-- The two inner loops of `DB_i`, `global-pip.cpp:108-124`: the longest request of a
lower-priority task. -/
def longestLower (info : Info) (tsk : TaskInfo) (r : ℕ) : ℕ :=
  info.foldl (fun mx tx => if tx.priority > tsk.priority then
    tx.requests.foldl (fun mx q => if r = q.resId ∧ q.length > mx then q.length else mx) mx
    else mx) 0

/-- `DB_i`, `global-pip.cpp:98-131`. -/
def directLower (info : Info) (tsk : TaskInfo) : ℕ :=
  tsk.requests.foldl (fun sum q => sum + longestLower info tsk q.resId * q.num) 0

/-- `lower_priority_with_higher_ceiling_time`, `global-pip.cpp:137-157`. -/
def higherCeilingTime (info : Info) (tsk tx : TaskInfo) : ℕ :=
  tx.requests.foldl (fun sum q => if Msrp.ceilingOf info q.resId < tsk.priority then
    sum + q.length * q.num else sum) 0

/-- `Ilp_i`, `global-pip.cpp:163-180`. -/
def ilp (info : Info) (tsk : TaskInfo) (m : ℕ) : ℕ :=
  Native.divideWithCeil (info.foldl (fun sum tl => if tl.priority > tsk.priority then
    sum + workload tsk.response tl (higherCeilingTime info tsk tl) else sum) 0) m

/-- What `global_pip_bounds` reports for a task, `global-pip.cpp:183-212`: the total blocking and
the "local blocking", which is the direct blocking by higher-priority tasks. -/
def pipBounds (info : Info) (m : ℕ) (tsk : TaskInfo) : ℕ × ℕ :=
  let dsr := ihpDsr info tsk
  let total := directLower info tsk + dsr
  (if tsk.priority ≥ m then total + ilp info tsk m else total, dsr)

/-- The tasks as seen by `bertogna.py` after `apply_classic_pip_bounds`, `bounds.py:174-189`. -/
def afterPip (info : Info) (m : ℕ) : List GFp.FTask :=
  info.map (fun t => ⟨t.cost, t.period, t.deadline, some (pipBounds info m t).1,
    some (pipBounds info m t).2⟩)

/-! ### The parallel priority ceiling protocol, `ppcp.cpp` -/

/-- `is_reasonable_priority_assignment`, `bounds.py:35-49`. -/
def isReasonable (m : ℕ) (info : Info) : Bool :=
  ((info.drop m).zip ((info.drop m).drop 1)).all (fun p => !decide (p.1.deadline > p.2.deadline))

/-- The lower-priority tasks with their identifiers, `foreach_lower_priority_task`. -/
def lowerTasks (info : Info) (tsk : TaskInfo) : List (ℕ × TaskInfo) :=
  (info.zipIdx.map (fun t => (t.2, t.1))).filter (fun tl => tl.2.priority > tsk.priority)

/-- `shift_value[tl_id]`, `ppcp.cpp:77-82`. -/
def shiftValue (info : Info) (tsk tl : TaskInfo) : ℕ :=
  let csl := higherCeilingTime info tsk tl
  if tsk.response > tl.period - tl.response + 2 * csl then
    tsk.response + tl.response - tl.period - 2 * csl
  else if tsk.response > csl ∧ tsk.response ≤ tl.period - tl.response + csl then tsk.response - csl
  else 0

/-- The smallest positive `csl`, `ppcp.cpp:84-85`. -/
def minCsl (info : Info) (tsk : TaskInfo) : ℕ :=
  (lowerTasks info tsk).foldl (fun min tl =>
    let csl := higherCeilingTime info tsk tl.2
    if csl ≠ 0 ∧ csl < min then csl else min) Msrp.uintMax

/-- Variables of the loop `ppcp.cpp:94-114`. -/
structure ShiftState where
  considered : List ℕ
  min : ℕ
  found : Bool
  tlId : ℕ

/-- The inner loop, `ppcp.cpp:99-109`. -/
def shiftLoop (info : Info) (tsk : TaskInfo) (st : ShiftState) : ShiftState :=
  (lowerTasks info tsk).foldl (fun st tl =>
    if st.considered.contains tl.1 && decide (shiftValue info tsk tl.2 < st.min) then
      ⟨tl.1 :: st.considered, shiftValue info tsk tl.2, true, tl.1⟩
    else { st with tlId := tl.1 }) st

/-- The outer loop: the set of considered tasks and the sum.  The uninitialised `tl_id` is 0. -/
def shiftRounds (info : Info) (tsk : TaskInfo) : ℕ → List ℕ × ℕ
  | 0 => ([], 0)
  | counter + 1 =>
    let (considered, sum) := shiftRounds info tsk counter
    let st := shiftLoop info tsk ⟨considered, Msrp.uintMax, false, 0⟩
    (st.considered, if st.found then
      match info[st.tlId]? with
      | none => sum
      | some tl => sum + workload tsk.response tl (higherCeilingTime info tsk tl)
    else sum)

/-- `Ilp_i_ppcp`, `ppcp.cpp:22-125`. -/
def ilpPpcp (info : Info) (tsk : TaskInfo) (m : ℕ) : ℕ :=
  let (considered, sum) := shiftRounds info tsk m
  let rPrime := tsk.response - minCsl info tsk
  Native.divideWithCeil ((lowerTasks info tsk).foldl (fun sum tl =>
    if considered.contains tl.1 then sum + workload rPrime tl.2 (higherCeilingTime info tsk tl.2)
    else sum) sum) m

/-- `m_largest_values`, `ppcp.cpp:132-169`. -/
def mLargest (info : Info) (tsk : TaskInfo) (r m : ℕ) : ℕ :=
  let csls := (lowerTasks info tsk).map (fun tl => tl.2.requests.foldl
    (fun mx q => if q.resId ≠ r then max mx q.length else mx) 0)
  ((csls.insertionSort (fun a b => b ≤ a)).take m).sum

/-- `sus_i`, `ppcp.cpp:173-189`. -/
def sus (info : Info) (tsk : TaskInfo) (m : ℕ) : ℕ :=
  tsk.requests.foldl (fun sum q => sum + q.num * mLargest info tsk q.resId m) 0

/-- What `ppcp_bounds` reports for a task, `ppcp.cpp:193-255`. -/
def ppcpBounds (info : Info) (m : ℕ) (reasonable : Bool) (tsk : TaskInfo) : ℕ × ℕ :=
  let dsr := ihpDsr info tsk
  let total := directLower info tsk + dsr
  (if tsk.priority ≥ m then
    total + (sus info tsk m + if reasonable then ilpPpcp info tsk m else ilp info tsk m)
  else total, dsr)

/-- The tasks as seen by `bertogna.py` after `apply_classic_ppcp_bounds`, `bounds.py:181-197`. -/
def afterPpcp (info : Info) (m : ℕ) : List GFp.FTask :=
  info.map (fun t => ⟨t.cost, t.period, t.deadline,
    some (ppcpBounds info m (isReasonable m info) t).1,
    some (ppcpBounds info m (isReasonable m info) t).2⟩)

end Pip
end Verif.SR
