/-
Model of overhead accounting for job-level fixed-priority scheduling
(`schedcat/overheads/jlfp.py`), fixed-priority scheduling
(`schedcat/overheads/fp.py`) and locking protocols
(`schedcat/overheads/locking.py`).

Numbers are exact.  An overhead object is a record of arbitrary functions.  The
functions change tasks in place and return the task list or `False`; the model
returns the changed list.  `oheads=None` leaves tasks unchanged in the code and
is not a case of the model.
-/
import Verif.Model.Quanta
import Mathlib.Data.List.Sort
import Mathlib.Algebra.BigOperators.Group.List.Basic

namespace Verif.Oh

/-- `schedcat/overheads/model.py:6-36` (`Overheads`): functions of the number of
tasks, or of the working set size (`cacheAffinityLoss`, `initialCacheLoad`). -/
structure Oheads where
  quantum : ℚ
  tick : ℚ → ℚ
  releaseLatency : ℚ → ℚ
  release : ℚ → ℚ
  schedule : ℚ → ℚ
  ctxSwitch : ℚ → ℚ
  ipiLatency : ℚ → ℚ
  cacheAffinityLoss : ℚ → ℚ
  initialCacheLoad : ℚ → ℚ
  lock : ℚ → ℚ
  unlock : ℚ → ℚ
  readLock : ℚ → ℚ
  readUnlock : ℚ → ℚ
  syscallIn : ℚ → ℚ
  syscallOut : ℚ → ℚ

/-- Loops that change each task and check it afterwards: `f` is the change, `chk`
the check (`none` raises, `some false` makes the loop return `False`). -/
def sweepG {α β : Type} (f : α → Option β) (chk : β → Option Bool) :
    List α → Outcome (List β)
  | [] => .accepted []
  | t :: ts =>
    match f t with
    | none => .raised
    | some t' =>
      match chk t' with
      | none => .raised
      | some false => .rejected
      | some true =>
        match sweepG f chk ts with
        | .accepted ts' => .accepted (t' :: ts')
        | .raised => .raised
        | .rejected => .rejected

/-- `if t.density() > 1: return False`, with `density` of
`schedcat/model/tasks.py:40-41`; `none` is a `ZeroDivisionError`. -/
def densityAtMostOne (cost period deadline : ℚ) : Option Bool :=
  let m := min period deadline
  if m = 0 then none else some (decide (¬ cost / m > 1))

/-! ### Job-level fixed priorities -/

/-- A task with a working set size; `earlyReleasing` is false if the attribute is
missing. -/
structure OTask where
  cost : ℚ
  period : ℚ
  deadline : ℚ
  wss : ℚ
  earlyReleasing : Bool := false
deriving DecidableEq, Repr

/-- `density() > 1` check for `OTask`. -/
def OTask.chk (t : OTask) : Option Bool := densityAtMostOne t.cost t.period t.deadline

/-- `schedcat/overheads/jlfp.py:6-18` (`charge_initial_load`). -/
def chargeInitialLoad (o : Oheads) (ts : List OTask) : Outcome (List OTask) :=
  sweepG (fun t =>
    let load := o.initialCacheLoad t.wss
    if load ≥ 0 then some { t with cost := t.cost + load } else none) OTask.chk ts

/-- Tasks whose releases cause interrupts, `jlfp.py:33-34`. -/
def irqTasks (ts : List OTask) : List OTask := ts.filter (fun t => !t.earlyReleasing)

/-- `schedcat/overheads/jlfp.py:20-45` (`preemption_centric_irq_costs`);
`none` is a `ZeroDivisionError`. -/
def irqCosts (o : Oheads) (dedicatedIrq : Bool) (ts : List OTask) : Option (ℚ × ℚ) :=
  let n : ℚ := ts.length
  let tck := o.tick n
  let evLat := o.releaseLatency n
  if o.quantum = 0 then none
  else
    let utick := tck / o.quantum
    let rel := o.release n
    if dedicatedIrq = false ∧ (irqTasks ts).any (fun t => t.period = 0) then none
    else
      let urel := if dedicatedIrq then 0 else ((irqTasks ts).map (fun t => rel / t.period)).sum
      let num := tck + evLat * utick
      let num := if dedicatedIrq then num
        else num + ((irqTasks ts).length * rel + evLat * urel)
      let uscale := 1 - utick - urel
      if uscale = 0 then none else some (uscale, num / uscale)

/-- `heapq.nlargest(2, taskset, lambda x: x.wss)`, `jlfp.py:60-61`, as positions:
the first two of a stable descending sort. -/
def twoLargest (ts : List OTask) : List (OTask × ℕ) :=
  (ts.zipIdx.insertionSort (fun a b => a.1.wss ≥ b.1.wss)).take 2

/-- The cache-related preemption delay charged to the task at position `i`,
`jlfp.py:75-79`. -/
def cpmdCharge (o : Oheads) (ts : List OTask) (i : ℕ) : ℚ :=
  match twoLargest ts with
  | [] => 0
  | a :: rest =>
    if i ≠ a.2 then o.cacheAffinityLoss a.1.wss
    else
      match rest with
      | [] => 0
      | b :: _ => o.cacheAffinityLoss b.1.wss

/-- Costs per job that are not scaled, `jlfp.py:66-71`. -/
def unscaledCost (o : Oheads) (numCpus : ℕ) (dedicatedIrq : Bool) (n : ℚ) (cpre : ℚ) : ℚ :=
  if dedicatedIrq then 2 * cpre + o.ipiLatency n + o.release n
  else if numCpus > 1 then 2 * cpre + o.ipiLatency n
  else 2 * cpre

/-- Body of the loop `jlfp.py:73-83` for the task `t` at position `i`. -/
def jlfpTask (o : Oheads) (numCpus : ℕ) (dedicatedIrq : Bool) (ts : List OTask)
    (uscale cpre : ℚ) (t : OTask) (i : ℕ) : OTask :=
  let n : ℚ := ts.length
  let sched := 2 * (o.schedule n + o.ctxSwitch n)
  let tasksched := sched + cpmdCharge o ts i
  { t with
    period := t.period - o.releaseLatency n
    deadline := t.deadline - o.releaseLatency n
    cost := (t.cost + tasksched) / uscale + unscaledCost o numCpus dedicatedIrq n cpre }

/-- `schedcat/overheads/jlfp.py:47-86` (`charge_scheduling_overheads`). -/
def jlfpCharge (o : Oheads) (numCpus : ℕ) (dedicatedIrq : Bool) (ts : List OTask) :
    Outcome (List OTask) :=
  match irqCosts o dedicatedIrq ts with
  | none => .raised
  | some (uscale, cpre) =>
    if uscale ≤ 0 then .rejected
    else sweepG (fun p => some (jlfpTask o numCpus dedicatedIrq ts uscale cpre p.1 p.2))
      OTask.chk ts.zipIdx

/-- `schedcat/overheads/jlfp.py:88-99` (`quantize_params`).  A zero parameter makes
the function return `False` before the density is computed. -/
def jlfpQuantize (ts : List OTask) : Outcome (List OTask) :=
  sweepG (fun t => some
      { t with cost := (⌈t.cost⌉ : ℤ), period := (⌊t.period⌋ : ℤ), deadline := (⌊t.deadline⌋ : ℤ) })
    (fun t => if min t.period t.deadline = 0 then some false else t.chk) ts

/-! ### Fixed priorities -/

/-- `schedcat/util/math.py:28-51` (`LinearEqu`). -/
structure LinearEqu where
  a : ℚ
  b : ℚ
deriving DecidableEq, Repr

/-- `schedcat/util/math.py:40-41` for a number. -/
def LinearEqu.eval (f : LinearEqu) (x : ℚ) : ℚ := f.a + (if f.b = 0 then 0 else f.b * x)

/-- `schedcat/util/math.py:40-41` for a list (as `fp.py` and `pfair.py` call it): with
a zero slope the argument is not used, otherwise the sum of a number and a
product with a list raises `TypeError` (`none`). -/
def LinearEqu.evalList (f : LinearEqu) : Option ℚ := if f.b = 0 then some f.a else none

/-- The functions that `fp.py` reads. -/
structure FpOheads where
  quantum : ℚ
  releaseLatency : LinearEqu
  tick : LinearEqu
  release : LinearEqu
  ipiLatency : LinearEqu
  schedule : LinearEqu
  ctxSwitch : LinearEqu
  cacheAffinityLoss : LinearEqu

/-- A task under fixed-priority scheduling; `jitter` is `none` if the attribute is
missing. -/
structure FTask where
  cost : ℚ
  period : ℚ
  deadline : ℚ
  jitter : Option ℚ := none
deriving DecidableEq, Repr

/-- The pseudo-task for an interrupt source, `fp.py:16-17`, `:25-27`. -/
def isrTask (cost period jitter : ℚ) : FTask := ⟨cost, period, period, some jitter⟩

/-- `schedcat/overheads/fp.py:7-49` (`charge_scheduling_overheads`); position in the
list is the priority. -/
def fpCharge (o : FpOheads) (dedicatedIrq : Bool) (ts : List FTask) : Option (List FTask) :=
  if ts = [] then some ts
  else do
    let lat ← o.releaseLatency.evalList
    let tck ← o.tick.evalList
    let ticks := if tck > 0 then [isrTask tck o.quantum lat] else []
    let rel ← o.release.evalList
    let releases := if dedicatedIrq = false ∧ rel > 0
      then ts.map (fun t => isrTask rel t.period lat) else []
    let delay := lat + rel
    let delay ← if dedicatedIrq then (o.ipiLatency.evalList).map (delay + ·) else some delay
    let sched ← o.schedule.evalList
    let cxs ← o.ctxSwitch.evalList
    let cpmd ← o.cacheAffinityLoss.evalList
    let preemption := 2 * (sched + cxs) + cpmd
    return ticks ++ releases ++ ts.map (fun t =>
      { t with jitter := some (t.jitter.getD 0 + delay), cost := t.cost + preemption })

/-- `schedcat/overheads/fp.py:51-63` (`quantize_params`); a missing jitter raises
`AttributeError`. -/
def fpQuantize (ts : List FTask) : Outcome (List FTask) :=
  sweepG (fun t =>
      match t.jitter with
      | none => none
      | some j => some ⟨(⌈t.cost⌉ : ℤ), (⌊t.period⌋ : ℤ), (⌊t.deadline⌋ : ℤ), some (⌈j⌉ : ℤ)⟩)
    (fun t => densityAtMostOne t.cost t.period t.deadline) ts

/-! ### Locking -/

/-- `schedcat/model/resources.py:4-12`; `writeLengthLocal` is the attribute that
`locking.py:94` adds. -/
structure Req where
  maxWrites : ℕ
  maxReads : ℕ
  maxWriteLength : ℚ
  maxReadLength : ℚ
  writeLengthLocal : Option ℚ := none
deriving DecidableEq, Repr

/-- A task with shared resources (`reqs` are the values of `resmodel` in iteration
order). -/
structure LTask where
  cost : ℚ
  period : ℚ
  deadline : ℚ
  suspended : ℚ
  reqs : List Req
deriving DecidableEq, Repr

/-- `density() > 1` check for `LTask`. -/
def LTask.chk (t : LTask) : Option Bool := densityAtMostOne t.cost t.period t.deadline

/-- Changes to one request, `locking.py:23-31`. -/
def spinReq (rcost wcost : ℚ) (r : Req) : Req :=
  let r := if r.maxReads ≠ 0
    then { r with maxReadLength := (⌈r.maxReadLength + rcost⌉ : ℤ) } else r
  if r.maxWrites ≠ 0
    then { r with maxWriteLength := (⌈r.maxWriteLength + wcost⌉ : ℤ) } else r

/-- Contribution of one request to `extra_wcet`, `locking.py:23-32`. -/
def spinExtra (rcost wcost scost : ℚ) (r : Req) : ℚ :=
  (if r.maxReads ≠ 0 then r.maxReads * rcost else 0) +
  (if r.maxWrites ≠ 0 then r.maxWrites * wcost else 0) +
  ((r.maxWrites + r.maxReads : ℕ) : ℚ) * scost

/-- `schedcat/overheads/locking.py:7-37` (`charge_spinlock_overheads`). -/
def spinCharge (o : Oheads) (ts : List LTask) : Outcome (List LTask) :=
  let n : ℚ := ts.length
  let rcost := o.readLock n + o.readUnlock n
  let wcost := o.lock n + o.unlock n
  let scost := o.syscallIn n + o.syscallOut n
  sweepG (fun t => some
      { t with
        cost := t.cost + (⌈(t.reqs.map (spinExtra rcost wcost scost)).sum⌉ : ℤ)
        reqs := t.reqs.map (spinReq rcost wcost) }) LTask.chk ts

/-- Per-request execution cost increase, `locking.py:55-68`. -/
def semExec (o : Oheads) (n : ℚ) (suspAware : Bool) : ℚ :=
  let sched := o.schedule n + o.ctxSwitch n
  let e := 3 * sched + 2 * o.syscallIn n + 2 * o.syscallOut n + o.lock n + o.unlock n
    + 2 * o.cacheAffinityLoss n
  if suspAware then e else e + o.ipiLatency n

/-- Critical section increase, `locking.py:74-78`. -/
def semCs (o : Oheads) (n : ℚ) (preemptive : Bool) : ℚ :=
  let sched := o.schedule n + o.ctxSwitch n
  let c := o.ipiLatency n + sched + o.syscallOut n + o.syscallIn n + o.unlock n
  if preemptive then c + sched else c

/-- `cs_increase_local`, `locking.py:80-81`. -/
def semCsLocal (o : Oheads) (n : ℚ) : ℚ :=
  semCs o n false + (o.schedule n + o.ctxSwitch n)

/-- Changes to one request, `locking.py:92-96`. -/
def semReq (o : Oheads) (n : ℚ) (preemptive : Bool) (r : Req) : Req :=
  if r.maxWrites ≠ 0 then
    { r with
      writeLengthLocal := if preemptive then r.writeLengthLocal
        else some (⌈r.maxWriteLength + semCsLocal o n⌉ : ℤ)
      maxWriteLength := (⌈r.maxWriteLength + semCs o n preemptive⌉ : ℤ) }
  else r

/-- Sum over requests of the number of writes times a charge,
`locking.py:97-98`, `:137-138`. -/
def writeCharge (x : ℚ) (reqs : List Req) : ℚ := (reqs.map (fun r => r.maxWrites * x)).sum

/-- `schedcat/overheads/locking.py:40-105` (`charge_semaphore_overheads`). -/
def semCharge (o : Oheads) (preemptive suspAware : Bool) (ts : List LTask) :
    Outcome (List LTask) :=
  let n : ℚ := ts.length
  let susp := if suspAware then o.ipiLatency n else 0
  sweepG (fun t =>
      if t.reqs.any (fun r => r.maxReads ≠ 0) then none
      else some
        { t with
          cost := t.cost + (⌈writeCharge (semExec o n suspAware) t.reqs⌉ : ℤ)
          suspended := if suspAware then t.suspended + (⌈writeCharge susp t.reqs⌉ : ℤ)
            else t.suspended
          reqs := t.reqs.map (semReq o n preemptive) }) LTask.chk ts

/-- Per-request execution cost increase of the DPCP, `locking.py:121`. -/
def dpcpExec (o : Oheads) (n : ℚ) : ℚ :=
  o.syscallIn n + o.syscallOut n + 2 * (o.schedule n + o.ctxSwitch n)
    + 2 * o.cacheAffinityLoss n

/-- Critical section increase of the DPCP, `locking.py:122`. -/
def dpcpCs (o : Oheads) (n : ℚ) : ℚ :=
  3 * (o.schedule n + o.ctxSwitch n) + o.syscallIn n + o.syscallOut n + o.lock n + o.unlock n

/-- Changes to one request, `locking.py:134-136`. -/
def dpcpReq (o : Oheads) (n : ℚ) (r : Req) : Req :=
  if r.maxWrites ≠ 0
    then { r with maxWriteLength := (⌈r.maxWriteLength + dpcpCs o n⌉ : ℤ) } else r

/-- `schedcat/overheads/locking.py:107-144` (`charge_dpcp_overheads`). -/
def dpcpCharge (o : Oheads) (ts : List LTask) : Outcome (List LTask) :=
  let n : ℚ := ts.length
  sweepG (fun t =>
      if t.reqs.any (fun r => r.maxReads ≠ 0) then none
      else some
        { t with
          cost := t.cost + (⌈writeCharge (dpcpExec o n) t.reqs⌉ : ℤ)
          suspended := t.suspended +
            (⌈writeCharge (2 * o.ipiLatency n + dpcpCs o n) t.reqs⌉ : ℤ)
          reqs := t.reqs.map (dpcpReq o n) }) LTask.chk ts

end Verif.Oh
