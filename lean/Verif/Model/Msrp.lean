/-
Model of `native/src/blocking/msrp.cpp` and `native/src/edf/qpa_msrp.cpp`, called from
`pedf_msrp_classic_is_schedulable` in `schedcat/locking/bounds.py:609-612`.

As in `Verif.Model.SharedRes`, numbers are natural numbers (several maxima are kept in
variables of type `unsigned int`; wrap-around is not modelled) and pointers are indices.
-/
import Verif.Model.SharedRes
import Verif.Model.Qpa
import Mathlib.Data.List.Dedup

namespace Verif.SR
namespace Msrp

/-- `split_by_cluster`, `sharedres.cpp:91-106`, with a number of CPUs: there is at least one
(possibly empty) cluster per CPU. -/
def clusters (info : Info) (numCpus : ℕ) : List (List (ℕ × TaskInfo)) :=
  info.zipIdx.foldl (fun cs t => addAt cs t.1.cluster (t.2, t.1)) (List.replicate numCpus [])

/-- `split_by_resource` on all tasks, `sharedres.cpp:143-160`. -/
def requests (info : Info) : List (List RB) := splitByResource (info.zipIdx.map (fun t => (t.2, t.1)))

/-- `get_global_resources`, `msrp.cpp:154-174`, as `global_resources.count(r)`: the inner loop
ends as soon as the set of clusters has two elements. -/
def isGlobal (info : Info) (r : ℕ) : Bool :=
  decide ((((requests info).getD r []).map (fun rb => rb.info.cluster)).dedup.length > 1)

/-- `UINT_MAX`. -/
def uintMax : ℕ := 4294967295

/-- `get_priority_ceilings(info).at(r)`, `sharedres.cpp:248-277`; `at` is only called for
resources that have requests. -/
def ceilingOf (info : Info) (r : ℕ) : ℕ :=
  ((requests info).getD r []).foldl (fun c rb => min c rb.info.priority) uintMax

/-- `max_csl`, `msrp.cpp:196-208`: the longest request of the tasks of a cluster. -/
def maxCsl (cluster : List (ℕ × TaskInfo)) (r : ℕ) : ℕ :=
  cluster.foldl (fun acc t => t.2.requests.foldl
    (fun acc q => if q.resId = r then max acc q.length else acc) acc) 0

/-- `max_csl_sum`, `msrp.cpp:190-212`. -/
def cslSum (info : Info) (numCpus : ℕ) (tsk : TaskInfo) (r : ℕ) : ℕ :=
  (List.range numCpus).foldl (fun acc cpu =>
    if cpu ≠ tsk.cluster then acc + maxCsl ((clusters info numCpus).getD cpu []) r else acc) 0

/-- `msrp_remote_bound`, `msrp.cpp:177-219`: the blocking and the longest non-preemptive section
of the task (`np_blocking.total_length`). -/
def remoteBound (info : Info) (numCpus : ℕ) (tsk : TaskInfo) : Interference × ℕ :=
  tsk.requests.foldl (fun acc q =>
    if isGlobal info q.resId = false then acc
    else
      let sum := cslSum info numCpus tsk q.resId
      (⟨acc.1.count + q.num, acc.1.total + q.num * sum⟩, max acc.2 (sum + q.length))) ({}, 0)

/-- `msrp_local_bound`, `msrp.cpp:221-254`. -/
def localBound (info : Info) (tsk : TaskInfo) (loc : List (ℕ × TaskInfo)) (interval : ℕ) :
    Interference :=
  let maxCsl := loc.foldl (fun acc t => t.2.requests.foldl (fun acc q =>
    if t.2.priority ≤ tsk.priority ∨ isGlobal info q.resId = true
        ∨ ceilingOf info q.resId > tsk.priority ∨ t.2.deadline ≤ interval then acc
    else max acc q.length) acc) 0
  if maxCsl > 0 then ⟨1, maxCsl⟩ else {}

/-- `np_blocking[i].total_length` after the loop `msrp.cpp:46-55` (also `102-110`): it stays 0 for
tasks on virtual partitions. -/
def npBlocking (info : Info) (numCpus : ℕ) (tsk : TaskInfo) : ℕ :=
  if tsk.cluster < numCpus then (remoteBound info numCpus tsk).2 else 0

/-- What `msrp_bounds` reports for a task. -/
structure Bounds where
  blocking : Interference
  remote : Interference
  loc : Interference
deriving DecidableEq, Repr

/-- The bounds of task number `i`, `msrp.cpp:46-83`. -/
def taskBounds (info : Info) (numCpus i : ℕ) (tsk : TaskInfo) : Bounds :=
  let remote := if tsk.cluster < numCpus then (remoteBound info numCpus tsk).1 else {}
  let np := if tsk.cluster < numCpus then
    info.zipIdx.foldl (fun acc x =>
      if ¬ (x.1.cluster ≠ tsk.cluster ∨ x.1.priority < tsk.priority ∨ i = x.2) then
        max acc (npBlocking info numCpus x.1) else acc) 0 else 0
  let loc : Interference := if tsk.cluster < numCpus then
    localBound info tsk ((clusters info numCpus).getD tsk.cluster []) 0 else {}
  let loc := { loc with total := max loc.total np }
  ⟨remote.add loc, remote, loc⟩

/-- `msrp_bounds`, `msrp.cpp:34-86`. -/
def msrpBounds (info : Info) (numCpus : ℕ) : List Bounds :=
  info.zipIdx.map (fun t => taskBounds info numCpus t.2 t.1)

/-- `get_EDF_arrival_blocking`, `msrp.cpp:90-149`. -/
def edfArrivalBlocking (info : Info) (numCpus interval cpu : ℕ) : ℕ :=
  info.zipIdx.foldl (fun acc t =>
    if t.1.deadline > interval ∨ t.1.cluster ≠ cpu then acc
    else if t.1.cluster < numCpus then
      let acc := info.zipIdx.foldl (fun acc x =>
        if ¬ (x.1.cluster ≠ t.1.cluster ∨ x.1.priority < t.1.priority ∨ t.2 = x.2
            ∨ x.1.deadline ≤ interval) then
          max acc (npBlocking info numCpus x.1) else acc) acc
      max acc (localBound info t.1 ((clusters info numCpus).getD t.1.cluster []) interval).total
    else max acc 0) 0

/-- The task set of one processor, `qpa_msrp.cpp:62-71`. -/
def partition (info : Info) (numCpus k : ℕ) : Native.TaskSet :=
  (info.zip (msrpBounds info numCpus)).filterMap (fun t =>
    if t.1.cluster = k then some (Native.Task.init (t.1.cost + t.2.remote.total) t.1.period t.1.deadline)
    else none)

/-- `max_relative_deadline`, `qpa_msrp.cpp:12-20`. -/
def maxRelativeDeadline (ts : Native.TaskSet) : ℕ := ts.foldl (fun dl t => max dl t.deadline) 0

/-- `QPA_MSRPTest::get_demand`, `qpa_msrp.cpp:28-36`. -/
def getDemand (info : Info) (numCpus k : ℕ) (ts : Native.TaskSet) (interval : ℕ) : ℕ :=
  if interval ≤ maxRelativeDeadline ts then
    ts.boundDemand interval + edfArrivalBlocking info numCpus interval k
  else ts.boundDemand interval

/-- `QPATest::is_schedulable`, `qpa.cpp:159-197`, of a `QPA_MSRPTest` (see
`qpa_msrp.cpp:38-46`) and with `check_preconditions = false`. -/
def isSchedulable (fuel : ℕ) (info : Info) (numCpus k : ℕ) (ts : Native.TaskSet) : Option Bool :=
  if ts.utilization > 1 then some false
  else
    match Native.maxInterval fuel ts ts.utilization with
    | none => none
    | some maxInt =>
      let maxInt := max maxInt (maxRelativeDeadline ts)
      match Native.qpaLoop (getDemand info numCpus k ts) ts (Native.minRelativeDeadline ts) fuel
          (Native.largestTestpoint ts maxInt) with
      | none => none
      | some (_, demand) => some (!Native.exceeds demand (Native.minRelativeDeadline ts))

/-- The loop over the clusters, `qpa_msrp.cpp:59-81`. -/
def clusterLoop (fuel : ℕ) (info : Info) (numCpus : ℕ) : List ℕ → Option Bool
  | [] => some true
  | k :: ks =>
    match isSchedulable fuel info numCpus k (partition info numCpus k) with
    | none => none
    | some false => some false
    | some true => clusterLoop fuel info numCpus ks

/-- `pedf_msrp_classic_is_schedulable`, `qpa_msrp.cpp:53-87`; there are as many clusters
as `split_by_cluster` without a number of CPUs creates. -/
def pedfMsrpClassic (fuel : ℕ) (info : Info) (numCpus : ℕ) : Option Bool :=
  clusterLoop fuel info numCpus (List.range (splitByCluster info).length)

end Msrp
end Verif.SR
