/-
Model of `native/src/blocking/mpcp.cpp` and of `apply_mpcp_bounds` in `schedcat/locking/bounds.py`.  All
numbers are natural numbers: wrap-around of `unsigned int` and `unsigned long` is not modelled, with the
exception of the conversion in `mpcp.cpp:259-261`.
-/
import Verif.Model.Msrp
import Verif.Model.FpRta

namespace Verif.SR.Mpcp
open Verif.SR.Msrp (requests uintMax)

/-- `UNLIMITED`, `sharedres.cpp:18`. -/
def unlimited : ℕ := 4294967295

/-- `determine_mpcp_ceilings`, `mpcp.cpp:9-32`. -/
def determineCeilings (resources : List (List RB)) (cluster : ℕ) : List ℕ :=
  resources.map (fun cs => cs.foldl (fun ceiling req =>
    if req.info.cluster ≠ cluster then min ceiling req.info.priority else ceiling) uintMax)

/-- `get_mpcp_ceilings`, `mpcp.cpp:34-50`. -/
def mpcpCeilings (info : Info) : List (List ℕ) :=
  (List.range (splitByCluster info).length).map (determineCeilings (requests info))

/-- `ceilings[tsk->get_cluster()][res_id]`; both indices are valid in all calls. -/
def ceilingAt (ceilings : List (List ℕ)) (cluster resId : ℕ) : ℕ := (ceilings.getD cluster []).getD resId 0

/-- `get_max_gcs_length`, `mpcp.cpp:55-70`. -/
def maxGcsLength (tsk : TaskInfo) (ceilings : List (List ℕ)) (preempted : ℕ) : ℕ :=
  tsk.requests.foldl (fun len r =>
    if ceilingAt ceilings tsk.cluster r.resId ≤ preempted then max len r.length else len) 0

/-- `determine_gcs_response_times` of a task, `mpcp.cpp:72-98`. -/
def gcsResponseTimes (tsk : ℕ × TaskInfo) (cluster : List (ℕ × TaskInfo)) (ceilings : List (List ℕ)) : List ℕ :=
  tsk.2.requests.map (fun r => cluster.foldl (fun resp t =>
    if t.1 ≠ tsk.1 then resp + maxGcsLength t.2 ceilings (ceilingAt ceilings tsk.2.cluster r.resId) else resp)
    r.length)

/-- `determine_gcs_response_times`, `mpcp.cpp:100-123`; the response times of a cluster are kept together with
its tasks. -/
def clusterTimes (info : Info) : List (List ((ℕ × TaskInfo) × List ℕ)) :=
  (splitByCluster info).map (fun cluster =>
    cluster.map (fun t => (t, gcsResponseTimes t cluster (mpcpCeilings info))))

/-- `response_time_for`, `mpcp.cpp:125-154`. -/
def responseTimeFor (resId interval : ℕ) (tsk : TaskInfo) (resp : List ℕ) (multiple : Bool) : ℕ :=
  match (tsk.requests.zip resp).find? (fun r => r.1.resId = resId) with
  | some r => if multiple then (Native.divideWithCeil interval tsk.period + 1) * r.2 * r.1.num else r.2
  | none => 0

/-- `mpcp_remote_blocking` for a cluster, `mpcp.cpp:156-187`, added to the blocking so far: the blocking
and `max_lower`. -/
def remoteCluster (resId interval : ℕ) (tsk : ℕ × TaskInfo) (cluster : List ((ℕ × TaskInfo) × List ℕ))
    (acc : ℕ × ℕ) : ℕ × ℕ :=
  cluster.foldl (fun acc t =>
    if t.1.1 ≠ tsk.1 then
      if t.1.2.priority < tsk.2.priority then
        (acc.1 + responseTimeFor resId interval t.1.2 t.2 true, acc.2)
      else (acc.1, max acc.2 (responseTimeFor resId interval t.1.2 t.2 false))
    else acc) acc

/-- `mpcp_remote_blocking` for all clusters, `mpcp.cpp:189-214`. -/
def remoteAll (info : Info) (resId interval : ℕ) (tsk : ℕ × TaskInfo) : ℕ × ℕ :=
  (clusterTimes info).foldl (fun acc cluster => remoteCluster resId interval tsk cluster acc) (0, 0)

/-- The loop of `mpcp_remote_blocking` for a resource, `mpcp.cpp:225-244`; `none` if the fuel
is used up. -/
def remoteLoop (info : Info) (resId : ℕ) (tsk : ℕ × TaskInfo) : ℕ → ℕ → Option ℕ
  | 0, _ => none
  | fuel + 1, interval =>
    if interval > max tsk.2.response tsk.2.period then some unlimited
    else
      let (blocking, maxLower) := remoteAll info resId interval tsk
      if interval ≠ blocking + maxLower then remoteLoop info resId tsk fuel (blocking + maxLower)
      else some (blocking + maxLower)

/-- The loop of `mpcp_remote_blocking` for a task, `mpcp.cpp:257-270`.  The result for a resource is
converted to `unsigned int`. -/
def remoteTask (info : Info) (fuel : ℕ) (tsk : ℕ × TaskInfo) : List Request → ℕ → Option ℕ
  | [], blocking => some blocking
  | r :: rs, blocking => do
    let b := (← remoteLoop info r.resId tsk fuel 1) % 4294967296
    if b ≠ unlimited then remoteTask info fuel tsk rs (blocking + b * r.num) else some b

/-- `mpcp_remote_blocking` for a task, `mpcp.cpp:247-271`. -/
def remoteBlocking (info : Info) (fuel : ℕ) (tsk : ℕ × TaskInfo) : Option ℕ :=
  remoteTask info fuel tsk tsk.2.requests 0

/-- `get_max_request_length`, `sharedres_types.h:154-160`. -/
def maxRequestLength (tsk : TaskInfo) : ℕ := tsk.requests.foldl (fun len r => max len r.length) 0

/-- `get_num_arrivals`, `sharedres_types.h:141-152`. -/
def numArrivals (tsk : TaskInfo) : ℕ := tsk.requests.foldl (fun c r => c + r.num) 0 + 1

/-- `mpcp_arrival_blocking`, `mpcp.cpp:273-291`. -/
def arrivalBlocking (tsk : ℕ × TaskInfo) (cluster : List (ℕ × TaskInfo)) (virtualSpinning : Bool) : ℕ :=
  let blocking := cluster.foldl (fun b t =>
    if t.1 ≠ tsk.1 ∧ t.2.priority ≥ tsk.2.priority then b + maxRequestLength t.2 else b) 0
  if virtualSpinning then blocking else blocking * numArrivals tsk.2

/-- `mpcp_bounds`, `mpcp.cpp:293-342`: the remote and local blocking of each task.  `none` if a loop
does not end within the fuel. -/
def mpcpBounds (info : Info) (virtualSpinning : Bool) (fuel : ℕ) : Option (List (ℕ × ℕ)) :=
  info.zipIdx.mapM (fun t => do
    let remote ← remoteBlocking info fuel (t.2, t.1)
    some (remote, arrivalBlocking (t.2, t.1) ((splitByCluster info).getD t.1.cluster []) virtualSpinning))

/-- The tasks of processor `k`, in the order of the list of all tasks, after `apply_mpcp_bounds` without virtual
spinning, `bounds.py:94-118`. -/
def afterMpcpBounds (info : Info) (fuel k : ℕ) : Option (List Fp.FpTask) := do
  let res ← mpcpBounds info false fuel
  some ((info.zip res).filterMap (fun t =>
    if t.1.cluster = k then
      some { cost := (t.1.cost : ℚ), period := (t.1.period : ℚ), deadline := (t.1.deadline : ℚ),
             suspended := (t.2.1 : ℚ), blocked := some ((t.2.1 + t.2.2 : ℕ) : ℚ) }
    else none))

end Verif.SR.Mpcp
