/-
Model of `native/src/sharedres.cpp`, `native/include/sharedres_types.h` and of the
blocking analyses `native/src/blocking/{clust-omlp,part-omlp,global-fmlp,global-omlp}.cpp`.

All numbers are natural numbers: wrap-around of `unsigned int` and `unsigned long` is not
modelled.  Pointers to tasks and requests are modelled by their indices.
-/
import Verif.Model.NativeTasks
import Mathlib.Data.List.Sort

namespace Verif.SR

/-- `RequestBound`, `sharedres_types.h:23-66`, without the pointer to the task. -/
structure Request where
  resId : ℕ
  num : ℕ
  length : ℕ
  isRead : Bool := false
deriving DecidableEq, Repr

/-- `TaskInfo`, `sharedres_types.h:67-115`; the id is the index in the list of tasks. -/
structure TaskInfo where
  priority : ℕ
  period : ℕ
  deadline : ℕ
  response : ℕ
  cluster : ℕ
  cost : ℕ
  requests : List Request
deriving DecidableEq, Repr

/-- `ResourceSharingInfo`, `sharedres_types.h:259-316`. -/
abbrev Info := List TaskInfo

/-- A pointer to a `RequestBound`: index of the task, the task, index of the request, the
request. -/
structure RB where
  task : ℕ
  info : TaskInfo
  idx : ℕ
  req : Request
deriving DecidableEq, Repr

/-- `TaskInfo::get_max_num_jobs`, `sharedres.cpp:61-66`. -/
def TaskInfo.maxNumJobs (t : TaskInfo) (interval : ℕ) : ℕ :=
  Native.divideWithCeil (interval + t.response) t.period

/-- `RequestBound::get_max_num_requests`, `sharedres.cpp:75-78`. -/
def RB.maxNumRequests (r : RB) (interval : ℕ) : ℕ := r.info.maxNumJobs interval * r.req.num

/-- `Interference`, `sharedres_types.h:365-396`. -/
structure Interference where
  count : ℕ := 0
  total : ℕ := 0
deriving DecidableEq, Repr

namespace Interference

/-- `operator+`, `sharedres_types.h:380-386`. -/
def add (a b : Interference) : Interference := ⟨a.count + b.count, a.total + b.total⟩

/-- `operator<`, `sharedres_types.h:388-393`. -/
def lt (a b : Interference) : Bool :=
  decide (a.total < b.total) || (decide (a.total = b.total) && decide (a.count < b.count))

/-- `std::max(a, b)`. -/
def max (a b : Interference) : Interference := if a.lt b then b else a

end Interference

/-! ### Splitting -/

/-- `while (i >= l.size()) l.push_back({}); l[i].push_back(x)`, as in
`sharedres.cpp:94-102`. -/
def addAt {α : Type} : List (List α) → ℕ → α → List (List α)
  | [], 0, x => [[x]]
  | [], i + 1, x => [] :: addAt [] i x
  | c :: cs, 0, x => (c ++ [x]) :: cs
  | c :: cs, i + 1, x => c :: addAt cs i x

/-- `split_by_cluster` with `num_cpus == 0`, `sharedres.cpp:89-105`; the tasks come with
their index. -/
def splitByCluster (info : Info) : List (List (ℕ × TaskInfo)) :=
  info.zipIdx.foldl (fun cs t => addAt cs t.1.cluster (t.2, t.1)) []

/-- The pointers to the requests of a task. -/
def pointers (t : ℕ × TaskInfo) : List RB :=
  t.2.requests.zipIdx.map (fun r => ⟨t.1, t.2, r.2, r.1⟩)

/-- `split_by_resource` on a cluster or on all tasks, `sharedres.cpp:124-160`. -/
def splitByResource (cluster : List (ℕ × TaskInfo)) : List (List RB) :=
  (cluster.flatMap pointers).foldl (fun rs r => addAt rs r.req.resId r) []

/-- `sort_by_request_length`, `sharedres.cpp:214-241`.  `std::sort` need not be stable;
the order among requests of equal length is irrelevant for the results. -/
def sortByLength (cs : List RB) : List RB := cs.insertionSort (fun a b => a.req.length ≥ b.req.length)

/-- The common start of the clustered analyses, e.g. `clust-omlp.cpp:11-21`. -/
def clusterResources (info : Info) : List (List (List RB)) :=
  (splitByCluster info).map (fun c => (splitByResource c).map sortByLength)

/-- The common start of the global analyses, e.g. `global-fmlp.cpp:10-13`. -/
def globalResources (info : Info) : List (List RB) :=
  (splitByResource (info.zipIdx.map (fun t => (t.2, t.1)))).map sortByLength

/-! ### Bounds on blocking -/

/-- The loop of `bound_blocking`, `sharedres.cpp:360-405`; `ok` says whether a source is
not excluded. -/
def boundLoop (interval perSource : ℕ) (ok : RB → Bool) : ℕ → List RB → Interference
  | _, [] => ⟨0, 0⟩
  | remaining, r :: cont =>
    if remaining = 0 then ⟨0, 0⟩
    else if ok r then
      let num := min (r.maxNumRequests interval) perSource
      let num := min num remaining
      Interference.add ⟨num, num * r.req.length⟩ (boundLoop interval perSource ok (remaining - num) cont)
    else boundLoop interval perSource ok remaining cont

/-- `bound_blocking`, `sharedres.cpp:360-405`. -/
def boundBlocking (cont : List RB) (interval maxTotal perSource exclude : ℕ) (minPrio : ℕ := 0) :
    Interference :=
  boundLoop interval perSource
    (fun r => decide (r.task ≠ exclude) && decide (r.info.priority ≥ minPrio)) maxTotal cont

/-- `bound_blocking` with `exclude_whole_cluster`, `sharedres.cpp:407-443`. -/
def boundBlockingCluster (cont : List RB) (interval maxTotal perSource : ℕ) (whole : Bool)
    (exclude : ℕ) (tsk : TaskInfo) : Interference :=
  boundLoop interval perSource
    (fun r => decide (r.task ≠ exclude) && (!whole || decide (r.info.cluster ≠ tsk.cluster))) maxTotal cont

/-- The body of the loop of `np_fifo_limits`, `sharedres.cpp:526-537`: the number of
processors of a cluster that can delay a request.  For `procs_per_cluster == 0` and a
dedicated CPU the unsigned decrement wraps around, which is not modelled. -/
def parallelism (tsk : TaskInfo) (procs : ℕ) (irq : ℤ) (idx : ℕ) : ℕ :=
  let p := if (idx : ℤ) = irq then procs - 1 else procs
  if p ≠ 0 ∧ tsk.cluster = idx then p - 1 else p

/-- `np_fifo_per_resource`, `sharedres.cpp:515-557`, with
`bound_blocking_all_clusters`, `sharedres.cpp:445-470`. -/
def npFifoLoop (i : ℕ) (tsk : TaskInfo) (procs res issued : ℕ) (irq : ℤ) :
    ℕ → List (List (List RB)) → Interference
  | _, [] => ⟨0, 0⟩
  | idx, resources :: clusters =>
    let rest := npFifoLoop i tsk procs res issued irq (idx + 1) clusters
    if resources.length > res then
      Interference.add (boundBlocking (resources.getD res []) tsk.response
        (issued * parallelism tsk procs irq idx) issued i) rest
    else rest

/-- `np_fifo_per_resource`, `sharedres.cpp:542-557`. -/
def npFifo (i : ℕ) (tsk : TaskInfo) (clusters : List (List (List RB))) (procs res issued : ℕ)
    (irq : ℤ) : Interference :=
  npFifoLoop i tsk procs res issued irq 0 clusters

/-- `NO_CPU`, `sharedres_types.h:319`. -/
def noCpu : ℤ := -1

/-- The part of `BlockingBounds` that is used here, `sharedres_types.h:398-545`. -/
structure Bound where
  blocking : Interference := {}
  span : Interference := {}
  remote : Interference := {}
  arrival : Interference := {}
deriving DecidableEq, Repr

/-- The loop over the requests of a task, `clust-omlp.cpp:39-66`. -/
def omlpLoop (i : ℕ) (tsk : TaskInfo) (clusters : List (List (List RB))) (procs : ℕ) (irq : ℤ) :
    Interference → Interference → List Request → Interference × Interference
  | bterm, span, [] => (bterm, span)
  | bterm, span, req :: reqs =>
    let blocking := npFifo i tsk clusters procs req.resId req.num irq
    let bterm := bterm.add blocking
    let blocking := if req.num ≠ 1 then npFifo i tsk clusters procs req.resId 1 noCpu else blocking
    omlpLoop i tsk clusters procs irq bterm (span.max (blocking.add ⟨1, req.length⟩)) reqs

/-- `max_local_request_span`, `sharedres.cpp:472-496`. -/
def maxLocalSpan (i : ℕ) (tsk : TaskInfo) (bounds : ℕ → Bound) : List (TaskInfo × ℕ) → Interference
    → Interference
  | [], span => span
  | (t, j) :: rest, span =>
    maxLocalSpan i tsk bounds rest
      (if j ≠ i ∧ t.cluster = tsk.cluster ∧ t.priority ≥ tsk.priority then span.max (bounds j).span else span)

/-- `charge_arrival_blocking`, `sharedres.cpp:498-510`. -/
def chargeArrival (info : Info) (bounds : ℕ → Bound) (i : ℕ) (tsk : TaskInfo) : Bound :=
  let inf := maxLocalSpan i tsk bounds info.zipIdx {}
  { bounds i with blocking := (bounds i).blocking.add inf, arrival := inf }

/-- `clustered_omlp_bounds`, `clust-omlp.cpp:7-75`, before arrival blocking is charged. -/
def omlpDirect (info : Info) (procs : ℕ) (irq : ℤ) (i : ℕ) : Bound :=
  match info[i]? with
  | none => {}
  | some tsk =>
    let r := omlpLoop i tsk (clusterResources info) procs irq {} {} tsk.requests
    { blocking := r.1, span := r.2, remote := r.1 }

/-- `clustered_omlp_bounds` and `task_fair_mutex_bounds`, `clust-omlp.cpp:7-84`. -/
def omlpBounds (info : Info) (procs : ℕ) (irq : ℤ) : List Bound :=
  info.zipIdx.map (fun t => chargeArrival info (omlpDirect info procs irq) t.2 t.1)

/-- `part_omlp_bounds`, `part-omlp.cpp:6-71`: like the clustered analysis with one
processor per cluster, but `remote` is not set. -/
def partOmlpBounds (info : Info) : List Bound :=
  info.zipIdx.map (fun t =>
    chargeArrival info (fun i => { omlpDirect info 1 noCpu i with remote := {} }) t.2 t.1)

/-- `global_fmlp_bounds`, `global-fmlp.cpp:7-52`. -/
def gfmlpBounds (info : Info) : List Interference :=
  let resources := globalResources info
  info.zipIdx.map (fun t => t.1.requests.foldl (fun bterm req =>
    bterm.add (boundBlocking (resources.getD req.resId []) t.1.response
      ((info.length - 1) * req.num) req.num t.2)) {})

/-- `global_omlp_bounds`, `global-omlp.cpp:6-60`. -/
def gomlpBounds (info : Info) (m : ℕ) : List Interference :=
  let resources := globalResources info
  info.zipIdx.map (fun t => t.1.requests.foldl (fun bterm req =>
    let cs := resources.getD req.resId []
    let limits := if cs.length ≤ m + 1 then ((cs.length - 1) * req.num, req.num)
      else ((2 * m - 1) * req.num, 2 * req.num)
    bterm.add (boundBlocking cs t.1.response limits.1 limits.2 t.2)) {})

end Verif.SR
