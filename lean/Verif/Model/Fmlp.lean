/-
Model of `native/src/blocking/fmlp_plus.cpp` and of `apply_part_fmlp_bounds` in
`schedcat/locking/bounds.py`.  All numbers are natural numbers: wrap-around of `unsigned int` and
`unsigned long` is not modelled.
-/
import Verif.Model.SharedRes
import Verif.Model.FpRta

namespace Verif.SR.Fmlp

/-- `UNLIMITED`, `sharedres.cpp:18`. -/
def unlimited : ℕ := 4294967295

/-- `all_from_cluster`, `fmlp_plus.cpp:10-22`. -/
def allFromCluster (cluster : List (ℕ × TaskInfo)) : List RB := cluster.flatMap pointers

/-- `derive_task_contention` on a cluster, `fmlp_plus.cpp:34-53`, and `sort_by_request_length`. -/
def taskContention (cluster : List (ℕ × TaskInfo)) : List (List RB) :=
  cluster.map (fun t => sortByLength (pointers t))

/-- `derive_task_contention`, `fmlp_plus.cpp:55-59`. -/
def contention (info : Info) : List (List (List RB)) := (splitByCluster info).map taskContention

/-- `split_by_resource` for each partition, `fmlp_plus.cpp:280-282`; these sets are not sorted. -/
def resources (info : Info) : List (List (List RB)) := (splitByCluster info).map splitByResource

/-- `while (counts.size() <= i) counts.push_back(0); counts[i] += x`, `fmlp_plus.cpp:112-115`. -/
def addCount : List ℕ → ℕ → ℕ → List ℕ
  | [], 0, x => [x]
  | [], i + 1, x => 0 :: addCount [] i x
  | c :: cs, 0, x => (c + x) :: cs
  | c :: cs, i + 1, x => c :: addCount cs i x

/-- `derive_access_counts` on a contention set, `fmlp_plus.cpp:104-117`. -/
def accessCounts (cs : List RB) : List ℕ := cs.foldl (fun counts r => addCount counts r.req.resId r.req.num) []

/-- One iteration of the outer loop of `count_accesses_for_task`, `fmlp_plus.cpp:123-141`: how many requests of
the task conflict with a cluster. -/
def issuedFor (tsk : TaskInfo) (ac : List ℕ) : ℕ :=
  tsk.requests.foldl (fun count req =>
    if ac.length > req.resId ∧ ac.getD req.resId 0 > 0 then count + req.num else count) 0

/-- `derive_access_counts` for task `tsk`, `fmlp_plus.cpp:144-160`; indexed by cluster.  (The order of the
requests in a cluster is irrelevant here.) -/
def issuedCounts (info : Info) (tsk : TaskInfo) : List ℕ :=
  (splitByCluster info).map (fun c => issuedFor tsk (accessCounts (sortByLength (allFromCluster c))))

/-- `pfmlp_count_direct_blocking`, `fmlp_plus.cpp:63-93`; indexed by cluster.  (The two loops are
interchanged.) -/
def countDirect (info : Info) (i : ℕ) (tsk : TaskInfo) : List Interference :=
  (resources info).map (fun rs => tsk.requests.foldl (fun cnt req =>
    if rs.length > req.resId then
      cnt.add (boundBlocking (rs.getD req.resId []) tsk.response unlimited req.num i)
    else cnt) {})

/-- The loop of `pfmlp_bound_remote_blocking`, `fmlp_plus.cpp:172-199`, from cluster `c` on. -/
def remoteLoop (i : ℕ) (tsk : TaskInfo) (icounts : List ℕ) (counts : List Interference) :
    ℕ → List (List (List RB)) → Interference
  | _, [] => {}
  | c, tasks :: rest =>
    let maxPerTask := min (counts.getD c {}).count (icounts.getD c 0)
    let others := remoteLoop i tsk icounts counts (c + 1) rest
    if c = tsk.cluster ∨ maxPerTask = 0 then others
    else Interference.add (tasks.foldl (fun b cont =>
      b.add (boundBlocking cont tsk.response maxPerTask unlimited i)) {}) others

/-- `pfmlp_bound_remote_blocking`, `fmlp_plus.cpp:162-201`. -/
def remoteBlocking (info : Info) (i : ℕ) (tsk : TaskInfo) : Interference :=
  remoteLoop i tsk (issuedCounts info tsk) (countDirect info i tsk) 0 (contention info)

/-- `get_total_num_requests`, `sharedres_types.h:146-152`. -/
def totalNumRequests (tsk : TaskInfo) : ℕ := tsk.requests.foldl (fun c r => c + r.num) 0

/-- `pfmlp_bound_local_blocking`, `fmlp_plus.cpp:234-271`. -/
def localBlocking (info : Info) (i : ℕ) (tsk : TaskInfo) : Interference :=
  let numDb := (countDirect info i tsk).foldl Interference.add {}
  let numArrivals := min (totalNumRequests tsk + 1) (numDb.count + 1)
  ((contention info).getD tsk.cluster []).foldl (fun b cont =>
    b.add (boundBlocking cont tsk.response numArrivals unlimited i tsk.priority)) {}

/-- The loop of `pfmlp_bound_np_blocking`, `fmlp_plus.cpp:203-232`, from cluster `c` on. -/
def npLoop (i : ℕ) (tsk : TaskInfo) (counts : List Interference) : ℕ → List (List RB) → Interference
  | _, [] => {}
  | c, cont :: rest =>
    let others := npLoop i tsk counts (c + 1) rest
    if c = tsk.cluster then others
    else
      let maxDirect := (counts.getD c {}).count
      Interference.add (boundBlocking cont tsk.response maxDirect maxDirect i) others

/-- `pfmlp_bound_np_blocking`. -/
def npBlocking (info : Info) (i : ℕ) (tsk : TaskInfo) : Interference :=
  npLoop i tsk (countDirect info i tsk) 0 ((splitByCluster info).map (fun c => sortByLength (allFromCluster c)))

/-- The results for a task: `set_remote_blocking` and `set_local_blocking`; the blocking term is their sum. -/
structure Bounds where
  remote : Interference
  loc : Interference
deriving DecidableEq, Repr

/-- `part_fmlp_bounds`, `fmlp_plus.cpp:273-343`. -/
def fmlpBounds (info : Info) (preemptive : Bool) : List Bounds :=
  info.zipIdx.map (fun t =>
    let remote := remoteBlocking info t.2 t.1
    ⟨if preemptive then remote else remote.add (npBlocking info t.2 t.1), localBlocking info t.2 t.1⟩)

/-- The tasks of processor `k`, in the order of the list of all tasks, after
`apply_part_fmlp_bounds`, `bounds.py:151-162`. -/
def afterFmlpBounds (info : Info) (preemptive : Bool) (k : ℕ) : List Fp.FpTask :=
  (info.zip (fmlpBounds info preemptive)).filterMap (fun t =>
    if t.1.cluster = k then
      some { cost := (t.1.cost : ℚ), period := (t.1.period : ℚ), deadline := (t.1.deadline : ℚ),
             suspended := (t.2.remote.total : ℚ), blocked := some ((t.2.remote.add t.2.loc).total : ℚ) }
    else none)

end Verif.SR.Fmlp
