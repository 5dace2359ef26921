/-
Model of `native/src/blocking/rw-phase-fair.cpp` and `native/src/blocking/rw-task-fair.cpp`.

As in `Verif.Model.SharedRes`, numbers are natural numbers (wrap-around is not modelled) and
pointers are indices.
-/
import Verif.Model.SharedRes

namespace Verif.SR
namespace Rw

/-- The reads of `split_by_type`, `sharedres.cpp:174-188`. -/
def readsOf (cs : List RB) : List RB := cs.filter (fun r => r.req.isRead)

/-- The writes of `split_by_type`, `sharedres.cpp:174-188`. -/
def writesOf (cs : List RB) : List RB := cs.filter (fun r => !r.req.isRead)

/-- `writes`, e.g. `rw-phase-fair.cpp:83-101`: sorted by length, then split. -/
def clusterWrites (info : Info) : List (List (List RB)) :=
  (clusterResources info).map (fun c => c.map writesOf)

/-- `all_reads`, e.g. `rw-phase-fair.cpp:90-97`: split, then sorted by length. -/
def allReads (info : Info) : List (List RB) :=
  (splitByResource (info.zipIdx.map (fun t => (t.2, t.1)))).map (fun cs => sortByLength (readsOf cs))

/-- `RWCount`, `rw-blocking.h:18-32`. -/
structure RwCount where
  resId : ℕ
  numReads : ℕ := 0
  numWrites : ℕ := 0
  rlength : ℕ := 0
  wlength : ℕ := 0
deriving DecidableEq, Repr

/-- The loop that adds placeholders, `sharedres.cpp:567-568`. -/
def grow (counts : List RwCount) (res : ℕ) : List RwCount :=
  counts ++ (List.range' counts.length (res + 1 - counts.length)).map (fun i => { resId := i })

/-- The update of an entry, `sharedres.cpp:570-579`. -/
def RwCount.update (r : Request) (c : RwCount) : RwCount :=
  if r.isRead then { c with numReads := c.numReads + r.num, rlength := r.length }
  else { c with numWrites := c.numWrites + r.num, wlength := r.length }

/-- `merge_rw_requests`, `sharedres.cpp:561-581`. -/
def mergeRw (reqs : List Request) : List RwCount :=
  reqs.foldl (fun counts r => (grow counts r.resId).modify r.resId (RwCount.update r)) []

/-! ### Phase-fair locks -/

/-- The limit of a cluster in `pf_writer_fifo`, `rw-phase-fair.cpp:22-40`. -/
def pfLimit (tsk : TaskInfo) (procs numWrites numReads : ℕ) (irq : ℤ) (idx : ℕ) : ℕ :=
  let p := parallelism tsk procs irq idx
  if p ≠ 0 then numReads + numWrites * p else 0

/-- The loop over the clusters in `bound_blocking_all_clusters`, `sharedres.cpp:445-470`, with the
limits of `pf_writer_fifo`. -/
def pfWriterLoop (i : ℕ) (tsk : TaskInfo) (procs numWrites numReads res : ℕ) (irq : ℤ) :
    ℕ → List (List (List RB)) → Interference
  | _, [] => ⟨0, 0⟩
  | idx, resources :: clusters =>
    let rest := pfWriterLoop i tsk procs numWrites numReads res irq (idx + 1) clusters
    if resources.length > res then
      Interference.add (boundBlocking (resources.getD res []) tsk.response
        (pfLimit tsk procs numWrites numReads irq idx) (numReads + numWrites) i) rest
    else rest

/-- `pf_writer_fifo`, `rw-phase-fair.cpp:8-51`. -/
def pfWriterFifo (i : ℕ) (tsk : TaskInfo) (writes : List (List (List RB)))
    (numWrites numReads res procs : ℕ) (irq : ℤ) : Interference :=
  pfWriterLoop i tsk procs numWrites numReads res irq 0 writes

/-- `pf_reader_all`, `rw-phase-fair.cpp:53-75`. -/
def pfReaderAll (i : ℕ) (tsk : TaskInfo) (reads : List (List RB))
    (numWrites numWblock numReads res procs numProcs : ℕ) : Interference :=
  let rlimit := min (numWblock + numWrites) (numReads + numWrites * (numProcs - 1))
  boundBlockingCluster (reads.getD res []) tsk.response rlimit rlimit (decide (procs = 1)) i tsk

/-- What the body of the loop `rw-phase-fair.cpp:125-215` adds to `bterm`, and the two spans of
a single write and a single read. -/
def pfStep (info : Info) (i : ℕ) (tsk : TaskInfo) (procs : ℕ) (irq : ℤ) (rw : RwCount) :
    Interference × Interference × Interference :=
  let writes := clusterWrites info
  let reads := allReads info
  let numProcs := procs * (splitByCluster info).length
  let wblocking := pfWriterFifo i tsk writes rw.numWrites rw.numReads rw.resId procs irq
  let rblocking := pfReaderAll i tsk reads rw.numWrites wblocking.count rw.numReads rw.resId procs numProcs
  let w1 : Interference × Interference :=
    if rw.numWrites ≠ 0 ∧ (rw.numWrites ≠ 1 ∨ rw.numReads ≠ 0) then
      let wb := pfWriterFifo i tsk writes 1 0 rw.resId procs irq
      (wb, pfReaderAll i tsk reads 1 wb.count 0 rw.resId procs numProcs)
    else if rw.numWrites ≠ 0 then (wblocking, rblocking) else ({}, {})
  let r1 : Interference × Interference :=
    if rw.numReads ≠ 0 ∧ (rw.numReads ≠ 1 ∨ rw.numWrites ≠ 0) then
      let wb := pfWriterFifo i tsk writes 0 1 rw.resId procs irq
      (wb, pfReaderAll i tsk reads 0 wb.count 1 rw.resId procs numProcs)
    else if rw.numReads ≠ 0 then (wblocking, rblocking) else ({}, {})
  let ww := if rw.numWrites ≠ 0 then w1.1.add ⟨1, rw.wlength⟩ else w1.1
  let rr := if rw.numReads ≠ 0 then r1.2.add ⟨0, rw.rlength⟩ else r1.2
  let wr := if rw.numReads ≠ 0 then r1.1.add ⟨1, 0⟩ else r1.1
  (wblocking.add rblocking, ww.add w1.2, wr.add rr)

/-- The loop over the resources of a task, `rw-phase-fair.cpp:125-215`. -/
def pfDirect (info : Info) (procs : ℕ) (irq : ℤ) (i : ℕ) : Bound :=
  match info[i]? with
  | none => {}
  | some tsk => (mergeRw tsk.requests).foldl (fun b rw =>
      if rw.numReads = 0 ∧ rw.numWrites = 0 then b
      else
        let r := pfStep info i tsk procs irq rw
        { b with blocking := b.blocking.add r.1, span := (b.span.max r.2.1).max r.2.2 }) {}

/-- `clustered_rw_omlp_bounds` and `phase_fair_rw_bounds`, `rw-phase-fair.cpp:77-233`. -/
def pfBounds (info : Info) (procs : ℕ) (irq : ℤ) : List Bound :=
  info.zipIdx.map (fun t => chargeArrival info (pfDirect info procs irq) t.2 t.1)

/-! ### Task-fair locks -/

/-- `bound_blocking_all`, `rw-task-fair.cpp:8-73`.  The hash tables are functions: `tctr` is
`max_requests` for tasks not seen yet, `cctr` is `max_remote_requests` for clusters not seen
yet. -/
def boundAllLoop (interval i : ℕ) : (ℕ → ℕ) → (ℕ → ℕ) → ℕ → List RB → Interference
  | _, _, _, [] => {}
  | tctr, cctr, maxTotal, r :: reqs =>
    if maxTotal = 0 then {}
    else if r.task = i then boundAllLoop interval i tctr cctr maxTotal reqs
    else if tctr r.task = 0 then boundAllLoop interval i tctr cctr maxTotal reqs
    else if cctr r.info.cluster = 0 then boundAllLoop interval i tctr cctr maxTotal reqs
    else
      let remaining := min (min (tctr r.task) (cctr r.info.cluster)) maxTotal
      let num := min (r.maxNumRequests interval) remaining
      Interference.add ⟨num, num * r.req.length⟩
        (boundAllLoop interval i (Function.update tctr r.task (tctr r.task - num))
          (Function.update cctr r.info.cluster (cctr r.info.cluster - num)) (maxTotal - num) reqs)

/-- The call of `bound_blocking_all`. -/
def boundBlockingAll (i : ℕ) (tsk : TaskInfo) (reqs : List RB)
    (maxRemote maxLocal maxRequests maxTotal : ℕ) : Interference :=
  boundAllLoop tsk.response i (fun _ => maxRequests)
    (fun c => if c = tsk.cluster then maxLocal else maxRemote) maxTotal reqs

/-- `tf_reader_all`, `rw-task-fair.cpp:75-96`. -/
def tfReaderAll (i : ℕ) (tsk : TaskInfo) (reads : List (List RB))
    (numWrites numWblock numReads res procs : ℕ) : Interference :=
  let numReqs := numReads + numWrites
  let phases := numWblock + numWrites
  boundBlockingAll i tsk (reads.getD res []) (numReqs * procs) (numReqs * (procs - 1)) (min phases numReqs)
    phases

/-- `std::min(a, b)`. -/
def _root_.Verif.SR.Interference.min (a b : Interference) : Interference := if b.lt a then b else a

/-- `np_fifo_per_resource` on the mutex model, `rw-task-fair.cpp:162-174`.  The task to be excluded is
given by a pointer to an element of the other model, which no element of the mutex model is equal to:
no task is excluded. -/
def npFifoMtx (mtx : Info) (tsk : TaskInfo) (procs res issued : ℕ) (irq : ℤ) : Interference :=
  npFifo mtx.length tsk (clusterResources mtx) procs res issued irq

/-- What the body of the loop `rw-task-fair.cpp:150-216` adds to `bterm`, and the span. -/
def tfStep (info mtx : Info) (i : ℕ) (tsk : TaskInfo) (procs : ℕ) (irq : ℤ) (rw : RwCount) :
    Interference × Interference :=
  let num := rw.numReads + rw.numWrites
  let mt := npFifoMtx mtx tsk procs rw.resId num irq
  let mt1 := if num = 1 then mt else npFifoMtx mtx tsk procs rw.resId 1 irq
  let mt1 := mt1.add ⟨1, Max.max rw.wlength rw.rlength⟩
  let wblocking := npFifo i tsk (clusterWrites info) procs rw.resId num irq
  let wblocking1 := npFifo i tsk (clusterWrites info) procs rw.resId 1 irq
  let reads := allReads info
  let rblocking := tfReaderAll i tsk reads rw.numWrites wblocking.count rw.numReads rw.resId procs
  let w1 := if rw.numWrites ≠ 0 then
      (tfReaderAll i tsk reads 1 wblocking.count 0 rw.resId procs).add ⟨1, rw.wlength⟩ else {}
  let r1 := if rw.numReads ≠ 0 then
      (tfReaderAll i tsk reads 0 wblocking.count 1 rw.resId procs).add ⟨1, rw.rlength⟩ else {}
  ((wblocking.add rblocking).min mt, (wblocking1.add (w1.max r1)).min mt1)

/-- The loop over the resources of a task, `rw-task-fair.cpp:150-216`. -/
def tfDirect (info mtx : Info) (procs : ℕ) (irq : ℤ) (i : ℕ) : Bound :=
  match info[i]? with
  | none => {}
  | some tsk => (mergeRw tsk.requests).foldl (fun b rw =>
      if rw.numReads = 0 ∧ rw.numWrites = 0 then b
      else
        let r := tfStep info mtx i tsk procs irq rw
        { b with blocking := b.blocking.add r.1, span := b.span.max r.2 }) {}

/-- `task_fair_rw_bounds`, `rw-task-fair.cpp:99-229`. -/
def tfBounds (info mtx : Info) (procs : ℕ) (irq : ℤ) : List Bound :=
  info.zipIdx.map (fun t => chargeArrival info (tfDirect info mtx procs irq) t.2 t.1)

/-! ### The Python interface -/

/-- `ResourceRequirement`, `schedcat/model/resources.py:4-22`; the priority is not used here. -/
structure Requirement where
  resId : ℕ
  writes : ℕ
  writeLength : ℕ
  reads : ℕ
  readLength : ℕ
deriving DecidableEq, Repr

/-- The attributes of a task that are used by `get_cpp_model_rw`.  The dictionary `resmodel` is the list of its
values, in any order. -/
structure LockTask where
  period : ℕ
  responseTime : ℕ
  partition : ℕ
  preemptionLevel : ℕ
  cost : ℕ
  deadline : ℕ
  resmodel : List Requirement
deriving DecidableEq, Repr

/-- The body of the loop over the requirements in `get_cpp_model_rw`, `schedcat/locking/bounds.py:84-89`. -/
def Requirement.rwRequests (q : Requirement) : List Request :=
  (if q.writes > 0 then [⟨q.resId, q.writes, q.writeLength, false⟩] else []) ++
  (if q.reads > 0 then [⟨q.resId, q.reads, q.readLength, true⟩] else [])

/-- The body of the loop over the requirements in `get_cpp_model`, `schedcat/locking/bounds.py:67-72`. -/
def Requirement.mutexRequests (q : Requirement) : List Request :=
  if q.writes + q.reads > 0 then [⟨q.resId, q.writes + q.reads, max q.writeLength q.readLength, false⟩] else []

/-- `add_task` as called in `schedcat/locking/bounds.py:61-66,78-83`. -/
def LockTask.info (t : LockTask) (requests : List Request) : TaskInfo :=
  ⟨t.preemptionLevel, t.period, t.deadline, t.responseTime, t.partition, t.cost, requests⟩

/-- `get_cpp_model_rw`, `schedcat/locking/bounds.py:75-90`. -/
def rwModel (ts : List LockTask) : Info := ts.map (fun t => t.info (t.resmodel.flatMap Requirement.rwRequests))

/-- `get_cpp_model`, `schedcat/locking/bounds.py:50-73`, with the default arguments. -/
def mutexModel (ts : List LockTask) : Info := ts.map (fun t => t.info (t.resmodel.flatMap Requirement.mutexRequests))

/-- The bounds computed by `apply_phase_fair_rw_bounds` and `apply_clustered_rw_omlp_bounds`,
`schedcat/locking/bounds.py:231-236,283-291`. -/
def applyPhaseFair (ts : List LockTask) (procs : ℕ) (irq : ℤ) : List Bound := pfBounds (rwModel ts) procs irq

/-- The bounds computed by `apply_task_fair_rw_bounds`, `schedcat/locking/bounds.py:271-281`. -/
def applyTaskFairRw (ts : List LockTask) (procs : ℕ) (irq : ℤ) : List Bound :=
  tfBounds (rwModel ts) (mutexModel ts) procs irq

/-- The bounds computed by `apply_task_fair_mutex_bounds`, `schedcat/locking/bounds.py:262-270`. -/
def applyTaskFairMutex (ts : List LockTask) (procs : ℕ) (irq : ℤ) : List Bound :=
  omlpBounds (mutexModel ts) procs irq

end Rw
end Verif.SR
