/-
Model of the native G-EDF simulator: `native/include/schedule_sim.h`,
`native/src/schedule_sim.cpp`, `native/src/edf/sim.cpp`.

`simtime_t` is `unsigned long`; it is modelled by ℕ, i.e. without overflow.  A
job object of a periodic job sequence is identified with the index of its
task.  `std::priority_queue` leaves the order of equal elements open:

* equal events only release jobs, so their order affects nothing but the order
  in which jobs enter the pending queue; the event queue is a list, of which
  all expired elements are handled at once;
* the pending queue is a list, and which of several earliest-deadline jobs is
  at its top is decided by a parameter `pick`, which may depend on how many
  jobs were taken from the queue before.
-/
import Verif.Model.NativeTasks
import Mathlib.Data.List.FinRange
import Mathlib.Data.Rat.Floor

namespace Verif.EdfSim
open Verif Verif.Native

variable {n : ℕ}

/-- `Job`, `schedule_sim.h:12-18`; the task is known from the index. -/
structure Job where
  release : ℕ
  cost : ℕ
  allocation : ℕ
  seqno : ℕ
deriving DecidableEq

/-- A call of the callback `job_completed` (`schedule_sim.h:206`): the job,
its sequence number, its deadline, and the current time. -/
structure Call (n : ℕ) where
  task : Fin n
  seqno : ℕ
  deadline : ℕ
  now : ℕ
deriving DecidableEq

/-- `GlobalScheduler`, `schedule_sim.h:174-188`, with the jobs it manages.  An
event is a time with the job it releases, or `none` for `dummy`.  `calls` are
the calls of `job_completed` so far, `taken` counts the calls of
`pending.pop()`. -/
structure Sim (n : ℕ) where
  now : ℕ
  job : Fin n → Job
  events : List (ℕ × Option (Fin n))
  pending : List (Fin n)
  procs : List (Option (Fin n))
  calls : List (Call n)
  taken : ℕ

/-- The queue's choice of the top element, given the number of elements taken
before, the deadlines, and the content. -/
abbrev Pick (n : ℕ) := ℕ → (Fin n → ℕ) → List (Fin n) → Option (Fin n)

/-- `Job::Job`, `schedule_sim.cpp:5-15`, with the default arguments used by
`SimJob` (`schedule_sim.h:84`). -/
def Job.init (t : Task) : Job := ⟨0, t.wcet, 0, 1⟩

/-- `Job::is_complete`, `schedule_sim.h:48-51`. -/
def Job.isComplete (j : Job) : Bool := decide (j.cost ≤ j.allocation)

/-- `Job::remaining_demand`, `schedule_sim.h:53-56`. -/
def Job.remainingDemand (j : Job) : ℕ := j.cost - j.allocation

/-- `Job::init_next`, `schedule_sim.cpp:17-26`, with the default arguments. -/
def Job.initNext (t : Task) (j : Job) : Job :=
  { j with allocation := 0, release := j.release + t.period, seqno := j.seqno + 1 }

/-- `Job::get_deadline`, `schedule_sim.h:28`. -/
def Sim.deadline (ts : Fin n → Task) (s : Sim n) (i : Fin n) : ℕ :=
  (s.job i).release + (ts i).deadline

/-- `EarliestDeadlineFirst`, `schedule_sim.h:108-119`: `a` has lower priority
than `b`. -/
def lowerPrio (dl : Fin n → ℕ) : Option (Fin n) → Option (Fin n) → Bool
  | some a, some b => decide (dl b < dl a)
  | none, some _ => true
  | _, none => false

/-- `add_ready`, `schedule_sim.h:318-324` (`job_released` does nothing). -/
def Sim.addReady (s : Sim n) (i : Fin n) : Sim n := { s with pending := s.pending ++ [i] }

/-- `add_release`, `schedule_sim.h:305-315`. -/
def Sim.addRelease (s : Sim n) (i : Fin n) : Sim n :=
  if s.now ≤ (s.job i).release then { s with events := s.events ++ [((s.job i).release, some i)] }
  else s.addReady i

/-- `PeriodicJobSequence::completed`, `schedule_sim.cpp:28-33`. -/
def Sim.completed (ts : Fin n → Task) (s : Sim n) (i : Fin n) : Sim n :=
  ({ s with job := Function.update s.job i ((s.job i).initNext (ts i)) }).addRelease i

/-- `increase_allocation(delta)`, `schedule_sim.h:43-46, 141`. -/
def Sim.serve (s : Sim n) (i : Fin n) (delta : ℕ) : Sim n :=
  let j : Job := { s.job i with allocation := (s.job i).allocation + delta }
  { s with job := Function.update s.job i j }

/-- The call of the callback `job_completed`, `schedule_sim.h:206`. -/
def Sim.jobCompleted (ts : Fin n → Task) (s : Sim n) (i : Fin n) : Sim n :=
  { s with calls := s.calls ++ [⟨i, (s.job i).seqno, s.deadline ts i, s.now⟩] }

/-- Lines 199-209 of `schedule_sim.h` and `ProcessorTemplate::advance_time`
(lines 137-146): every scheduled job is served for `delta`; a complete job
leaves its processor.  Returns the new content of the processors. -/
def advanceProcs (ts : Fin n → Task) (delta : ℕ) :
    List (Option (Fin n)) → Sim n → List (Option (Fin n)) × Sim n
  | [], s => ([], s)
  | none :: ps, s =>
    let r := advanceProcs ts delta ps s
    (none :: r.1, r.2)
  | some i :: ps, s =>
    let s := s.serve i delta
    if (s.job i).isComplete then
      let r := advanceProcs ts delta ps ((s.jobCompleted ts i).completed ts i)
      (none :: r.1, r.2)
    else
      let r := advanceProcs ts delta ps s
      (some i :: r.1, r.2)

/-- Lines 211-224: all events whose time has come are fired and removed. -/
def Sim.fire (s : Sim n) : Sim n :=
  { s with
    pending := s.pending ++ (s.events.filter (fun e => e.1 ≤ s.now)).filterMap Prod.snd
    events := s.events.filter (fun e => !decide (e.1 ≤ s.now)) }

/-- `std::min_element(processors, processors + num_procs, first_to_preempt)`,
`schedule_sim.h:233-235`: the first processor such that no other one has a job
of lower priority.  `best` is the candidate found so far; `none` if there is no
processor (then the code reads past the array). -/
def lowestProc (dl : Fin n → ℕ) :
    (i : ℕ) → (best : Option (ℕ × Option (Fin n))) → List (Option (Fin n)) →
    Option (ℕ × Option (Fin n))
  | _, best, [] => best
  | i, none, p :: ps => lowestProc dl (i + 1) (some (i, p)) ps
  | i, some b, p :: ps =>
    if lowerPrio dl p b.2 then lowestProc dl (i + 1) (some (i, p)) ps
    else lowestProc dl (i + 1) (some b) ps

/-- Lines 241-260: `top` replaces `scheduled` on processor `p`. -/
def Sim.dispatch (s : Sim n) (top : Fin n) (p : ℕ) (scheduled : Option (Fin n)) : Sim n :=
  { s with
    pending := match scheduled with
      | some j => if !(s.job j).isComplete then s.pending.erase top ++ [j] else s.pending.erase top
      | none => s.pending.erase top
    taken := s.taken + 1
    procs := s.procs.set p (some top)
    events := s.events ++ [((s.job top).remainingDemand + s.now, none)] }

/-- Lines 226-264: preemptions.  `fuel` bounds the number of rounds; one per
processor is enough (see `preempt_ends` in `Lemmas/EdfSim.lean`). -/
def preempt (ts : Fin n → Task) (pick : Pick n) (preemptive : Bool) : ℕ → Sim n → Sim n
  | 0, s => s
  | fuel + 1, s =>
    let dl := s.deadline ts
    match pick s.taken dl s.pending, lowestProc dl 0 none s.procs with
    | some top, some (p, scheduled) =>
      if (scheduled.isNone || preemptive) && lowerPrio dl scheduled (some top) then
        preempt ts pick preemptive fuel (s.dispatch top p scheduled)
      else s
    | _, _ => s

/-- `advance_time`, `schedule_sim.h:192-265`. -/
def advance (ts : Fin n → Task) (pick : Pick n) (preemptive : Bool) (until_ : ℕ) (s : Sim n) :
    Sim n :=
  let last := s.now
  let s := { s with now := until_ }
  let r := advanceProcs ts (s.now - last) s.procs s
  let s := { r.2 with procs := r.1 }
  let s := s.fire
  preempt ts pick preemptive s.procs.length s

/-- `events.top().time()`. -/
def Sim.nextEvent (s : Sim n) : Option ℕ := (s.events.map Prod.fst).min?

/-- The constructor (`schedule_sim.h:268-275`), with the job objects of
`run_periodic_simulation` (`schedule_sim.cpp:42-46`). -/
def Sim.start (ts : Fin n → Task) (m : ℕ) : Sim n :=
  ⟨0, fun i => Job.init (ts i), [], [], List.replicate m none, [], 0⟩

/-- `run_periodic_simulation` up to the call of `simulate_until`,
`schedule_sim.cpp:43-48`. -/
def Sim.ready (ts : Fin n → Task) (m : ℕ) : Sim n :=
  (List.finRange n).foldl Sim.addRelease (Sim.start ts m)

/-- `simulate_until`, `schedule_sim.h:286-294`; `aborted` looks at the calls of
`job_completed`.  `none`: not ended within `fuel` rounds. -/
def simulateUntil (ts : Fin n → Task) (pick : Pick n) (preemptive : Bool)
    (aborted : List (Call n) → Bool) (end_ : ℕ) : ℕ → Sim n → Option (Sim n)
  | 0, _ => none
  | fuel + 1, s =>
    if s.now ≤ end_ ∧ aborted s.calls = false then
      match s.nextEvent with
      | some t => simulateUntil ts pick preemptive aborted end_ fuel
          (advance ts pick preemptive t s)
      | none => some s
    else some s

/-- `DeadlineMissSearch`, `sim.cpp:10-35`: `dmissed` and `aborted`. -/
def dmissed (calls : List (Call n)) : Bool := calls.any (fun c => c.deadline < c.now)

/-- `DeadlineMissSearch::when_missed`, `sim.cpp:16, 23-29`: overwritten by
every late completion. -/
def whenMissed (calls : List (Call n)) : Option ℕ :=
  calls.foldl (fun acc c => if c.deadline < c.now then some c.deadline else acc) none

/-- `edf_misses_deadline`, `sim.cpp:83-92`. -/
def missesDeadline (fuel : ℕ) (m : ℕ) (ts : Fin n → Task) (pick : Pick n) (end_ : ℕ)
    (preemptive : Bool := true) : Option Bool :=
  (simulateUntil ts pick preemptive dmissed end_ fuel (Sim.ready ts m)).map
    (fun s => dmissed s.calls)

/-- `edf_first_violation`, `sim.cpp:69-81`. -/
def firstViolation (fuel : ℕ) (m : ℕ) (ts : Fin n → Task) (pick : Pick n) (end_ : ℕ)
    (preemptive : Bool := true) : Option ℕ :=
  (simulateUntil ts pick preemptive dmissed end_ fuel (Sim.ready ts m)).map
    (fun s => if dmissed s.calls then (whenMissed s.calls).getD 0 else 0)

/-- `Stats`, `edf/sim.h:4-11`. -/
structure Stats where
  numTardy : ℕ
  numOk : ℕ
  totalTardiness : ℕ
  maxTardiness : ℕ
  firstMiss : ℕ
deriving DecidableEq, Repr

/-- `Tardiness::job_completed`, `sim.cpp:52-66`. -/
def Stats.add (st : Stats) (c : Call n) : Stats :=
  if c.deadline < c.now then
    { st with
      numTardy := st.numTardy + 1
      totalTardiness := st.totalTardiness + (c.now - c.deadline)
      maxTardiness := max (c.now - c.deadline) st.maxTardiness
      firstMiss := if st.firstMiss = 0 then c.deadline else st.firstMiss }
  else { st with numOk := st.numOk + 1 }

/-- `edf_observe_tardiness`, `sim.cpp:95-105`. -/
def observeTardiness (fuel : ℕ) (m : ℕ) (ts : Fin n → Task) (pick : Pick n) (end_ : ℕ)
    (preemptive : Bool := true) : Option Stats :=
  (simulateUntil ts pick preemptive (fun _ => false) end_ fuel (Sim.ready ts m)).map
    (fun s => s.calls.foldl Stats.add ⟨0, 0, 0, 0, 0⟩)

/-- `int(sec2us(simulation_length))`, `schedcat/sim/edf.py:9, 13`,
`schedcat/util/time.py` (`sec2us(s) = s * 1000000`), for a nonnegative length in
seconds. -/
def lengthUs (seconds : ℚ) : ℕ := ⌊seconds * 1000000⌋.toNat

/-- `is_deadline_missed`, `schedcat/sim/edf.py:7-9`: `preemptive` is not passed
on. -/
def isDeadlineMissed (fuel : ℕ) (m : ℕ) (ts : Fin n → Task) (pick : Pick n)
    (simulationLength : ℚ := 60) (_preemptive : Bool := true) : Option Bool :=
  missesDeadline fuel m ts pick (lengthUs simulationLength)

/-- `time_of_first_miss`, `schedcat/sim/edf.py:11-13`. -/
def timeOfFirstMiss (fuel : ℕ) (m : ℕ) (ts : Fin n → Task) (pick : Pick n)
    (simulationLength : ℚ := 60) (_preemptive : Bool := true) : Option ℕ :=
  firstViolation fuel m ts pick (lengthUs simulationLength)

/-- `no_counter_example`, `schedcat/sim/edf.py:15-16`. -/
def noCounterExample (fuel : ℕ) (m : ℕ) (ts : Fin n → Task) (pick : Pick n)
    (simulationLength : ℚ := 60) (preemptive : Bool := true) : Option Bool :=
  (isDeadlineMissed fuel m ts pick simulationLength preemptive).map (!·)

end Verif.EdfSim
