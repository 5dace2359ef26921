/-
Model of the CAN bus simulator: `native/include/canbus/can_sim.h`,
`native/src/canbus/can_sim.cpp`, `native/include/canbus/msgs.h`, and the classes it is
derived from in `native/include/schedule_sim.h`.

* `simtime_t` is `unsigned long`; it is modelled by ℕ, i.e. without overflow.  Host faults are
  of type `int`; they are modelled by ℤ.
* A job object is identified with the index of its message.
* `std::priority_queue` leaves the order of equal elements open; parameters choose among the
  events of minimal time and among the waiting messages of highest priority.
* The callbacks of derived classes (`job_completed`, `job_deadline_expired`) are parameters
  (`Hooks`) that work on a state of their own; `job_completed` may also change the host faults
  of the job (`is_commission`).  The other callbacks only print; they are recorded in `log`.
* An event is removed from the queue before it is fired; in the code, it is removed after it
  was fired.  It then still is at the top of the queue, because firing it only adds events
  that are not earlier.
-/
import Verif.Spec.CanBus
import Mathlib.Logic.Function.Basic
import Mathlib.Data.List.FinRange

namespace Verif.CanSim
open Verif.Spec

variable {n : ℕ} {σ : Type}

/-- `native/include/canbus/msgs.h:15-54`: `CANTask`. -/
structure Msg where
  wcet : ℕ
  period : ℕ
  deadline : ℕ
  priority : ℕ
  taskid : ℕ := 0
  critical : Bool := false
deriving DecidableEq, Repr

/-- `native/include/schedule_sim.h:12-18`, `native/include/canbus/can_sim.h:28-33`: `CANJob`. -/
structure Job where
  release : ℕ
  cost : ℕ
  allocation : ℕ
  seqno : ℕ
  hostFaults : List ℤ
deriving DecidableEq

/-- Handlers of events: a job that is released (`SimCANJob`), a deadline of a job
(`DeadlineEvent`, `can_sim.h:181-200`), and `dummy`. -/
inductive Ev (n : ℕ)
  | release (i : Fin n)
  | deadline (i : Fin n) (seqno : ℕ)
  | dummy
deriving DecidableEq

/-- Callbacks of a class that is derived from `CANBusScheduler`. -/
structure Hooks (n : ℕ) (σ : Type) where
  /-- `job_completed`: message, job, and current time; the new host faults of the job. -/
  completed : Fin n → Job → ℕ → σ → List ℤ × σ
  /-- `job_deadline_expired`: message, number of the job, and current time. -/
  expired : Fin n → ℕ → ℕ → σ → σ
  /-- `is_aborted`. -/
  aborted : σ → Bool

/-- The elements at the top of the queues, given the number of elements removed before. -/
structure Order (n : ℕ) where
  event : ℕ → List (ℕ × Ev n) → Option (ℕ × Ev n)
  msg : ℕ → List (Fin n) → Option (Fin n)

/-- `native/include/canbus/can_sim.h:120-139`: `CANBusScheduler`, with its jobs.  `taken`
counts the elements removed from queues; `log` records what can be observed. -/
structure Sim (n : ℕ) (σ : Type) where
  now : ℕ
  job : Fin n → Job
  events : List (ℕ × Ev n)
  pending : List (Fin n)
  bus : Option (Fin n)
  retransmissions : List ℕ
  taken : ℕ
  stats : σ
  log : List (BusEvent n)

/-- `native/src/canbus/can_sim.cpp:81-102`: `is_omission`, once `start` and `end` are known;
returns the remaining host faults, too. -/
def isOmission (start end_ : ℤ) : List ℤ → Bool × List ℤ
  | [] => (false, [])
  | f :: fs =>
    if end_ < f then (false, f :: fs)
    else if start ≤ f ∧ f ≤ end_ then (true, f :: fs)
    else isOmission start end_ fs

/-- `native/src/canbus/can_sim.cpp:104-122`: `is_commission`. -/
def isCommission (start end_ : ℤ) : List ℤ → Bool × List ℤ
  | [] => (false, [])
  | f :: fs =>
    if end_ < f then (false, f :: fs)
    else if start ≤ f ∧ f ≤ end_ then (true, fs)
    else isCommission start end_ fs

/-- `native/src/canbus/can_sim.cpp:283-301`: `is_retransmission`. -/
def isRetransmission (start end_ : ℕ) : List ℕ → Bool × List ℕ
  | [] => (false, [])
  | f :: fs =>
    if end_ < f then (false, f :: fs)
    else if start ≤ f ∧ f ≤ end_ then (true, fs)
    else isRetransmission start end_ fs

/-- `native/src/schedule_sim.cpp:17-26`: `init_next`, with the default arguments. -/
def Job.initNext (m : Msg) (j : Job) : Job :=
  { j with allocation := 0, release := j.release + m.period, seqno := j.seqno + 1 }

/-- `native/src/canbus/can_sim.cpp:16-25`: `update_seqno`. -/
def Job.updateSeqno (m : Msg) (j : Job) (time : ℕ) : Job :=
  let expected := (time + 1) / m.period + 1
  if expected > j.seqno then
    { j with seqno := expected, release := (expected - 1) * m.period }
  else j

/-- Change one job. -/
def Sim.setJob (s : Sim n σ) (i : Fin n) (j : Job) : Sim n σ :=
  { s with job := Function.update s.job i j }

/-- `native/src/canbus/can_sim.cpp:220-247, 249-258`: `add_ready`, with the calls of
`completed` (lines 27-32) and `add_release` for an omitted job, which may call `add_ready`
again.  `none`: not ended within `fuel` rounds. -/
def addReady (ts : Fin n → Msg) (boot : ℕ) : ℕ → Sim n σ → Fin n → Option (Sim n σ)
  | 0, _, _ => none
  | fuel + 1, s, i =>
    let j := s.job i
    let s := { s with events :=
      s.events ++ [(j.release + (ts i).deadline, Ev.deadline i j.seqno)] }
    if (ts i).critical then
      let om := isOmission ((j.release : ℤ) - boot) j.release j.hostFaults
      if om.1 then
        let s := { s with log := s.log ++ [BusEvent.omitted i j.seqno s.now] }
        let j := ({ j with hostFaults := om.2 } : Job).initNext (ts i)
        let s := s.setJob i j
        if s.now ≤ j.release then
          some { s with events := s.events ++ [(j.release, .release i)] }
        else addReady ts boot fuel s i
      else
        let s := s.setJob i { j with hostFaults := om.2 }
        some { s with pending := s.pending ++ [i] }
    else some { s with pending := s.pending ++ [i] }

/-- `native/src/canbus/can_sim.cpp:249-258`: `add_release`. -/
def addRelease (ts : Fin n → Msg) (boot fuel : ℕ) (s : Sim n σ) (i : Fin n) :
    Option (Sim n σ) :=
  if s.now ≤ (s.job i).release then
    some { s with events := s.events ++ [((s.job i).release, .release i)] }
  else addReady ts boot fuel s i

/-- `native/src/canbus/can_sim.cpp:27-32`: `completed`. -/
def completed (ts : Fin n → Msg) (boot fuel : ℕ) (s : Sim n σ) (i : Fin n) :
    Option (Sim n σ) :=
  addRelease ts boot fuel (s.setJob i ((s.job i).initNext (ts i))) i

/-- `native/src/canbus/can_sim.cpp:208-218`: `retransmit`. -/
def retransmit (s : Sim n σ) (i : Fin n) : Sim n σ :=
  let s := s.setJob i { s.job i with allocation := 0 }
  { s with pending := s.pending ++ [i] }

/-- `native/src/canbus/can_sim.cpp:140-169`: step 1 of `advance_time`, and
`ProcessorTemplate::advance_time` (`schedule_sim.h:137-146`). -/
def finish (ts : Fin n → Msg) (hooks : Hooks n σ) (boot fuel delta : ℕ) (s : Sim n σ) :
    Option (Sim n σ) :=
  match s.bus with
  | none => some s
  | some i =>
    let s := s.setJob i { s.job i with allocation := (s.job i).allocation + delta }
    if (s.job i).cost ≤ (s.job i).allocation then
      let s := { s with bus := none }
      let r := isRetransmission (s.now - (s.job i).cost) s.now s.retransmissions
      let s := { s with retransmissions := r.2 }
      if r.1 then
        let s := { s with log := s.log ++ [BusEvent.failed i (s.job i).seqno s.now] }
        let s := retransmit s i
        some { s with now := s.now + 29 }
      else
        let s := { s with log := s.log ++ [BusEvent.sent i (s.job i).seqno s.now] }
        let h := hooks.completed i (s.job i) s.now s.stats
        let s := { s.setJob i { s.job i with hostFaults := h.1 } with stats := h.2 }
        (completed ts boot fuel s i).map fun s => { s with now := s.now + 3 }
    else some s

/-- `native/src/canbus/can_sim.cpp:171-182`: step 2 of `advance_time`. -/
def fire (ts : Fin n → Msg) (hooks : Hooks n σ) (ord : Order n) (boot : ℕ) :
    ℕ → Sim n σ → Option (Sim n σ)
  | 0, _ => none
  | fuel + 1, s =>
    match ord.event s.taken s.events with
    | none => some s
    | some e =>
      if e.1 > s.now then some s
      else
        let s := { s with events := s.events.erase e, taken := s.taken + 1 }
        match e.2 with
        | .dummy => fire ts hooks ord boot fuel s
        | .deadline i k =>
          fire ts hooks ord boot fuel { s with stats := hooks.expired i k s.now s.stats }
        | .release i => (addReady ts boot fuel s i).bind (fire ts hooks ord boot fuel)

/-- `native/src/canbus/can_sim.cpp:184-205`: step 3 of `advance_time`. -/
def schedule (ts : Fin n → Msg) (ord : Order n) (s : Sim n σ) : Sim n σ :=
  match s.bus, ord.msg s.taken s.pending with
  | none, some i =>
    let j := (s.job i).updateSeqno (ts i) s.now
    let s := { s with pending := s.pending.erase i, taken := s.taken + 1 }
    let s := s.setJob i j
    { s with
      bus := some i
      log := s.log ++ [BusEvent.start i j.seqno s.now]
      events := s.events ++ [(j.cost - j.allocation + s.now, .dummy)] }
  | _, _ => s

/-- `native/src/canbus/can_sim.cpp:135-206`: `advance_time`. -/
def advance (ts : Fin n → Msg) (hooks : Hooks n σ) (ord : Order n) (boot fuel until_ : ℕ)
    (s : Sim n σ) : Option (Sim n σ) :=
  ((finish ts hooks boot fuel (until_ - s.now) { s with now := until_ }).bind
    (fire ts hooks ord boot fuel)).map (schedule ts ord)

/-- `native/src/canbus/can_sim.cpp:124-133`: `simulate_until`. -/
def simulateUntil (ts : Fin n → Msg) (hooks : Hooks n σ) (ord : Order n) (boot end_ : ℕ) :
    ℕ → Sim n σ → Option (Sim n σ)
  | 0, _ => none
  | fuel + 1, s =>
    if s.now ≤ end_ ∧ hooks.aborted s.stats = false then
      match ord.event s.taken s.events with
      | none => some s
      | some e => (advance ts hooks ord boot fuel e.1 s).bind
          (simulateUntil ts hooks ord boot end_ fuel)
    else some s

/-- `native/src/schedule_sim.cpp:5-15`, `can_sim.h:83`: a new job. -/
def Job.init (m : Msg) (faults : List ℤ) : Job := ⟨0, m.wcet, 0, 1, faults⟩

/-- `native/src/canbus/can_sim.cpp:40-46`, `tardiness_stats.cpp:262-268`: all jobs are
registered with `add_release` at time 0, before the simulation starts. -/
def ready (ts : Fin n → Msg) (retransmissions : List ℕ) (faults : Fin n → List ℤ) (stats : σ) :
    Sim n σ :=
  { now := 0
    job := fun i => Job.init (ts i) (faults i)
    events := (List.finRange n).map fun i => (0, .release i)
    pending := []
    bus := none
    retransmissions := retransmissions
    taken := 0
    stats := stats
    log := [] }

/-! ### Completion times -/

/-- `native/src/canbus/job_completion_stats.cpp:4-13`: the completion time, if it was set. -/
def completionHooks (ts : Fin n → Msg) (taskid priority seqno : ℕ) : Hooks n (Option ℕ) where
  completed i j now st :=
    if (ts i).taskid = taskid ∧ (ts i).priority = priority ∧ j.seqno = seqno then
      (j.hostFaults, some now)
    else (j.hostFaults, st)
  expired _ _ _ st := st
  aborted st := st.isSome

/-- `native/src/canbus/job_completion_stats.cpp:15-24`: `get_job_completion_time`.
`some none`: the value that is returned was never set (it is undefined).  No faults are
generated. -/
def getJobCompletionTime (ts : Fin n → Msg) (ord : Order n) (fuel end_ taskid priority seqno : ℕ) :
    Option (Option ℕ) :=
  (simulateUntil ts (completionHooks ts taskid priority seqno) ord 0 end_ fuel
    (ready ts [] (fun _ => []) none)).map Sim.stats

end Verif.CanSim
