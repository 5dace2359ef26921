/-
Model of the failure statistics of the CAN bus simulator:
`native/include/canbus/tardiness_stats.h`, `native/src/canbus/tardiness_stats.cpp`.

* The maps from task ids to statistics are total functions; the code initialises an entry for
  the id of every message (lines 262-269) and accesses no other.
* A random number is a parameter `coin` (true: `PROB_RANDOM <= 0.5`); `draws` counts how many
  were used.  The random generation of faults is not modelled: the faults of each iteration are
  given.
* Probabilities are rational numbers; `none` is the floating-point value that results from
  dividing 0 by 0 (it propagates).
-/
import Verif.Model.CanSim
import Mathlib.Data.Rat.Defs
import Mathlib.Algebra.Order.Field.Rat

namespace Verif.CanSim
open Verif.Spec

variable {n : ℕ}

/-- `tardiness_stats.h:18-23`: `RoundInfo`. -/
structure Round where
  seqno : ℕ
  ok : ℕ
  faulty : ℕ
deriving DecidableEq, Repr

/-- `tardiness_stats.h:27-33`: `TaskIdInfo`. -/
structure Info where
  latest : ℕ
  ok : ℕ
  faulty : ℕ
  rounds : List Round
deriving DecidableEq, Repr

/-- `tardiness_stats.h:35-40`: the statistics of `CANBusTardinessStats`. -/
structure Stats where
  sync : ℕ → Info
  async : ℕ → Info
  draws : ℕ

/-- `tardiness_stats.cpp:5-29`: initial statistics. -/
def Stats.init : Stats := ⟨fun _ => ⟨0, 0, 0, []⟩, fun _ => ⟨0, 0, 0, []⟩, 0⟩

/-- `tardiness_stats.cpp:77-81, 112-116`: a round is appended if it is newer than the last
one. -/
def addRound (seqno : ℕ) (rounds : List Round) : List Round :=
  match rounds.getLast? with
  | none => rounds ++ [⟨seqno, 0, 0⟩]
  | some r => if seqno > r.seqno then rounds ++ [⟨seqno, 0, 0⟩] else rounds

/-- `tardiness_stats.cpp:83-96, 118-130`: change the first round with the given number. -/
def countMsg (seqno : ℕ) (bad : Bool) : List Round → List Round
  | [] => []
  | r :: rs =>
    if r.seqno = seqno then
      (if bad then { r with faulty := r.faulty + 1 } else { r with ok := r.ok + 1 }) :: rs
    else r :: countMsg seqno bad rs

/-- `tardiness_stats.cpp:137, 190`: `erase` the first round with the given number. -/
def eraseRound (seqno : ℕ) : List Round → List Round
  | [] => []
  | r :: rs => if r.seqno = seqno then rs else r :: eraseRound seqno rs

/-- The first round with the given number. -/
def findRound (seqno : ℕ) (rounds : List Round) : Option Round :=
  rounds.find? (fun r => r.seqno = seqno)

/-- `tardiness_stats.cpp:64-98`: `job_completed_sync`; returns the host faults of the job, too,
because `is_commission` removes some. -/
def completedSync (m : Msg) (j : Job) (now : ℕ) (info : Info) : List ℤ × Info :=
  if j.seqno ≤ info.latest then (j.hostFaults, info)
  else
    let rounds := addRound j.seqno info.rounds
    match findRound j.seqno rounds with
    | none => (j.hostFaults, { info with rounds := rounds })
    | some _ =>
      let c := if m.critical then isCommission j.release now j.hostFaults
        else (false, j.hostFaults)
      (c.2, { info with rounds := countMsg j.seqno c.1 rounds })

/-- `tardiness_stats.cpp:100-145`: `job_completed_async`. -/
def completedAsync (rprime : ℕ) (m : Msg) (j : Job) (now : ℕ) (info : Info) : List ℤ × Info :=
  if j.seqno ≤ info.latest then (j.hostFaults, info)
  else
    let rounds := addRound j.seqno info.rounds
    match findRound j.seqno rounds with
    | none => (j.hostFaults, { info with rounds := rounds })
    | some r =>
      let c := if m.critical then isCommission j.release now j.hostFaults
        else (false, j.hostFaults)
      let okMsgs := if c.1 then r.ok else r.ok + 1
      let need := if m.critical then rprime else 1
      let rounds := countMsg j.seqno c.1 rounds
      if okMsgs ≥ need then
        (c.2, ⟨j.seqno, info.ok + 1, info.faulty, eraseRound j.seqno rounds⟩)
      else (c.2, { info with rounds := rounds })

/-- `tardiness_stats.cpp:155-197`: `job_deadline_expired_sync`; also returns how many random
numbers were used. -/
def expiredSync (coin : Bool) (seqno : ℕ) (info : Info) : Info × ℕ :=
  if seqno ≤ info.latest then (info, 0)
  else
    match findRound seqno info.rounds with
    | some r =>
      let rest := eraseRound seqno info.rounds
      if r.ok > r.faulty then (⟨seqno, info.ok + 1, info.faulty, rest⟩, 0)
      else if r.ok = r.faulty then
        if coin then (⟨seqno, info.ok, info.faulty + 1, rest⟩, 1)
        else (⟨seqno, info.ok + 1, info.faulty, rest⟩, 1)
      else (⟨seqno, info.ok, info.faulty + 1, rest⟩, 0)
    | none => (⟨seqno, info.ok, info.faulty + 1, info.rounds⟩, 0)

/-- `tardiness_stats.cpp:199-213`: `job_deadline_expired_async`. -/
def expiredAsync (seqno : ℕ) (info : Info) : Info :=
  if seqno ≤ info.latest then info
  else { info with faulty := info.faulty + 1, latest := seqno }

/-- `tardiness_stats.cpp:57-62, 147-153`: the callbacks of `CANBusTardinessStats`. -/
def statsHooks (ts : Fin n → Msg) (rprime : ℕ) (coin : ℕ → Bool) : Hooks n Stats where
  completed i j now st :=
    let tid := (ts i).taskid
    let a := completedSync (ts i) j now (st.sync tid)
    let b := completedAsync rprime (ts i) { j with hostFaults := a.1 } now (st.async tid)
    (b.1, ⟨Function.update st.sync tid a.2, Function.update st.async tid b.2, st.draws⟩)
  expired i k _ st :=
    let tid := (ts i).taskid
    let a := expiredSync (coin st.draws) k (st.sync tid)
    ⟨Function.update st.sync tid a.1, Function.update st.async tid (expiredAsync k (st.async tid)),
      st.draws + a.2⟩
  aborted _ := false

/-- What is random in one iteration: the faults of the bus and of the hosts, and the coins. -/
structure Draw (n : ℕ) where
  bus : List ℕ
  host : Fin n → List ℤ
  coin : ℕ → Bool

/-- `tardiness_stats.cpp:299-323`: generate the faults of an iteration (`push_back`); only
critical messages are subject to host faults. -/
def generate (ts : Fin n → Msg) (d : Draw n) (s : Sim n Stats) : Sim n Stats :=
  { s with
    job := fun i => if (ts i).critical then
      { s.job i with hostFaults := (s.job i).hostFaults ++ d.host i } else s.job i
    retransmissions := s.retransmissions ++ d.bus }

/-- `tardiness_stats.cpp:297-323`: are there no faults in this iteration? -/
def faultFree (ts : Fin n → Msg) (s : Sim n Stats) : Bool :=
  (List.finRange n).all (fun i => !(ts i).critical || (s.job i).hostFaults.isEmpty) &&
    s.retransmissions.isEmpty

/-- `tardiness_stats.cpp:360-377`, `can_sim.h:164-166`, `can_sim.cpp:7-14, 31-53, 258-265`:
everything is reset, and the first job of each message is registered again (at time 0 a release
at time 0 becomes an event).  The log and the coins belong to one iteration. -/
def reset (ts : Fin n → Msg) (s : Sim n Stats) : Sim n Stats :=
  let s := { s with events := [], pending := [] }
  let s := { s with bus := none }
  let s := { s with now := 0 }
  let s := { s with retransmissions := [] }
  let s := { s with stats := { s.stats with
    sync := fun _ => ⟨0, 0, 0, []⟩, async := fun _ => ⟨0, 0, 0, []⟩, draws := 0 } }
  let s := { s with log := [], taken := 0 }
  (List.finRange n).foldl (fun s i =>
    let s := s.setJob i ⟨0, (ts i).wcet, 0, 1, []⟩
    { s with events := s.events ++ [((s.job i).release, Ev.release i)] }) s

/-- `tardiness_stats.cpp:339-340, 351-352`: `faulty / (ok + faulty)`. -/
def Info.prob (info : Info) : Option ℚ :=
  if info.ok + info.faulty = 0 then none else some (info.faulty / (info.ok + info.faulty))

/-- Addition of floating-point values that may be undefined. -/
def plus : Option ℚ → Option ℚ → Option ℚ
  | some a, some b => some (a + b)
  | _, _ => none

/-- The variables of `simulate_for_tardiness_stats` that change in its loop. -/
structure Acc (n : ℕ) where
  sync : ℕ → Option ℚ
  async : ℕ → Option ℚ
  free : ℕ
  sim : Sim n Stats

/-- `tardiness_stats.cpp:292-378`: one iteration.  The order of the queues may depend on the
faults; `none`: the simulation does not end within `fuel` steps. -/
def iteration (ts : Fin n → Msg) (rprime : ℕ) (ord : List ℕ → (Fin n → List ℤ) → Order n)
    (boot end_ fuel : ℕ) (acc : Acc n) (d : Draw n) : Option (Acc n) :=
  let s := generate ts d acc.sim
  if faultFree ts s then some { acc with free := acc.free + 1, sim := reset ts s }
  else
    (simulateUntil ts (statsHooks ts rprime d.coin)
      (ord s.retransmissions fun i => (s.job i).hostFaults) boot end_ fuel s).map fun s =>
      { acc with
        sync := fun tid => plus (acc.sync tid) (s.stats.sync tid).prob
        async := fun tid => plus (acc.async tid) (s.stats.async tid).prob
        sim := reset ts s }

/-- `tardiness_stats.cpp:292`: the loop over the iterations. -/
def iterations (ts : Fin n → Msg) (rprime : ℕ) (ord : List ℕ → (Fin n → List ℤ) → Order n)
    (boot end_ fuel : ℕ) : List (Draw n) → Acc n → Option (Acc n)
  | [], acc => some acc
  | d :: ds, acc => (iteration ts rprime ord boot end_ fuel acc d).bind
      (iterations ts rprime ord boot end_ fuel ds)

/-- `tardiness_stats.cpp:215-469`: `simulate_for_tardiness_stats`, in bit times; the failure
probabilities of each task id (for the synchronous and the asynchronous protocol).  `coin`:
the coins of the simulation for all iterations without faults. -/
def simulateForTardiness (ts : Fin n → Msg) (rprime : ℕ)
    (ord : List ℕ → (Fin n → List ℤ) → Order n) (boot end_ fuel : ℕ) (ds : List (Draw n))
    (coin : ℕ → Bool) : Option ((ℕ → Option ℚ) × (ℕ → Option ℚ)) :=
  (iterations ts rprime ord boot end_ fuel ds
    ⟨fun _ => some 0, fun _ => some 0, 0, ready ts [] (fun _ => []) Stats.init⟩).bind fun acc =>
  let normalize := fun p : Option ℚ => if ds.length = 0 then none else p.map fun q => q / (ds.length : ℚ)
  if acc.free > 0 then
    (simulateUntil ts (statsHooks ts rprime coin) (ord [] fun _ => []) boot end_ fuel acc.sim).map
      fun s =>
        (fun tid => normalize (plus (acc.sync tid) ((s.stats.sync tid).prob.map fun q => q * (acc.free : ℚ))),
         fun tid => normalize (plus (acc.async tid) ((s.stats.async tid).prob.map fun q => q * (acc.free : ℚ))))
  else some (fun tid => normalize (acc.sync tid), fun tid => normalize (acc.async tid))

end Verif.CanSim
