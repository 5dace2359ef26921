/-
Model of `native/src/blocking/msrp-holistic.cpp` and of `apply_msrp_bounds_holistic` in
`schedcat/locking/bounds.py`.  All numbers are natural numbers: wrap-around of `unsigned int` and
`unsigned long` is not modelled.
-/
import Verif.Model.Msrp
import Verif.Model.FpRta

namespace Verif.SR.Msrp

/-- The state of the loop of `get_local_resources`, `sharedres.cpp:279-306`: `accessed` is the map
`accessed_in`, the latest entry first, and `locals` the set of resources that seem to be local. -/
structure LocalState where
  accessed : List (ℕ × ℕ) := []
  locals : List ℕ := []
deriving DecidableEq, Repr

/-- The body of the inner loop of `get_local_resources`, `sharedres.cpp:286-302`. -/
def localStep (st : LocalState) (cluster res : ℕ) : LocalState :=
  match st.accessed.lookup res with
  | none => ⟨(res, cluster) :: st.accessed, res :: st.locals⟩
  | some c => if c ≠ cluster then { st with locals := st.locals.filter (· ≠ res) } else st

/-- `get_local_resources`, `sharedres.cpp:279-306`. -/
def localResources (info : Info) : List ℕ :=
  (info.foldl (fun (st : LocalState) (t : TaskInfo) => t.requests.foldl (fun st r => localStep st t.cluster r.resId) st) {}).locals

/-- `extract_resources`, `sharedres.cpp:309-341`: cost and deadline are not passed on. -/
def extract (info : Info) (locals : List ℕ) (wantLocal : Bool) : Info :=
  info.map (fun t => { t with
    cost := 0, deadline := t.period,
    requests := (t.requests.filter (fun r =>
      (decide (r.resId ∈ locals) && wantLocal) || (!decide (r.resId ∈ locals) && !wantLocal))).map
        (fun r => { r with isRead := false }) })

/-- `pcp_blocking`, `msrp-holistic.cpp:61-103`: the blocking of task `i`.  The loop over a cluster is
written as a loop over all tasks of the cluster in the order of the list; `prio_ceilings[res]` exists
because `res` has a request. -/
def pcpBlocking (info : Info) (i : ℕ) (tsk : TaskInfo) : Interference :=
  info.zipIdx.foldl (fun acc o =>
    if o.1.cluster = tsk.cluster then
      if i ≠ o.2 ∧ tsk.priority ≤ o.1.priority then
        o.1.requests.foldl (fun acc r =>
          if ceilingOf info r.resId ≤ tsk.priority then acc.max ⟨1, r.length⟩ else acc) acc
      else acc
    else acc) {}

/-- `msrp_bounds_holistic`, `msrp-holistic.cpp:10-58`. -/
def msrpHolistic (info : Info) (irq : ℤ) : List Bound :=
  let locals := localResources info
  let linfo := extract info locals true
  let ginfo := extract info locals false
  (omlpBounds ginfo 1 irq).zip (linfo.zipIdx.map (fun t => pcpBlocking linfo t.2 t.1)) |>.map (fun x =>
    let bPcp := x.2.total
    let bSpin := x.1.arrival.total
    if bPcp > bSpin then
      { x.1 with arrival := ⟨1, bPcp⟩,
                 blocking := ⟨x.1.blocking.count, x.1.blocking.total + (bPcp - bSpin)⟩ }
    else x.1)

/-- The tasks of processor `k`, in the order of the list of all tasks, after
`apply_msrp_bounds_holistic`, `bounds.py:296-308`. -/
def afterMsrpHolistic (info : Info) (irq : ℤ) (k : ℕ) : List Fp.FpTask :=
  (info.zip (msrpHolistic info irq)).filterMap (fun t =>
    if t.1.cluster = k then
      some { cost := ((t.1.cost + t.2.remote.total : ℕ) : ℚ), period := (t.1.period : ℚ),
             deadline := (t.1.deadline : ℚ), suspended := 0, blocked := some (t.2.arrival.total : ℚ) }
    else none)

end Verif.SR.Msrp
