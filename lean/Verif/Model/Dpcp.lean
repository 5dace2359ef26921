/-
Model of `native/src/blocking/dpcp.cpp` and of `apply_dpcp_bounds` in `schedcat/locking/bounds.py`.  All
numbers are natural numbers: wrap-around of `unsigned int` and `unsigned long` is not modelled.
-/
import Verif.Model.Msrp
import Verif.Model.FpRta

namespace Verif.SR.Dpcp
open Verif.SR.Msrp (ceilingOf)

/-- `ResourceLocality`, `sharedres_types.h:324-347`: `none` is `NO_CPU`. -/
abbrev Locality := List (Option ℕ)

/-- `ResourceLocality::assign_resource`, `sharedres_types.h:330-336`. -/
def assign : Locality → ℕ → ℕ → Locality
  | [], 0, c => [some c]
  | [], r + 1, c => none :: assign [] r c
  | _ :: l, 0, c => some c :: l
  | x :: l, r + 1, c => x :: assign l r c

/-- `ResourceLocality::operator[]`, `sharedres_types.h:338-344`. -/
def Locality.at (l : Locality) (r : ℕ) : Option ℕ := l.getD r none

/-- `get_cpp_topology`, `bounds.py:131-135`: the mapping as a list of its entries, in any order. -/
def topology (mapping : List (ℕ × ℕ)) : Locality := mapping.foldl (fun l e => assign l e.1 e.2) []

/-- `while (i >= l.size()) l.push_back({})`, `dpcp.cpp:31-32`. -/
def pad {α : Type} : List (List α) → ℕ → List (List α)
  | [], 0 => [[]]
  | [], i + 1 => [] :: pad [] i
  | c :: cs, 0 => c :: cs
  | c :: cs, i + 1 => c :: pad cs i

/-- `split_by_locality`, `dpcp.cpp:25-49`. -/
def splitByLocality (info : Info) (l : Locality) : List (List RB) :=
  info.zipIdx.foldl (fun cs t =>
    (pointers (t.2, t.1)).foldl (fun cs req =>
      match l.at req.req.resId with
      | none => cs
      | some cpu => addAt cs cpu req) (pad cs t.1.cluster)) []

/-- `count_requests_to_cpu`, `dpcp.cpp:51-63`. -/
def countRequests (tsk : TaskInfo) (l : Locality) (cpu : ℕ) : ℕ :=
  tsk.requests.foldl (fun count req => if l.at req.resId = some cpu then count + req.num else count) 0

/-- The loop of `bound_blocking_dpcp`, `dpcp.cpp:75-100`.  All resources with requests have a ceiling. -/
def boundLoop (info : Info) (i : ℕ) (tsk : TaskInfo) : ℕ → List RB → Interference
  | _, [] => {}
  | maxLower, req :: cont =>
    if req.task ≠ i then
      if req.info.priority < tsk.priority then
        let num := req.maxNumRequests tsk.response
        Interference.add ⟨num, num * req.req.length⟩ (boundLoop info i tsk maxLower cont)
      else if maxLower ≠ 0 ∧ ceilingOf info req.req.resId ≤ tsk.priority then
        let num := min (req.maxNumRequests tsk.response) maxLower
        Interference.add ⟨num, num * req.req.length⟩ (boundLoop info i tsk (maxLower - num) cont)
      else boundLoop info i tsk maxLower cont
    else boundLoop info i tsk maxLower cont

/-- The loop of `dpcp_remote_bound`, `dpcp.cpp:105-130`. -/
def remoteLoop (info : Info) (l : Locality) (i : ℕ) (tsk : TaskInfo) : ℕ → List (List RB) → Interference
  | _, [] => {}
  | cpu, cs :: rest =>
    let others := remoteLoop info l i tsk (cpu + 1) rest
    if cpu ≠ tsk.cluster then
      let reqs := countRequests tsk l cpu
      if reqs > 0 then (boundLoop info i tsk reqs cs).add others else others
    else others

/-- `dpcp_local_bound`, `dpcp.cpp:133-153`. -/
def localBound (i : ℕ) (tsk : TaskInfo) (loc : List RB) : Interference :=
  loc.foldl (fun b req =>
    if req.task ≠ i then
      let num := req.maxNumRequests tsk.response
      b.add ⟨num, num * req.req.length⟩
    else b) {}

/-- `split_by_locality` and `sort_by_request_length`, `dpcp.cpp:159-162`. -/
def perCpu (info : Info) (l : Locality) : List (List RB) := (splitByLocality info l).map sortByLength

/-- `dpcp_bounds`, `dpcp.cpp:156-182`: the remote and local blocking of a task. -/
def dpcpBound (info : Info) (l : Locality) (i : ℕ) (tsk : TaskInfo) : Interference × Interference :=
  (remoteLoop info l i tsk 0 (perCpu info l), localBound i tsk ((perCpu info l).getD tsk.cluster []))

/-- `get_cpp_model` with or without `use_task_period`, `bounds.py:52-73`: `response` is the pending interval. -/
def cppModel (info : Info) (textBook : Bool) : Info :=
  info.map (fun t => if textBook then { t with response := t.period } else t)

/-- The tasks of processor `k`, in the order of the list of all tasks, after `apply_dpcp_bounds`,
`bounds.py:137-152`. -/
def afterDpcpBounds (info : Info) (mapping : List (ℕ × ℕ)) (textBook : Bool) (k : ℕ) : List Fp.FpTask :=
  (cppModel info textBook).zipIdx.filterMap (fun t =>
    if t.1.cluster = k then
      let res := dpcpBound (cppModel info textBook) (topology mapping) t.2 t.1
      some { cost := (t.1.cost : ℚ), period := (t.1.period : ℚ), deadline := (t.1.deadline : ℚ),
             suspended := (res.1.total : ℚ), blocked := some ((res.1.total + res.2.total : ℕ) : ℚ) }
    else none)

end Verif.SR.Dpcp
