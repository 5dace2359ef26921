/-
Model of the partitioning and semi-partitioning heuristics in
`schedcat/mapping/apa.py`.

* Costs, periods and chunk sizes are natural numbers; deadlines are integers since
  the deadline of a second part may become negative.  Densities are exact.
* `none` as the result of a computation means that the code raises an exception
  (division by zero, conversion of a negative number, failed assertion) or that a
  loop of the native analysis or of the heuristic has not ended within `fuel` rounds.
* Sets are lists in an arbitrary order: `Order` gives the order of iteration over
  sets of tasks and of processors.
* The attribute `affinity` is missing in the first part of a split task; it is the
  empty list here.  Split callbacks are not modelled.
-/
import Verif.Model.Qpa
import Mathlib.Data.List.Sort
import Mathlib.Data.List.Dedup
import Mathlib.Logic.Function.Basic

namespace Verif.Apa
open Verif.Native

structure ATask where
  id : ℕ
  cost : ℕ
  period : ℕ
  deadline : ℤ
  affinity : List ℕ
deriving DecidableEq, Repr

/-- `assignments`, a dictionary with empty task systems as default. -/
abbrev Assign := ℕ → List ATask

/-- Orders of iteration. -/
structure Order where
  tasks : List ATask → List ATask
  cores : List ℕ → List ℕ

/-- `SporadicTask.density`, `tasks.py:40-41`. -/
def ATask.density (t : ATask) : Option ℚ :=
  let m := min (t.period : ℤ) t.deadline
  if m = 0 then none else some ((t.cost : ℚ) / m)

/-- `TaskSystem.density`, `tasks.py:200-201`. -/
def density (ts : List ATask) : Option ℚ := (ts.mapM ATask.density).map List.sum

/-- One step of `get_native_taskset`, `sched/__init__.py:19-23`. -/
def toNative (t : ATask) : Option Native.Task :=
  if t.deadline < 0 then none else some (Task.init t.cost t.period t.deadline.toNat)

/-- `qpa_it_fits`, `apa.py:63-67`. -/
def qpaItFits (fuel : ℕ) (partition : List ATask) : Option Bool := do
  let d ← density partition
  if d ≤ 1 then return true
  else qpaIsSchedulable fuel (← partition.mapM toNative)

/-- `qpa_split_off_chunk`, `apa.py:69-73`. -/
def qpaSplitOffChunk (fuel : ℕ) (partition : List ATask) (t : ATask) : Option ℕ := do
  maxCEqualDCost fuel (← partition.mapM toNative) t.cost t.period

/-- The sort key of `sorted_by_decreasing_difficulty`; `affinity` gives the set of
processors whose size counts. -/
def difficulty (affinity : ATask → List ℕ) (t : ATask) : ℕ × ℚ :=
  ((affinity t).length, 1 - (t.density).getD 0)

/-- Lexicographic order of pairs. -/
def lexLe {α β : Type} [LinearOrder α] [LinearOrder β] (a b : α × β) : Bool :=
  decide (a.1 < b.1) || (decide (a.1 = b.1) && decide (a.2 ≤ b.2))

/-- `sorted_by_decreasing_difficulty`, `apa.py:75-82`. -/
def sortedByDifficulty (affinity : ATask → List ℕ) (tasks : List ATask) : Option (List ATask) := do
  let _ ← tasks.mapM ATask.density
  return tasks.insertionSort (fun a b => lexLe (difficulty affinity a) (difficulty affinity b) = true)

/-- `split_task_C_equal_D`, `apa.py:84-91`; the callers make sure that `w` is at most
the cost. -/
def splitTask (t : ATask) (w : ℕ) : ATask × ATask :=
  (⟨t.id, w, t.period, w, []⟩, ⟨t.id, t.cost - w, t.period, t.deadline - w, t.affinity⟩)

/-- One round of the loop in `try_edf_assign_task_worst_fit`, `apa.py:97-104`. -/
def candidate (fuel : ℕ) (asg : Assign) (t : ATask) (core : ℕ) : Option (Option (ℚ × ℕ)) := do
  let ts := asg core ++ [t]
  if ← qpaItFits fuel ts then
    let d ← density ts
    return some (d, core)
  else return none

/-- `min(candidates)`. -/
def minCandidate : List (ℚ × ℕ) → Option (ℚ × ℕ)
  | [] => none
  | c :: cs => match minCandidate cs with
    | none => some c
    | some d => some (if lexLe c d then c else d)

/-- `assignments[core].append(t)`. -/
def put (asg : Assign) (core : ℕ) (t : ATask) : Assign := Function.update asg core (asg core ++ [t])

/-- `try_edf_assign_task_worst_fit`, `apa.py:93-111`: the assignments afterwards, or
`some none` for `False`. -/
def tryAssignWorstFit (fuel : ℕ) (asg : Assign) (t : ATask) : Option (Option Assign) := do
  let cs ← t.affinity.mapM (candidate fuel asg t)
  match minCandidate (cs.filterMap id) with
  | some best => return some (put asg best.2 t)
  | none => return none

/-- Splitting `t` on a processor where at most `wcet` fits, `apa.py:119-124` and
`135-142`: `some none` if the chunk is too small. -/
def splitAt (asg : Assign) (t : ATask) (threshold core wcet : ℕ) : Option (Option (Assign × ATask)) :=
  if wcet ≠ 0 ∧ threshold ≤ wcet then
    let w := min wcet (t.cost - threshold)
    if threshold ≤ w then some (some (put asg core (splitTask t w).1, (splitTask t w).2))
    else none
  else some none

/-- The loop of `try_edf_split_task_worst_fit`, `apa.py:114-125`. -/
def splitWorstLoop (fuel : ℕ) (asg : Assign) (t : ATask) (threshold : ℕ) :
    List ℕ → Option (Option (Assign × ATask))
  | [] => some none
  | core :: cores => do
    let wcet ← qpaSplitOffChunk fuel (asg core) t
    match ← splitAt asg t threshold core wcet with
    | some r => return some r
    | none => splitWorstLoop fuel asg t threshold cores

/-- `try_edf_split_task_worst_fit`, `apa.py:113-125`. -/
def trySplitWorstFit (ord : Order) (fuel : ℕ) (asg : Assign) (t : ATask) (threshold : ℕ) :
    Option (Option (Assign × ATask)) := do
  let _ ← t.affinity.mapM (fun c => density (asg c))
  splitWorstLoop fuel asg t threshold
    ((ord.cores t.affinity).insertionSort
      (fun a b => (density (asg a)).getD 0 ≤ (density (asg b)).getD 0))

/-- `max(max_chunk, val)`, `apa.py:131-132`; `none` is the processor -1. -/
def maxChunk (a b : ℕ × Option ℕ) : ℕ × Option ℕ :=
  match a.2, b.2 with
  | none, _ => b
  | _, none => a
  | some x, some y => if lexLe (a.1, x) (b.1, y) then b else a

/-- `try_edf_split_task_max_chunk_fit`, `apa.py:127-144`. -/
def trySplitMaxChunk (ord : Order) (fuel : ℕ) (asg : Assign) (t : ATask) (threshold : ℕ) :
    Option (Option (Assign × ATask)) := do
  let vals ← (ord.cores t.affinity).mapM (fun c =>
    (qpaSplitOffChunk fuel (asg c) t).map (fun w => (w, some c)))
  match vals.foldl maxChunk (0, none) with
  | (wcet, some core) => splitAt asg t threshold core wcet
  | (_, none) => return none

/-- The options of the worst-fit heuristic. -/
structure Options where
  withSplits : Bool := false
  minChunk : ℕ := 0
  maxChunkSplit : Bool := false

/-- One pass over the tasks, `apa.py:169-189`: the unassigned tasks, the assignments
and `try_again`. -/
def wfPass (ord : Order) (fuel : ℕ) (o : Options) :
    List ATask → List ATask → Assign → Option (List ATask × Assign × Bool)
  | [], un, asg => some (un, asg, false)
  | t :: rest, un, asg => do
    match ← tryAssignWorstFit fuel asg t with
    | some asg' => wfPass ord fuel o rest (un.erase t) asg'
    | none =>
      if o.withSplits && decide (2 * o.minChunk ≤ t.cost) then
        match ← (if o.maxChunkSplit then trySplitMaxChunk ord fuel asg t o.minChunk
            else trySplitWorstFit ord fuel asg t o.minChunk) with
        | some (asg', t2) => return (un.erase t ++ [t2], asg', true)
        | none => wfPass ord fuel o rest un asg
      else wfPass ord fuel o rest un asg

/-- The loop `while unassigned and try_again`, `apa.py:167-189`. -/
def wfLoop (ord : Order) (fuel : ℕ) (o : Options) : ℕ → List ATask → Assign →
    Option (List ATask × Assign)
  | 0, _, _ => none
  | rounds + 1, un, asg => do
    let order ← sortedByDifficulty ATask.affinity (ord.tasks un)
    let (un, asg, again) ← wfPass ord fuel o order un asg
    if again && !un.isEmpty then wfLoop ord fuel o rounds un asg else return (un, asg)

/-- `edf_worst_fit_decreasing_difficulty`, `apa.py:150-191`. -/
def worstFit (ord : Order) (fuel : ℕ) (o : Options) (tasks : List ATask) (pre : Assign) :
    Option (List ATask × Assign) := wfLoop ord fuel o fuel tasks pre

/-- `affinity[t.id]`: the effective affinities by task id. -/
abbrev Affinity := ℕ → List ℕ

/-- `apa.py:212-214`. -/
def initialAffinity (tasks : List ATask) : Affinity :=
  tasks.foldl (fun a t => Function.update a t.id t.affinity) (fun _ => [])

/-- `remove_core_from_affinities`, `apa.py:146-148`. -/
def removeCore (un : List ATask) (a : Affinity) (core : ℕ) : Affinity :=
  un.foldl (fun a t => Function.update a t.id ((a t.id).filter (· ≠ core))) a

/-- The tasks tried on one processor, `apa.py:217-243`. -/
def ffPass (fuel : ℕ) (withSplits : Bool) (minChunk core : ℕ) :
    List ATask → List ATask → Assign → Option (List ATask × Assign)
  | [], un, asg => some (un, asg)
  | t :: rest, un, asg => do
    if ← qpaItFits fuel (asg core ++ [t]) then
      ffPass fuel withSplits minChunk core rest (un.erase t) (put asg core t)
    else if withSplits && decide (minChunk * 2 ≤ t.cost) then
      let wcet ← qpaSplitOffChunk fuel (asg core) t
      match ← splitAt asg t minChunk core wcet with
      | some (asg', t2) => return (un.erase t ++ [t2], asg')
      | none => return (un, asg)
    else ffPass fuel withSplits minChunk core rest un asg

/-- The loop over the processors, `apa.py:216-246`. -/
def ffLoop (ord : Order) (fuel : ℕ) (withSplits : Bool) (minChunk : ℕ) :
    List ℕ → Affinity → List ATask → Assign → Option (List ATask × Assign)
  | [], _, un, asg => some (un, asg)
  | core :: cores, a, un, asg => do
    let order ← sortedByDifficulty (fun t => a t.id)
      ((ord.tasks un).filter (fun t => (a t.id).contains core))
    let (un, asg) ← ffPass fuel withSplits minChunk core order un asg
    ffLoop ord fuel withSplits minChunk cores (removeCore un a core) un asg

/-- `edf_first_fit_decreasing_difficulty`, `apa.py:193-248`. -/
def firstFit (ord : Order) (fuel : ℕ) (withSplits : Bool) (minChunk : ℕ) (allCores : Option (List ℕ))
    (tasks : List ATask) (pre : Assign) : Option (List ATask × Assign) :=
  ffLoop ord fuel withSplits minChunk
    (allCores.getD (ord.cores (tasks.flatMap ATask.affinity).dedup)) (initialAffinity tasks) tasks pre

/-- `count_slices`, `apa.py:250-251`; `cores` are the keys of the mapping. -/
def countSlices (cores : List ℕ) (asg : Assign) : ℕ := (cores.map (fun c => (asg c).length)).sum

/-- `double_wfd_split`, `apa.py:253-272`; `cores` contains all keys of the mappings. -/
def doubleWfd (ord : Order) (fuel : ℕ) (cores : List ℕ) (withSplits : Bool) (minChunk : ℕ)
    (tasks : List ATask) (pre : Assign) : Option (List ATask × Assign) := do
  let r1 ← worstFit ord fuel ⟨withSplits, minChunk, false⟩ tasks pre
  if !withSplits then return r1
  else
    let r2 ← worstFit ord fuel ⟨withSplits, minChunk, true⟩ tasks pre
    if r1.1.length < r2.1.length then return r1
    else if r1.1.length = r2.1.length then
      if countSlices cores r1.2 < countSlices cores r2.2 then return r1 else return r2
    else return r2

/-- A heuristic: the unassigned tasks and the assignments for given tasks and
pre-assigned tasks. -/
abbrev Heuristic := List ATask → Assign → Option (List ATask × Assign)

/-- The placement without splits in the two-stage heuristics, e.g. `apa.py:276-290`:
`first` places the small tasks, or all tasks; `rest` the others after the small ones. -/
def beforeSplit (first rest : Heuristic) (minChunk : ℕ) (preAssignSmall : Bool)
    (taskset : List ATask) : Option (List ATask × Assign) :=
  if decide (minChunk ≠ 0) && preAssignSmall then
    let tooSmall := taskset.filter (fun t => decide (t.cost < minChunk * 2))
    let others := taskset.filter (fun t => decide (minChunk * 2 ≤ t.cost))
    if tooSmall.isEmpty then first taskset (fun _ => [])
    else (first tooSmall (fun _ => [])).bind (fun r => rest (r.1 ++ others) r.2)
  else first taskset (fun _ => [])

/-- The common structure of `edf_assign_wfd_wfd_split`, `edf_assign_ffd_wfd_split`,
`edf_assign_wfd_ffd_split` and `edf_assign_ffd_ffd_split`, `apa.py:274-372`: `split`
is the heuristic with splitting. -/
def twoStage (first rest split : Heuristic) (minChunk : ℕ) (preAssignSmall : Bool)
    (taskset : List ATask) : Option (List ATask × Assign) :=
  (beforeSplit first rest minChunk preAssignSmall taskset).bind (fun r =>
    if r.1.isEmpty then some r else split r.1 r.2)

/-- `edf_assign_wfd_wfd_split`, `apa.py:274-297`. -/
def assignWfdWfd (ord : Order) (fuel : ℕ) (cores : List ℕ) (minChunk : ℕ) (preAssignSmall : Bool) :=
  twoStage (doubleWfd ord fuel cores false 0) (doubleWfd ord fuel cores false 0)
    (doubleWfd ord fuel cores true minChunk) minChunk preAssignSmall

/-- `edf_assign_ffd_wfd_split`, `apa.py:299-322`. -/
def assignFfdWfd (ord : Order) (fuel : ℕ) (cores : List ℕ) (minChunk : ℕ) (preAssignSmall : Bool) :=
  twoStage (firstFit ord fuel false 0 none) (doubleWfd ord fuel cores false 0)
    (doubleWfd ord fuel cores true minChunk) minChunk preAssignSmall

/-- `edf_assign_wfd_ffd_split`, `apa.py:324-347`. -/
def assignWfdFfd (ord : Order) (fuel : ℕ) (cores : List ℕ) (minChunk : ℕ) (preAssignSmall : Bool) :=
  twoStage (doubleWfd ord fuel cores false 0) (doubleWfd ord fuel cores false 0)
    (firstFit ord fuel true minChunk none) minChunk preAssignSmall

/-- `edf_assign_ffd_ffd_split`, `apa.py:349-372`. -/
def assignFfdFfd (ord : Order) (fuel : ℕ) (minChunk : ℕ) (preAssignSmall : Bool) :=
  twoStage (firstFit ord fuel false 0 none) (firstFit ord fuel false 0 none)
    (firstFit ord fuel true minChunk none) minChunk preAssignSmall

/-- The loop of `meta_preassign_failures`, `apa.py:386-401`; `ids` is `to_pa_idx`. -/
def preassignLoop (pre : List ATask → Option (List ATask × Assign)) (regular : Heuristic) (all : List ATask) :
    ℕ → List ℕ → Option (List ATask × Assign)
  | 0, _ => none
  | rounds + 1, ids => do
    let toPa := all.filter (fun t => ids.contains t.id)
    let rest := all.filter (fun t => !ids.contains t.id)
    let r1 ← pre toPa
    let r2 ← regular (rest ++ r1.1) r1.2
    if r2.1.isEmpty || !r1.1.isEmpty then return r2
    else preassignLoop pre regular all rounds (ids ++ r2.1.map ATask.id)

/-- `meta_preassign_failures`, `apa.py:374-401`. -/
def preassignFailures (pre : List ATask → Option (List ATask × Assign)) (regular : Heuristic)
    (rounds : ℕ) (taskset : List ATask) : Option (List ATask × Assign) := do
  let r ← regular taskset (fun _ => [])
  if r.1.isEmpty then return r
  else preassignLoop pre regular taskset rounds (r.1.map ATask.id)

end Verif.Apa
