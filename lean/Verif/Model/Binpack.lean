/-
Model of `schedcat/mapping/binpack.py`.

Items have any type `α`; `weight` is an arbitrary function to ℚ.  Bins are
lists of items in the order in which they were added.  Calls of `misfit` are
collected in a list, in call order.  The accumulated sums that the code keeps
next to the bins are part of the state.
-/
import Verif.Model.Tasks

namespace Verif.Binpack
open Verif

variable {α : Type}

/-- Bins, their accumulated sums, and the items reported via `misfit`. -/
structure State (α : Type) where
  sets : List (List α)
  sums : List ℚ
  misfits : List α

/-- What the caller observes: the returned bins and the reported items. -/
structure Result (α : Type) where
  sets : List (List α)
  misfits : List α
deriving Repr, DecidableEq

/-- `sets[i] += [x]; sums[i] += c` (`binpack.py:90-91, 110-111, 129-130, 155-156`). -/
def State.place (s : State α) (i : ℕ) (x : α) (c : ℚ) : State α :=
  { s with sets := s.sets.modify i (· ++ [x]), sums := s.sums.modify i (· + c) }

/-- `misfit(x)`. -/
def State.misfit (s : State α) (x : α) : State α := { s with misfits := s.misfits ++ [x] }

/-- `sets = [empty_bin() for _ in xrange(0, bins)]`,
`sums = [0.0 for _ in xrange(0, bins)]`
(`binpack.py:84-85, 100-101, 118-119, 140, 147`). -/
def State.init (bins : ℕ) : State α :=
  ⟨List.replicate bins [], List.replicate bins 0, []⟩

def State.result (s : State α) : Result α := ⟨s.sets, s.misfits⟩

/-- The loop `for x in items: ...` shared by `first_fit`, `worst_fit`,
`almost_worst_fit` and `best_fit` (fixed number of bins): `sel` chooses the bin
from the current sums and the weight of the item. -/
def packLoop (sel : List ℚ → ℚ → Option ℕ) (weight : α → ℚ) : List α → State α → State α
  | [], s => s
  | x :: xs, s =>
    match sel s.sums (weight x) with
    | some i => packLoop sel weight xs (s.place i x (weight x))
    | none => packLoop sel weight xs (s.misfit x)

/-- `binpack.py:88-94`: the first `i` with `sums[i] + c <= capacity`. -/
def firstFitSel (capacity : ℚ) (sums : List ℚ) (c : ℚ) : Option ℕ :=
  sums.findIdx? (fun s => s + c ≤ capacity)

/-- `binpack.py:106-113`: `sums.index(min(candidates))`. -/
def worstFitSel (capacity : ℚ) (sums : List ℚ) (c : ℚ) : Option ℕ :=
  let candidates := sums.filter (fun s => s + c ≤ capacity)
  match candidates.min? with
  | some v => some (sums.idxOf v)
  | none => none

/-- `binpack.py:124-132`: `candidates.sort()`, then
`sums.index(candidates[1] if len(candidates) > 1 else candidates[0])`. -/
def almostWorstFitSel (capacity : ℚ) (sums : List ℚ) (c : ℚ) : Option ℕ :=
  let candidates := sortByKey (fun s => s) (sums.filter (fun s => s + c ≤ capacity))
  match candidates with
  | _ :: b :: _ => some (sums.idxOf b)
  | [a] => some (sums.idxOf a)
  | [] => none

/-- `idxs = range(0, bins); idxs.sort(key=lambda i: sums[i], reverse=True)`
(`binpack.py:151-152`); a reversed Python sort is stable. -/
def bestFitOrder (sums : List ℚ) : List (ℚ × ℕ) :=
  sums.zipIdx.insertionSort (fun a b => b.1 ≤ a.1)

/-- `binpack.py:150-158, 166`. -/
def bestFitSel (capacity : ℚ) (sums : List ℚ) (c : ℚ) : Option ℕ :=
  ((bestFitOrder sums).find? (fun p => p.1 + c ≤ capacity)).map (·.2)

/-- `binpack.py:82-96`. -/
def firstFit (items : List α) (bins : ℕ) (capacity : ℚ) (weight : α → ℚ) : Result α :=
  (packLoop (firstFitSel capacity) weight items (State.init bins)).result

/-- `binpack.py:98-114`. -/
def worstFit (items : List α) (bins : ℕ) (capacity : ℚ) (weight : α → ℚ) : Result α :=
  (packLoop (worstFitSel capacity) weight items (State.init bins)).result

/-- `binpack.py:116-133`. -/
def almostWorstFit (items : List α) (bins : ℕ) (capacity : ℚ) (weight : α → ℚ) : Result α :=
  (packLoop (almostWorstFitSel capacity) weight items (State.init bins)).result

/-- `binpack.py:148-167` with `create_on_demand = True`: instead of reporting a
misfit a new bin with the item is appended. -/
def bestFitDemandLoop (capacity : ℚ) (weight : α → ℚ) : List α → State α → State α
  | [], s => s
  | x :: xs, s =>
    match bestFitSel capacity s.sums (weight x) with
    | some i => bestFitDemandLoop capacity weight xs (s.place i x (weight x))
    | none => bestFitDemandLoop capacity weight xs
        { s with sets := s.sets ++ [[x]], sums := s.sums ++ [weight x] }

/-- `binpack.py:135-167`; `bins = 0` means bins on demand, starting with one. -/
def bestFit (items : List α) (bins : ℕ) (capacity : ℚ) (weight : α → ℚ) : Result α :=
  if bins ≠ 0 then
    (packLoop (bestFitSel capacity) weight items (State.init bins)).result
  else
    (bestFitDemandLoop capacity weight items (State.init 1)).result

/-- `binpack.py:72-77`: the inner `while` of `next_fit` with `left` bins after
the current one.  Returns the new `cur` and `sum`, or `none` when it ran out of
bins (`cur == bins`). -/
def nextFitAdvance (capacity c : ℚ) : (left cur : ℕ) → (sum : ℚ) → Option (ℕ × ℚ)
  | 0, cur, sum => if sum + c > capacity then none else some (cur, sum)
  | left + 1, cur, sum =>
    if sum + c > capacity then nextFitAdvance capacity c left (cur + 1) 0
    else some (cur, sum)

/-- `binpack.py:70-80`: the item loop of `next_fit` with `cur < bins`.  After the
first misfit the function returns at once. -/
def nextFitLoop (bins : ℕ) (capacity : ℚ) (weight : α → ℚ) :
    List α → (cur : ℕ) → (sum : ℚ) → List (List α) → Result α
  | [], _, _, sets => ⟨sets, []⟩
  | x :: xs, cur, sum, sets =>
    match nextFitAdvance capacity (weight x) (bins - 1 - cur) cur sum with
    | none => ⟨sets, [x]⟩
    | some (cur', sum') =>
      nextFitLoop bins capacity weight xs cur' (sum' + weight x)
        (sets.modify cur' (· ++ [x]))

/-- `binpack.py:65-80` for at least one bin.  (With `bins = 0` and some item the
code raises `IndexError` or does not terminate: `none`.) -/
def nextFit (items : List α) (bins : ℕ) (capacity : ℚ) (weight : α → ℚ) :
    Option (Result α) :=
  if bins = 0 ∧ items ≠ [] then none
  else some (nextFitLoop bins capacity weight items 0 0 (List.replicate bins []))

/-- `binpack.py:169-180`.  Each heuristic is called with `report_failure`, which
raises `DidNotFit` at the first misfit; the exception of the last heuristic is
the one reported afterwards. -/
def anyFit (items : List α) (bins : ℕ) (capacity : ℚ) (weight : α → ℚ) :
    Option (Result α) :=
  match nextFit items bins capacity weight with
  | none => none
  | some nf =>
    let rs := [nf, firstFit items bins capacity weight, worstFit items bins capacity weight,
      almostWorstFit items bins capacity weight, bestFit items bins capacity weight]
    match rs.find? (fun r => r.misfits.isEmpty) with
    | some r => some r
    | none => some ⟨nf.sets, (bestFit items bins capacity weight).misfits.take 1 ++ nf.misfits⟩

/-- `items_sorted.sort(key=weight, reverse=True)` (`binpack.py:185-186`). -/
def sortItemsDesc (weight : α → ℚ) (items : List α) : List α :=
  items.insertionSort (fun a b => weight b ≤ weight a)

/-- `binpack.py:182-188`. -/
def decreasing {β : Type} (algorithm : List α → ℕ → ℚ → (α → ℚ) → β)
    (items : List α) (bins : ℕ) (capacity : ℚ) (weight : α → ℚ) : β :=
  algorithm (sortItemsDesc weight items) bins capacity weight

/-- `binpack.py:190`. -/
def nextFitDecreasing : List α → ℕ → ℚ → (α → ℚ) → Option (Result α) := decreasing nextFit
/-- `binpack.py:191`. -/
def firstFitDecreasing : List α → ℕ → ℚ → (α → ℚ) → Result α := decreasing firstFit
/-- `binpack.py:192`. -/
def worstFitDecreasing : List α → ℕ → ℚ → (α → ℚ) → Result α := decreasing worstFit
/-- `binpack.py:193`. -/
def bestFitDecreasing : List α → ℕ → ℚ → (α → ℚ) → Result α := decreasing bestFit
/-- `binpack.py:194`. -/
def almostWorstFitDecreasing : List α → ℕ → ℚ → (α → ℚ) → Result α := decreasing almostWorstFit
/-- `binpack.py:195`. -/
def anyFitDecreasing : List α → ℕ → ℚ → (α → ℚ) → Option (Result α) := decreasing anyFit

/-- `binpack.py:62-63` (`value`). -/
def value (sets : List (List α)) (weight : α → ℚ) : ℚ :=
  (sets.map (fun s => (s.map weight).sum)).sum

end Verif.Binpack
