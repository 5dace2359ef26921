/-
Model of `schedcat/mapping/rollback.py`: bins with tentative assignment and
rollback, and the heuristics built on them.
-/
import Mathlib.Algebra.Order.Ring.Rat
import Mathlib.Data.List.Sort
import Mathlib.Algebra.BigOperators.Group.List.Basic

namespace Verif.Rollback

/-! ## A single bin -/

/-- The lifecycle methods of a bin, `rollback.py:46-98`.  `σ` is the state of
the bin object and `ι` the type of the items; `temporary_assign` may also change
the item (`DuctileBin`, lines 190-194), so it returns the item too.
`validate` may consult the outside world (line 131), which is folded into the
state `σ`. -/
structure BinClass (σ ι : Type) where
  prepare : σ → σ
  temporaryAssign : σ → ι → σ × ι
  validate : σ → Bool
  commit : σ → σ
  rollback : σ → σ

/-- `BasicBin.try_to_add`, `rollback.py:77-85`. -/
def BinClass.tryToAdd {σ ι : Type} (C : BinClass σ ι) (s : σ) (x : ι) : Bool × σ × ι :=
  let s1 := C.prepare s
  let (s2, x') := C.temporaryAssign s1 x
  let didItFit := C.validate s2
  if didItFit then (true, C.commit s2, x') else (false, C.rollback s2, x')

/-- `BasicBin.try_to_add_no_commit`, `rollback.py:87-94`. -/
def BinClass.tryToAddNoCommit {σ ι : Type} (C : BinClass σ ι) (s : σ) (x : ι) : Bool × σ × ι :=
  let s1 := C.prepare s
  let (s2, x') := C.temporaryAssign s1 x
  let didItFit := C.validate s2
  if didItFit then (true, s2, x') else (false, C.rollback s2, x')

/-- `BasicBin`, `rollback.py:46-75`: the state is the list `self.items`;
`list.pop()` is `List.dropLast` (it is only called after an `append`). -/
def basicBin (α : Type) : BinClass (List α) α where
  prepare := fun items => items
  temporaryAssign := fun items x => (items ++ [x], x)
  validate := fun _ => true
  commit := fun items => items
  rollback := fun items => items.dropLast

/-- `Bin.allocated_capacity`, `rollback.py:114-115`. -/
def allocated {α : Type} (size : α → ℚ) (items : List α) : ℚ := (items.map size).sum

/-- `Bin`, `rollback.py:101-121`. -/
def bin {α : Type} (size : α → ℚ) (capacity : ℚ) : BinClass (List α) α where
  prepare := fun items => items
  temporaryAssign := fun items x => (items ++ [x], x)
  validate := fun items => decide (allocated size items ≤ capacity)
  commit := fun items => items
  rollback := fun items => items.dropLast

/-- `GlobalConstraintBin`, `rollback.py:124-131`.  `globalValidate` is the
closure of line 128, as a function of the items currently in this bin (its
other inputs do not change during a call). -/
def globalConstraintBin {α : Type} (size : α → ℚ) (capacity : ℚ)
    (globalValidate : List α → Bool) : BinClass (List α) α where
  prepare := fun items => items
  temporaryAssign := fun items x => (items ++ [x], x)
  validate := fun items => decide (allocated size items ≤ capacity) && globalValidate items
  commit := fun items => items
  rollback := fun items => items.dropLast

/-- `DuctileItem`, `rollback.py:134-154`: a mutable item is its current state;
`updateSize x added items` is the state of `x` after
`x.update_size(added, bin)`, `determineSize x items` after
`x.determine_size(bin)`.  `copy` (line 142) is assumed to return an object in
the same state. -/
structure Ductile (ι : Type) where
  size : ι → ℚ
  updateSize : ι → ι → List ι → ι
  determineSize : ι → List ι → ι

/-- State of a `DuctileBin`: `self.items` and `self.saved_items`. -/
structure DuctileState (ι : Type) where
  items : List ι
  saved : Option (List ι)
deriving DecidableEq

/-- The loop of `DuctileBin.temporary_assign`, `rollback.py:191-192`: items are
updated in place from left to right, each seeing the bin with the items before
it already updated. -/
def updateLoop {ι : Type} (D : Ductile ι) (x : ι) : List ι → List ι → List ι
  | done, [] => done
  | done, obj :: rest => updateLoop D x (done ++ [D.updateSize obj x (done ++ obj :: rest)]) rest

/-- `DuctileBin`, `rollback.py:176-198`.  A rollback without a previous
`prepare` would set `items` to `None`; the model keeps the items in that
(unreachable) case. -/
def ductileBin {ι : Type} (D : Ductile ι) (capacity : ℚ) : BinClass (DuctileState ι) ι where
  prepare := fun s => { items := s.items, saved := some s.items }
  temporaryAssign := fun s x =>
    let items := updateLoop D x [] s.items
    let x' := D.determineSize x items
    ({ s with items := items ++ [x'] }, x')
  validate := fun s => decide ((s.items.map D.size).sum ≤ capacity)
  commit := fun s => s
  rollback := fun s => match s.saved with
    | some old => { items := old, saved := none }
    | none => s

/-- The states of `CheckedBin`, `rollback.py:204-207`. -/
inductive Phase | stable | prepped | assigned | validated
deriving DecidableEq

/-- `CheckedBin.prepare`, `rollback.py:217-220`; `none` is a failed assertion. -/
def checkedPrepare {σ ι : Type} (C : BinClass σ ι) (s : Phase × σ) : Option (Phase × σ) :=
  if s.1 = .stable then some (.prepped, C.prepare s.2) else none

/-- `CheckedBin.temporary_assign`, `rollback.py:222-225`. -/
def checkedAssign {σ ι : Type} (C : BinClass σ ι) (s : Phase × σ) (x : ι) :
    Option ((Phase × σ) × ι) :=
  if s.1 = .prepped then
    let (t, x') := C.temporaryAssign s.2 x
    some ((.assigned, t), x')
  else none

/-- `CheckedBin.validate`, `rollback.py:227-231`. -/
def checkedValidate {σ ι : Type} (C : BinClass σ ι) (s : Phase × σ) : Option (Bool × (Phase × σ)) :=
  if s.1 = .assigned then some (C.validate s.2, (.validated, s.2)) else none

/-- `CheckedBin.commit`, `rollback.py:233-236`. -/
def checkedCommit {σ ι : Type} (C : BinClass σ ι) (s : Phase × σ) : Option (Phase × σ) :=
  if s.1 = .validated then some (.stable, C.commit s.2) else none

/-- `CheckedBin.rollback`, `rollback.py:238-241`. -/
def checkedRollback {σ ι : Type} (C : BinClass σ ι) (s : Phase × σ) : Option (Phase × σ) :=
  if s.1 = .validated then some (.stable, C.rollback s.2) else none

/-- `BasicBin.try_to_add` (lines 77-85) run on a `CheckedBin`. -/
def checkedTryToAdd {σ ι : Type} (C : BinClass σ ι) (s : Phase × σ) (x : ι) :
    Option (Bool × (Phase × σ) × ι) := do
  let s1 ← checkedPrepare C s
  let (s2, x') ← checkedAssign C s1 x
  let (ok, s3) ← checkedValidate C s2
  if ok then
    let s4 ← checkedCommit C s3
    pure (true, s4, x')
  else
    let s4 ← checkedRollback C s3
    pure (false, s4, x')

/-! ## Heuristics

The bins are the list of their item lists; everything else a heuristic can ask
a bin is a parameter, so the model covers `BasicBin`, `Bin`,
`GlobalConstraintBin` and user-defined subclasses whose items do not change.
A bin is identified by its index.  All bins are assumed to be distinct
objects. -/

/-- What the heuristics use of a bin.  `validate` sees the items of all bins, as
a `global_validate` closure (line 131) may. -/
structure BinOps (α : Type) where
  infeasible : ℕ → List α → α → Bool
  validate : List (List α) → ℕ → Bool
  spare : ℕ → List α → ℚ

/-- `Bin` (lines 101-121) and `GlobalConstraintBin` (124-131) with a common
size function and a capacity per bin. -/
def fixedOps {α : Type} (size : α → ℚ) (capacity : ℕ → ℚ) (globalOk : List (List α) → Bool) :
    BinOps α where
  infeasible := fun i items x => decide (size x > capacity i - allocated size items)
  validate := fun bins i =>
    decide (allocated size (bins.getD i []) ≤ capacity i) && globalOk bins
  spare := fun i items => capacity i - allocated size items

/-- `temporary_assign` of the item to bin `i` (line 62). -/
def assign {α : Type} (bins : List (List α)) (i : ℕ) (x : α) : List (List α) :=
  bins.modify i (· ++ [x])

/-- `rollback` of bin `i` (line 75). -/
def undo {α : Type} (bins : List (List α)) (i : ℕ) : List (List α) :=
  bins.modify i List.dropLast

/-- `bins[i].try_to_add(x)`, `rollback.py:77-85`. -/
def tryAdd {α : Type} (ops : BinOps α) (bins : List (List α)) (i : ℕ) (x : α) :
    Bool × List (List α) :=
  let tentative := assign bins i x
  if ops.validate tentative i then (true, tentative) else (false, undo tentative i)

/-- `Heuristic.try_to_place_item`, `rollback.py:256-260`, over a given sequence
of bin indices, skipping the bins where the item is infeasible (lines 309 and
360; the check happens when the generator reaches the bin). -/
def tryBins {α : Type} (ops : BinOps α) (x : α) :
    List ℕ → List (List α) → Bool × List (List α)
  | [], bins => (false, bins)
  | i :: rest, bins =>
    if ops.infeasible i (bins.getD i []) x then tryBins ops x rest bins
    else match tryAdd ops bins i x with
      | (true, bins') => (true, bins')
      | (false, bins') => tryBins ops x rest bins'

/-- State of a `Heuristic` object (lines 247-251, 292-294); `remaining_items` is
empty between calls. -/
structure HState (α : Type) where
  bins : List (List α)
  misfits : List α
  cur : ℕ
deriving DecidableEq

/-- `FirstFit`, `rollback.py:305-310`. -/
def firstFitPlace {α : Type} (ops : BinOps α) (bins : List (List α)) (cur : ℕ) (x : α) :
    Bool × List (List α) × ℕ :=
  let (ok, bins') := tryBins ops x (List.range bins.length) bins
  (ok, bins', cur)

/-- `NextFit`, `rollback.py:291-302`.  The generator increments `cur_index` only
when it is resumed, i.e. after a failed attempt. `fuel` is the number of bins
from `cur_index` on. -/
def nextFitPlaceFrom {α : Type} (ops : BinOps α) (x : α) :
    ℕ → List (List α) → ℕ → Bool × List (List α) × ℕ
  | 0, bins, cur => (false, bins, cur)
  | fuel + 1, bins, cur =>
    if ops.infeasible cur (bins.getD cur []) x then nextFitPlaceFrom ops x fuel bins (cur + 1)
    else match tryAdd ops bins cur x with
      | (true, bins') => (true, bins', cur)
      | (false, bins') => nextFitPlaceFrom ops x fuel bins' (cur + 1)

/-- `NextFit.select_bins_for_item` within `try_to_place_item`,
`rollback.py:296-302`. -/
def nextFitPlace {α : Type} (ops : BinOps α) (bins : List (List α)) (cur : ℕ) (x : α) :
    Bool × List (List α) × ℕ :=
  nextFitPlaceFrom ops x (bins.length - cur) bins cur

/-- The loop of `FitBased.try_to_place_item`, `rollback.py:321-328`: tentative
assignments accumulate in `packed`. -/
def fitLoop {α : Type} (ops : BinOps α) (x : α) :
    List ℕ → List (List α) → List ℕ → List (List α) × List ℕ
  | [], bins, packed => (bins, packed)
  | i :: rest, bins, packed =>
    let tentative := assign bins i x
    if ops.validate tentative i then fitLoop ops x rest tentative (packed ++ [i])
    else fitLoop ops x rest (undo tentative i) packed

/-- `FitBased.try_to_place_item`, `rollback.py:313-342`; `selectRemainder` is
`max` or `min` (lines 345-352). -/
def fitBasedPlace {α : Type} (selectRemainder : List ℚ → Option ℚ) (ops : BinOps α)
    (bins : List (List α)) (cur : ℕ) (x : α) : Bool × List (List α) × ℕ :=
  let candidates := (List.range bins.length).filter
    (fun i => ! ops.infeasible i (bins.getD i []) x)
  let (bins1, packed) := fitLoop ops x candidates bins []
  let remainders := packed.map (fun i => ops.spare i (bins1.getD i []))
  match selectRemainder remainders with
  | none => (false, bins1, cur)
  | some r =>
    let best := packed.getD (remainders.idxOf r) 0
    let bins2 := (packed.filter (fun i => i ≠ best)).foldl undo bins1
    (true, bins2, cur)

/-- `WorstFit`, `rollback.py:345-347`. -/
def worstFitPlace {α : Type} (ops : BinOps α) := fitBasedPlace (α := α) (fun l => l.max?) ops

/-- `BestFit`, `rollback.py:350-352`. -/
def bestFitPlace {α : Type} (ops : BinOps α) := fitBasedPlace (α := α) (fun l => l.min?) ops

/-- `MaxSpareCapacity`, `rollback.py:355-371`: Python's sort is stable, also with
`reverse=True`. -/
def maxSparePlace {α : Type} (ops : BinOps α) (bins : List (List α)) (cur : ℕ) (x : α) :
    Bool × List (List α) × ℕ :=
  let order := (List.range bins.length).insertionSort
    (fun i j => ops.spare j (bins.getD j []) ≤ ops.spare i (bins.getD i []))
  let (ok, bins') := tryBins ops x order bins
  (ok, bins', cur)

/-- `MinSpareCapacity`, `rollback.py:355-362,373-379`. -/
def minSparePlace {α : Type} (ops : BinOps α) (bins : List (List α)) (cur : ℕ) (x : α) :
    Bool × List (List α) × ℕ :=
  let order := (List.range bins.length).insertionSort
    (fun i j => ops.spare i (bins.getD i []) ≤ ops.spare j (bins.getD j []))
  let (ok, bins') := tryBins ops x order bins
  (ok, bins', cur)

/-- The outcome of `Heuristic.binpack`: new state, returned count, and the items
passed to `report_misfit`. -/
structure Outcome (α : Type) where
  state : HState α
  count : ℕ
  reported : List α
deriving DecidableEq

/-- One round of the loop of `Heuristic.binpack`, `rollback.py:268-287`;
`canMake` says whether `make_bin` was given. -/
def step {α : Type} (place : List (List α) → ℕ → α → Bool × List (List α) × ℕ) (ops : BinOps α)
    (canMake : Bool) (o : Outcome α) (x : α) : Outcome α :=
  match place o.state.bins o.state.cur x with
  | (true, bins, cur) =>
    { o with state := { o.state with bins := bins, cur := cur }, count := o.count + 1 }
  | (false, bins, cur) =>
    let (madeSpace, bins') :=
      if canMake then tryAdd ops (bins ++ [[]]) bins.length x else (false, bins)
    if !madeSpace then
      { state := { bins := bins', misfits := o.state.misfits ++ [x], cur := cur },
        count := o.count, reported := o.reported ++ [x] }
    else
      { o with state := { o.state with bins := bins', cur := cur }, count := o.count + 1 }

/-- `Heuristic.binpack`, `rollback.py:262-288`. -/
def binpack {α : Type} (place : List (List α) → ℕ → α → Bool × List (List α) × ℕ) (ops : BinOps α)
    (canMake : Bool) (s : HState α) (items : List α) : Outcome α :=
  items.foldl (step place ops canMake) { state := s, count := 0, reported := [] }

/-! ## `FitBased` on ductile bins

The same item object is placed in several bins at once, so its state is shared:
each `determine_size` call overwrites it (`rollback.py:193` within the loop at
322-328).  A bin is its own (copied) items plus a flag telling whether the
shared new item is currently at its end. -/

/-- A ductile bin during `FitBased.try_to_place_item`. -/
structure SharedBin (ι : Type) where
  items : List ι
  saved : List ι
  hasNew : Bool
deriving DecidableEq

/-- `sum(size(x) for x in self.items)` with the shared item in state `x`. -/
def SharedBin.load {ι : Type} (D : Ductile ι) (b : SharedBin ι) (x : ι) : ℚ :=
  (b.items.map D.size).sum + if b.hasNew then D.size x else 0

/-- Lines 322-328 for ductile bins: candidate indices, bins, state of the new
item, `packed`. -/
def ductileFitLoop {ι : Type} (D : Ductile ι) (capacity : ℚ) :
    List ℕ → List (SharedBin ι) → ι → List ℕ → List (SharedBin ι) × ι × List ℕ
  | [], bins, x, packed => (bins, x, packed)
  | i :: rest, bins, x, packed =>
    let b := bins.getD i ⟨[], [], false⟩
    let items := updateLoop D x [] b.items
    let x' := D.determineSize x items
    let b' : SharedBin ι := ⟨items, b.items, true⟩
    if b'.load D x' ≤ capacity then
      ductileFitLoop D capacity rest (bins.set i b') x' (packed ++ [i])
    else
      ductileFitLoop D capacity rest (bins.set i ⟨b.items, b.items, false⟩) x' packed

/-- `FitBased.try_to_place_item` on `DuctileBin`s of equal capacity; the result
is the list of bins after the call (`rollback.py:313-342` with 176-198). -/
def ductileFitPlace {ι : Type} (selectRemainder : List ℚ → Option ℚ) (D : Ductile ι) (capacity : ℚ)
    (bins : List (List ι)) (x : ι) : Bool × List (List ι) :=
  let candidates := (List.range bins.length).filter
    (fun i => decide (D.size x ≤ capacity - ((bins.getD i []).map D.size).sum))
  let (bins1, x1, packed) := ductileFitLoop D capacity candidates
    (bins.map (fun items => ⟨items, items, false⟩)) x []
  let remainders := packed.map (fun i => capacity - (bins1.getD i ⟨[], [], false⟩).load D x1)
  match selectRemainder remainders with
  | none => (false, bins1.map (·.items))
  | some r =>
    let best := packed.getD (remainders.idxOf r) 0
    (true, (List.range bins1.length).map (fun i =>
      let b := bins1.getD i ⟨[], [], false⟩
      if i = best then b.items ++ [x1] else if b.hasNew then b.saved else b.items))

end Verif.Rollback
