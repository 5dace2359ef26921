/-
Model of `imerge`, `schedcat/util/iter.py:16-34`.

The heap of `heapq` is a multiset of pairs (next element, rest of the iterator).
`heappop` of the standard library is only known by its contract: it removes a
wrapper that is `<=` every other one.  Which of several such wrappers it removes is
left open, so a run is a relation and the theorems hold for every choice.
-/
import Mathlib.Data.List.Perm.Basic
import Mathlib.Order.Defs.Unbundled

namespace Verif

variable {α : Type}

/-- `iter.py:19-24`: one wrapper per iterator that has a first element. -/
def imergeInit : List (List α) → List (α × List α)
  | [] => []
  | [] :: its => imergeInit its
  | (x :: xs) :: its => (x, xs) :: imergeInit its

/-- `iter.py:30-34`: the wrapper is pushed again unless its iterator has ended. -/
def imergePush (rest : List α) (heap : List (α × List α)) : List (α × List α) :=
  match rest with
  | [] => heap
  | x :: xs => (x, xs) :: heap

/-- `iter.py:26-34`: the loop.  `ImergeRun le heap out`: from `heap` the generator may
yield `out`. -/
inductive ImergeRun (le : α → α → Prop) : List (α × List α) → List α → Prop
  | done : ImergeRun le [] []
  | step {heap others : List (α × List α)} {x : α} {rest out : List α}
      (pop : heap.Perm ((x, rest) :: others)) (least : ∀ p ∈ others, le x p.1)
      (next : ImergeRun le (imergePush rest others) out) : ImergeRun le heap (x :: out)

/-- `imerge(le, *its)` may yield `out`. -/
def Imerge (le : α → α → Prop) (its : List (List α)) (out : List α) : Prop :=
  ImergeRun le (imergeInit its) out

end Verif
