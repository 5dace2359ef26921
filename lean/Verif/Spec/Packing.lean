/-
Specification: what it means to be a packing.
-/
import Mathlib.Algebra.Order.Field.Rat
import Mathlib.Algebra.BigOperators.Group.List.Basic
import Mathlib.Data.List.Flatten

namespace Verif.Spec

variable {α : Type}

/-- The load of a bin. -/
def load (weight : α → ℚ) (bin : List α) : ℚ := (bin.map weight).sum

/-- No bin is loaded beyond the capacity. -/
def WithinCapacity (weight : α → ℚ) (capacity : ℚ) (bins : List (List α)) : Prop :=
  ∀ b ∈ bins, load weight b ≤ capacity

/-- Every item is in exactly one bin or was reported exactly once (as
multisets). -/
def Conserves (items : List α) (bins : List (List α)) (misfits : List α) : Prop :=
  (bins.flatten ++ misfits).Perm items

end Verif.Spec
