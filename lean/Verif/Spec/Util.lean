/-
Specification of `Storage` objects (C157): what was written last.
-/
import Verif.Model.Util

namespace Verif.Spec
open Verif.Util

variable {V : Type}

/-- The name that an operation concerns. -/
def opName : Op V → String
  | .setAttr k _ => k
  | .setItem k _ => k
  | .delAttr k => k
  | .delItem k => k

/-- In the history, `v` was stored under the name, as an attribute or as an item, and no later operation concerns the name. -/
def LastWritten (h : List (Op V)) (name : String) (v : V) : Prop :=
  ∃ a w b, h = a ++ w :: b ∧ (w = .setAttr name v ∨ w = .setItem name v) ∧ ∀ o ∈ b, opName o ≠ name

end Verif.Spec
