/-
Specification of nested critical sections.
-/
import Verif.Model.NestedCs
import Mathlib.Logic.Relation

namespace Verif.Nested

/-- The lists of critical sections that can be built by successive calls of `add`. -/
inductive Built : TaskCs → Prop
  | nil : Built []
  | add {cs cs' : TaskCs} {res len : ℕ} {outer : Option ℕ} :
      Built cs → add cs res len outer = some cs' → Built cs'

/-- Critical section `i` is contained directly in critical section `j`. -/
def Inside (cs : TaskCs) (i j : ℕ) : Prop := ∃ c, cs[i]? = some c ∧ c.outer = some j

/-- A job inside critical section `i` holds resource `q` due to a critical section that
contains section `i`. -/
def HeldAround (cs : TaskCs) (i q : ℕ) : Prop :=
  ∃ j c, Relation.TransGen (Inside cs) i j ∧ cs[j]? = some c ∧ c.res = q

/-- Some task requests resource `r` directly inside a critical section of `q`. -/
def RequestsWithin (tsks : List TaskCs) (q r : ℕ) : Prop :=
  ∃ t ∈ tsks, ∃ (i j : ℕ) (c p : CritSec), t[i]? = some c ∧ c.outer = some j ∧ t[j]? = some p ∧
    p.res = q ∧ c.res = r

/-- Resource `r` is requested while a resource is held that is requested … while `q` is
held: a chain of one or more nested requests. -/
def MayRequest (tsks : List TaskCs) : ℕ → ℕ → Prop :=
  Relation.TransGen (RequestsWithin tsks)

/-- Resource `q` is requested by some task. -/
def Requested (tsks : List TaskCs) (q : ℕ) : Prop := ∃ t ∈ tsks, ∃ c ∈ t, c.res = q

end Verif.Nested
