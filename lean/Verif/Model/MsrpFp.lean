/-
Model of `apply_msrp_bounds` in `schedcat/locking/bounds.py`.
-/
import Verif.Model.Msrp
import Verif.Model.FpRta

namespace Verif.SR.Msrp

/-- The tasks of processor `k`, in the order of the list of all tasks, after
`apply_msrp_bounds`, `bounds.py:415-425`: spinning is added to the cost and the local blocking is
stored in `blocked`.  (Tasks without a partition, which the function first puts on an
additional partition, are not among them.) -/
def afterMsrpBounds (info : Info) (numCpus k : ℕ) : List Fp.FpTask :=
  (info.zip (msrpBounds info numCpus)).filterMap (fun t =>
    if t.1.cluster = k then
      some { cost := ((t.1.cost + t.2.remote.total : ℕ) : ℚ), period := (t.1.period : ℚ),
             deadline := (t.1.deadline : ℚ), blocked := some (t.2.loc.total : ℚ) }
    else none)

end Verif.SR.Msrp
