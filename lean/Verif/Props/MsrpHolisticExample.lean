/-
C100: the tasks and the run of `MsrpExample`, with the holistic analysis.
-/
import Verif.Props.MsrpExample
import Verif.Props.MsrpHolistic

namespace Verif.SR.Msrp
open Spec

/-- The analysis accepts the tasks, with response times of 5 on processor 0 and 4 on processor 1, which are no
longer than assumed, and there is a run in which a job spins. -/
example : ((Fp.boundResponseTimes 20 1 (afterMsrpHolistic (exInfo 5) noCpu 0)).map
      (fun r => (r.1, r.2.map Prod.snd)) = some (true, [5, 5])) ∧
    ((Fp.boundResponseTimes 20 1 (afterMsrpHolistic (exInfo 5) noCpu 1)).map
      (fun r => (r.1, r.2.map Prod.snd)) = some (true, [4])) ∧
    (∀ t ∈ exInfo 5, 0 < t.period ∧ t.deadline ≤ t.response ∧ (t.cluster : ℤ) ≠ noCpu) ∧
    (exInfo 5).Pairwise (fun a b => a.cluster = b.cluster → a.priority < b.priority) ∧
    ∃ R, MsrpFp (system (exInfo 5)) (fun i => ((exInfo 5).get i).priority) R ∧
      (∀ s, R.issued s → R.enter s < R.acquire s → R.acquire s < R.leave s) ∧
      ∃ s, R.issued s ∧ R.enter s < R.acquire s := by
  refine ⟨by decide +kernel, by decide +kernel, by decide, by decide, exRun, ?_, ?_, ?_⟩
  · have := msrpFp_exRun 5 (fun i => ((exInfo 5).get i).priority)
    rw [← system_exInfo] at this
    exact this
  · intro s _ h
    simp only [exRun] at h ⊢
    split_ifs at h ⊢
    · omega
    · omega
  · exact ⟨⟨((1 : Fin 3), 0), 0, 0⟩, ⟨show (1 : Fin 3) ≠ 0 by decide, rfl, rfl, rfl⟩, show 0 < 2 by omega⟩

/-- Tasks 0 and 2 share a local resource, and tasks 1 and 3 a global one. -/
def localInfo : Info :=
  [⟨0, 20, 20, 20, 0, 1, [⟨1, 1, 1, false⟩]⟩, ⟨1, 20, 20, 20, 0, 2, [⟨0, 1, 2, false⟩]⟩,
    ⟨2, 20, 20, 20, 0, 7, [⟨1, 1, 6, false⟩]⟩, ⟨1, 20, 20, 20, 1, 2, [⟨0, 1, 2, false⟩]⟩]

/-- The local resource is found, and its longest request blocks tasks 0 and 1. -/
example : localResources localInfo = [1] ∧
    (msrpHolistic localInfo noCpu).map (fun b => (b.remote.total, b.arrival.total)) =
      [(0, 6), (2, 6), (0, 0), (2, 0)] := by decide +kernel

end Verif.SR.Msrp
