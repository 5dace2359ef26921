import Verif.Spec.Dflp
import Verif.Lemmas.JobTable

/-! Tables of jobs that are runs of the DFLP: requests are listed in the order in which they are issued. -/

namespace Verif.Spec.JTable
open Finset
variable {n : ℕ} {T : JTable n} {S : LockSystem n} {loc : ℕ → ℕ}

/-- The position of a request in the table. -/
def ticket (T : JTable n) (s : Section n) : ℕ := T.secs.findIdx (fun c => c.sec = s)

/-- Requests are listed, and served on each processor, in the order in which they are issued. -/
def FifoOk (T : JTable n) (S : LockSystem n) (loc : ℕ → ℕ) : Prop :=
  (∀ c ∈ T.secs, ∀ c' ∈ T.secs, c.enter < c'.enter → T.ticket c.sec < T.ticket c'.sec) ∧
  ∀ c ∈ T.secs, ∀ t ∈ Ico c.enter c.leave, c.job ∉ T.at_ t →
    ∃ c' ∈ T.secs, c'.job ∈ T.at_ t ∧ c'.Ow t ∧ c'.cpu S loc = c.cpu S loc ∧ T.ticket c'.sec < T.ticket c.sec

instance (T : JTable n) (S : LockSystem n) (loc : ℕ → ℕ) : Decidable (T.FifoOk S loc) := by
  unfold FifoOk
  infer_instance

theorem ReqOk.dflp (h : T.ReqOk n S) {prio : Fin n → ℕ} (h1 : T.OneOk S loc) (h2 : T.FifoOk S loc)
    (h4 : T.JobOk S prio loc) (h5 : T.PromptOk S prio loc) : Dflp S prio loc T.ticket (T.run S) where
  toRequestRun := h.requestRun
  one := h.one h1
  tickets := by
    rintro s s' ⟨c, hc, rfl⟩ ⟨c', hc', rfl⟩ hlt
    rw [h.enter_eq hc, h.enter_eq hc'] at hlt
    exact h2.1 c hc c' hc' hlt
  agents := by
    rintro s r t ⟨c, hc, rfl⟩ h5 h6 h7 hf
    rw [h.enter_eq hc] at h5
    rw [h.leave_eq hc] at h6
    rw [mem_run] at h7
    obtain ⟨c', hc', a1, a2, a3, a4⟩ := h2.2 c hc t (mem_Ico.2 ⟨h5, h6⟩) h7
    obtain ⟨r', hr'⟩ := h.exists_for hc'
    rw [cpu_iff hf, cpu_iff hr'] at a3
    exact ⟨c'.sec, r', a1, (h.owns_iff hc').2 a2, hr', Option.some.inj a3, a4⟩
  jobs := h.jobs_ok h4
  issue := h.issue_ok h5

end Verif.Spec.JTable
