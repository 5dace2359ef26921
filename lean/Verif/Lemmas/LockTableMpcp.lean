import Verif.Lemmas.LockTableFmlp
import Verif.Spec.Mpcp

/-! Finite runs of the MPCP, given by a table. -/

namespace Verif.Spec

instance {n : ℕ} (S : LockSystem n) (i : Fin n) (r : ℕ) : Decidable (S.Uses i r) := by
  unfold LockSystem.Uses
  infer_instance

instance {n : ℕ} (S : LockSystem n) (prio : Fin n → ℕ) (c r r' : ℕ) : Decidable (S.CeilingGe prio c r r') := by
  unfold LockSystem.CeilingGe
  infer_instance

namespace Table
open Finset

variable {n : ℕ} {T : Table n} {m : ℕ} {S : LockSystem n}

/-- No job issues a request past a more urgent job of its processor. -/
def Issue (T : Table n) (S : LockSystem n) (prio : Fin n → ℕ) (c : Sec n) (i : Fin n) : Prop :=
  0 < c.enter ∧ S.proc i = S.proc c.task ∧ prio i < prio c.task ∧ T.Rdy i (c.enter - 1) ∧
    (∀ c' ∈ T.secs, c'.task = i → ¬ c'.Wt (c.enter - 1)) ∧ T.Rdy i c.enter →
      ∃ c' ∈ T.secs, c'.task = i ∧ c'.Wt c.enter

instance (T : Table n) (S : LockSystem n) (prio : Fin n → ℕ) (c : Sec n) (i : Fin n) :
    Decidable (T.Issue S prio c i) := by
  unfold Issue
  infer_instance

/-- What has to be checked for the MPCP. -/
def MpcpOk (T : Table n) (S : LockSystem n) (prio : Fin n → ℕ) : Prop :=
  (∀ c ∈ T.secs, ∀ c' ∈ T.secs, c.res S = c'.res S → c.enter < c'.acquire → c'.acquire < c.acquire →
    prio c'.task ≤ prio c.task) ∧
  (∀ t ∈ range T.slots.length, ∀ i, T.Rdy i t → i ∉ T.at_ t → (∀ c ∈ T.secs, c.task = i → ¬ c.Wt t) →
    ∃ i' ∈ T.at_ t, S.proc i' = S.proc i ∧ ((∃ c' ∈ T.secs, c'.task = i' ∧ c'.Ow t ∧
      ∀ c ∈ T.secs, c.task = i → c.Ow t → S.CeilingGe prio (S.proc i) ((c'.res S).getD 0) ((c.res S).getD 0)) ∨
      (∀ c ∈ T.secs, c.task = i → ¬ c.Ow t) ∧ prio i' ≤ prio i)) ∧
  (∀ c ∈ T.secs, ∀ i, T.Issue S prio c i) ∧
  (∀ c ∈ T.secs, ∀ c' ∈ T.secs, 0 < c.enter → S.proc c'.task = S.proc c.task → c'.task ≠ c.task →
    c'.Ow (c.enter - 1) → ¬ c'.Ow c.enter)

instance (T : Table n) (S : LockSystem n) (prio : Fin n → ℕ) : Decidable (T.MpcpOk S prio) := by
  unfold MpcpOk
  refine @instDecidableAnd _ _ ?_ (@instDecidableAnd _ _ ?_ (@instDecidableAnd _ _ ?_ ?_)) <;> infer_instance

theorem Ok.mpcp (h : T.Ok n S) (hp : T.PartOk S) {prio : Fin n → ℕ} (hf : T.MpcpOk S prio) :
    Mpcp S prio (T.run S) where
  toPartRun := h.part hp
  queue := by
    rintro s s' r ⟨c, hc, rfl⟩ ⟨c', hc', rfl⟩ h1 h2
    rw [h.enter_eq hc, h.acquire_eq hc, h.acquire_eq hc']
    exact hf.1 c hc c' hc' ((for_iff.1 h1).trans (for_iff.1 h2).symm)
  dispatch := by
    rintro t ⟨i, q⟩ hr hn hw
    rw [ready_run] at hr
    obtain ⟨h0, hr⟩ := hr
    simp only at h0 hr
    subst h0
    rw [mem_run] at hn
    obtain ⟨i', hi', hpr, hcase⟩ := hf.2.1 t (mem_range.2 (h.rdy_lt hr)) i hr (fun hm => hn ⟨rfl, hm⟩)
      (fun c hc hi hwt => hw c.sec (by unfold Sec.sec; rw [hi]) ((h.waits_iff hc).2 hwt))
    refine ⟨(i', 0), mem_run.2 ⟨rfl, hi'⟩, hpr, ?_⟩
    rcases hcase with ⟨c', hc', rfl, ho, hle⟩ | ⟨h1, h2⟩
    · obtain ⟨r', hr', _⟩ := (h.same_res hc').1 (rfl : c'.res S = c'.res S)
      refine Or.inl ⟨c'.sec, r', rfl, (h.owns_iff hc').2 ho, hr', ?_⟩
      intro s r hs hos hfr
      obtain ⟨c, hc, rfl⟩ := hos.1
      have := hle c hc (congrArg Prod.fst hs) ((h.owns_iff hc).1 hos)
      rw [for_iff.1 hr', for_iff.1 hfr] at this
      exact this
    · refine Or.inr ⟨?_, h2⟩
      intro s hs hos
      obtain ⟨c, hc, rfl⟩ := hos.1
      exact h1 c hc (congrArg Prod.fst hs) ((h.owns_iff hc).1 hos)
  issue := by
    rintro s ⟨i, q⟩ ⟨c, hc, rfl⟩ h1 h2 h3 h4 h5 h6
    rw [h.enter_eq hc] at h1 h4 h5 h6 ⊢
    rw [ready_run] at h4 h6
    obtain ⟨h0, h4⟩ := h4
    simp only at h0 h4
    subst h0
    obtain ⟨c', hc', he, hw⟩ := hf.2.2.1 c hc i ⟨h1, h2, h3, h4,
      (fun c' hc' he hw => h5 c'.sec (by unfold Sec.sec; rw [he]) ((h.waits_iff hc').2 hw)), h6.2⟩
    exact ⟨c'.sec, by unfold Sec.sec; rw [he], (h.waits_iff hc').2 hw⟩
  boosted := by
    rintro s s' ⟨c, hc, rfl⟩ h1 h2 h3 ho ho'
    obtain ⟨c', hc', rfl⟩ := ho.1
    rw [h.enter_eq hc] at h1 ho ho'
    rw [h.owns_iff hc'] at ho ho'
    exact hf.2.2.2 c hc c' hc' h1 h2 (fun he => h3 (by unfold Sec.sec; rw [he])) ho ho'

end Verif.Spec.Table
