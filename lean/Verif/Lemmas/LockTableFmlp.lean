import Verif.Lemmas.LockTable
import Verif.Spec.Fmlp

/-! Finite runs of partitioned systems, given by a table. -/

namespace Verif.Spec.Table
open Finset

variable {n : ℕ} {T : Table n} {m : ℕ} {S : LockSystem n}

/-- Sections of the table for the same resource. -/
theorem Ok.same_res (h : T.Ok m S) {c c' : Sec n} (hc : c ∈ T.secs) :
    c.res S = c'.res S ↔ ∃ r, S.For c.sec r ∧ S.For c'.sec r := by
  constructor
  · intro he
    have h3 := h.1.2.2.1 c hc
    rw [Option.any_eq_true] at h3
    obtain ⟨q, hq, -⟩ := h3
    have hr : c.res S = some q.res := by
      unfold Sec.res; rw [hq]; rfl
    exact ⟨q.res, for_iff.2 hr, for_iff.2 (he ▸ hr)⟩
  · rintro ⟨r, h1, h2⟩
    exact (for_iff.1 h1).trans (for_iff.1 h2).symm

/-- What has to be checked for a partitioned system. -/
def PartOk (T : Table n) (S : LockSystem n) : Prop :=
  (∀ t ∈ range T.slots.length, ∀ i ∈ T.at_ t, ∀ i' ∈ T.at_ t, S.proc i = S.proc i' → i = i') ∧
  ∀ c ∈ T.secs, ∀ c' ∈ T.secs, c.res S = c'.res S → c ≠ c' → c.leave ≤ c'.acquire ∨ c'.leave ≤ c.acquire

instance (T : Table n) (S : LockSystem n) : Decidable (T.PartOk S) := by
  unfold PartOk
  infer_instance

theorem Ok.part (h : T.Ok n S) (hp : T.PartOk S) : PartRun S (T.run S) where
  toSuspendRun := h.suspendRun
  one := by
    rintro t ⟨i, q⟩ hj ⟨i', q'⟩ hj' he
    rw [mem_run] at hj hj'
    obtain ⟨h0, hj⟩ := hj
    obtain ⟨h0', hj'⟩ := hj'
    simp only at h0 h0' hj hj' he
    subst h0 h0'
    have ht : t < T.slots.length := by
      by_contra hc
      rw [at_empty (not_lt.1 hc)] at hj
      simp at hj
    rw [hp.1 t (mem_range.2 ht) i hj i' hj' he]
  mutex := by
    rintro s s' r ⟨c, hc, rfl⟩ ⟨c', hc', rfl⟩ hf hf' hne
    rw [h.acquire_eq hc, h.acquire_eq hc', h.leave_eq hc, h.leave_eq hc']
    exact hp.2 c hc c' hc' ((for_iff.1 hf).trans (for_iff.1 hf').symm) (fun e => hne (e ▸ rfl))

/-- The order of the table. -/
def ticket (T : Table n) (s : Section n) : ℕ := T.secs.findIdx (fun c => c.sec = s)

/-- The job occupies its processor. -/
def Occ (T : Table n) (S : LockSystem n) (i : Fin n) (t : ℕ) : Prop :=
  T.Rdy i t ∧ ∀ c ∈ T.secs, c.task = i → c.Wt t →
    ∃ c' ∈ T.secs, c'.Ow t ∧ c.res S = c'.res S ∧ S.proc c'.task = S.proc c.task

instance (T : Table n) (S : LockSystem n) (i : Fin n) (t : ℕ) : Decidable (T.Occ S i t) :=
  inferInstanceAs (Decidable (_ ∧ _))

theorem Ok.localWait_iff (h : T.Ok m S) {c : Sec n} (hc : c ∈ T.secs) {t : ℕ} :
    (T.run S).LocalWait S c.sec t ↔
      ∃ c' ∈ T.secs, c'.Ow t ∧ c.res S = c'.res S ∧ S.proc c'.task = S.proc c.task := by
  constructor
  · rintro ⟨s', r, ho, hf, hf', hp⟩
    obtain ⟨c', hc', rfl⟩ := ho.1
    exact ⟨c', hc', (h.owns_iff hc').1 ho, (h.same_res hc).2 ⟨r, hf, hf'⟩, hp⟩
  · rintro ⟨c', hc', ho, hr, hp⟩
    obtain ⟨r, h1, h2⟩ := (h.same_res hc).1 hr
    exact ⟨c'.sec, r, (h.owns_iff hc').2 ho, h1, h2, hp⟩

theorem Ok.occ_iff (h : T.Ok m S) {j : Job n} {t : ℕ} :
    (T.run S).Occupies S j t ↔ j.2 = 0 ∧ T.Occ S j.1 t := by
  unfold LockRun.Occupies Occ
  rw [ready_run, and_assoc]
  apply and_congr_right
  intro h0
  apply and_congr_right
  intro _
  constructor
  · intro h1 c hc hi hw
    exact (h.localWait_iff hc).1 (h1 c.sec (by unfold Sec.sec; rw [hi, ← h0]) ((h.waits_iff hc).2 hw))
  · intro h1 s hs hw
    obtain ⟨c, hc, rfl⟩ := hw.1
    exact (h.localWait_iff hc).2 (h1 c hc (congrArg Prod.fst hs) ((h.waits_iff hc).1 hw))

/-- What has to be checked for the FMLP+. -/
def FmlpOk (T : Table n) (S : LockSystem n) (prio : Fin n → ℕ) : Prop :=
  (∀ c ∈ T.secs, ∀ c' ∈ T.secs, c.enter < c'.enter → T.ticket c.sec < T.ticket c'.sec) ∧
  (∀ c ∈ T.secs, ∀ c' ∈ T.secs, c.res S = c'.res S → ∀ t ∈ range T.slots.length, c.Wt t → c'.Ow t →
    T.ticket c'.sec < T.ticket c.sec) ∧
  (∀ t ∈ range T.slots.length, ∀ i, T.Rdy i t → i ∉ T.at_ t → (∀ c ∈ T.secs, c.task = i → ¬ c.Wt t) →
    ∃ i' ∈ T.at_ t, S.proc i' = S.proc i ∧ ((∃ c' ∈ T.secs, c'.task = i' ∧ c'.Ow t ∧
      ∀ c ∈ T.secs, c.task = i → c.Ow t → T.ticket c'.sec ≤ T.ticket c.sec) ∨
      (∀ c ∈ T.secs, c.task = i → ¬ c.Ow t) ∧ prio i' ≤ prio i)) ∧
  (∀ c ∈ T.secs, ∀ i, 0 < c.enter → S.proc i = S.proc c.task → prio i < prio c.task → T.Occ S i (c.enter - 1) →
    T.Rdy i c.enter → ¬ T.Occ S i c.enter ∧
      ∀ c' ∈ T.secs, c'.task = i → c'.Wt c.enter → T.ticket c'.sec < T.ticket c.sec)

instance (T : Table n) (S : LockSystem n) (prio : Fin n → ℕ) : Decidable (T.FmlpOk S prio) := by
  unfold FmlpOk
  refine @instDecidableAnd _ _ ?_ (@instDecidableAnd _ _ ?_ (@instDecidableAnd _ _ ?_ ?_)) <;> infer_instance

theorem Ok.fmlp (h : T.Ok n S) (hp : T.PartOk S) {prio : Fin n → ℕ} (hf : T.FmlpOk S prio) :
    FmlpPlus S prio T.ticket (T.run S) where
  toPartRun := h.part hp
  tickets := by
    rintro s s' ⟨c, hc, rfl⟩ ⟨c', hc', rfl⟩ hlt
    rw [h.enter_eq hc, h.enter_eq hc'] at hlt
    exact hf.1 c hc c' hc' hlt
  fifo := by
    rintro s s' r t hw ho h1 h2
    have ht : t < T.slots.length := h.rdy_lt (ready_run.1 (h.suspendRun.active s t hw.1 hw.2.1
      (lt_of_lt_of_le hw.2.2 (h.suspendRun.order s hw.1).2))).2
    obtain ⟨c, hc, rfl⟩ := hw.1
    obtain ⟨c', hc', rfl⟩ := ho.1
    exact hf.2.1 c hc c' hc' ((for_iff.1 h1).trans (for_iff.1 h2).symm) t (mem_range.2 ht)
      ((h.waits_iff hc).1 hw) ((h.owns_iff hc').1 ho)
  dispatch := by
    rintro t ⟨i, q⟩ hr hn hw
    rw [ready_run] at hr
    obtain ⟨h0, hr⟩ := hr
    simp only at h0 hr
    subst h0
    rw [mem_run] at hn
    obtain ⟨i', hi', hpr, hcase⟩ := hf.2.2.1 t (mem_range.2 (h.rdy_lt hr)) i hr (fun hm => hn ⟨rfl, hm⟩)
      (fun c hc hi hwt => hw c.sec (by unfold Sec.sec; rw [hi]) ((h.waits_iff hc).2 hwt))
    refine ⟨(i', 0), mem_run.2 ⟨rfl, hi'⟩, hpr, ?_⟩
    rcases hcase with ⟨c', hc', rfl, ho, hle⟩ | ⟨h1, h2⟩
    · refine Or.inl ⟨c'.sec, rfl, (h.owns_iff hc').2 ho, ?_⟩
      intro s hs hos
      obtain ⟨c, hc, rfl⟩ := hos.1
      exact hle c hc (congrArg Prod.fst hs) ((h.owns_iff hc).1 hos)
    · refine Or.inr ⟨?_, h2⟩
      intro s hs hos
      obtain ⟨c, hc, rfl⟩ := hos.1
      exact h1 c hc (congrArg Prod.fst hs) ((h.owns_iff hc).1 hos)
  issue := by
    rintro s j ⟨c, hc, rfl⟩ h1 h2 h3 h4 h5
    rw [h.enter_eq hc] at h1 h4 h5 ⊢
    rw [h.occ_iff] at h4 ⊢
    rw [ready_run] at h5
    obtain ⟨a, b⟩ := hf.2.2.2 c hc j.1 h1 h2 h3 h4.2 h5.2
    refine ⟨fun hh => a hh.2, ?_⟩
    intro s' hs' hw
    obtain ⟨c', hc', rfl⟩ := hw.1
    exact b c' hc' (congrArg Prod.fst hs') ((h.waits_iff hc').1 hw)

end Verif.Spec.Table
