import Verif.Spec.PreemptPrio
import Verif.Lemmas.JobTableSpin

/-! Tables of jobs that are runs with priority-ordered preemptive spin locks; all resources are shared by several
processors. -/

namespace Verif.Spec.JTable
open Finset
variable {n : ℕ} {T : JTable n} {S : LockSystem n}

/-- How long a job has executed without spinning. -/
def progressOf (T : JTable n) (j : Job n) (t : ℕ) : ℕ :=
  ((range t).filter (fun u => j ∈ T.at_ u ∧ ¬ ∃ c ∈ T.secs, c.job = j ∧ c.Wt u)).card

/-- Jobs do not execute, apart from spinning, for longer than their costs. -/
def CostOk (T : JTable n) (S : LockSystem n) : Prop :=
  ∀ j ∈ T.jobs, T.work j ≤ T.svc j T.slots.length ∧ ∀ t ∈ range T.slots.length, T.svc j t < T.work j →
    T.progressOf j t < S.cost j.1

instance (T : JTable n) (S : LockSystem n) : Decidable (T.CostOk S) := by
  unfold CostOk
  infer_instance

/-- Requests are served in the order of their priorities. -/
def ReissueOk (T : JTable n) (S : LockSystem n) (lockPrio : Fin n → ℕ → ℕ) : Prop :=
  ∀ c ∈ T.secs, ∀ t ∈ Ico c.enter c.acquire, c.job ∈ T.at_ t → ∃ c' ∈ T.secs, c'.res S = c.res S ∧ c'.Ow t ∧
    (lockPrio c'.job.1 ((c.res S).getD 0) ≤ lockPrio c.job.1 ((c.res S).getD 0) ∨
      c'.acquire < (T.run S).since c.sec t)

instance (T : JTable n) (S : LockSystem n) (lockPrio : Fin n → ℕ → ℕ) : Decidable (T.ReissueOk S lockPrio) := by
  unfold ReissueOk
  infer_instance

/-- A resource is used by one job at a time. -/
def ExclusiveOk (T : JTable n) (S : LockSystem n) : Prop :=
  ∀ c ∈ T.secs, ∀ c' ∈ T.secs, c.res S = c'.res S → c = c' ∨ c.leave ≤ c'.acquire ∨ c'.leave ≤ c.acquire

instance (T : JTable n) (S : LockSystem n) : Decidable (T.ExclusiveOk S) := by
  unfold ExclusiveOk
  infer_instance

/-- What has to be checked for preemptive spin locks. -/
def PreemptOk (T : JTable n) (S : LockSystem n) (prio : Fin n → ℕ) (lockPrio : Fin n → ℕ → ℕ) : Prop :=
  T.CostOk S ∧
  (∀ t ∈ range T.slots.length, ∀ j ∈ T.at_ t, T.Rdy S j t ∧ ∀ j' ∈ T.at_ t, S.proc j.1 = S.proc j'.1 → j = j') ∧
  (∀ c ∈ T.secs, ((S.reqs c.job.1)[c.idx]?).any (fun q => decide (c.inst < q.num ∧
    ((Ico c.acquire c.leave).filter (fun t => c.job ∈ T.at_ t)).card ≤ q.len))) ∧
  (∀ c ∈ T.secs, c.enter ≤ c.acquire ∧ c.acquire < c.leave ∧ c.job ∈ T.at_ c.enter ∧
    ∀ t ∈ Ico c.acquire c.leave, c.job ∈ T.at_ t) ∧
  (∀ c ∈ T.secs, ∀ c' ∈ T.secs, c.job = c'.job ∧ c ≠ c' →
    c.sec ≠ c'.sec ∧ (c.leave ≤ c'.enter ∨ c'.leave ≤ c.enter)) ∧
  (∀ c ∈ T.secs, ∃ i j, c.UsedBy S i ∧ c.UsedBy S j ∧ S.proc i ≠ S.proc j) ∧
  T.ExclusiveOk S ∧
  T.ReissueOk S lockPrio ∧
  ∀ t ∈ range T.slots.length, ∀ j ∈ T.jobs, T.Rdy S j t ∧ j ∉ T.at_ t →
    ∃ j' ∈ T.at_ t, S.proc j'.1 = S.proc j.1 ∧ (prio j'.1 ≤ prio j.1 ∨
      ∃ c ∈ T.secs, c.job = j' ∧ c.acquire < t ∧ t < c.leave)

instance (T : JTable n) (S : LockSystem n) (prio : Fin n → ℕ) (lockPrio : Fin n → ℕ → ℕ) :
    Decidable (T.PreemptOk S prio lockPrio) := by
  unfold PreemptOk
  infer_instance

variable {prio : Fin n → ℕ} {lockPrio : Fin n → ℕ → ℕ}

theorem PreemptOk.entry_eq (h : T.PreemptOk S prio lockPrio) {c : JSec n} (hc : c ∈ T.secs) :
    T.entry c.sec = some c := by
  obtain ⟨c', hc'⟩ := entry_isSome.1 ⟨c, hc, rfl⟩
  obtain ⟨h2, h1⟩ := entry_mem hc'
  by_cases hne : c' = c
  · rw [hc', hne]
  · have ht : c'.job = c.job := congrArg Section.job h1
    exact absurd h1 (h.2.2.2.2.1 c' h2 c hc ⟨ht, hne⟩).1

theorem PreemptOk.enter_eq (h : T.PreemptOk S prio lockPrio) {c : JSec n} (hc : c ∈ T.secs) :
    (T.run S).enter c.sec = c.enter := by
  show (T.entry c.sec).elim 0 JSec.enter = _
  rw [h.entry_eq hc]; rfl

theorem PreemptOk.acquire_eq (h : T.PreemptOk S prio lockPrio) {c : JSec n} (hc : c ∈ T.secs) :
    (T.run S).acquire c.sec = c.acquire := by
  show (T.entry c.sec).elim 0 JSec.acquire = _
  rw [h.entry_eq hc]; rfl

theorem PreemptOk.leave_eq (h : T.PreemptOk S prio lockPrio) {c : JSec n} (hc : c ∈ T.secs) :
    (T.run S).leave c.sec = c.leave := by
  show (T.entry c.sec).elim 0 JSec.leave = _
  rw [h.entry_eq hc]; rfl

theorem PreemptOk.rdy_lt (h : T.PreemptOk S prio lockPrio) {j : Job n} {t : ℕ} (hr : T.svc j t < T.work j) :
    t < T.slots.length ∧ j ∈ T.jobs := by
  have hj : j ∈ T.jobs := mem_jobs (by omega)
  refine ⟨?_, hj⟩
  by_contra hc
  have h1 := (h.1 j hj).1
  have h2 : T.svc j T.slots.length ≤ T.svc j t := card_le_card (by
    intro s hs
    rw [mem_filter, mem_range] at hs ⊢
    exact ⟨by omega, hs.2⟩)
  omega

theorem PreemptOk.global (h : T.PreemptOk S prio lockPrio) {c : JSec n} (hc : c ∈ T.secs) {q : Req}
    (hq : (S.reqs c.sec.job.1)[c.sec.idx]? = some q) : S.Global q.res := by
  obtain ⟨i, j, hi, hj, hne⟩ := h.2.2.2.2.2.1 c hc
  have hf : S.For c.sec q.res := ⟨q, hq, rfl⟩
  exact ⟨i, j, (usedBy_iff hf).1 hi, (usedBy_iff hf).1 hj, hne⟩

theorem PreemptOk.waiting_iff (h : T.PreemptOk S prio lockPrio) {j : Job n} {t : ℕ} :
    (T.run S).Waiting j t ↔ ∃ c ∈ T.secs, c.job = j ∧ c.Wt t := by
  constructor
  · rintro ⟨s, ⟨c, hc, rfl⟩, rfl, h1, h2⟩
    rw [h.enter_eq hc] at h1
    rw [h.acquire_eq hc] at h2
    exact ⟨c, hc, rfl, h1, h2⟩
  · rintro ⟨c, hc, rfl, h1, h2⟩
    refine ⟨c.sec, ⟨c, hc, rfl⟩, rfl, ?_, ?_⟩
    · rw [h.enter_eq hc]; exact h1
    · rw [h.acquire_eq hc]; exact h2

theorem PreemptOk.progress_eq (h : T.PreemptOk S prio lockPrio) (j : Job n) (t : ℕ) :
    (T.run S).progress j t = T.progressOf j t := by
  classical
  unfold LockRun.progress progressOf
  congr 1
  ext u
  simp only [mem_filter, h.waiting_iff, mem_run]

theorem PreemptOk.preemptPrioFp (h : T.PreemptOk S prio lockPrio) : PreemptPrioFp S prio lockPrio (T.run S) := by
  obtain ⟨h1, h2, h3, h4, h5, h6, h7, h8, h9⟩ := id h
  have req : ∀ c ∈ T.secs, ∃ q, (S.reqs c.sec.job.1)[c.sec.idx]? = some q ∧ c.inst < q.num ∧
      ((Ico c.acquire c.leave).filter (fun t => c.job ∈ T.at_ t)).card ≤ q.len := by
    intro c hc
    have := h3 c hc
    rw [Option.any_eq_true] at this
    obtain ⟨q, hq, hd⟩ := this
    exact ⟨q, hq, of_decide_eq_true hd⟩
  constructor
  · intro i k
    show T.off i + S.period i * k + S.period i ≤ T.off i + S.period i * (k + 1)
    rw [Nat.mul_add]; omega
  · intro j t hc
    unfold Completed at hc
    rw [service_run] at hc
    have hlt : T.svc j t < T.work j := not_le.1 hc
    rw [h.progress_eq]
    exact (h1 j (h.rdy_lt hlt).2).2 t (mem_range.2 (h.rdy_lt hlt).1) hlt
  · intro t j hj j' hj' hp
    rw [mem_run] at hj hj'
    exact (h2 t (mem_range.2 (lt_length hj)) j hj).2 j' hj' hp
  · intro t j hj
    rw [mem_run] at hj
    rw [ready_run]
    exact (h2 t (mem_range.2 (lt_length hj)) j hj).1
  · rintro s ⟨c, hc, rfl⟩
    obtain ⟨q, hq, hd, _⟩ := req c hc
    exact ⟨q, hq, hd⟩
  · rintro s ⟨c, hc, rfl⟩
    rw [h.enter_eq hc, h.acquire_eq hc, h.leave_eq hc]
    exact ⟨(h4 c hc).1, (h4 c hc).2.1.le⟩
  · rintro s ⟨c, hc, rfl⟩ _
    rw [h.enter_eq hc, mem_run]
    exact (h4 c hc).2.2.1
  · rintro s q ⟨c, hc, rfl⟩ hq
    obtain ⟨q', hq', _, hd⟩ := req c hc
    have e : q' = q := Option.some.inj (hq'.symm.trans hq)
    subst e
    rw [h.acquire_eq hc, h.leave_eq hc]
    refine le_trans (le_of_eq ?_) hd
    congr
  · rintro s s' ⟨c, hc, rfl⟩ ⟨c', hc', rfl⟩ hj hne
    rw [h.enter_eq hc, h.enter_eq hc', h.leave_eq hc, h.leave_eq hc']
    exact (h5 c hc c' hc' ⟨hj, fun e => hne (e ▸ rfl)⟩).2
  · rintro s q ⟨c, hc, rfl⟩ hq hg
    exact absurd (h.global hc hq) hg
  · rintro s q t ⟨c, hc, rfl⟩ _ _ he hl
    rw [h.acquire_eq hc] at he
    rw [h.leave_eq hc] at hl
    rw [mem_run]
    exact (h4 c hc).2.2.2 t (mem_Ico.2 ⟨he, hl⟩)
  · rintro s s' q q' t ⟨c, hc, rfl⟩ ⟨c', hc', rfl⟩ hq hq' hr _ a1 a2 a3 a4
    rw [h.acquire_eq hc] at a1
    rw [h.leave_eq hc] at a2
    rw [h.acquire_eq hc'] at a3
    rw [h.leave_eq hc'] at a4
    have e1 : c.res S = some q.res := JSec.for_iff.1 ⟨q, hq, rfl⟩
    have e2 : c'.res S = some q'.res := JSec.for_iff.1 ⟨q', hq', rfl⟩
    rcases h7 c hc c' hc' (by rw [e1, e2, hr]) with rfl | h' | h'
    · rfl
    · omega
    · omega
  · rintro s q t ⟨c, hc, rfl⟩ hq hg he ha hm
    rw [h.enter_eq hc] at he
    rw [h.acquire_eq hc] at ha
    obtain ⟨c', hc', e1, e2, e3⟩ := h8 c hc t (mem_Ico.2 ⟨he, ha⟩) hm
    have hr : c.res S = some q.res := JSec.for_iff.1 ⟨q, hq, rfl⟩
    rw [hr] at e1 e3
    obtain ⟨q', hq', hr'⟩ := JSec.for_iff.2 e1
    refine ⟨c'.sec, q', ⟨c', hc', rfl⟩, hq', hr', ?_, ?_, ?_⟩
    · rw [h.acquire_eq hc']
      exact e3
    · rw [h.acquire_eq hc']
      exact e2.1
    · rw [h.leave_eq hc']
      exact e2.2
  · rintro s q t ⟨c, hc, rfl⟩ hq hg
    exact absurd (h.global hc hq) hg
  · intro t j hr hn
    rw [ready_run] at hr
    rw [mem_run] at hn
    have hl := h.rdy_lt hr.1.2
    obtain ⟨j', hj', hp, hcase⟩ := h9 t (mem_range.2 hl.1) j hl.2 ⟨hr, hn⟩
    refine ⟨j', hj', hp, ?_⟩
    rcases hcase with hcase | ⟨c, hc, e, e1, e2⟩
    · exact Or.inl hcase
    · obtain ⟨q, hq, _⟩ := req c hc
      refine Or.inr ⟨c.sec, q, ⟨c, hc, rfl⟩, e, hq, ?_, ?_, Or.inl (h.global hc hq)⟩
      · rw [h.acquire_eq hc]; exact e1
      · rw [h.leave_eq hc]; exact e2

/-- Requests are served in the order of their priorities and, among equal priorities, in FIFO order. -/
def ReissueFifoOk (T : JTable n) (S : LockSystem n) (lockPrio : Fin n → ℕ → ℕ) : Prop :=
  ∀ c ∈ T.secs, ∀ t ∈ Ico c.enter c.acquire, c.job ∈ T.at_ t → ∃ c' ∈ T.secs, c'.res S = c.res S ∧ c'.Ow t ∧
    (lockPrio c'.job.1 ((c.res S).getD 0) < lockPrio c.job.1 ((c.res S).getD 0) ∨
      (lockPrio c'.job.1 ((c.res S).getD 0) = lockPrio c.job.1 ((c.res S).getD 0) ∧
        (T.run S).since c'.sec c'.acquire ≤ (T.run S).since c.sec t) ∨
      c'.acquire < (T.run S).since c.sec t)

instance (T : JTable n) (S : LockSystem n) (lockPrio : Fin n → ℕ → ℕ) : Decidable (T.ReissueFifoOk S lockPrio) := by
  unfold ReissueFifoOk
  infer_instance

theorem PreemptOk.preemptPrioFifoFp (h : T.PreemptOk S prio lockPrio) (h' : T.ReissueFifoOk S lockPrio) :
    PreemptPrioFifoFp S prio lockPrio (T.run S) := by
  refine ⟨h.preemptPrioFp, ?_⟩
  rintro s q t ⟨c, hc, rfl⟩ hq hg he ha hm
  rw [h.enter_eq hc] at he
  rw [h.acquire_eq hc] at ha
  obtain ⟨c', hc', e1, e2, e3⟩ := h' c hc t (mem_Ico.2 ⟨he, ha⟩) hm
  have hr : c.res S = some q.res := JSec.for_iff.1 ⟨q, hq, rfl⟩
  rw [hr] at e1 e3
  obtain ⟨q', hq', hr'⟩ := JSec.for_iff.2 e1
  refine ⟨c'.sec, q', ⟨c', hc', rfl⟩, hq', hr', ?_, ?_, ?_⟩
  · rw [h.acquire_eq hc']
    exact e3
  · rw [h.acquire_eq hc']
    exact e2.1
  · rw [h.leave_eq hc']
    exact e2.2

end Verif.Spec.JTable
