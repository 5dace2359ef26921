import Verif.Spec.PrioSpin
import Verif.Lemmas.JobTable

/-! Tables of jobs that are runs with priority-ordered non-preemptive spin locks; all resources are shared by
several processors. -/

namespace Verif.Spec.JTable
open Finset
variable {n : ℕ} {T : JTable n} {S : LockSystem n}

/-- Spinning of a job. -/
def spinOf (T : JTable n) (S : LockSystem n) (j : Job n) : ℕ :=
  ∑ q : Fin (S.reqs j.1).length, ∑ a ∈ range ((S.reqs j.1).get q).num,
    (T.entry ⟨j, q, a⟩).elim 0 (fun c => c.acquire - c.enter)

/-- What has to be checked for spin locks. -/
def SpinOk (T : JTable n) (S : LockSystem n) (prio : Fin n → ℕ) : Prop :=
  (∀ j ∈ T.jobs, T.work j ≤ S.cost j.1 + T.spinOf S j ∧ T.work j ≤ T.svc j T.slots.length) ∧
  (∀ t ∈ range T.slots.length, ∀ j ∈ T.at_ t, T.Rdy S j t ∧ ∀ j' ∈ T.at_ t, S.proc j.1 = S.proc j'.1 → j = j') ∧
  (∀ c ∈ T.secs, ((S.reqs c.job.1)[c.idx]?).any (fun q => decide (c.inst < q.num ∧
    ((Ico c.acquire c.leave).filter (fun t => c.job ∈ T.at_ t)).card ≤ q.len))) ∧
  (∀ c ∈ T.secs, c.enter ≤ c.acquire ∧ c.acquire ≤ c.leave ∧ ∀ t ∈ Ico c.enter c.leave, c.job ∈ T.at_ t) ∧
  (∀ c ∈ T.secs, ∀ c' ∈ T.secs, c.job = c'.job ∧ c ≠ c' →
    c.sec ≠ c'.sec ∧ (c.leave ≤ c'.enter ∨ c'.leave ≤ c.enter)) ∧
  (∀ c ∈ T.secs, ∃ i j, c.UsedBy S i ∧ c.UsedBy S j ∧ S.proc i ≠ S.proc j) ∧
  ∀ t ∈ range T.slots.length, ∀ j ∈ T.jobs, T.Rdy S j t ∧ j ∉ T.at_ t →
    ∃ j' ∈ T.at_ t, S.proc j'.1 = S.proc j.1 ∧ (prio j'.1 ≤ prio j.1 ∨
      ∃ c ∈ T.secs, c.job = j' ∧ c.enter < t ∧ t < c.leave)

instance (T : JTable n) (S : LockSystem n) (prio : Fin n → ℕ) : Decidable (T.SpinOk S prio) := by
  unfold SpinOk
  infer_instance

/-- Requests are served in the order of their priorities, those of equal priority in FIFO order. -/
def OrderOk (T : JTable n) (S : LockSystem n) (lockPrio : Fin n → ℕ → ℕ) : Prop :=
  ∀ c ∈ T.secs, ∀ t ∈ Ico c.enter c.acquire, ∃ c' ∈ T.secs, c'.res S = c.res S ∧ c'.Ow t ∧
    (lockPrio c'.job.1 ((c.res S).getD 0) < lockPrio c.job.1 ((c.res S).getD 0) ∨
      (lockPrio c'.job.1 ((c.res S).getD 0) = lockPrio c.job.1 ((c.res S).getD 0) ∧ c'.enter ≤ c.enter) ∨
      c'.acquire < c.enter)

instance (T : JTable n) (S : LockSystem n) (lockPrio : Fin n → ℕ → ℕ) : Decidable (T.OrderOk S lockPrio) := by
  unfold OrderOk
  infer_instance

variable {prio : Fin n → ℕ} {lockPrio : Fin n → ℕ → ℕ}

theorem entry_mem {s : Section n} {c : JSec n} (h : T.entry s = some c) : c ∈ T.secs ∧ c.sec = s := by
  unfold entry at h
  exact ⟨List.mem_of_find?_eq_some h, by simpa using List.find?_some h⟩

theorem entry_isSome {s : Section n} : (∃ c ∈ T.secs, c.sec = s) ↔ ∃ c, T.entry s = some c := by
  constructor
  · rintro ⟨c, hc, rfl⟩
    cases hf : T.entry c.sec with
    | none =>
      unfold entry at hf
      rw [List.find?_eq_none] at hf
      exact absurd (hf c hc) (by simp)
    | some c' => exact ⟨c', rfl⟩
  · rintro ⟨c, hc⟩
    exact ⟨c, entry_mem hc⟩

theorem spin_run (j : Job n) : (T.run S).spin S j = T.spinOf S j := by
  classical
  unfold LockRun.spin spinOf
  apply sum_congr rfl
  intro q _
  apply sum_congr rfl
  intro a _
  by_cases h : ∃ c ∈ T.secs, c.sec = (⟨j, q, a⟩ : Section n)
  · rw [if_pos (show (T.run S).issued _ from h)]
    obtain ⟨c, hc⟩ := entry_isSome.1 h
    show (T.entry _).elim 0 JSec.acquire - (T.entry _).elim 0 JSec.enter = _
    rw [hc]
    rfl
  · rw [if_neg (show ¬ (T.run S).issued _ from h)]
    cases hf : T.entry (⟨j, q, a⟩ : Section n) with
    | none => rfl
    | some c => exact absurd (entry_isSome.2 ⟨c, hf⟩) h

theorem SpinOk.entry_eq (h : T.SpinOk S prio) {c : JSec n} (hc : c ∈ T.secs) : T.entry c.sec = some c := by
  obtain ⟨c', hc'⟩ := entry_isSome.1 ⟨c, hc, rfl⟩
  obtain ⟨h2, h1⟩ := entry_mem hc'
  by_cases hne : c' = c
  · rw [hc', hne]
  · have ht : c'.job = c.job := congrArg Section.job h1
    exact absurd h1 (h.2.2.2.2.1 c' h2 c hc ⟨ht, hne⟩).1

theorem SpinOk.enter_eq (h : T.SpinOk S prio) {c : JSec n} (hc : c ∈ T.secs) : (T.run S).enter c.sec = c.enter := by
  show (T.entry c.sec).elim 0 JSec.enter = _
  rw [h.entry_eq hc]; rfl

theorem SpinOk.acquire_eq (h : T.SpinOk S prio) {c : JSec n} (hc : c ∈ T.secs) :
    (T.run S).acquire c.sec = c.acquire := by
  show (T.entry c.sec).elim 0 JSec.acquire = _
  rw [h.entry_eq hc]; rfl

theorem SpinOk.leave_eq (h : T.SpinOk S prio) {c : JSec n} (hc : c ∈ T.secs) : (T.run S).leave c.sec = c.leave := by
  show (T.entry c.sec).elim 0 JSec.leave = _
  rw [h.entry_eq hc]; rfl

theorem SpinOk.rdy_lt (h : T.SpinOk S prio) {j : Job n} {t : ℕ} (hr : T.Rdy S j t) :
    t < T.slots.length ∧ j ∈ T.jobs := by
  have hr2 := hr.1.2
  have hj : j ∈ T.jobs := mem_jobs (by omega)
  refine ⟨?_, hj⟩
  by_contra hc
  have h1 := (h.1 j hj).2
  have h2 : T.svc j T.slots.length ≤ T.svc j t := card_le_card (by
    intro s hs
    rw [mem_filter, mem_range] at hs ⊢
    exact ⟨by omega, hs.2⟩)
  omega

theorem lt_length {t : ℕ} {j : Job n} (h : j ∈ T.at_ t) : t < T.slots.length := by
  by_contra hc
  rw [at_empty (not_lt.1 hc)] at h
  simp at h

theorem SpinOk.global (h : T.SpinOk S prio) {c : JSec n} (hc : c ∈ T.secs) {q : Req}
    (hq : (S.reqs c.sec.job.1)[c.sec.idx]? = some q) : S.Global q.res := by
  obtain ⟨i, j, hi, hj, hne⟩ := h.2.2.2.2.2.1 c hc
  have hf : S.For c.sec q.res := ⟨q, hq, rfl⟩
  exact ⟨i, j, (usedBy_iff hf).1 hi, (usedBy_iff hf).1 hj, hne⟩

theorem SpinOk.npSpinFp (h : T.SpinOk S prio) : NpSpinFp S prio (T.run S) := by
  obtain ⟨h1, h2, h3, h4, h5, h6, h7⟩ := id h
  constructor
  · constructor
    · intro i k
      show T.off i + S.period i * k + S.period i ≤ T.off i + S.period i * (k + 1)
      rw [Nat.mul_add]; omega
    · intro j
      rw [spin_run]
      show T.work j ≤ _
      by_cases h0 : 0 < T.work j
      · exact (h1 _ (mem_jobs h0)).1
      · omega
    · intro t j hj j' hj' hp
      rw [mem_run] at hj hj'
      exact (h2 t (mem_range.2 (lt_length hj)) j hj).2 j' hj' hp
    · intro t j hj
      rw [mem_run] at hj
      rw [ready_run]
      exact (h2 t (mem_range.2 (lt_length hj)) j hj).1
    · rintro s ⟨c, hc, rfl⟩
      have := h3 c hc
      rw [Option.any_eq_true] at this
      obtain ⟨q, hq, hd⟩ := this
      exact ⟨q, hq, (of_decide_eq_true hd).1⟩
    · rintro s ⟨c, hc, rfl⟩
      rw [h.enter_eq hc, h.acquire_eq hc, h.leave_eq hc]
      exact ⟨(h4 c hc).1, (h4 c hc).2.1⟩
    · rintro s ⟨c, hc, rfl⟩ hl
      rw [h.enter_eq hc, h.leave_eq hc] at hl
      rw [h.enter_eq hc, mem_run]
      exact (h4 c hc).2.2 _ (mem_Ico.2 ⟨le_rfl, hl⟩)
    · rintro s q ⟨c, hc, rfl⟩ hq
      have := h3 c hc
      rw [Option.any_eq_true] at this
      obtain ⟨q', hq', hd⟩ := this
      have e : q' = q := Option.some.inj (hq'.symm.trans hq)
      subst e
      rw [h.acquire_eq hc, h.leave_eq hc]
      refine le_trans (le_of_eq ?_) (of_decide_eq_true hd).2
      congr
    · rintro s s' ⟨c, hc, rfl⟩ ⟨c', hc', rfl⟩ hj hne
      rw [h.enter_eq hc, h.enter_eq hc', h.leave_eq hc, h.leave_eq hc']
      exact (h5 c hc c' hc' ⟨hj, fun e => hne (e ▸ rfl)⟩).2
    · rintro s q ⟨c, hc, rfl⟩ hq hg
      exact absurd (h.global hc hq) hg
    · rintro s q t ⟨c, hc, rfl⟩ _ _ he hl
      rw [h.enter_eq hc] at he
      rw [h.leave_eq hc] at hl
      rw [mem_run]
      exact (h4 c hc).2.2 t (mem_Ico.2 ⟨he, hl⟩)
  · rintro s q t ⟨c, hc, rfl⟩ hq hg
    exact absurd (h.global hc hq) hg
  · intro t j hr hn
    rw [ready_run] at hr
    rw [mem_run] at hn
    obtain ⟨j', hj', hp, hcase⟩ := h7 t (mem_range.2 (h.rdy_lt hr).1) j (h.rdy_lt hr).2 ⟨hr, hn⟩
    refine ⟨j', hj', hp, ?_⟩
    rcases hcase with hcase | ⟨c, hc, e, e1, e2⟩
    · exact Or.inl hcase
    · have := h3 c hc
      rw [Option.any_eq_true] at this
      obtain ⟨q, hq, _⟩ := this
      refine Or.inr ⟨c.sec, q, ⟨c, hc, rfl⟩, e, hq, ?_, ?_, Or.inl (h.global hc hq)⟩
      · rw [h.enter_eq hc]; exact e1
      · rw [h.leave_eq hc]; exact e2

theorem SpinOk.prioFifoFp (h : T.SpinOk S prio) (ho : T.OrderOk S lockPrio) :
    PrioFifoFp S prio lockPrio (T.run S) where
  toNpSpinFp := h.npSpinFp
  byPrio := by
    rintro s q t ⟨c, hc, rfl⟩ hq hg he ha
    rw [h.enter_eq hc] at he
    rw [h.acquire_eq hc] at ha
    obtain ⟨c', hc', e1, e2, e3⟩ := ho c hc t (mem_Ico.2 ⟨he, ha⟩)
    have hr : c.res S = some q.res := JSec.for_iff.1 ⟨q, hq, rfl⟩
    rw [hr] at e1 e3
    obtain ⟨q', hq', hr'⟩ := JSec.for_iff.2 e1
    refine ⟨c'.sec, q', ⟨c', hc', rfl⟩, hq', hr', ?_, ?_, ?_⟩
    · rw [h.enter_eq hc, h.enter_eq hc', h.acquire_eq hc']
      exact e3
    · rw [h.acquire_eq hc']
      exact e2.1
    · rw [h.leave_eq hc']
      exact e2.2

end Verif.Spec.JTable

namespace Verif.Spec
variable {n : ℕ} {S : LockSystem n} {prio : Fin n → ℕ} {lockPrio : Fin n → ℕ → ℕ} {R : LockRun n}

/-- FIFO order is one of the orders of requests of equal priority. -/
theorem PrioFifoFp.prioFp (h : PrioFifoFp S prio lockPrio R) : PrioFp S prio lockPrio R where
  toNpSpinFp := h.toNpSpinFp
  byPrio := by
    intro s q t h1 h2 h3 h4 h5
    obtain ⟨s', q', e1, e2, e3, e4, e5⟩ := h.byPrio s q t h1 h2 h3 h4 h5
    refine ⟨s', q', e1, e2, e3, ?_, e5⟩
    rcases e4 with e4 | e4 | e4
    · exact Or.inl e4.le
    · exact Or.inl e4.1.le
    · exact Or.inr e4

theorem PrioFp.unordered (h : PrioFp S prio lockPrio R) : UnorderedFp S prio R where
  toNpSpinFp := h.toNpSpinFp
  waits := by
    intro s q t h1 h2 h3 h4 h5
    obtain ⟨s', q', e1, e2, e3, _, e5⟩ := h.byPrio s q t h1 h2 h3 h4 h5
    exact ⟨s', q', e1, e2, e3, e5⟩

end Verif.Spec
