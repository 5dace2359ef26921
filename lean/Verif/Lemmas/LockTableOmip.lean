import Verif.Lemmas.LockTableGlobal
import Verif.Spec.Omip

/-! Runs given by a table: the OMIP. -/

namespace Verif.Spec
open Finset

namespace Table
variable {n m : ℕ} {T : Table n} {S : LockSystem n} {qd : Sec n → ℕ}

/-- When a section enters the FIFO queue. -/
def queued (T : Table n) (qd : Sec n → ℕ) (s : Section n) : ℕ := (T.entry s).elim 0 qd

/-- The sections in the FIFO queue. -/
def fifo (T : Table n) (S : LockSystem n) (qd : Sec n → ℕ) (r : Option ℕ) (t : ℕ) : List (Sec n) :=
  T.secs.filter (fun c => decide (c.res S = r ∧ qd c ≤ t ∧ t < c.leave))

/-- What has to be checked for the OMIP. -/
def OmipOk (T : Table n) (m : ℕ) (S : LockSystem n) (qd : Sec n → ℕ) : Prop :=
  (∀ c ∈ T.secs, c.enter ≤ qd c ∧ qd c ≤ c.acquire) ∧
  (∀ t ∈ range T.slots.length, ∀ c ∈ T.secs, (T.fifo S qd (c.res S) t).length ≤ m) ∧
  (∀ c ∈ T.secs, ∀ t ∈ Ico c.enter (qd c), (((T.fifo S qd (c.res S) t).map Sec.sec).toFinset).card = m) ∧
  (∀ c ∈ T.secs, ∀ c' ∈ T.secs, c.res S = c'.res S → c.enter < qd c' → qd c' < qd c → c'.task ≤ c.task) ∧
  (∀ c ∈ T.secs, ∀ c' ∈ T.secs, c.res S = c'.res S → ∀ t ∈ Ico (qd c) c.acquire, c'.Ow t → qd c' ≤ qd c)

instance (T : Table n) (m : ℕ) (S : LockSystem n) (qd : Sec n → ℕ) : Decidable (T.OmipOk m S qd) := by
  unfold OmipOk
  infer_instance

theorem Ok.queued_eq (h : T.Ok m S) {c : Sec n} (hc : c ∈ T.secs) : T.queued qd c.sec = qd c := by
  unfold Table.queued
  rw [h.1.entry_eq hc]; rfl

theorem Ok.inFifo_iff (h : T.Ok m S) {c : Sec n} (hc : c ∈ T.secs) {r t : ℕ} :
    InFifo S (T.run S) (T.queued qd) r c.sec t ↔ c ∈ T.fifo S qd (some r) t := by
  unfold InFifo Table.fifo
  rw [h.queued_eq hc, h.leave_eq hc, for_iff, List.mem_filter, decide_eq_true_eq]
  exact ⟨fun h => ⟨hc, h.2⟩, fun h => ⟨⟨c, hc, rfl⟩, h.2⟩⟩

theorem Ok.omip (h : T.Ok m S) (hi : InheritLocks m S (T.run S)) (hp : T.OmipOk m S qd) :
    Omip m S (T.run S) (T.queued qd) where
  toInheritLocks := hi
  between := by
    rintro s ⟨c, hc, rfl⟩
    rw [h.enter_eq hc, h.acquire_eq hc, h.queued_eq hc]
    exact hp.1 c hc
  capacity := by
    classical
    intro r t F hF
    by_cases hF0 : F = ∅
    · rw [hF0]; exact Nat.zero_le _
    have hsub : F ⊆ ((T.fifo S qd (some r) t).map Sec.sec).toFinset := by
      intro s hs
      obtain ⟨c, hc, rfl⟩ := (hF s hs).1
      rw [List.mem_toFinset, List.mem_map]
      exact ⟨c, (h.inFifo_iff hc).1 (hF _ hs), rfl⟩
    obtain ⟨s, hs⟩ := nonempty_iff_ne_empty.2 hF0
    have hs' := hF s hs
    obtain ⟨c, hc, rfl⟩ := hs'.1
    have ht : t < T.slots.length := by
      have hb := hp.1 c hc
      have hq := hs'.2.2.1
      rw [h.queued_eq hc] at hq
      refine h.rdy_lt (ready_run.1 (h.suspendRun.active _ t hs'.1 ?_ hs'.2.2.2)).2
      rw [h.enter_eq hc]
      omega
    refine (card_le_card hsub).trans ((List.toFinset_card_le _).trans ?_)
    rw [List.length_map, ← for_iff.1 hs'.2.1]
    exact hp.2.1 t (mem_range.2 ht) c hc
  room := by
    rintro s r t ⟨c, hc, rfl⟩ hf he hq
    rw [h.enter_eq hc] at he
    rw [h.queued_eq hc] at hq
    refine ⟨_, hp.2.2.1 c hc t (mem_Ico.2 ⟨he, hq⟩), ?_⟩
    intro s' hs'
    rw [List.mem_toFinset, List.mem_map] at hs'
    obtain ⟨c', hc', rfl⟩ := hs'
    rw [h.inFifo_iff (List.mem_filter.1 hc').1, ← for_iff.1 hf]
    exact hc'
  priority := by
    rintro s s' r ⟨c, hc, rfl⟩ ⟨c', hc', rfl⟩ hf hf' h1 h2
    rw [h.enter_eq hc, h.queued_eq hc'] at h1
    rw [h.queued_eq hc', h.queued_eq hc] at h2
    exact hp.2.2.2.1 c hc c' hc' ((for_iff.1 hf).trans (for_iff.1 hf').symm) h1 h2
  fifo := by
    rintro s s' r t hw hq ho hf hf'
    obtain ⟨c, hc, rfl⟩ := hw.1
    obtain ⟨c', hc', rfl⟩ := ho.1
    rw [h.queued_eq hc] at hq ⊢
    rw [h.queued_eq hc']
    exact hp.2.2.2.2 c hc c' hc' ((for_iff.1 hf).trans (for_iff.1 hf').symm) t
      (mem_Ico.2 ⟨hq, ((h.waits_iff hc).1 hw).2⟩) ((h.owns_iff hc').1 ho)

theorem Ok.inherit_of (h : T.Ok m S) (hp : ∀ t ∈ range T.slots.length, ∀ i, T.Rdy i t → i ∉ T.at_ t →
    (∀ c ∈ T.secs, c.Wt t → c.task ≠ i) →
    (T.at_ t).card = m ∧ ∀ i' ∈ T.at_ t, ∃ a, T.Acts S i' a t ∧ ∀ b, T.Acts S i b t → a ≤ b) :
    InheritLocks m S (T.run S) where
  toSuspendRun := h.suspendRun
  dispatch := by
    rintro t ⟨i, q⟩ hr hn hw
    rw [ready_run] at hr
    obtain ⟨h0, hr⟩ := hr
    simp only at h0 hr
    subst h0
    rw [mem_run] at hn
    have := hp t (mem_range.2 (h.rdy_lt hr)) i hr (fun hm => hn ⟨rfl, hm⟩)
      (fun c hc hwt he => hw c.sec ((h.waits_iff hc).2 hwt) (by unfold Sec.sec; rw [he]))
    refine ⟨by rw [card_run]; exact this.1, ?_⟩
    rintro ⟨i', q'⟩ hj
    rw [mem_run] at hj
    obtain ⟨h0', hj⟩ := hj
    simp only at h0' hj
    subst h0'
    obtain ⟨a, ha, hb⟩ := this.2 i' hj
    exact ⟨a, h.acts_iff.2 ha, fun b hb' => hb b (h.acts_iff.1 hb')⟩

/-- The blocking of the first job of a task. -/
def blocked (T : Table n) (m : ℕ) (i : Fin n) (t : ℕ) : ℕ :=
  ((range t).filter (fun u => T.Rdy i u ∧ i ∉ T.at_ u ∧ (univ.filter (fun h => h < i ∧ T.Rdy h u)).card < m)).card

theorem pending_run {j : Job n} {t : ℕ} : Pending (T.run S).work (T.run S).sched j t ↔ j.2 = 0 ∧ T.Rdy j.1 t := by
  obtain ⟨i, q⟩ := j
  unfold Pending Completed Rdy
  by_cases hq : q = 0
  · subst hq
    rw [service_run]
    simp [run]
  · simp [run, hq]

theorem obliviousBlocking_run (i : Fin n) (t : ℕ) :
    obliviousBlocking m (T.run S) (i, 0) t = T.blocked m i t := by
  classical
  unfold obliviousBlocking blocked
  congr 1
  apply filter_congr
  intro u _
  unfold ObliviousBlocked
  rw [ready_run, mem_run]
  have e : pendingHigher (T.run S) i u = univ.filter (fun h => h < i ∧ T.Rdy h u) := by
    unfold pendingHigher
    ext h
    simp only [mem_filter, mem_univ, true_and, pending_run]
    exact and_congr Iff.rfl ⟨fun ⟨k, _, hr⟩ => hr, fun hr => ⟨0, rfl, hr⟩⟩
  show ((0 = 0 ∧ T.Rdy i u) ∧ ¬ (0 = 0 ∧ i ∈ T.at_ u) ∧ (pendingHigher (T.run S) i u).card < m) ↔ _
  rw [e]
  simp

end Table
end Verif.Spec
