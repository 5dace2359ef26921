import Verif.Lemmas.LockTable
import Verif.Spec.GlobalLocks

/-! Runs given by a table: global scheduling with different queues and progress mechanisms. -/

namespace Verif.Spec
open Finset

namespace Table
variable {n m : ℕ} {T : Table n} {S : LockSystem n}

theorem Ok.inherit (h : T.Ok m S) (hp : T.PipOk m S) : InheritLocks m S (T.run S) :=
  ⟨h.suspendRun, (h.pip hp).dispatch⟩

theorem Ok.prio (h : T.Ok m S) (hp : ∀ c ∈ T.secs, ∀ c' ∈ T.secs, c.res S = c'.res S → c.enter < c'.acquire →
    c'.acquire < c.acquire → c'.task ≤ c.task) : PriorityQueues S (T.run S) := by
  rintro s s' r ⟨c, hc, rfl⟩ ⟨c', hc', rfl⟩ hf hf' h1 h2
  rw [h.enter_eq hc, h.acquire_eq hc'] at h1
  rw [h.acquire_eq hc', h.acquire_eq hc] at h2
  exact hp c hc c' hc' ((for_iff.1 hf).trans (for_iff.1 hf').symm) h1 h2

theorem Ok.fifo (h : T.Ok m S) (hp : ∀ c ∈ T.secs, ∀ c' ∈ T.secs, c.res S = c'.res S → c'.acquire < c.acquire →
    c'.enter ≤ c.enter) : FifoQueues S (T.run S) := by
  rintro s s' r t hw ho hf hf'
  obtain ⟨c, hc, rfl⟩ := hw.1
  obtain ⟨c', hc', rfl⟩ := ho.1
  have h1 := (h.waits_iff hc).1 hw
  have h2 := (h.owns_iff hc').1 ho
  rw [h.enter_eq hc, h.enter_eq hc']
  exact hp c hc c' hc' ((for_iff.1 hf).trans (for_iff.1 hf').symm) (lt_of_le_of_lt h2.1 h1.2)

theorem Ok.untilRelease (h : T.Ok m S) (hp : ∀ c ∈ T.secs, c.acquire < c.leave → c.task ∈ T.at_ (c.leave - 1)) :
    ExecutesUntilRelease (T.run S) := by
  rintro s ⟨c, hc, rfl⟩ hlt
  rw [h.acquire_eq hc, h.leave_eq hc] at hlt
  rw [h.leave_eq hc, mem_run]
  exact ⟨rfl, hp c hc hlt⟩

theorem Ok.plain (h : T.Ok m S) (hp : ∀ t ∈ range T.slots.length, ∀ i, T.Rdy i t → i ∉ T.at_ t →
    (∀ c ∈ T.secs, c.Wt t → c.task ≠ i) → (T.at_ t).card = m ∧ ∀ i' ∈ T.at_ t, i' < i) :
    PlainLocks m S (T.run S) where
  toSuspendRun := h.suspendRun
  dispatch := by
    rintro t ⟨i, q⟩ hr hn hw
    rw [ready_run] at hr
    obtain ⟨h0, hr⟩ := hr
    simp only at h0 hr
    subst h0
    rw [mem_run] at hn
    have := hp t (mem_range.2 (h.rdy_lt hr)) i hr (fun hm => hn ⟨rfl, hm⟩)
      (fun c hc hwt he => hw c.sec ((h.waits_iff hc).2 hwt) (by unfold Sec.sec; rw [he]))
    refine ⟨by rw [card_run]; exact this.1, ?_⟩
    rintro ⟨i', q'⟩ hj
    rw [mem_run] at hj
    exact this.2 i' hj.2

end Table
end Verif.Spec
