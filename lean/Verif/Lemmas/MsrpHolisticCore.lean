import Verif.Lemmas.MsrpHolistic
import Verif.Lemmas.PartFp

/-! Response times under partitioned fixed-priority scheduling with the MSRP, where the bounds on
the time spent spinning rely on the bounds on response times. -/

namespace Verif.Spec
open Finset

variable {n : ℕ} {S : LockSystem n} {prio : Fin n → ℕ} {R : LockRun n}

theorem LockRun.spinSlots_mono (R : LockRun n) (j : Job n) {t H : ℕ} (h : t ≤ H) :
    (R.spinSlots j t).card ≤ (R.spinSlots j H).card := by
  apply card_le_card
  intro u hu
  obtain ⟨h1, h2⟩ := LockRun.mem_spinSlots.1 hu
  exact LockRun.mem_spinSlots.2 ⟨by omega, h2⟩

/-- The run until time `H`, with jobs that need no more than `C`. -/
def cutWork (R : LockRun n) (C : Fin n → ℕ) : Workload n := ⟨R.work.release, fun j => min (R.work.exec j) (C j.1)⟩

def cutSched (R : LockRun n) (H : ℕ) : Schedule n := fun t => if t < H then R.sched t else ∅

theorem service_cut (R : LockRun n) {H t : ℕ} (h : t ≤ H) (j : Job n) :
    service (cutSched R H) j t = service R.sched j t := by
  unfold service
  congr 1
  apply filter_congr
  intro u hu
  have := mem_range.1 hu
  unfold cutSched
  rw [if_pos (by omega)]

theorem completed_cut (h : SpinRun S R)
    (huse : ∀ s, R.issued s → R.enter s < R.acquire s → R.acquire s < R.leave s) {H t : ℕ} {j : Job n} {rem : ℕ}
    (hrem : (R.spinSlots j H).card ≤ rem) {C : Fin n → ℕ} (hC : C j.1 = S.cost j.1 + rem) (ht : t ≤ H) :
    Completed (cutWork R C) (cutSched R H) j t ↔ Completed R.work R.sched j t := by
  constructor
  · intro hc
    by_contra hno
    have h1 := h.progress huse hno
    have h2 := R.spinSlots_mono j ht
    unfold Completed at hc hno
    rw [service_cut R ht] at hc
    change min (R.work.exec j) (C j.1) ≤ _ at hc
    omega
  · intro hc
    unfold Completed at hc ⊢
    rw [service_cut R ht]
    change min (R.work.exec j) (C j.1) ≤ _
    omega

open Classical in
/-- **Fixed priorities and the MSRP**: a solution of the recurrences bounds the response times. -/
theorem MsrpFp.safe (h : MsrpFp S prio R)
    (huse : ∀ s, R.issued s → R.enter s < R.acquire s → R.acquire s < R.leave s)
    (hT : ∀ i, 0 < S.period i) (hprio : ∀ i k, S.proc i = S.proc k → prio i = prio k → i = k)
    (W rem B : Fin n → ℕ) (L : Fin n → Req → ℕ)
    (hrem : ∀ H, BoundedBefore R.work R.sched W H → ∀ j, (R.spinSlots j H).card ≤ rem j.1)
    (hL : ∀ H, BoundedBefore R.work R.sched W H → ∀ s q, R.issued s → (S.reqs s.job.1)[s.idx]? = some q →
      ((Ico (R.enter s) (min (R.leave s) H)).filter (fun t => s.job ∈ R.sched t)).card ≤ L s.job.1 q)
    (hB : ∀ k a, S.proc a = S.proc k → prio k < prio a → ∀ q ∈ S.reqs a, 0 < q.num →
      (S.Global q.res ∨ ∃ x, S.Uses x q.res ∧ prio x ≤ prio k) → L a q ≤ B k)
    (hfix : ∀ k, B k + (S.cost k + rem k) + ∑ i ∈ univ.filter (fun i => S.proc i = S.proc k ∧ prio i < prio k),
      cdiv (W k) (S.period i) * (S.cost i + rem i) ≤ W k)
    (hWT : ∀ k, W k ≤ S.period k) : ∀ H, BoundedBefore R.work R.sched W H := by
  intro H
  induction H with
  | zero => intro j hj; omega
  | succ H ih =>
    rintro ⟨k, q0⟩ hj
    rcases Nat.lt_or_ge (R.work.release (k, q0) + W k) H with h1 | h1
    · exact ih (k, q0) h1
    have hH : R.work.release (k, q0) + W k = H := by
      simp only at hj
      omega
    have hr := hrem H ih
    let C : Fin n → ℕ := fun i => S.cost i + rem i
    have hcc : ∀ (j : Job n) t, t ≤ H → (Completed (cutWork R C) (cutSched R H) j t ↔ Completed R.work R.sched j t) :=
      fun j t ht => completed_cut h.toSpinRun huse (hr j) rfl ht
    have hs : (cutWork R C).Sporadic C S.period := ⟨h.separated, fun i q => min_le_right _ _⟩
    have hv : ValidSchedule n (cutWork R C) (cutSched R H) := by
      constructor
      · intro t
        unfold cutSched
        split_ifs
        · exact h.toSpinRun.valid.procs t
        · simp
      · intro t j hj
        unfold cutSched at hj
        split_ifs at hj with hlt
        · obtain ⟨⟨a1, a2⟩, a3⟩ := h.ready t j hj
          exact ⟨⟨a1, fun hc => a2 ((hcc j t hlt.le).1 hc)⟩, fun k hk => (hcc _ t hlt.le).2 (a3 k hk)⟩
        · simp at hj
    have := pfp_core hs hv hT k (univ.filter (fun i => S.proc i = S.proc k ∧ prio i < prio k))
      (fun i => S.proc i = S.proc k ∧ prio i < prio k) W (W k) (B k) q0
      (fun i hi hn => absurd (mem_filter.1 hi).2 hn) (fun i hi => mem_filter.2 ⟨mem_univ _, hi⟩) ?_ (hWT k) ?_
    · exact (hH ▸ (hcc (k, q0) H le_rfl).1 (hH ▸ this) : _)
    · refine le_trans (le_of_eq ?_) (hfix k)
      congr 1
      apply sum_congr rfl
      intro i hi
      rw [if_pos (mem_filter.1 hi).2, Nat.add_zero]
    · intro a q1 hwin hle
      have hle : a + (q0 - q1 + 1) * W k ≤ H := by rw [← hH]; exact hle
      set e := a + (q0 - q1 + 1) * W k with he
      refine le_trans ?_ (Nat.le_mul_of_pos_left (B k) (Nat.succ_pos _))
      refine h.inversions L (S.proc k) (prio k) (B k) (hB k) a e ?_ ?_ _ ?_
      · intro s q hi hq
        refine le_trans (card_le_card (filter_subset_filter _ (Ico_subset_Ico le_rfl ?_))) (hL H ih s q hi hq)
        exact min_le_min le_rfl hle
      · intro t h1 h2
        obtain ⟨x, hx, h3, h4⟩ := hwin.pending h1 h2
        refine ⟨x, ?_, ?_, h3, fun hc => h4 ((hcc x t (by omega)).2 hc)⟩
        · rcases hx with hx | hx
          · rw [hx]
          · exact hx.1
        · rcases hx with hx | hx
          · rw [hx]
          · exact hx.2.le
      · intro t ht
        obtain ⟨ht, hno⟩ := mem_filter.1 ht
        have ht := mem_Ico.1 ht
        refine ⟨ht.1, ht.2, fun x hx hxp => ?_⟩
        have := hno x (by unfold cutSched; rw [if_pos (by omega)]; exact hx)
        by_contra hlt
        rcases (not_lt.1 hlt).lt_or_eq with h5 | h5
        · exact this.2 (mem_filter.2 ⟨mem_univ _, hxp, h5⟩)
        · exact this.1 (hprio _ _ hxp h5)

end Verif.Spec
