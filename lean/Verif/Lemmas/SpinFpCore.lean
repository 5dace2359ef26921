import Verif.Lemmas.MsrpHolistic
import Verif.Lemmas.PartOne

/-! Response times under partitioned fixed-priority scheduling with non-preemptive spin locks, if the spinning
of all jobs of a busy window is counted together. -/

namespace Verif.Spec
open Finset

variable {n : ℕ} {S : LockSystem n} {prio : Fin n → ℕ} {R : LockRun n}

/-- Job `j` spins in slot `u`. -/
def LockRun.Spins (R : LockRun n) (j : Job n) (u : ℕ) : Prop :=
  ∃ s, R.issued s ∧ s.job = j ∧ R.enter s ≤ u ∧ u < R.acquire s

open Classical in
/-- The schedule until time `H`, without the jobs that spin. -/
noncomputable def quietSched (R : LockRun n) (H : ℕ) : Schedule n := fun t =>
  if t < H then (R.sched t).filter (fun j => ¬ R.Spins j t) else ∅

open Classical in
/-- The processor time that jobs need apart from spinning. -/
noncomputable def quietWork (R : LockRun n) (S : LockSystem n) (H : ℕ) : Workload n := ⟨R.work.release, fun j =>
  if Completed R.work R.sched j H then service (quietSched R H) j H else S.cost j.1⟩

theorem mem_quietSched {H t : ℕ} {j : Job n} :
    j ∈ quietSched R H t ↔ t < H ∧ j ∈ R.sched t ∧ ¬ R.Spins j t := by
  classical
  unfold quietSched
  by_cases h : t < H
  · rw [if_pos h, mem_filter]
    exact ⟨fun x => ⟨h, x⟩, fun x => x.2⟩
  · rw [if_neg h]
    simp [h]

/-- A job that spins is executing. -/
theorem SpinBase.spins_sched (h : SpinBase S R) {j : Job n} {u : ℕ} (hs : R.Spins j u) : j ∈ R.sched u := by
  obtain ⟨s, hi, rfl, h1, h2⟩ := hs
  obtain ⟨q, hq, hg⟩ := h.spins_global hi (by omega)
  have := (h.order s hi).2
  exact h.nonpreemptive s q u hi hq hg h1 (by omega)

/-- Service and spinning. -/
theorem SpinBase.service_quiet (h : SpinBase S R) {H t : ℕ} (ht : t ≤ H) (j : Job n) :
    service (quietSched R H) j t + (R.spinSlots j t).card = service R.sched j t := by
  classical
  unfold service
  rw [← card_union_of_disjoint]
  · congr 1
    ext u
    rw [mem_union, mem_filter, mem_filter, LockRun.mem_spinSlots, mem_range, mem_quietSched]
    constructor
    · rintro (⟨h1, _, h2, _⟩ | ⟨h1, h2⟩)
      · exact ⟨h1, h2⟩
      · exact ⟨h1, h.spins_sched h2⟩
    · rintro ⟨h1, h2⟩
      by_cases hc : R.Spins j u
      · exact Or.inr ⟨h1, hc⟩
      · exact Or.inl ⟨h1, by omega, h2, hc⟩
  · rw [disjoint_left]
    intro u h1 h2
    exact (mem_quietSched.1 (mem_filter.1 h1).2).2.2 (LockRun.mem_spinSlots.1 h2).2

/-- After a job has spun, it executes. -/
theorem SpinBase.quiet_after (h : SpinBase S R)
    (huse : ∀ s, R.issued s → R.enter s < R.acquire s → R.acquire s < R.leave s) {j : Job n} {u : ℕ}
    (hs : R.Spins j u) : ∃ v, u < v ∧ j ∈ R.sched v ∧ ¬ R.Spins j v := by
  obtain ⟨s, hi, rfl, h1, h2⟩ := hs
  obtain ⟨q, hq, hg⟩ := h.spins_global hi (by omega)
  have hlt := huse s hi (by omega)
  have hord := h.order s hi
  refine ⟨R.acquire s, h2, h.nonpreemptive s q _ hi hq hg hord.1 hlt, ?_⟩
  rintro ⟨s', hi', hj', h3, h4⟩
  have := h.section_unique (t := R.acquire s) hi' hi hj' h3 (lt_of_lt_of_le h4 (h.order s' hi').2) hord.1 hlt
  subst this
  omega

theorem SpinBase.completed_quiet (h : SpinBase S R)
    (huse : ∀ s, R.issued s → R.enter s < R.acquire s → R.acquire s < R.leave s) {H t : ℕ} (ht : t ≤ H)
    (j : Job n) :
    Completed (quietWork R S H) (quietSched R H) j t ↔ Completed R.work R.sched j t := by
  classical
  by_cases hH : Completed R.work R.sched j H
  · have hex : (quietWork R S H).exec j = service (quietSched R H) j H := by
      unfold quietWork
      exact if_pos hH
    constructor
    · intro hc
      by_contra hno
      have hc : (quietWork R S H).exec j ≤ service (quietSched R H) j t := hc
      rw [hex, service_add (quietSched R H) j ht] at hc
      -- a slot in which the job is served
      have hserv : 0 < serviceIn R.sched j t H := by
        have := service_add R.sched j ht
        unfold Completed at hH hno
        omega
      unfold serviceIn at hserv
      obtain ⟨u, hu, hmax⟩ := exists_max_image _ id (card_pos.1 hserv)
      simp only [id_eq] at hmax
      rw [mem_filter, mem_Ico] at hu
      have hq : ¬ R.Spins j u := by
        intro hs
        obtain ⟨v, hv1, hv2, _⟩ := h.quiet_after huse hs
        have hvH : v < H := by
          by_contra hc
          exact (h.ready v j hv2).1.2 (hH.mono (by omega))
        have := hmax v (by rw [mem_filter, mem_Ico]; exact ⟨⟨by omega, hvH⟩, hv2⟩)
        omega
      have : 0 < serviceIn (quietSched R H) j t H := by
        unfold serviceIn
        rw [card_pos]
        refine ⟨u, ?_⟩
        rw [mem_filter, mem_Ico]
        exact ⟨hu.1, mem_quietSched.2 ⟨hu.1.2, hu.2, hq⟩⟩
      omega
    · intro hc
      unfold Completed
      rw [hex, service_add (quietSched R H) j ht]
      have : serviceIn (quietSched R H) j t H = 0 := by
        unfold serviceIn
        rw [card_eq_zero, filter_eq_empty_iff]
        intro u hu hj
        rw [mem_Ico] at hu
        exact (h.ready u j (mem_quietSched.1 hj).2.1).1.2 (hc.mono hu.1)
      omega
  · have hno : ¬ Completed R.work R.sched j t := fun hc => hH (hc.mono ht)
    refine iff_of_false ?_ hno
    have hex : (quietWork R S H).exec j = S.cost j.1 := by
      unfold quietWork
      exact if_neg hH
    unfold Completed
    rw [hex]
    have h1 := h.progress huse hno
    have h2 := h.service_quiet ht j
    omega

theorem SpinBase.quiet_wcet (h : SpinBase S R) (H : ℕ) (j : Job n) : (quietWork R S H).exec j ≤ S.cost j.1 := by
  classical
  by_cases hH : Completed R.work R.sched j H
  · have hex : (quietWork R S H).exec j = service (quietSched R H) j H := by
      unfold quietWork
      exact if_pos hH
    rw [hex]
    obtain ⟨T0, hT0, hspin⟩ := h.spin_le_slots j
    have h1 := hspin (max T0 H) (le_max_left _ _)
    have h2 : (R.spinSlots j (max T0 H)).card ≤ (R.spinSlots j H).card := by
      apply card_le_card
      intro u hu
      obtain ⟨h1, h2⟩ := LockRun.mem_spinSlots.1 hu
      refine LockRun.mem_spinSlots.2 ⟨?_, h2⟩
      by_contra hc
      exact (h.ready u j (h.spins_sched h2)).1.2 (hH.mono (by omega))
    have h3 := h.service_quiet le_rfl j (H := H)
    have h4 := service_le_exec h.valid j H
    have h5 := h.cost j
    omega
  · unfold quietWork
    exact le_of_eq (if_neg hH)

/-- A busy window of task `k` from `a` to `e`: at all times, some job of task `k` or of a task of the same processor
and higher priority is pending, those released earlier are complete, and only job `q` of task `k` is ready. -/
structure SpinWindow (S : LockSystem n) (prio : Fin n → ℕ) (R : LockRun n) (k : Fin n) (q a e : ℕ) : Prop where
  busy : ∀ t, a ≤ t → t < e → ∃ x : Job n, S.proc x.1 = S.proc k ∧ prio x.1 ≤ prio k ∧ Pending R.work R.sched x t
  fresh : ∀ x : Job n, S.proc x.1 = S.proc k → prio x.1 ≤ prio k → R.work.release x < a → Completed R.work R.sched x a
  own : ∀ t p, a ≤ t → t < e → Ready R.work R.sched (k, p) t → p = q

open Classical in
/-- **Fixed priorities and spin locks**: a solution of the recurrences bounds the response times, if the slots of a
busy window in which the processor serves no job of high priority or one that spins are bounded. -/
theorem NpSpinFp.window_safe (h : NpSpinFp S prio R)
    (huse : ∀ s, R.issued s → R.enter s < R.acquire s → R.acquire s < R.leave s)
    (hT : ∀ i, 0 < S.period i) (hprio : ∀ i k, S.proc i = S.proc k → prio i = prio k → i = k)
    (W B : Fin n → ℕ)
    (hB : ∀ H, BoundedBefore R.work R.sched W H → ∀ k q a, SpinWindow S prio R k q a (a + W k) → a + W k ≤ H →
      ((Ico a (a + W k)).filter (fun t => ∀ j ∈ R.sched t, S.proc j.1 = S.proc k → prio j.1 ≤ prio k →
        R.Spins j t)).card ≤ B k)
    (hfix : ∀ k, B k + S.cost k + ∑ i ∈ univ.filter (fun i => S.proc i = S.proc k ∧ prio i < prio k),
      cdiv (W k) (S.period i) * S.cost i ≤ W k)
    (hWT : ∀ k, W k ≤ S.period k) : ∀ H, BoundedBefore R.work R.sched W H := by
  intro H
  induction H with
  | zero => intro j hj; omega
  | succ H ih =>
    rintro ⟨k, q0⟩ hj
    rcases Nat.lt_or_ge (R.work.release (k, q0) + W k) H with h1 | h1
    · exact ih (k, q0) h1
    have hH : R.work.release (k, q0) + W k = H := by
      simp only at hj
      omega
    have hcc : ∀ (j : Job n) t, t ≤ H → (Completed (quietWork R S H) (quietSched R H) j t ↔
        Completed R.work R.sched j t) := fun j t ht => h.completed_quiet huse ht j
    have hs : (quietWork R S H).Sporadic S.cost S.period := ⟨h.separated, fun i q => h.quiet_wcet H (i, q)⟩
    have hv : ValidSchedule n (quietWork R S H) (quietSched R H) := by
      constructor
      · intro t
        refine le_trans (card_le_card ?_) (h.valid.procs t)
        intro j hj
        exact (mem_quietSched.1 hj).2.1
      · intro t j hj
        obtain ⟨hlt, hj, _⟩ := mem_quietSched.1 hj
        obtain ⟨⟨a1, a2⟩, a3⟩ := h.ready t j hj
        exact ⟨⟨a1, fun hc => a2 ((hcc j t hlt.le).1 hc)⟩, fun k hk => (hcc _ t hlt.le).2 (a3 k hk)⟩
    have hmem : ∀ x : Fin n, (x = k ∨ x ∈ univ.filter (fun i => S.proc i = S.proc k ∧ prio i < prio k)) ↔
        S.proc x = S.proc k ∧ prio x ≤ prio k := by
      intro x
      rw [mem_filter]
      constructor
      · rintro (rfl | ⟨_, h1, h2⟩)
        · exact ⟨rfl, le_rfl⟩
        · exact ⟨h1, h2.le⟩
      · rintro ⟨h1, h2⟩
        rcases h2.lt_or_eq with h3 | h3
        · exact Or.inr ⟨mem_univ _, h1, h3⟩
        · exact Or.inl (hprio _ _ h1 h3)
    have := pfp_one hs hv hT k (univ.filter (fun i => S.proc i = S.proc k ∧ prio i < prio k)) (W k) (B k) q0
      (hfix k) (hWT k) ?_
    · exact (hH ▸ (hcc (k, q0) H le_rfl).1 (hH ▸ this) : _)
    · intro a q hwin hle
      have hle : a + W k ≤ H := by rw [← hH]; exact hle
      have hwin' : SpinWindow S prio R k q a (a + W k) := by
        refine ⟨fun t h1 h2 => ?_, fun x hx1 hx2 hr => ?_, fun t p h1 h2 hr => ?_⟩
        · obtain ⟨x, hx, hp1, hp2⟩ := hwin.busy t h1 h2
          obtain ⟨h3, h4⟩ := (hmem _).1 hx
          exact ⟨x, h3, h4, hp1, fun hc => hp2 ((hcc x t (by omega)).2 hc)⟩
        · exact (hcc x a (by omega)).1 (hwin.fresh x ((hmem _).2 ⟨hx1, hx2⟩) hr)
        · obtain ⟨⟨a1, a2⟩, a3⟩ := hr
          exact hwin.own t p h1 h2 ⟨⟨a1, fun hc => a2 ((hcc _ t (by omega)).1 hc)⟩,
            fun k hk => (hcc _ t (by omega)).2 (a3 k hk)⟩
      refine le_trans (card_le_card ?_) (hB H ih k q a hwin' hle)
      intro t ht
      obtain ⟨ht, hno⟩ := mem_filter.1 ht
      refine mem_filter.2 ⟨ht, fun j hj hp1 hp2 => ?_⟩
      by_contra hs
      have := hno j (mem_quietSched.2 ⟨by have := (mem_Ico.1 ht).2; omega, hj, hs⟩)
      rcases (hmem j.1).2 ⟨hp1, hp2⟩ with h5 | h5
      · exact this.1 h5
      · exact this.2 h5

end Verif.Spec
