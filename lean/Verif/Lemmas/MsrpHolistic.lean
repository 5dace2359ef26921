import Verif.Lemmas.MsrpFp
import Verif.Lemmas.PartLocks
import Verif.Model.MsrpHolistic

/-! Spinning in runs with the MSRP, up to some instant. -/

namespace Verif.Spec
open Finset

variable {n : ℕ} {S : LockSystem n} {R : LockRun n}

open Classical in
/-- The slots before `t` in which job `j` spins. -/
noncomputable def LockRun.spinSlots (R : LockRun n) (j : Job n) (t : ℕ) : Finset ℕ :=
  (range t).filter (fun u => ∃ s, R.issued s ∧ s.job = j ∧ R.enter s ≤ u ∧ u < R.acquire s)

theorem LockRun.mem_spinSlots {j : Job n} {t u : ℕ} : u ∈ R.spinSlots j t ↔
    u < t ∧ ∃ s, R.issued s ∧ s.job = j ∧ R.enter s ≤ u ∧ u < R.acquire s := by
  classical
  unfold LockRun.spinSlots
  simp only [mem_filter, mem_range]

/-- Spinning is due to global resources. -/
theorem SpinBase.spins_global (h : SpinBase S R) {s : Section n} (hi : R.issued s) (hlt : R.enter s < R.acquire s) :
    ∃ q, (S.reqs s.job.1)[s.idx]? = some q ∧ S.Global q.res := by
  obtain ⟨q, hq, _⟩ := h.declared s hi
  refine ⟨q, hq, ?_⟩
  by_contra hg
  have := h.immediate s q hi hq hg
  omega

/-- All the spinning of a job takes place in some slots. -/
theorem SpinBase.spin_le_slots (h : SpinBase S R) (j : Job n) :
    ∃ T, (∀ s, R.issued s → s.job = j → R.leave s ≤ T) ∧ ∀ t, T ≤ t → R.spin S j ≤ (R.spinSlots j t).card := by
  classical
  set T := (S.sections j).sup R.leave with hT
  have hmem : ∀ s, R.issued s → s.job = j → s ∈ S.sections j := by
    intro s hi hj
    exact LockSystem.mem_sections.2 ⟨hj, h.declared s hi⟩
  have hle : ∀ s, R.issued s → s.job = j → R.leave s ≤ T := fun s hi hj => le_sup (f := R.leave) (hmem s hi hj)
  refine ⟨T, hle, fun t ht => ?_⟩
  let I : Finset ((_ : Fin (S.reqs j.1).length) × ℕ) :=
    (univ : Finset (Fin (S.reqs j.1).length)).sigma (fun q => range ((S.reqs j.1).get q).num)
  let sec : ((_ : Fin (S.reqs j.1).length) × ℕ) → Section n := fun x => ⟨j, x.1, x.2⟩
  let slots : ((_ : Fin (S.reqs j.1).length) × ℕ) → Finset ℕ := fun x =>
    if R.issued (sec x) then Ico (R.enter (sec x)) (R.acquire (sec x)) else ∅
  have e : R.spin S j = ∑ x ∈ I, (slots x).card := by
    unfold LockRun.spin
    rw [sum_sigma]
    apply sum_congr rfl
    intro q _
    apply sum_congr rfl
    intro a _
    by_cases hc : R.issued ⟨j, q, a⟩
    · rw [if_pos hc]
      simp only [slots, sec]
      rw [if_pos hc, Nat.card_Ico]
    · rw [if_neg hc]
      simp only [slots, sec]
      rw [if_neg hc, card_empty]
  rw [e, ← card_biUnion]
  · apply card_le_card
    intro u hu
    obtain ⟨x, _, hx⟩ := mem_biUnion.1 hu
    simp only [slots] at hx
    by_cases hc : R.issued (sec x)
    · rw [if_pos hc, mem_Ico] at hx
      have h1 := hle (sec x) hc rfl
      have h2 := (h.order (sec x) hc).2
      exact LockRun.mem_spinSlots.2 ⟨by omega, sec x, hc, rfl, hx⟩
    · rw [if_neg hc] at hx
      simp at hx
  · intro x _ y _ hxy
    change Disjoint _ _
    rw [disjoint_left]
    intro u h1 h2
    simp only [slots] at h1 h2
    by_cases c1 : R.issued (sec x)
    · by_cases c2 : R.issued (sec y)
      · rw [if_pos c1, mem_Ico] at h1
        rw [if_pos c2, mem_Ico] at h2
        have o1 := (h.order (sec x) c1).2
        have o2 := (h.order (sec y) c2).2
        have := h.section_unique (t := u) c1 c2 rfl h1.1 (by omega) h2.1 (by omega)
        simp only [sec, Section.mk.injEq, true_and] at this
        apply hxy
        obtain ⟨x1, x2⟩ := x
        obtain ⟨y1, y2⟩ := y
        simp only at this
        obtain ⟨e1, e2⟩ := this
        have e1 : x1 = y1 := Fin.ext e1
        subst e1 e2
        rfl
      · rw [if_neg c2] at h2
        simp at h2
    · rw [if_neg c1] at h1
      simp at h1

/-- An incomplete job has not been served for longer than its cost and the time that it has spun. -/
theorem SpinBase.progress (h : SpinBase S R)
    (huse : ∀ s, R.issued s → R.enter s < R.acquire s → R.acquire s < R.leave s) {j : Job n} {t : ℕ}
    (hinc : ¬ Completed R.work R.sched j t) :
    service R.sched j t + 1 ≤ S.cost j.1 + (R.spinSlots j t).card := by
  classical
  obtain ⟨T0, hT0, hspin⟩ := h.spin_le_slots j
  set T := max T0 t with hT
  have hsT := hspin T (le_max_left _ _)
  have htT : t ≤ T := le_max_right _ _
  have hexec := service_le_exec h.valid j T
  have hcost := h.cost j
  rw [service_add R.sched j htT] at hexec
  have hnp : ∀ u ∈ R.spinSlots j T, j ∈ R.sched u := by
    intro u hu
    obtain ⟨_, s, hi, rfl, h1, h2⟩ := LockRun.mem_spinSlots.1 hu
    obtain ⟨q, hq, hg⟩ := h.spins_global hi (by omega)
    have := (h.order s hi).2
    exact h.nonpreemptive s q u hi hq hg h1 (by omega)
  set P := (R.spinSlots j T).filter (fun u => t ≤ u) with hP
  have hsplit : (R.spinSlots j T).card ≤ (R.spinSlots j t).card + P.card := by
    rw [← card_union_of_disjoint]
    · apply card_le_card
      intro u hu
      rw [mem_union]
      by_cases hc : t ≤ u
      · exact Or.inr (mem_filter.2 ⟨hu, hc⟩)
      · left
        obtain ⟨_, s⟩ := LockRun.mem_spinSlots.1 hu
        exact LockRun.mem_spinSlots.2 ⟨by omega, s⟩
    · rw [disjoint_left]
      intro u h1 h2
      have := (LockRun.mem_spinSlots.1 h1).1
      have := (mem_filter.1 h2).2
      omega
  rcases P.eq_empty_or_nonempty with he | hne
  · rw [he, card_empty] at hsplit
    unfold Completed at hinc
    omega
  · obtain ⟨u, hu, hmax⟩ := P.exists_max_image id hne
    simp only [id_eq] at hmax
    obtain ⟨hu1, hu2⟩ := mem_filter.1 hu
    obtain ⟨_, s, hi, hj, h1, h2⟩ := LockRun.mem_spinSlots.1 hu1
    have hlt := huse s hi (by omega)
    obtain ⟨q, hq, hg⟩ := h.spins_global hi (by omega)
    have hac := h.nonpreemptive s q (R.acquire s) hi hq hg (by omega) hlt
    have hlT := hT0 s hi hj
    have hserv : P.card + 1 ≤ serviceIn R.sched j t T := by
      have hno : R.acquire s ∉ P := fun hc => by have := hmax _ hc; omega
      rw [← card_insert_of_notMem hno]
      unfold serviceIn
      refine le_trans (card_le_card ?_) (le_of_eq (by congr))
      intro v hv
      rw [mem_filter, mem_Ico]
      rw [mem_insert] at hv
      rcases hv with rfl | hv
      · have : R.leave s ≤ T := hlT.trans (le_max_left _ _)
        rw [hj] at hac
        exact ⟨⟨by omega, by omega⟩, hac⟩
      · obtain ⟨hv1, hv2⟩ := mem_filter.1 hv
        exact ⟨⟨hv2, (LockRun.mem_spinSlots.1 hv1).1⟩, hnp v hv1⟩
    omega

/-- Requests of one kind whose jobs execute at some time in an interval. -/
theorem SpinBase.requests_le (h : SpinBase S R) {W : Fin n → ℕ} {H : ℕ} (hb : BoundedBefore R.work R.sched W H)
    {i : Fin n} (hT : 0 < S.period i) {F : Finset (Section n)} {lo hi d : ℕ} {q : Req}
    (hq : (S.reqs i)[d]? = some q) (hiH : hi ≤ H)
    (hF : ∀ s ∈ F, R.issued s ∧ s.job.1 = i ∧ s.idx = d ∧ ∃ u, lo ≤ u ∧ u < hi ∧ s.job ∈ R.sched u) :
    F.card ≤ cdiv (hi - lo + W i) (S.period i) * q.num := by
  classical
  set J := F.image (fun s => s.job.2) with hJ
  have hJb : ∀ p ∈ J, lo < R.work.release (i, p) + W i ∧ R.work.release (i, p) < hi := by
    intro p hp
    obtain ⟨s, hs, rfl⟩ := mem_image.1 hp
    obtain ⟨h1, h2, _, u, h3, h4, h5⟩ := hF s hs
    have hr := h.ready u _ h5
    have hl := lt_of_pending hb (by omega) hr.1.2
    have hrel := hr.1.1
    have e : s.job = (i, s.job.2) := by rw [← h2]
    rw [e] at hl hrel
    exact ⟨by simp only at hl; omega, by omega⟩
  have hsp : Workload.Sporadic (⟨R.work.release, fun _ => 0⟩ : Workload n) (fun _ => 0) S.period :=
    ⟨h.separated, fun _ _ => le_rfl⟩
  have hJc : J.card ≤ cdiv (hi - lo + W i) (S.period i) := by
    rcases J.eq_empty_or_nonempty with he | ⟨p, hp⟩
    · rw [he]; simp
    · have hp' := hJb p hp
      have := card_released_le hsp i hT J (a := lo + 1 - W i) (b := hi - 1) (by
        intro p hp
        have := hJb p hp
        simp only
        omega) (by omega)
      refine this.trans ?_
      have hlt : lo < hi := by
        obtain ⟨s, hs, _⟩ := mem_image.1 hp
        obtain ⟨_, _, _, u, h3, h4, _⟩ := hF s hs
        omega
      rw [← succ_div_eq_cdiv hT (by omega)]
      have := Nat.div_le_div_right (c := S.period i) (show hi - 1 - (lo + 1 - W i) ≤ hi - lo + W i - 1 by omega)
      omega
  have hcard : F.card ≤ (J ×ˢ range q.num).card := by
    apply card_le_card_of_injOn (fun s => (s.job.2, s.inst))
    · intro s hs
      simp only [coe_product, Set.mem_prod, mem_coe, mem_range]
      refine ⟨mem_image_of_mem _ hs, ?_⟩
      obtain ⟨h1, h2, h3, _⟩ := hF s hs
      obtain ⟨q', h4, h5⟩ := h.declared s h1
      rw [h2, h3, hq] at h4
      cases h4
      exact h5
    · intro a ha b hb hab
      simp only [Prod.mk.injEq] at hab
      obtain ⟨_, a1, a2, _⟩ := hF a ha
      obtain ⟨_, b1, b2, _⟩ := hF b hb
      obtain ⟨⟨aj, ap⟩, ai, an⟩ := a
      obtain ⟨⟨bj, bp⟩, bi, bn⟩ := b
      simp only at a1 a2 b1 b2 hab
      rw [a1, a2, b1, b2, hab.1, hab.2]
  rw [card_product, card_range] at hcard
  exact hcard.trans (Nat.mul_le_mul_right _ hJc)

end Verif.Spec

namespace Verif.SR.Msrp
open Verif.Spec Finset
open Verif.SR.Rw (From events_rel clusters_rel contention_cluster allClusters npFifoLoop_eq Contention)

variable {info : Info} {R : LockRun info.length} {W : Fin info.length → ℕ} {H : ℕ} {irq : ℤ}

/-- The spinning of some requests of a job for one resource. -/
theorem spin_count (h : SpinRun (system info) R) (hb : BoundedBefore R.work R.sched W H)
    (hT : ∀ t ∈ info, 0 < t.period) (hW : ∀ i, W i ≤ (info.get i).response)
    (hirq : ∀ t ∈ info, (t.cluster : ℤ) ≠ irq) {j : Job info.length} {D : Finset (Section info.length)}
    {issued r : ℕ} (hD : ∀ s ∈ D, R.issued s ∧ s.job = j ∧ (system info).For s r)
    (hg : (system info).Global r) (hc : D.card ≤ issued) {Y : Finset ℕ}
    (hY : ∀ t ∈ Y, t < H ∧ ∃ s ∈ D, R.enter s ≤ t ∧ t < R.acquire s) :
    Y.card ≤ (npFifo j.1 (info.get j.1) (clusterResources info) 1 r issued irq).total := by
  classical
  have key : ∀ t ∈ Y, ∃ s z, s ∈ D ∧ R.enter s ≤ t ∧ t < R.acquire s ∧ R.issued z ∧ (system info).For z r ∧
      R.enter z ≤ R.enter s ∧ R.acquire z ≤ t ∧ t < R.leave z ∧
      (system info).proc z.job.1 ≠ (system info).proc j.1 ∧ z.job ∈ R.sched (R.enter s) ∧ z.job ∈ R.sched t := by
    intro t ht
    obtain ⟨htH, s, hs, h1, h2⟩ := hY t ht
    obtain ⟨hi, hj, q, hq, hqr⟩ := hD s hs
    subst hqr
    obtain ⟨z, q', hi', hq', hr, h3, h4, h5⟩ := h.fifo s q t hi hq hg h1 h2
    have hg' : (system info).Global q'.res := by rw [hr]; exact hg
    have hx := h.nonpreemptive z q' (R.enter s) hi' hq' hg' h3 (by omega)
    have hx2 := h.nonpreemptive z q' t hi' hq' hg' (by omega) h5
    refine ⟨s, z, hs, h1, h2, hi', ⟨q', hq', hr⟩, h3, h4, h5, ?_, hx, hx2⟩
    intro hp
    have hle := (h.order s hi).2
    have hy := h.nonpreemptive s q t hi hq hg h1 (by omega)
    have hjob := h.one _ _ hx2 _ hy (by rw [hp, hj])
    have := h.section_unique (t := t) hi' hi hjob (by omega) h5 h1 (by omega)
    subst this
    omega
  rcases Y.eq_empty_or_nonempty with he | ⟨t0, ht0⟩
  · rw [he]; simp
  obtain ⟨_, s0, hs0, _⟩ := hY t0 ht0
  haveI : Nonempty (Section info.length) := ⟨s0⟩
  choose! fs fz hf using key
  set F := Y.image fz with hF
  have hFm : ∀ z ∈ F, ∃ t, t ∈ Y ∧ fz t = z := fun z hz => by
    obtain ⟨t, ht, e⟩ := mem_image.1 hz
    exact ⟨t, ht, e⟩
  choose! g hgm using hFm
  refine (LockRun.slots_le (R := R) (F := F) (fun t ht => ⟨fz t, mem_image_of_mem _ ht, ?_⟩)).trans ?_
  · have a := hf t ht
    exact ⟨⟨a.2.2.2.1, a.2.2.2.2.2.2.1, a.2.2.2.2.2.2.2.1⟩, a.2.2.2.2.2.2.2.2.2.2⟩
  have hcl : ∀ c, (F.filter (fun z => (info.get z.job.1).cluster = c)).card ≤ issued := by
    intro c
    refine le_trans (card_le_card_of_injOn (fun z => fs (g z)) (t := D) ?_ ?_) hc
    · intro z hz
      have hz := (mem_filter.1 (mem_coe.1 hz)).1
      exact mem_coe.2 (hf _ (hgm z hz).1).1
    · intro z hz z' hz' he
      obtain ⟨hz, hc1⟩ := mem_filter.1 (mem_coe.1 hz)
      obtain ⟨hz', hc2⟩ := mem_filter.1 (mem_coe.1 hz')
      have a := hf _ (hgm z hz).1
      have b := hf _ (hgm z' hz').1
      simp only at he
      rw [(hgm z hz).2] at a
      rw [(hgm z' hz').2, ← he] at b
      obtain ⟨a1, a2, a3, a4, a5, a6, a7, a8, a9, a10, a11⟩ := a
      obtain ⟨b1, b2, b3, b4, b5, b6, b7, b8, b9, b10, b11⟩ := b
      have hjob := h.one _ _ a10 _ b10 (show (info.get z.job.1).cluster = (info.get z'.job.1).cluster from hc1.trans hc2.symm)
      exact h.section_unique (t := R.enter (fs (g z))) a4 b4 hjob a6 (by omega) b6 (by omega)
  unfold npFifo
  rw [npFifoLoop_eq]
  have hcont := fun c => contention_cluster info c r
  refine (clusters_rel (α := Section info.length) From (fun s => R.use s)
    (fun s => (info.get s.job.1).cluster) (q := r)
    (fun c => (hcont c).nodup) (fun c => (hcont c).sorted) (F := F) ?_ ?_ ?_ ?_ ?_ ?_).1
  · intro z _
    exact cluster_lt (fin_get? z.job.1)
  · intro z _ c a ha b hb h1 h2
    exact (hcont c).inj a ha b hb (h1.1.symm.trans h2.1) (h1.2.symm.trans h2.2)
  · intro z hz
    have a := hf _ (hgm z hz).1
    rw [(hgm z hz).2] at a
    obtain ⟨_, _, _, a4, ⟨q, hq, hqr⟩, _, _, _, a9, _⟩ := a
    obtain ⟨rq, hr1, rfl⟩ := lock_req hq
    refine ⟨⟨z.job.1, info.get z.job.1, z.idx, rq⟩, ?_, ⟨rfl, rfl⟩, ?_⟩
    · exact ((hcont _).mem _).2 ⟨fin_get? _, hr1, rfl, hqr⟩
    · intro he
      simp only at he
      exact a9 (by rw [Fin.ext he])
  · intro z hz c rb hrb hfr
    obtain ⟨m1, m2, m3, m4⟩ := ((hcont c).mem rb).1 hrb
    rw [← hfr.1, fin_get?] at m1
    have m1 := Option.some.inj m1
    rw [← m1, ← hfr.2] at m2
    have a := hf _ (hgm z hz).1
    rw [(hgm z hz).2] at a
    have := h.length z _ a.2.2.2.1 (lock_req' m2)
    unfold LockRun.use
    refine le_trans (le_of_eq ?_) this
    congr
  · intro c rb hrb
    obtain ⟨m1, m2, m3, m4⟩ := ((hcont c).mem rb).1 hrb
    rw [le_min_iff]
    constructor
    · rcases (F.filter (fun s => From s rb)).eq_empty_or_nonempty with he | ⟨z0, hz0⟩
      · rw [he]; simp
      obtain ⟨hz0, hfr⟩ := mem_filter.1 hz0
      have e1 : info.get z0.job.1 = rb.info := by
        rw [← hfr.1, fin_get?] at m1
        exact Option.some.inj m1
      rw [← e1] at m2
      have := h.requests_le hb (i := z0.job.1) (hT _ (List.get_mem info _))
        (F := F.filter (fun s => From s rb)) (lo := R.work.release j)
        (hi := min H (R.work.release j + W j.1)) (d := rb.idx) (lock_req' m2) (min_le_left _ _) (by
          intro z hz
          obtain ⟨hz, hz2⟩ := mem_filter.1 hz
          have a := hf _ (hgm z hz).1
          rw [(hgm z hz).2] at a
          obtain ⟨a1, a2, a3, a4, _, _, _, _, _, _, a11⟩ := a
          have hid : z.job.1 = z0.job.1 := Fin.ext (hz2.1.trans hfr.1.symm)
          refine ⟨a4, hid, hz2.2, g z, ?_, ?_, a11⟩
          all_goals
            obtain ⟨hi, hj, q, hq, hqr⟩ := hD _ a1
            subst hqr
            have hle := (h.order _ hi).2
            have hy := h.nonpreemptive _ q (g z) hi hq hg a2 (by omega)
            have hr := h.ready _ _ hy
            rw [hj] at hr
            have hH := (hY _ (hgm z hz).1).1
          · exact hr.1.1
          · exact lt_min hH (lt_of_pending hb hH hr.1.2))
      refine this.trans ?_
      unfold RB.maxNumRequests TaskInfo.maxNumJobs
      rw [← e1]
      apply Nat.mul_le_mul_right
      rw [Native.divideWithCeil_eq _ (hT _ (List.get_mem info _))]
      refine cdiv_mono (hT _ (List.get_mem info _)) ?_
      have w1 := hW z0.job.1
      have w2 := hW j.1
      omega
    · refine le_trans (card_le_card ?_) (hcl (rb.info.cluster))
      intro z hz
      obtain ⟨hz, hz2⟩ := mem_filter.1 hz
      refine mem_filter.2 ⟨hz, ?_⟩
      rw [← hz2.1, fin_get?] at m1
      rw [Option.some.inj m1]
  · intro c
    rcases (F.filter (fun z => (info.get z.job.1).cluster = c)).eq_empty_or_nonempty with he | ⟨z0, hz0⟩
    · rw [he]; simp
    obtain ⟨hz0, hcz⟩ := mem_filter.1 hz0
    have a := hf _ (hgm z0 hz0).1
    rw [(hgm z0 hz0).2] at a
    have hne : (info.get z0.job.1).cluster ≠ (info.get j.1).cluster := a.2.2.2.2.2.2.2.2.1
    have h1 : (c : ℤ) ≠ irq := by rw [← hcz]; exact hirq _ (List.get_mem info _)
    have h2 : parallelism (info.get j.1) 1 irq c = 1 := by
      unfold parallelism
      rw [if_neg h1]
      simp only
      rw [if_neg]
      rintro ⟨_, h3⟩
      exact hne (by rw [hcz, h3])
    rw [h2, Nat.mul_one]
    exact hcl c

end Verif.SR.Msrp
