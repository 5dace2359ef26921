/-
The bounds of the analysis of the DPCP cover what happens in a run.
-/
import Verif.Lemmas.Dpcp
import Verif.Lemmas.DpcpModel
import Verif.Lemmas.FmlpCount

namespace Verif.SR.Dpcp
open Verif.Spec
open Verif.Spec.Dpcp (Delayed Served Ceil)
open Verif.SR.Msrp (system ceilingOf)
open Verif.SR.Rw (From events_rel)

variable {info : Info} {l : Locality} {loc : ℕ → ℕ} {R : LockRun info.length} {W : Fin info.length → ℕ} {m H : ℕ}

theorem for_req {s : Section info.length} {q : ℕ} (h : (system info).For s q) :
    ∃ r, (info.get s.job.1).requests[s.idx]? = some r ∧ r.resId = q := by
  obtain ⟨x, hx, hxq⟩ := h
  obtain ⟨r, hr, rfl⟩ := lock_req hx
  exact ⟨r, hr, hxq⟩

/-- The requests that a processor serves, in an interval of which the length is a multiple. -/
theorem cpu_bound (h : RequestRun m (system info) R) (hb : BoundedBefore R.work R.sched W H)
    (hT : ∀ t ∈ info, 0 < t.period) (hW : ∀ i, W i ≤ (info.get i).response)
    (hloc : ∀ t ∈ info, ∀ r ∈ t.requests, l.at r.resId = some (loc r.resId))
    {M interval total per c lo hi : ℕ} (hM : 1 ≤ M) (hi' : hi ≤ H) (hlen : hi - lo ≤ M * interval) (htot : total ≤ per)
    {F : Finset (Section info.length)}
    (hF : ∀ s ∈ F, R.issued s ∧ (∃ r, (system info).For s r ∧ loc r = c) ∧
      ∃ u, lo ≤ u ∧ u < hi ∧ R.enter s ≤ u ∧ u < R.leave s)
    (hc : F.card ≤ M * total) (ok : RB → Bool) (hoks : ∀ r, ok (scale M r) = ok r)
    (hok : ∀ s ∈ F, ∀ r, (info.get s.job.1).requests[s.idx]? = some r →
      ok ⟨s.job.1, info.get s.job.1, s.idx, r⟩ = true) :
    ∑ s ∈ F, R.use s ≤ M * (SR.boundLoop interval per ok total ((perCpu info l).getD c [])).total := by
  classical
  set cont := (perCpu info l).getD c [] with hcont
  have hC := contention_cpu info l c
  rw [← hcont] at hC
  have hsc := boundLoop_scale M interval per ok hoks cont total
  have hgoal : M * (SR.boundLoop interval per ok total cont).total =
      (SR.boundLoop interval (M * per) ok (M * total) (cont.map (scale M))).total := by
    rw [hsc]
  rw [hgoal]
  have hinj : Function.Injective (scale M) := by
    intro a b hab
    have h0 : 0 < M := hM
    obtain ⟨a1, a2, a3, ⟨a4, a5, a6, a7⟩⟩ := a
    obtain ⟨b1, b2, b3, ⟨b4, b5, b6, b7⟩⟩ := b
    unfold scale at hab
    simp only [RB.mk.injEq, Request.mk.injEq] at hab ⊢
    obtain ⟨c1, c2, c3, c4, c5, c6, c7⟩ := hab
    exact ⟨c1, c2, c3, c4, Nat.eq_of_mul_eq_mul_left h0 c5, c6, c7⟩
  have hmem : ∀ r ∈ cont.map (scale M), ∃ r0 ∈ cont, r = scale M r0 := by
    intro r hr
    obtain ⟨r0, hr0, rfl⟩ := List.mem_map.1 hr
    exact ⟨r0, hr0, rfl⟩
  refine (events_rel (α := Section info.length) From (fun s => R.use s) (hC.nodup.map hinj)
    (longest_scale M hC.sorted) (F := F) ?_ ?_ ?_ ?_ hc).1
  · intro s _ a ha b hb h1 h2
    obtain ⟨a0, ha0, rfl⟩ := hmem a ha
    obtain ⟨b0, hb0, rfl⟩ := hmem b hb
    rw [hC.inj a0 ha0 b0 hb0 (h1.1.symm.trans h2.1) (h1.2.symm.trans h2.2)]
  · intro s hs
    obtain ⟨h1, ⟨q, hq, hqc⟩, _⟩ := hF s hs
    obtain ⟨r, hr, rfl⟩ := for_req hq
    have hat := hloc _ (List.get_mem info s.job.1) r (List.mem_of_getElem? hr)
    rw [hqc] at hat
    refine ⟨scale M ⟨s.job.1, info.get s.job.1, s.idx, r⟩,
      List.mem_map_of_mem ((hC.mem _).2 ⟨fin_get? _, hr, hat⟩), ⟨rfl, rfl⟩, ?_⟩
    rw [hoks]
    exact hok s hs r hr
  · intro s hs r hr hsr
    obtain ⟨r0, hr0, rfl⟩ := hmem r hr
    obtain ⟨a1, a2, _⟩ := (hC.mem _).1 hr0
    obtain ⟨h1, _⟩ := hF s hs
    have hidx : s.idx = r0.idx := hsr.2
    have htask : (s.job.1 : ℕ) = r0.task := hsr.1
    rw [← htask, fin_get?] at a1
    have a1 := Option.some.inj a1
    have := h.length s ⟨r0.req.resId, r0.req.num, r0.req.length⟩ h1 (by
      rw [hidx]; apply lock_req'; rw [a1]; exact a2)
    unfold LockRun.use
    refine le_trans (le_of_eq ?_) this
    congr
  · intro r hr
    obtain ⟨r0, hr0, rfl⟩ := hmem r hr
    obtain ⟨a1, a2, _⟩ := (hC.mem _).1 hr0
    obtain ⟨hlt, hget⟩ := List.getElem?_eq_some_iff.1 a1
    set i : Fin info.length := ⟨r0.task, hlt⟩ with hi0
    have hri : r0.info = info.get i := by rw [← hget]; rfl
    rw [hri] at a2
    rw [scale_max, le_min_iff]
    constructor
    · have := h.requests_le hb (i := i) (S := system info) (hT _ (List.get_mem info i))
        (F := F.filter (fun s => From s (scale M r0)))
        (lo := lo) (hi := hi) (d := r0.idx) (q := ⟨r0.req.resId, r0.req.num, r0.req.length⟩) (lock_req' a2) hi' (by
          intro s hs
          obtain ⟨hs, hsr⟩ := Finset.mem_filter.1 hs
          obtain ⟨h1, _, h3⟩ := hF s hs
          exact ⟨h1, Fin.ext hsr.1, hsr.2, h3⟩)
      refine this.trans ?_
      unfold RB.maxNumRequests TaskInfo.maxNumJobs
      rw [hri, ← Nat.mul_assoc]
      apply Nat.mul_le_mul_right
      rw [Native.divideWithCeil_eq _ (hT _ (List.get_mem info i))]
      change cdiv _ _ ≤ M * cdiv _ _
      refine le_trans (cdiv_mono (hT _ (List.get_mem info i)) ?_) (cdiv_scale (hT _ (List.get_mem info i)) hM)
      have hW' := hW i
      omega
    · exact (Finset.card_filter_le _ _).trans (hc.trans (Nat.mul_le_mul_left _ htot))

/-- The number of requests of a job to a processor. -/
theorem count_le (h : RequestRun m (system info) R)
    (hloc : ∀ t ∈ info, ∀ r ∈ t.requests, l.at r.resId = some (loc r.resId)) {j : Job info.length} {c : ℕ}
    {F : Finset (Section info.length)}
    (hF : ∀ s ∈ F, R.issued s ∧ s.job = j ∧ ∃ r, (system info).For s r ∧ loc r = c) :
    F.card ≤ countRequests (info.get j.1) l c := by
  classical
  rw [count_eq, Fmlp.sum_requests]
  set L := (info.get j.1).requests with hL
  have hLget : ∀ d : Fin L.length, L[(d : ℕ)]? = some (L.get d) := by intro d; simp
  have hdec : ∀ s ∈ F, ∃ r, L[s.idx]? = some r ∧ l.at r.resId = some c ∧ s.inst < r.num := by
    intro s hs
    obtain ⟨h1, rfl, q, hq, hqc⟩ := hF s hs
    obtain ⟨r, hr, rfl⟩ := for_req hq
    refine ⟨r, hr, ?_, ?_⟩
    · rw [hloc _ (List.get_mem info s.job.1) r (List.mem_of_getElem? hr), hqc]
    · obtain ⟨q', hq', hlt⟩ := h.declared s h1
      obtain ⟨r', hr', rfl⟩ := lock_req hq'
      rw [hr] at hr'
      cases hr'
      exact hlt
  have hfib : F.card = ∑ d : Fin L.length, (F.filter (fun s => s.idx = (d : ℕ))).card := by
    rw [← Finset.sum_range (fun d => (F.filter (fun s => s.idx = (d : ℕ))).card)]
    apply Finset.card_eq_sum_card_fiberwise
    intro s hs
    obtain ⟨r, hr, _⟩ := hdec s hs
    obtain ⟨hlt, _⟩ := List.getElem?_eq_some_iff.1 hr
    exact Finset.mem_coe.2 (Finset.mem_range.2 hlt)
  rw [hfib]
  apply Finset.sum_le_sum
  intro d _
  rcases (F.filter (fun s => s.idx = (d : ℕ))).eq_empty_or_nonempty with h0 | ⟨s0, hs0⟩
  · rw [h0]; simp
  obtain ⟨hs0, hd0⟩ := Finset.mem_filter.1 hs0
  obtain ⟨r0, hr0, hc0, _⟩ := hdec s0 hs0
  rw [hd0, hLget d] at hr0
  cases hr0
  rw [if_pos hc0, ← Finset.card_range (L.get d).num]
  apply Finset.card_le_card_of_injOn (fun s => s.inst)
  · intro s hs
    obtain ⟨hs, hd⟩ := Finset.mem_filter.1 (Finset.mem_coe.1 hs)
    obtain ⟨r, hr, _, hlt⟩ := hdec s hs
    rw [hd, hLget d] at hr
    cases hr
    exact Finset.mem_coe.2 (Finset.mem_range.2 hlt)
  · intro a ha b hb' hab
    obtain ⟨ha, hda⟩ := Finset.mem_filter.1 (Finset.mem_coe.1 ha)
    obtain ⟨hb', hdb⟩ := Finset.mem_filter.1 (Finset.mem_coe.1 hb')
    have h1 := (hF a ha).2.1
    have h2 := (hF b hb').2.1
    obtain ⟨aj, ai, an⟩ := a
    obtain ⟨bj, bi, bn⟩ := b
    simp only at h1 h2 hda hdb hab
    rw [h1, h2, hda, hdb, hab]

/-- In slot `t`, a request of job `j` to processor `c` is delayed. -/
def DelayedAt (info : Info) (loc : ℕ → ℕ) (R : LockRun info.length) (j : Job info.length) (c t : ℕ) : Prop :=
  ∃ s, s.job = j ∧ Delayed (system info) loc R s c t

open Classical in
/-- The delay of a job on another processor. -/
theorem delay_le (h : Spec.Dpcp (system info) (fun i => (info.get i).priority) loc R)
    (hb : BoundedBefore R.work R.sched W H)
    (hT : ∀ t ∈ info, 0 < t.period) (hW : ∀ i, W i ≤ (info.get i).response)
    (hinj : Function.Injective (fun i : Fin info.length => (info.get i).priority))
    (hloc : ∀ t ∈ info, ∀ r ∈ t.requests, l.at r.resId = some (loc r.resId)) (j : Job info.length) (c : ℕ) :
    ((Finset.range H).filter (DelayedAt info loc R j c)).card ≤
      (boundLoop info j.1 (info.get j.1) (countRequests (info.get j.1) l c) ((perCpu info l).getD c [])).total := by
  rw [boundLoop_eq info j.1 (info.get j.1) _ _ le_rfl]
  set Y := (Finset.range H).filter (DelayedAt info loc R j c) with hY
  have hex : ∀ t ∈ Y, ∃ s' s, s.job = j ∧ Delayed (system info) loc R s c t ∧ Served (system info) loc R s' c t ∧
      ((info.get s'.job.1).priority ≤ (info.get s.job.1).priority ∨
        R.acquire s' < t ∧ Ceil (system info) (fun i => (info.get i).priority) s' s.job.1) := by
    intro t ht
    obtain ⟨_, s, hs, hd⟩ := Finset.mem_filter.1 ht
    obtain ⟨s', h1, h2⟩ := h.delayed_by hd
    exact ⟨s', s, hs, hd, h1, h2⟩
  rcases Y.eq_empty_or_nonempty with h0 | ⟨t0, ht0⟩
  · rw [h0]; simp
  have : Nonempty (Section info.length) := ⟨(hex t0 ht0).choose⟩
  choose! f g hfg using hex
  have hne : ∀ t ∈ Y, (f t).job.1 ≠ j.1 := by
    intro t ht heq
    obtain ⟨h1, hd, hs, _⟩ := hfg t ht
    have hj := ready_eq (h.owns_ready hs.1) (h.active _ t hd.1 hd.2.1 hd.2.2.1) (by rw [heq, h1])
    have := hs.2.1
    rw [hj] at this
    exact hd.2.2.2.1 this
  have htime : ∀ t ∈ Y, R.work.release j ≤ t ∧ t < min H (R.work.release j + W j.1) := by
    intro t ht
    obtain ⟨h1, hd, _⟩ := hfg t ht
    have hr := h.active _ t hd.1 hd.2.1 hd.2.2.1
    rw [h1] at hr
    have htH := Finset.mem_range.1 (Finset.mem_filter.1 ht).1
    exact ⟨hr.1.1, lt_min htH (lt_of_pending hb htH hr.1.2)⟩
  have hsum : Y.card ≤ ∑ s ∈ Y.image f, R.use s :=
    LockRun.slots_le (fun t ht => ⟨f t, Finset.mem_image_of_mem _ ht, (hfg t ht).2.2.1.1, (hfg t ht).2.2.1.2.1⟩)
  refine hsum.trans ?_
  rw [← Finset.sum_filter_add_sum_filter_not (Y.image f)
    (fun s => (info.get s.job.1).priority < (info.get j.1).priority)]
  have hint : min H (R.work.release j + W j.1) - R.work.release j ≤ 1 * (info.get j.1).response := by
    have := hW j.1
    omega
  have hbase : ∀ s ∈ Y.image f, R.issued s ∧ (∃ r, (system info).For s r ∧ loc r = c) ∧
      ∃ u, R.work.release j ≤ u ∧ u < min H (R.work.release j + W j.1) ∧ R.enter s ≤ u ∧ u < R.leave s := by
    intro s hs
    obtain ⟨t, ht, rfl⟩ := Finset.mem_image.1 hs
    obtain ⟨_, _, hs', _⟩ := hfg t ht
    exact ⟨hs'.1.1, hs'.2.2, t, (htime t ht).1, (htime t ht).2, h.owns_active hs'.1⟩
  apply Nat.add_le_add
  · set F := (Y.image f).filter (fun s => (info.get s.job.1).priority < (info.get j.1).priority) with hF
    have := cpu_bound h.toRequestRun hb hT hW hloc (M := 1) (interval := (info.get j.1).response)
      (total := F.card) (per := F.card) (c := c) le_rfl (Nat.min_le_left _ _) hint le_rfl (F := F)
      (fun s hs => hbase s (Finset.mem_filter.1 hs).1) (by omega)
      (fun r => decide (r.task ≠ (j.1 : ℕ) ∧ r.info.priority < (info.get j.1).priority)) (fun _ => rfl)
      (by
        intro s hs r _
        obtain ⟨hs, hp⟩ := Finset.mem_filter.1 hs
        obtain ⟨t, ht, rfl⟩ := Finset.mem_image.1 hs
        simp only [decide_eq_true_eq]
        exact ⟨fun hh => hne t ht (Fin.ext hh), hp⟩)
    rw [Nat.one_mul] at this
    refine this.trans ((loop_le _ _ _ _ _).trans (le_of_eq ?_))
    unfold highers
    simp only [decide_eq_true_eq]
  · set F := (Y.image f).filter (fun s => ¬ (info.get s.job.1).priority < (info.get j.1).priority) with hF
    have hlow : ∀ s ∈ F, ∃ t ∈ Y, s = f t ∧ (info.get (g t).job.1).priority < (info.get s.job.1).priority ∧
        Ceil (system info) (fun i => (info.get i).priority) s j.1 := by
      intro s hs
      obtain ⟨hs, hp⟩ := Finset.mem_filter.1 hs
      obtain ⟨t, ht, rfl⟩ := Finset.mem_image.1 hs
      obtain ⟨h1, hd, hs', hcase⟩ := hfg t ht
      have hlt : (info.get j.1).priority < (info.get (f t).job.1).priority := by
        rcases (not_lt.1 hp).lt_or_eq with h2 | h2
        · exact h2
        · exact absurd (hinj h2).symm (hne t ht)
      refine ⟨t, ht, rfl, by rw [h1]; exact hlt, ?_⟩
      rcases hcase with hcase | ⟨_, hcase⟩
      · rw [h1] at hcase
        omega
      · rw [h1] at hcase
        exact hcase
    have hcard : F.card ≤ countRequests (info.get j.1) l c := by
      choose! y hy using hlow
      have hinjF : Set.InjOn (fun s => g (y s)) F := by
        intro a ha b hb' hab
        obtain ⟨a1, a2, a3, a4⟩ := hy a ha
        obtain ⟨b1, b2, b3, b4⟩ := hy b hb'
        obtain ⟨p1, p2, p3, _⟩ := hfg _ a1
        obtain ⟨r1, r2, r3, _⟩ := hfg _ b1
        simp only at hab
        rw [← a2] at p3
        rw [← b2] at r3
        rw [← hab] at r1 r2 b3
        rw [← p1] at a4 b4
        exact h.lower_unique p2 p3 a3 a4 r2 r3 b3 b4
      rw [← Finset.card_image_of_injOn hinjF]
      apply count_le h.toRequestRun hloc
      intro s hs
      obtain ⟨x, hx, rfl⟩ := Finset.mem_image.1 hs
      obtain ⟨a1, _⟩ := hy x hx
      obtain ⟨p1, p2, _⟩ := hfg _ a1
      exact ⟨p2.1, p1, p2.2.2.2.2⟩
    have := cpu_bound h.toRequestRun hb hT hW hloc (M := 1) (interval := (info.get j.1).response)
      (total := countRequests (info.get j.1) l c) (per := countRequests (info.get j.1) l c) (c := c) le_rfl
      (Nat.min_le_left _ _) hint le_rfl (F := F)
      (fun s hs => hbase s (Finset.mem_filter.1 hs).1) (by omega)
      (lower info j.1 (info.get j.1).priority) (fun _ => rfl)
      (by
        intro s hs r hr
        obtain ⟨t, ht, rfl, _, q, x, hq, hx, hxp⟩ := hlow s hs
        obtain ⟨_, hp⟩ := Finset.mem_filter.1 hs
        obtain ⟨r', hr', rfl⟩ := for_req hq
        rw [hr] at hr'
        cases hr'
        unfold lower
        simp only [Bool.and_eq_true, decide_eq_true_eq]
        refine ⟨fun hh => hne t ht (Fin.ext hh), hp, ?_⟩
        exact Msrp.ceilingOf_le_of ⟨x, hx, hxp⟩)
    rw [Nat.one_mul] at this
    exact this

/-- The remote blocking of task `i`. -/
def remOf (info : Info) (l : Locality) (i : Fin info.length) : ℕ := (dpcpBound info l i (info.get i)).1.total

/-- The local blocking of task `i`. -/
def locOf (info : Info) (l : Locality) (i : Fin info.length) : ℕ := (dpcpBound info l i (info.get i)).2.total

open Classical in
/-- The delay of a job on all other processors. -/
theorem remote_le (h : Spec.Dpcp (system info) (fun i => (info.get i).priority) loc R)
    (hb : BoundedBefore R.work R.sched W H)
    (hT : ∀ t ∈ info, 0 < t.period) (hW : ∀ i, W i ≤ (info.get i).response)
    (hinj : Function.Injective (fun i : Fin info.length => (info.get i).priority))
    (hloc : ∀ t ∈ info, ∀ r ∈ t.requests, l.at r.resId = some (loc r.resId)) (j : Job info.length) :
    ((Finset.range H).filter (fun t => ∃ c, c ≠ (info.get j.1).cluster ∧ DelayedAt info loc R j c t)).card ≤
      remOf info l j.1 := by
  unfold remOf dpcpBound
  simp only
  rw [remoteLoop_eq]
  have hsub : (Finset.range H).filter (fun t => ∃ c, c ≠ (info.get j.1).cluster ∧ DelayedAt info loc R j c t) ⊆
      (Finset.range (perCpu info l).length).biUnion (fun c => (Finset.range H).filter (fun t =>
        c ≠ (info.get j.1).cluster ∧ DelayedAt info loc R j c t)) := by
    intro t ht
    obtain ⟨h1, c, hc, hd⟩ := Finset.mem_filter.1 ht
    refine Finset.mem_biUnion.2 ⟨c, ?_, Finset.mem_filter.2 ⟨h1, hc, hd⟩⟩
    obtain ⟨s, _, _, _, _, _, q, hq, hqc⟩ := hd
    obtain ⟨r, hr, rfl⟩ := for_req hq
    have hat := hloc _ (List.get_mem info s.job.1) r (List.mem_of_getElem? hr)
    rw [hqc] at hat
    have hm := ((contention_cpu info l c).mem ⟨s.job.1, info.get s.job.1, s.idx, r⟩).2 ⟨fin_get? _, hr, hat⟩
    rw [Finset.mem_range]
    by_contra hlen
    rw [List.getD_eq_getElem?_getD, List.getElem?_eq_none (not_lt.1 hlen)] at hm
    simp at hm
  refine (Finset.card_le_card hsub).trans (Finset.card_biUnion_le.trans (Finset.sum_le_sum ?_))
  intro c _
  simp only [Nat.zero_add]
  by_cases hcond : c ≠ (info.get j.1).cluster ∧ 0 < countRequests (info.get j.1) l c
  · rw [if_pos hcond]
    refine le_trans (Finset.card_le_card ?_) (delay_le h hb hT hW hinj hloc j c)
    intro t ht
    obtain ⟨h1, _, h2⟩ := Finset.mem_filter.1 ht
    exact Finset.mem_filter.2 ⟨h1, h2⟩
  · rw [if_neg hcond, Nat.le_zero, Finset.card_eq_zero, Finset.filter_eq_empty_iff]
    rintro t _ ⟨hc, s, hs, hd⟩
    apply hcond
    refine ⟨hc, ?_⟩
    have := count_le h.toRequestRun hloc (j := j) (c := c) (F := {s}) (by
      intro s' hs'
      rw [Finset.mem_singleton] at hs'
      rw [hs']
      exact ⟨hd.1, hs, hd.2.2.2.2⟩)
    rw [Finset.card_singleton] at this
    omega

open Classical in
/-- The slots of a window in which other tasks execute. -/
theorem idle_le (h : Spec.Dpcp (system info) (fun i => (info.get i).priority) loc R)
    (hb : BoundedBefore R.work R.sched W H)
    (hT : ∀ t ∈ info, 0 < t.period) (hW : ∀ i, W i ≤ (info.get i).response)
    (hinj : Function.Injective (fun i : Fin info.length => (info.get i).priority))
    (hloc : ∀ t ∈ info, ∀ r ∈ t.requests, l.at r.resId = some (loc r.resId))
    (hWT : ∀ i, W i ≤ (info.get i).period)
    {k : Fin info.length} {Z : Fin info.length → Prop} {q0 q1 a e : ℕ}
    (hZ : ∀ i, Z i → (info.get i).cluster = (info.get k).cluster ∧ (info.get i).priority < (info.get k).priority ∧
      remOf info l i = 0)
    (hwin : Window R.work R.sched k Z q0 q1 a e) (heH : e ≤ H) (he : e = a + (q0 - q1 + 1) * W k) :
    ((Finset.Ico a e).filter (fun t => ∀ j ∈ R.sched t, j.1 ≠ k ∧ ¬ ((info.get j.1).cluster = (info.get k).cluster ∧
      (info.get j.1).priority < (info.get k).priority))).card ≤ (q0 - q1 + 1) * (remOf info l k + locOf info l k) := by
  have hZp : ∀ i, Z i → (system info).proc i = (system info).proc k ∧
      (info.get i).priority < (info.get k).priority := fun i hi => ⟨(hZ i hi).1, (hZ i hi).2.1⟩
  have hZw : ∀ s c u, Z s.job.1 → u < H → c ≠ (system info).proc k → ¬ Delayed (system info) loc R s c u := by
    intro s c u hs hu hc hd
    have := remote_le h hb hT hW hinj hloc s.job
    rw [(hZ _ hs).2.2, Nat.le_zero, Finset.card_eq_zero] at this
    have hm : u ∈ (Finset.range H).filter (fun t => ∃ c, c ≠ (info.get s.job.1).cluster ∧
        DelayedAt info loc R s.job c t) :=
      Finset.mem_filter.2 ⟨Finset.mem_range.2 hu, c, by rw [(hZ _ hs).1]; exact hc, s, rfl, hd⟩
    rw [this] at hm
    simp at hm
  set M := q0 - q1 + 1 with hM
  set idle := (Finset.Ico a e).filter (fun t => ∀ j ∈ R.sched t, j.1 ≠ k ∧ ¬ ((info.get j.1).cluster =
    (info.get k).cluster ∧ (info.get j.1).priority < (info.get k).priority)) with hidle
  set X := (Finset.Icc q1 q0).biUnion (fun q => (Finset.range H).filter (fun t => ∃ c, c ≠ (info.get k).cluster ∧
    DelayedAt info loc R (k, q) c t)) with hX
  set Y := idle.filter (fun t => ∃ s', Served (system info) loc R s' (info.get k).cluster t ∧ s'.job.1 ≠ k) with hY
  have hsub : idle ⊆ X ∪ Y := by
    intro t ht
    obtain ⟨h1, h2⟩ := Finset.mem_filter.1 ht
    obtain ⟨h3, h4⟩ := Finset.mem_Ico.1 h1
    rcases (Spec.Dpcp.agentRun h).idle_cases hb hWT hwin heH (fun i _ hp => hinj hp) hZp hZw h3 h4 h2 with ⟨s, c, hk, c1, c2, hc, hd⟩ | hc
    · apply Finset.mem_union_left
      refine Finset.mem_biUnion.2 ⟨s.job.2, Finset.mem_Icc.2 ⟨c1, c2⟩, Finset.mem_filter.2 ⟨Finset.mem_range.2 (by omega),
        c, hc, s, by rw [← hk], hd⟩⟩
    · exact Finset.mem_union_right _ (Finset.mem_filter.2 ⟨ht, hc⟩)
  have hXc : X.card ≤ M * remOf info l k := by
    refine Finset.card_biUnion_le.trans ?_
    refine (Finset.sum_le_sum (fun q _ => remote_le h hb hT hW hinj hloc (k, q))).trans (le_of_eq ?_)
    simp only
    rw [Finset.sum_const, Nat.card_Icc, smul_eq_mul]
    congr 1
    have := hwin.jobs
    omega
  have hYc : Y.card ≤ M * locOf info l k := by
    rcases Y.eq_empty_or_nonempty with h0 | ⟨t0, ht0⟩
    · rw [h0]; simp
    have hex : ∀ t ∈ Y, ∃ s', Served (system info) loc R s' (info.get k).cluster t ∧ s'.job.1 ≠ k :=
      fun t ht => (Finset.mem_filter.1 ht).2
    have : Nonempty (Section info.length) := ⟨(hex t0 ht0).choose⟩
    choose! f hf using hex
    have hsum : Y.card ≤ ∑ s ∈ Y.image f, R.use s :=
      LockRun.slots_le (fun t ht => ⟨f t, Finset.mem_image_of_mem _ ht, (hf t ht).1.1, (hf t ht).1.2.1⟩)
    refine hsum.trans ?_
    have hM1 : 1 ≤ M := by omega
    have := cpu_bound h.toRequestRun hb hT hW hloc (M := M) (interval := (info.get k).response) (lo := a) (hi := e)
      (total := (Y.image f).card) (per := (Y.image f).card) (c := (info.get k).cluster) hM1 heH
      (by
        have := Nat.mul_le_mul_left M (hW k)
        omega) le_rfl (F := Y.image f)
      (by
        intro s hs
        obtain ⟨t, ht, rfl⟩ := Finset.mem_image.1 hs
        obtain ⟨hs', _⟩ := hf t ht
        obtain ⟨a1, a2⟩ := Finset.mem_Ico.1 (Finset.mem_filter.1 (Finset.mem_filter.1 ht).1).1
        exact ⟨hs'.1.1, hs'.2.2, t, a1, a2, h.owns_active hs'.1⟩)
      (by
        have := Nat.mul_le_mul_right (Y.image f).card hM1
        omega)
      (fun r => decide (r.task ≠ (k : ℕ))) (fun _ => rfl)
      (by
        intro s hs r _
        obtain ⟨t, ht, rfl⟩ := Finset.mem_image.1 hs
        simp only [decide_eq_true_eq]
        exact fun hh => (hf t ht).2 (Fin.ext hh))
    refine this.trans (Nat.mul_le_mul_left _ ((loop_le _ _ _ _ _).trans (le_of_eq ?_)))
    unfold locOf dpcpBound
    simp only
    rw [localBound_eq]
    unfold others
    simp only [decide_eq_true_eq]
  have h1 := (Finset.card_le_card hsub).trans (Finset.card_union_le _ _)
  rw [Nat.mul_add]
  omega

end Verif.SR.Dpcp
