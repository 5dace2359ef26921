/-
C95: the bounds for task-fair reader-writer locks are safe.  Also the versions of C94 for the
Python interface.
-/
import Verif.Lemmas.RwPython
import Verif.Props.PhaseFair

namespace Verif.SR.Rw
open Verif.Spec

variable {info mtx : Info} {procs irqCpu : ℕ} {irq : ℤ} {R : RwRun info.length}

theorem min_total (a b : Interference) : (a.min b).total = min a.total b.total := by
  unfold Interference.min Interference.lt
  split <;> rename_i h <;> simp at h <;> omega

/-! ### The loop over the resources -/

theorem tfFold_total (info mtx : Info) (i : ℕ) (tsk : TaskInfo) (procs : ℕ) (irq : ℤ) (l : List RwCount) : ∀ b : Bound,
    (l.foldl (fun b rw => if rw.numReads = 0 ∧ rw.numWrites = 0 then b
      else
        let r := tfStep info mtx i tsk procs irq rw
        { b with blocking := b.blocking.add r.1, span := b.span.max r.2 }) b).blocking.total =
      b.blocking.total + (l.map (fun rw => if rw.numReads = 0 ∧ rw.numWrites = 0 then 0
        else (tfStep info mtx i tsk procs irq rw).1.total)).sum := by
  induction l with
  | nil => intro b; simp
  | cons rw l ih =>
    intro b
    rw [List.foldl_cons, ih, List.map_cons, List.sum_cons]
    by_cases h : rw.numReads = 0 ∧ rw.numWrites = 0
    · rw [if_pos h, if_pos h]; omega
    · rw [if_neg h, if_neg h]
      simp only [Interference.add]
      omega

theorem tfFold_span (info mtx : Info) (i : ℕ) (tsk : TaskInfo) (procs : ℕ) (irq : ℤ) (l : List RwCount) : ∀ b : Bound,
    b.span.total ≤ (l.foldl (fun b rw => if rw.numReads = 0 ∧ rw.numWrites = 0 then b
      else
        let r := tfStep info mtx i tsk procs irq rw
        { b with blocking := b.blocking.add r.1, span := b.span.max r.2 }) b).span.total ∧
    ∀ rw ∈ l, ¬ (rw.numReads = 0 ∧ rw.numWrites = 0) →
      (tfStep info mtx i tsk procs irq rw).2.total ≤
      (l.foldl (fun b rw => if rw.numReads = 0 ∧ rw.numWrites = 0 then b
      else
        let r := tfStep info mtx i tsk procs irq rw
        { b with blocking := b.blocking.add r.1, span := b.span.max r.2 }) b).span.total := by
  induction l with
  | nil => intro b; simp
  | cons rw l ih =>
    intro b
    rw [List.foldl_cons]
    obtain ⟨h1, h2⟩ := ih (if rw.numReads = 0 ∧ rw.numWrites = 0 then b
      else
        let r := tfStep info mtx i tsk procs irq rw
        { b with blocking := b.blocking.add r.1, span := b.span.max r.2 })
    refine ⟨le_trans ?_ h1, ?_⟩
    · split
      · exact le_refl _
      · simp only [max_total]; omega
    · intro rw' hrw' hne
      rcases List.mem_cons.mp hrw' with rfl | hrw'
      · refine le_trans ?_ h1
        rw [if_neg hne]
        simp only [max_total]; omega
      · exact h2 rw' hrw' hne

theorem tfBounds_get (i : Fin info.length) (mtx : Info) (procs : ℕ) (irq : ℤ) :
    (tfBounds info mtx procs irq)[(i : ℕ)]? = some (chargeArrival info (tfDirect info mtx procs irq) i (info.get i)) := by
  unfold tfBounds
  rw [List.getElem?_map, List.getElem?_zipIdx, get?_fin]
  simp

/-- The analysis that distinguishes reads and writes. -/
theorem tf_wait (hper : ∀ t ∈ info, 0 < t.period) (h : TaskFair procs irq irqCpu (system info) R)
    {j : Job info.length} {q nr nw : ℕ} {O : Finset (Section info.length)} (hO : Counts R j q nr nw O) {wb : ℕ}
    (hwb : (npFifo j.1 (info.get j.1) (clusterWrites info) procs q (nr + nw) irq).count ≤ wb) :
    ∑ k ∈ O, (R.acquire k - R.enter k) ≤
      (npFifo j.1 (info.get j.1) (clusterWrites info) procs q (nr + nw) irq).total +
      (tfReaderAll j.1 (info.get j.1) (allReads info) nw wb nr q procs).total := by
  obtain ⟨W, D, hA⟩ := exists_ahead h hO
  have h1 := tf_writes hper h hO hA
  have h2 := tf_reads hper h hO hA (le_trans h1.2 hwb)
  have := hA.sum
  omega

theorem tfDirect_wait (hper : ∀ t ∈ info, 0 < t.period) (hm : MutexOf info mtx)
    (h : TaskFair procs irq irqCpu (system info) R)
    (j : Job info.length) : R.waiting (system info) j ≤ (tfDirect info mtx procs irq j.1).blocking.total := by
  unfold tfDirect
  rw [get?_fin]
  simp only
  rw [tfFold_total, sum_entries]
  rw [show ({} : Bound).blocking.total = 0 from rfl, Nat.zero_add]
  apply waiting_le
  intro q
  have hc := counts_issuedFor h.toRwLegal j q
  obtain ⟨e1, e2, e3⟩ := entry_facts (info.get j.1).requests q
  rw [← e2, ← e3] at hc
  have hw := tf_wait hper h hc (le_refl _)
  have hx := tf_mutex hper hm h hc
  by_cases h0 : (entry (mergeRw (info.get j.1).requests) q).numReads = 0 ∧
      (entry (mergeRw (info.get j.1).requests) q).numWrites = 0
  · rw [if_pos h0]
    have := hc.card_le
    rw [h0.1, h0.2] at this
    rw [Nat.le_zero, Finset.card_eq_zero] at this
    rw [this]; simp
  · rw [if_neg h0]
    unfold tfStep
    simp only [min_total, e1]
    rw [le_min_iff]
    exact ⟨hw, hx⟩

theorem tfDirect_span (hper : ∀ t ∈ info, 0 < t.period) (hm : MutexOf info mtx)
    (hlen : ∀ t ∈ info, ∀ a ∈ t.requests, ∀ b ∈ t.requests, a.resId = b.resId → a.isRead = b.isRead →
      a.length = b.length)
    (h : TaskFair procs irq irqCpu (system info) R) (s : Section info.length) (hs : R.issued s) :
    R.leave s - R.enter s ≤ (tfDirect info mtx procs irq s.job.1).span.total := by
  have hl := h.toRwLegal
  obtain ⟨p, h1, hp⟩ := hl.declared s hs
  obtain ⟨r, h2, rfl⟩ := system_req h1
  have hfor : R.For (system info) s r.resId r.isRead := ⟨hs, _, h1, rfl, rfl⟩
  have hcs := counts_single hfor
  have hx := tf_mutex hper hm h hcs
  have hw := fun wb hwb => tf_wait hper h hcs (wb := wb) hwb
  have e0 : (if r.isRead = true then 1 else 0) + (if r.isRead = true then 0 else 1) = 1 := by
    cases r.isRead <;> rfl
  rw [e0] at hx hw
  simp only [Finset.sum_singleton] at hw hx
  have hln := hl.length s _ hs h1
  have hord := hl.order s hs
  have hnum := numOf_pos hl hfor
  simp only at hln
  unfold tfDirect
  rw [get?_fin]
  simp only
  obtain ⟨e1, e2, e3⟩ := entry_facts (info.get s.job.1).requests r.resId
  have hrm : r ∈ (info.get s.job.1).requests := List.mem_of_getElem? h2
  have hmem : entry (mergeRw (info.get s.job.1).requests) r.resId ∈ mergeRw (info.get s.job.1).requests := by
    unfold entry
    rw [List.getD_eq_getElem?_getD, List.getElem?_eq_getElem (lt_mergeRw hrm), Option.getD_some]
    exact List.getElem_mem _
  have hlast := mergeEntry_len r.resId (info.get s.job.1).requests { resId := r.resId }
  rw [← entry_mergeRw] at hlast
  have hti : info.get s.job.1 ∈ info := List.get_mem _ _
  generalize entry (mergeRw (info.get s.job.1).requests) r.resId = rw at *
  have hne : ¬ (rw.numReads = 0 ∧ rw.numWrites = 0) := by
    intro hc
    cases hrd : r.isRead <;> rw [hrd] at hnum <;> omega
  refine le_trans ?_ ((tfFold_span info mtx s.job.1 (info.get s.job.1) procs irq _ _).2 rw hmem hne)
  have hlr : r.length ≤ if r.isRead then rw.rlength else rw.wlength := by
    cases hrd : r.isRead with
    | false =>
      obtain ⟨r', a1, a2, a3, a4⟩ := hlast.2.1 r hrm rfl hrd
      have := hlen _ hti r hrm r' a1 a2.symm (by rw [hrd, a3])
      simp only [Bool.false_eq_true, if_false]; omega
    | true =>
      obtain ⟨r', a1, a2, a3, a4⟩ := hlast.1 r hrm rfl hrd
      have := hlen _ hti r hrm r' a1 a2.symm (by rw [hrd, a3])
      simp only [if_true]; omega
  unfold tfStep
  simp only [min_total, e1]
  rw [le_min_iff]
  constructor
  · have hw := hw _ (npFifo_count_mono s.job.1 (info.get s.job.1) (clusterWrites info) procs r.resId
      (rw.numReads + rw.numWrites) irq (by omega))
    simp only [Interference.add, max_total]
    cases hrd : r.isRead with
    | false =>
      rw [hrd] at hw hnum hlr
      simp only [Bool.false_eq_true, if_false] at hw hlr
      have hnw : rw.numWrites ≠ 0 := by omega
      simp only [hnw, ne_eq, not_false_eq_true, if_true]
      omega
    | true =>
      rw [hrd] at hw hnum hlr
      simp only [if_true] at hw hlr
      have hnr : rw.numReads ≠ 0 := by omega
      simp only [hnr, ne_eq, not_false_eq_true, if_true]
      omega
  · have hmx : r.length ≤ max rw.wlength rw.rlength := by
      refine le_trans hlr ?_
      split
      · exact le_max_right _ _
      · exact le_max_left _ _
    simp only [Interference.add]
    by_cases hc : rw.numReads + rw.numWrites = 1
    · rw [if_pos hc, hc]; omega
    · rw [if_neg hc]; omega

/-! ### Results -/

/-- **C95.** With task-fair locks, the requests of a job wait no longer than the blocking bound
minus the arrival blocking bound. -/
theorem C95_task_fair_safe (ts : List LockTask) (hper : ∀ t ∈ ts, 0 < t.period)
    (hkeys : ∀ t ∈ ts, (t.resmodel.map (fun q => q.resId)).Nodup) (procs irqCpu : ℕ) (irq : ℤ)
    (R : RwRun (rwModel ts).length) (h : TaskFair procs irq irqCpu (system (rwModel ts)) R)
    (j : Job (rwModel ts).length) :
    ∃ b, (applyTaskFairRw ts procs irq)[(j.1 : ℕ)]? = some b ∧
      R.waiting (system (rwModel ts)) j + b.arrival.total ≤ b.blocking.total := by
  refine ⟨_, tfBounds_get j.1 (mutexModel ts) procs irq, ?_⟩
  unfold chargeArrival
  simp only [Interference.add]
  refine Nat.add_le_add_right (tfDirect_wait ?_ (mutexOf_models hkeys) h j) _
  intro t ht
  obtain ⟨u, hu, rfl⟩ := List.mem_map.mp ht
  exact hper u hu

/-- **C95.** The arrival blocking bound covers the time from issuing to completing any request
of another task in the same cluster with the same or a lower priority. -/
theorem C95_arrival (ts : List LockTask) (hper : ∀ t ∈ ts, 0 < t.period)
    (hkeys : ∀ t ∈ ts, (t.resmodel.map (fun q => q.resId)).Nodup) (procs irqCpu : ℕ) (irq : ℤ)
    (R : RwRun (rwModel ts).length) (h : TaskFair procs irq irqCpu (system (rwModel ts)) R)
    (i : Fin (rwModel ts).length) (s : Section (rwModel ts).length) (hs : R.issued s) (hne : s.job.1 ≠ i)
    (hcl : ((rwModel ts).get s.job.1).cluster = ((rwModel ts).get i).cluster)
    (hprio : ((rwModel ts).get i).priority ≤ ((rwModel ts).get s.job.1).priority) :
    ∃ b, (applyTaskFairRw ts procs irq)[(i : ℕ)]? = some b ∧ R.leave s ≤ R.enter s + b.arrival.total := by
  refine ⟨_, tfBounds_get i (mutexModel ts) procs irq, ?_⟩
  unfold chargeArrival
  simp only
  have h1 := (maxLocalSpan_ge i ((rwModel ts).get i) (tfDirect (rwModel ts) (mutexModel ts) procs irq)
    (rwModel ts).zipIdx {}).2 ((rwModel ts).get s.job.1, (s.job.1 : ℕ))
    (List.mem_zipIdx_iff_getElem?.mpr (get?_fin _)) (fun he => hne (Fin.ext he)) hcl hprio
  have h2 := tfDirect_span (by
    intro t ht
    obtain ⟨u, hu, rfl⟩ := List.mem_map.mp ht
    exact hper u hu) (mutexOf_models hkeys) (same_length hkeys) h s hs
  simp only at h1
  omega

/-- **C94.** The bounds of `apply_phase_fair_rw_bounds` and `apply_clustered_rw_omlp_bounds`: waiting times. -/
theorem C94_python_safe (ts : List LockTask) (hper : ∀ t ∈ ts, 0 < t.period) (procs irqCpu : ℕ) (irq : ℤ)
    (R : RwRun (rwModel ts).length) (h : PhaseFair procs irq irqCpu (system (rwModel ts)) R)
    (j : Job (rwModel ts).length) :
    ∃ b, (applyPhaseFair ts procs irq)[(j.1 : ℕ)]? = some b ∧
      R.waiting (system (rwModel ts)) j + b.arrival.total ≤ b.blocking.total := by
  apply C94_phase_fair_safe _ _ procs irqCpu irq R h j
  intro t ht
  obtain ⟨u, hu, rfl⟩ := List.mem_map.mp ht
  exact hper u hu

/-- **C94.** The bounds of `apply_phase_fair_rw_bounds` and `apply_clustered_rw_omlp_bounds`: arrival blocking. -/
theorem C94_python_arrival (ts : List LockTask) (hper : ∀ t ∈ ts, 0 < t.period)
    (hkeys : ∀ t ∈ ts, (t.resmodel.map (fun q => q.resId)).Nodup) (procs irqCpu : ℕ) (irq : ℤ)
    (R : RwRun (rwModel ts).length) (h : PhaseFair procs irq irqCpu (system (rwModel ts)) R)
    (i : Fin (rwModel ts).length) (s : Section (rwModel ts).length) (hs : R.issued s) (hne : s.job.1 ≠ i)
    (hcl : ((rwModel ts).get s.job.1).cluster = ((rwModel ts).get i).cluster)
    (hprio : ((rwModel ts).get i).priority ≤ ((rwModel ts).get s.job.1).priority) :
    ∃ b, (applyPhaseFair ts procs irq)[(i : ℕ)]? = some b ∧ R.leave s ≤ R.enter s + b.arrival.total := by
  apply C94_arrival _ _ (same_length hkeys) procs irqCpu irq R h i s hs hne hcl hprio
  intro t ht
  obtain ⟨u, hu, rfl⟩ := List.mem_map.mp ht
  exact hper u hu

end Verif.SR.Rw
