/-
C94: the bounds for phase-fair reader-writer locks and for the clustered RW OMLP are safe.
-/
import Verif.Lemmas.RwMerge

namespace Verif.SR.Rw
open Verif.Spec

variable {info : Info} {procs irqCpu : ℕ} {irq : ℤ} {R : RwRun info.length}

/-! ### The loop over the resources -/

theorem pfFold_total (info : Info) (i : ℕ) (tsk : TaskInfo) (procs : ℕ) (irq : ℤ) (l : List RwCount) : ∀ b : Bound,
    (l.foldl (fun b rw => if rw.numReads = 0 ∧ rw.numWrites = 0 then b
      else
        let r := pfStep info i tsk procs irq rw
        { b with blocking := b.blocking.add r.1, span := (b.span.max r.2.1).max r.2.2 }) b).blocking.total =
      b.blocking.total + (l.map (fun rw => if rw.numReads = 0 ∧ rw.numWrites = 0 then 0
        else (pfStep info i tsk procs irq rw).1.total)).sum := by
  induction l with
  | nil => intro b; simp
  | cons rw l ih =>
    intro b
    rw [List.foldl_cons, ih, List.map_cons, List.sum_cons]
    by_cases h : rw.numReads = 0 ∧ rw.numWrites = 0
    · rw [if_pos h, if_pos h]; omega
    · rw [if_neg h, if_neg h]
      simp only [Interference.add]
      omega

theorem pfFold_span (info : Info) (i : ℕ) (tsk : TaskInfo) (procs : ℕ) (irq : ℤ) (l : List RwCount) : ∀ b : Bound,
    b.span.total ≤ (l.foldl (fun b rw => if rw.numReads = 0 ∧ rw.numWrites = 0 then b
      else
        let r := pfStep info i tsk procs irq rw
        { b with blocking := b.blocking.add r.1, span := (b.span.max r.2.1).max r.2.2 }) b).span.total ∧
    ∀ rw ∈ l, ¬ (rw.numReads = 0 ∧ rw.numWrites = 0) →
      max (pfStep info i tsk procs irq rw).2.1.total (pfStep info i tsk procs irq rw).2.2.total ≤
      (l.foldl (fun b rw => if rw.numReads = 0 ∧ rw.numWrites = 0 then b
      else
        let r := pfStep info i tsk procs irq rw
        { b with blocking := b.blocking.add r.1, span := (b.span.max r.2.1).max r.2.2 }) b).span.total := by
  induction l with
  | nil => intro b; simp
  | cons rw l ih =>
    intro b
    rw [List.foldl_cons]
    obtain ⟨h1, h2⟩ := ih (if rw.numReads = 0 ∧ rw.numWrites = 0 then b
      else
        let r := pfStep info i tsk procs irq rw
        { b with blocking := b.blocking.add r.1, span := (b.span.max r.2.1).max r.2.2 })
    refine ⟨le_trans ?_ h1, ?_⟩
    · split
      · exact le_refl _
      · simp only [max_total]; omega
    · intro rw' hrw' hne
      rcases List.mem_cons.mp hrw' with rfl | hrw'
      · refine le_trans ?_ h1
        rw [if_neg hne]
        simp only [max_total]; omega
      · exact h2 rw' hrw' hne

theorem pfBounds_get (i : Fin info.length) (procs : ℕ) (irq : ℤ) :
    (pfBounds info procs irq)[(i : ℕ)]? = some (chargeArrival info (pfDirect info procs irq) i (info.get i)) := by
  unfold pfBounds
  rw [List.getElem?_map, List.getElem?_zipIdx, get?_fin]
  simp

theorem pfDirect_wait (hper : ∀ t ∈ info, 0 < t.period) (h : PhaseFair procs irq irqCpu (system info) R)
    (j : Job info.length) : R.waiting (system info) j ≤ (pfDirect info procs irq j.1).blocking.total := by
  unfold pfDirect
  rw [get?_fin]
  simp only
  rw [pfFold_total, sum_entries]
  rw [show ({} : Bound).blocking.total = 0 from rfl, Nat.zero_add]
  apply waiting_le
  intro q
  have hc := counts_issuedFor h.toRwLegal j q
  obtain ⟨e1, e2, e3⟩ := entry_facts (info.get j.1).requests q
  rw [← e2, ← e3] at hc
  have hw := pf_wait hper h hc
  by_cases h0 : (entry (mergeRw (info.get j.1).requests) q).numReads = 0 ∧
      (entry (mergeRw (info.get j.1).requests) q).numWrites = 0
  · rw [if_pos h0]
    have := hc.sum_le (fun _ => 1) 1 1 (fun _ _ _ => le_refl _) (fun _ _ _ => le_refl _)
    rw [h0.1, h0.2] at this
    simp at this
    rw [this]; simp
  · rw [if_neg h0]
    unfold pfStep
    simp only [Interference.add, e1]
    exact hw

theorem counts_single {s : Section info.length} {q : ℕ} {rd : Bool} (hs : R.For (system info) s q rd) :
    Counts R s.job q (if rd then 1 else 0) (if rd then 0 else 1) {s} := by
  classical
  have key : ∀ (F : Finset (Section info.length)) (rd' : Bool), F ⊆ {s} →
      (∀ k ∈ F, R.For (system info) k q rd') → F.card ≤ if rd = rd' then 1 else 0 := by
    intro F rd' hF h
    by_cases he : rd = rd'
    · rw [if_pos he]; simpa using Finset.card_le_card hF
    · rw [if_neg he, Nat.le_zero, Finset.card_eq_zero, Finset.eq_empty_iff_forall_notMem]
      intro k hk
      have := Finset.mem_singleton.mp (hF hk)
      subst this
      exact he (hs.unique (h k hk)).2
  refine ⟨?_, ?_, ?_, ?_⟩
  · intro k hk; rw [Finset.mem_singleton] at hk; rw [hk]
  · intro k hk; rw [Finset.mem_singleton] at hk; rw [hk]; exact ⟨rd, hs⟩
  · intro F hF h
    have := key F true hF h
    cases rd <;> simpa using this
  · intro F hF h
    have := key F false hF h
    cases rd <;> simpa using this

/-- The number of requests of a kind that is issued is not zero. -/
theorem numOf_pos (h : RwLegal procs irq irqCpu (system info) R) {s : Section info.length} {q : ℕ} {rd : Bool}
    (hs : R.For (system info) s q rd) : 1 ≤ numOf q rd (info.get s.job.1).requests := by
  obtain ⟨hi, a, h1, h2, h3⟩ := hs
  obtain ⟨b, h4, h5⟩ := h.declared s hi
  rw [h1] at h4; cases h4
  obtain ⟨r, h6, h7⟩ := system_req h1
  subst h7
  simp only at h2 h3 h5
  unfold numOf
  have hm : r.num ∈ ((info.get s.job.1).requests.filter (fun r => decide (r.resId = q) && (r.isRead == rd))).map
      (fun r => r.num) :=
    List.mem_map.mpr ⟨r, List.mem_filter.mpr ⟨List.mem_of_getElem? h6, by simp [h2, h3]⟩, rfl⟩
  have := List.single_le_sum (by simp) _ hm
  omega

theorem pfDirect_span (hper : ∀ t ∈ info, 0 < t.period)
    (hlen : ∀ t ∈ info, ∀ a ∈ t.requests, ∀ b ∈ t.requests, a.resId = b.resId → a.isRead = b.isRead →
      a.length = b.length)
    (h : PhaseFair procs irq irqCpu (system info) R) (s : Section info.length) (hs : R.issued s) :
    R.leave s - R.enter s ≤ (pfDirect info procs irq s.job.1).span.total := by
  have hl := h.toRwLegal
  obtain ⟨p, h1, hp⟩ := hl.declared s hs
  obtain ⟨r, h2, rfl⟩ := system_req h1
  have hfor : R.For (system info) s r.resId r.isRead := ⟨hs, _, h1, rfl, rfl⟩
  have hw := pf_wait hper h (counts_single hfor)
  rw [Finset.sum_singleton] at hw
  have hln := hl.length s _ hs h1
  have hord := hl.order s hs
  have hnum := numOf_pos hl hfor
  simp only at hln
  unfold pfDirect
  rw [get?_fin]
  simp only
  obtain ⟨e1, e2, e3⟩ := entry_facts (info.get s.job.1).requests r.resId
  have hrm : r ∈ (info.get s.job.1).requests := List.mem_of_getElem? h2
  have hmem : entry (mergeRw (info.get s.job.1).requests) r.resId ∈ mergeRw (info.get s.job.1).requests := by
    unfold entry
    rw [List.getD_eq_getElem?_getD, List.getElem?_eq_getElem (lt_mergeRw hrm), Option.getD_some]
    exact List.getElem_mem _
  have hlast := mergeEntry_len r.resId (info.get s.job.1).requests { resId := r.resId }
  rw [← entry_mergeRw] at hlast
  have hti : info.get s.job.1 ∈ info := List.get_mem _ _
  generalize entry (mergeRw (info.get s.job.1).requests) r.resId = rw at *
  have hne : ¬ (rw.numReads = 0 ∧ rw.numWrites = 0) := by
    intro hc
    cases hrd : r.isRead <;> rw [hrd] at hnum <;> omega
  refine le_trans ?_ ((pfFold_span info s.job.1 (info.get s.job.1) procs irq _ _).2 rw hmem hne)
  cases hrd : r.isRead with
  | false =>
    rw [hrd] at hw hnum
    obtain ⟨r', a1, a2, a3, a4⟩ := hlast.2.1 r hrm rfl hrd
    have hll := hlen _ hti r hrm r' a1 a2.symm (by rw [hrd, a3])
    refine le_trans ?_ (le_max_left _ _)
    have hnw : rw.numWrites ≠ 0 := by omega
    unfold pfStep
    simp only [Interference.add, e1, hnw, ne_eq, not_false_eq_true, true_and, if_true]
    simp only [Bool.false_eq_true, if_false] at hw
    by_cases hc : ¬ rw.numWrites = 1 ∨ ¬ rw.numReads = 0
    · rw [if_pos hc]
      simp only
      omega
    · rw [if_neg hc]
      push Not at hc
      rw [hc.1, hc.2]
      simp only
      omega
  | true =>
    rw [hrd] at hw hnum
    obtain ⟨r', a1, a2, a3, a4⟩ := hlast.1 r hrm rfl hrd
    have hll := hlen _ hti r hrm r' a1 a2.symm (by rw [hrd, a3])
    refine le_trans ?_ (le_max_right _ _)
    have hnr : rw.numReads ≠ 0 := by omega
    unfold pfStep
    simp only [Interference.add, e1, hnr, ne_eq, not_false_eq_true, true_and, if_true]
    simp only [if_true] at hw
    by_cases hc : ¬ rw.numReads = 1 ∨ ¬ rw.numWrites = 0
    · rw [if_pos hc]
      simp only
      omega
    · rw [if_neg hc]
      push Not at hc
      rw [hc.1, hc.2]
      simp only
      omega

/-- **C94.** With phase-fair locks, the requests of a job wait no longer than the blocking
bound minus the arrival blocking bound. -/
theorem C94_phase_fair_safe (info : Info) (hper : ∀ t ∈ info, 0 < t.period) (procs irqCpu : ℕ) (irq : ℤ)
    (R : RwRun info.length) (h : PhaseFair procs irq irqCpu (system info) R) (j : Job info.length) :
    ∃ b, (pfBounds info procs irq)[(j.1 : ℕ)]? = some b ∧
      R.waiting (system info) j + b.arrival.total ≤ b.blocking.total := by
  refine ⟨_, pfBounds_get j.1 procs irq, ?_⟩
  unfold chargeArrival
  simp only [Interference.add]
  exact Nat.add_le_add_right (pfDirect_wait hper h j) _

/-- **C94.** The arrival blocking bound covers the time from issuing to completing any request
of another task in the same cluster with the same or a lower priority, if all read
requests, and all write requests, of a task for a resource have the same length. -/
theorem C94_arrival (info : Info) (hper : ∀ t ∈ info, 0 < t.period)
    (hlen : ∀ t ∈ info, ∀ a ∈ t.requests, ∀ b ∈ t.requests, a.resId = b.resId → a.isRead = b.isRead →
      a.length = b.length)
    (procs irqCpu : ℕ) (irq : ℤ) (R : RwRun info.length) (h : PhaseFair procs irq irqCpu (system info) R)
    (i : Fin info.length) (s : Section info.length) (hs : R.issued s) (hne : s.job.1 ≠ i)
    (hcl : (info.get s.job.1).cluster = (info.get i).cluster)
    (hprio : (info.get i).priority ≤ (info.get s.job.1).priority) :
    ∃ b, (pfBounds info procs irq)[(i : ℕ)]? = some b ∧ R.leave s ≤ R.enter s + b.arrival.total := by
  refine ⟨_, pfBounds_get i procs irq, ?_⟩
  unfold chargeArrival
  simp only
  have h1 := (maxLocalSpan_ge i (info.get i) (pfDirect info procs irq) info.zipIdx {}).2
    (info.get s.job.1, (s.job.1 : ℕ)) (List.mem_zipIdx_iff_getElem?.mpr (get?_fin _))
    (fun he => hne (Fin.ext he)) hcl hprio
  have h2 := pfDirect_span hper hlen h s hs
  simp only at h1
  omega

end Verif.SR.Rw
