/-
C96: the bounds for task-fair reader-writer locks compared with the bounds for task-fair mutexes.
-/
import Verif.Props.TaskFair
import Mathlib.Algebra.BigOperators.Group.Finset.Piecewise

namespace Verif.SR.Rw
open Verif.Spec

theorem boundLoop_congr {interval per : ℕ} {ok ok' : RB → Bool} {cont : List RB} (h : ∀ r ∈ cont, ok r = ok' r) :
    ∀ rem, boundLoop interval per ok rem cont = boundLoop interval per ok' rem cont := by
  induction cont with
  | nil => intro rem; rfl
  | cons r cont ih =>
    intro rem
    have ih := ih (fun r hr => h r (List.mem_cons_of_mem _ hr))
    simp only [boundLoop, h r List.mem_cons_self, ih]

theorem boundLoop_zero (interval per : ℕ) (ok : RB → Bool) (cont : List RB) :
    boundLoop interval per ok 0 cont = ⟨0, 0⟩ := by
  cases cont <;> simp [boundLoop]

theorem boundLoop_mono (interval per : ℕ) (ok : RB → Bool) (cont : List RB) : ∀ rem rem', rem ≤ rem' →
    (boundLoop interval per ok rem cont).total ≤ (boundLoop interval per ok rem' cont).total := by
  induction cont with
  | nil => intro rem rem' _; simp [boundLoop]
  | cons r cont ih =>
    intro rem rem' h
    rw [boundLoop, boundLoop]
    by_cases h0 : rem = 0
    · rw [if_pos h0]; simp
    · have h0' : ¬ rem' = 0 := by omega
      rw [if_neg h0, if_neg h0']
      by_cases hok : ok r
      · rw [if_pos hok, if_pos hok]
        simp only [Interference.add]
        refine Nat.add_le_add (Nat.mul_le_mul_right _ (min_le_min_left _ h)) (ih _ _ ?_)
        omega
      · rw [if_neg hok, if_neg hok]
        exact ih _ _ h

/-- With one processor per cluster it does not matter whether the task itself is excluded. -/
theorem npFifoMtx_le {mtx : Info} {i : ℕ} {tsk tsk' : TaskInfo} (hi : mtx[i]? = some tsk') (hc : tsk'.cluster = tsk.cluster)
    (hr : tsk'.response = tsk.response) (res n : ℕ) {irq irq' : ℤ} (hirq : irq' = irq ∨ irq' = noCpu) :
    (npFifoMtx mtx tsk 1 res n irq).total ≤ (npFifo i tsk' (clusterResources mtx) 1 res n irq').total := by
  unfold npFifoMtx npFifo
  rw [npFifoLoop_eq, npFifoLoop_eq, (allClusters_eq _ _ _ _ _ _ 0).1, (allClusters_eq _ _ _ _ _ _ 0).1]
  apply Finset.sum_le_sum
  intro k _
  have hcont := contention_cluster mtx k res
  unfold boundBlocking
  rw [hr, Nat.zero_add]
  by_cases hk : tsk.cluster = k
  · have : parallelism tsk 1 irq k = 0 := by
      unfold parallelism
      by_cases h : (k : ℤ) = irq <;> simp [h, hk]
    rw [this, Nat.mul_zero, boundLoop_zero]
    exact Nat.zero_le _
  · rw [boundLoop_congr (ok' := fun r => decide (r.task ≠ i) && decide (r.info.priority ≥ 0))]
    · apply boundLoop_mono
      apply Nat.mul_le_mul_left
      have hk' : ¬ tsk'.cluster = k := by rw [hc]; exact hk
      unfold parallelism
      simp only [hk, hk', and_false, if_false]
      rcases hirq with h | h
      · rw [h]
      · have : ¬ ((k : ℤ) = irq') := by rw [h]; unfold noCpu; omega
        rw [if_neg this]
        split <;> omega
    · intro r hr'
      obtain ⟨h1, _, h2, _⟩ := (hcont.mem r).mp hr'
      have ha : r.task ≠ mtx.length := by
        intro he
        rw [he, List.getElem?_eq_none (le_refl _)] at h1
        exact absurd h1 (by simp)
      have hb : r.task ≠ i := by
        intro he
        rw [he, hi] at h1
        injection h1 with h1
        rw [← h1, hc] at h2
        exact hk h2
      simp [ha, hb]

/-! ### The entries of a task -/

theorem numOf_requirement {l : List Requirement} (hn : (l.map (fun q => q.resId)).Nodup) {q : Requirement} (hq : q ∈ l) :
    numOf q.resId true (l.flatMap Requirement.rwRequests) = q.reads ∧
    numOf q.resId false (l.flatMap Requirement.rwRequests) = q.writes := by
  have h : ∀ rd : Bool, numOf q.resId rd (l.flatMap Requirement.rwRequests) =
      ((q.rwRequests.filter (fun r => r.isRead == rd)).map (fun r => r.num)).sum := by
    intro rd
    unfold numOf
    rw [← filter_rw hn hq, List.filter_filter]
    congr 2
    apply List.filter_congr
    intro r _
    rw [Bool.and_comm]
  rw [h, h]
  unfold Requirement.rwRequests
  by_cases h1 : q.writes > 0 <;> by_cases h2 : q.reads > 0 <;> simp [h1, h2] <;> omega

theorem exists_requirement {l : List Requirement} {q : ℕ} {rd : Bool}
    (h : numOf q rd (l.flatMap Requirement.rwRequests) ≠ 0) : ∃ u ∈ l, u.resId = q := by
  by_contra hne
  push Not at hne
  apply h
  unfold numOf
  have : (l.flatMap Requirement.rwRequests).filter (fun r => decide (r.resId = q) && (r.isRead == rd)) = [] := by
    rw [List.filter_eq_nil_iff]
    intro r hr
    obtain ⟨u, hu, hr⟩ := List.mem_flatMap.mp hr
    have := (mem_rwRequests hr).1
    have := hne u hu
    simp; intro hc
    omega
  rw [this]; rfl

theorem entry_lengths {l : List Requirement} (hn : (l.map (fun q => q.resId)).Nodup) {q : Requirement} (hq : q ∈ l) :
    (entry (mergeRw (l.flatMap Requirement.rwRequests)) q.resId).rlength ≤ q.readLength ∧
    (entry (mergeRw (l.flatMap Requirement.rwRequests)) q.resId).wlength ≤ q.writeLength := by
  obtain ⟨h1, h2, h3, h4⟩ := mergeEntry_len q.resId (l.flatMap Requirement.rwRequests) { resId := q.resId }
  rw [← entry_mergeRw] at h1 h2 h3 h4
  have key : ∀ r ∈ l.flatMap Requirement.rwRequests, r.resId = q.resId → r ∈ q.rwRequests := by
    intro r hr he
    rw [← filter_rw hn hq, List.mem_filter]
    exact ⟨hr, by simpa using he⟩
  constructor
  · by_cases hex : ∃ r ∈ l.flatMap Requirement.rwRequests, r.resId = q.resId ∧ r.isRead = true
    · obtain ⟨r, a, b, c⟩ := hex
      obtain ⟨r', a', b', c', d'⟩ := h1 r a b c
      rw [d']
      rcases (mem_rwRequests (key r' a' b')).2 with ⟨_, h⟩ | ⟨h, _⟩
      · omega
      · rw [c'] at h; exact absurd h (by decide)
    · push Not at hex
      rw [h3 (fun r hr he => by simpa using hex r hr he)]
      exact Nat.zero_le _
  · by_cases hex : ∃ r ∈ l.flatMap Requirement.rwRequests, r.resId = q.resId ∧ r.isRead = false
    · obtain ⟨r, a, b, c⟩ := hex
      obtain ⟨r', a', b', c', d'⟩ := h2 r a b c
      rw [d']
      rcases (mem_rwRequests (key r' a' b')).2 with ⟨h, _⟩ | ⟨_, h⟩
      · rw [c'] at h; exact absurd h (by decide)
      · omega
    · push Not at hex
      rw [h4 (fun r hr he => by simpa using hex r hr he)]
      exact Nat.zero_le _

theorem sum_by_resource (l : List Request) (F : Request → ℕ) (N : ℕ) :
    ∑ q ∈ Finset.range N, ((l.filter (fun r => decide (r.resId = q))).map F).sum ≤ (l.map F).sum := by
  induction l with
  | nil => simp
  | cons r l ih =>
    have : ∀ q, (((r :: l).filter (fun r => decide (r.resId = q))).map F).sum =
        (if r.resId = q then F r else 0) + ((l.filter (fun r => decide (r.resId = q))).map F).sum := by
      intro q
      by_cases h : r.resId = q <;> simp [h]
    simp only [this]
    rw [Finset.sum_add_distrib, Finset.sum_ite_eq, List.map_cons, List.sum_cons]
    split <;> omega

theorem tfFold_span_le (info mtx : Info) (i : ℕ) (tsk : TaskInfo) (procs : ℕ) (irq : ℤ) (X : ℕ) (l : List RwCount)
    (h : ∀ rw ∈ l, ¬ (rw.numReads = 0 ∧ rw.numWrites = 0) → (tfStep info mtx i tsk procs irq rw).2.total ≤ X) :
    ∀ b : Bound, b.span.total ≤ X →
    (l.foldl (fun b rw => if rw.numReads = 0 ∧ rw.numWrites = 0 then b
      else
        let r := tfStep info mtx i tsk procs irq rw
        { b with blocking := b.blocking.add r.1, span := b.span.max r.2 }) b).span.total ≤ X := by
  induction l with
  | nil => intro b hb; exact hb
  | cons rw l ih =>
    intro b hb
    rw [List.foldl_cons]
    apply ih (fun rw' h' => h rw' (List.mem_cons_of_mem _ h'))
    by_cases h0 : rw.numReads = 0 ∧ rw.numWrites = 0
    · rw [if_pos h0]; exact hb
    · rw [if_neg h0]
      simp only [max_total]
      exact max_le hb (h rw List.mem_cons_self h0)

/-- The bounds of one task before arrival blocking is added. -/
theorem direct_le {ts : List LockTask} (hkeys : ∀ t ∈ ts, (t.resmodel.map (fun q => q.resId)).Nodup) (irq : ℤ) (i : ℕ) :
    (tfDirect (rwModel ts) (mutexModel ts) 1 irq i).blocking.total ≤ (omlpDirect (mutexModel ts) 1 irq i).blocking.total ∧
    (tfDirect (rwModel ts) (mutexModel ts) 1 irq i).span.total ≤ (omlpDirect (mutexModel ts) 1 irq i).span.total := by
  have e1 : (rwModel ts)[i]? = ts[i]?.map (fun t => t.info (t.resmodel.flatMap Requirement.rwRequests)) := by
    unfold rwModel; rw [List.getElem?_map]
  have e2 : (mutexModel ts)[i]? = ts[i]?.map (fun t => t.info (t.resmodel.flatMap Requirement.mutexRequests)) := by
    unfold mutexModel; rw [List.getElem?_map]
  cases hu : ts[i]? with
  | none =>
    rw [hu] at e1 e2
    unfold tfDirect omlpDirect
    rw [e1, e2]
    exact ⟨le_refl _, le_refl _⟩
  | some u =>
    rw [hu, Option.map_some] at e1 e2
    have hn := hkeys u (List.mem_of_getElem? hu)
    unfold tfDirect omlpDirect
    rw [e1, e2]
    simp only
    have hreq : (u.info (u.resmodel.flatMap Requirement.rwRequests)).requests = u.resmodel.flatMap Requirement.rwRequests := rfl
    have hmreq : (u.info (u.resmodel.flatMap Requirement.mutexRequests)).requests =
      u.resmodel.flatMap Requirement.mutexRequests := rfl
    rw [hreq, hmreq]
    -- the entry of a resource
    have hent : ∀ q, ¬ ((entry (mergeRw (u.resmodel.flatMap Requirement.rwRequests)) q).numReads = 0 ∧
        (entry (mergeRw (u.resmodel.flatMap Requirement.rwRequests)) q).numWrites = 0) →
        ∃ r ∈ u.resmodel.flatMap Requirement.mutexRequests, r.resId = q ∧
          r.num = (entry (mergeRw (u.resmodel.flatMap Requirement.rwRequests)) q).numReads +
            (entry (mergeRw (u.resmodel.flatMap Requirement.rwRequests)) q).numWrites ∧
          max (entry (mergeRw (u.resmodel.flatMap Requirement.rwRequests)) q).wlength
            (entry (mergeRw (u.resmodel.flatMap Requirement.rwRequests)) q).rlength ≤ r.length := by
      intro q hne
      obtain ⟨_, f2, f3⟩ := entry_facts (u.resmodel.flatMap Requirement.rwRequests) q
      have : ∃ v ∈ u.resmodel, v.resId = q := by
        by_cases h0 : (entry (mergeRw (u.resmodel.flatMap Requirement.rwRequests)) q).numReads = 0
        · exact exists_requirement (rd := false) (by rw [← f3]; intro h1; exact hne ⟨h0, h1⟩)
        · exact exists_requirement (rd := true) (by rw [← f2]; exact h0)
      obtain ⟨v, hv, rfl⟩ := this
      obtain ⟨g1, g2⟩ := numOf_requirement hn hv
      obtain ⟨l1, l2⟩ := entry_lengths hn hv
      rw [f2, f3, g1, g2] at hne ⊢
      refine ⟨⟨v.resId, v.writes + v.reads, max v.writeLength v.readLength, false⟩, ?_, rfl, ?_, ?_⟩
      · refine List.mem_flatMap.mpr ⟨v, hv, ?_⟩
        unfold Requirement.mutexRequests
        rw [if_pos (by omega)]; simp
      · exact Nat.add_comm _ _
      · exact max_le_max l2 l1
    constructor
    · rw [tfFold_total, omlpLoop_fst, sum_entries]
      rw [show ({} : Bound).blocking.total = 0 from rfl, Nat.zero_add, Nat.zero_add]
      refine le_trans (Finset.sum_le_sum ?_) (sum_by_resource _ _ _)
      intro q _
      by_cases h0 : (entry (mergeRw (u.resmodel.flatMap Requirement.rwRequests)) q).numReads = 0 ∧
        (entry (mergeRw (u.resmodel.flatMap Requirement.rwRequests)) q).numWrites = 0
      · rw [if_pos h0]; exact Nat.zero_le _
      · rw [if_neg h0]
        obtain ⟨r, r1, r2, r3, _⟩ := hent q h0
        obtain ⟨f1, _, _⟩ := entry_facts (u.resmodel.flatMap Requirement.rwRequests) q
        have hle := List.single_le_sum (by simp) _ (List.mem_map.mpr ⟨r, List.mem_filter.mpr ⟨r1, by simpa using r2⟩, rfl⟩ :
          (npFifo i (u.info (u.resmodel.flatMap Requirement.mutexRequests)) (clusterResources (mutexModel ts)) 1 r.resId
            r.num irq).total ∈ (((u.resmodel.flatMap Requirement.mutexRequests).filter (fun r => decide (r.resId = q))).map
            (fun r => (npFifo i (u.info (u.resmodel.flatMap Requirement.mutexRequests)) (clusterResources (mutexModel ts)) 1
              r.resId r.num irq).total)))
        refine le_trans ?_ hle
        unfold tfStep
        simp only [min_total, f1]
        refine le_trans (min_le_right _ _) ?_
        rw [r2, r3]
        exact npFifoMtx_le (tsk := u.info (u.resmodel.flatMap Requirement.rwRequests)) e2 rfl rfl _ _ (Or.inl rfl)
    · apply tfFold_span_le
      · intro rw hrw h0
        obtain ⟨q, hq, rfl⟩ := List.getElem_of_mem hrw
        have he : (mergeRw (u.resmodel.flatMap Requirement.rwRequests))[q] =
            entry (mergeRw (u.resmodel.flatMap Requirement.rwRequests)) q := by
          unfold entry
          rw [List.getD_eq_getElem?_getD, List.getElem?_eq_getElem hq, Option.getD_some]
        rw [he] at h0 ⊢
        obtain ⟨r, r1, r2, r3, r4⟩ := hent q h0
        obtain ⟨f1, _, _⟩ := entry_facts (u.resmodel.flatMap Requirement.rwRequests) q
        refine le_trans ?_ ((omlpLoop_snd i (u.info (u.resmodel.flatMap Requirement.mutexRequests))
          (clusterResources (mutexModel ts)) 1 irq _ {} {}).2 r r1)
        unfold tfStep
        simp only [min_total, f1]
        refine le_trans (min_le_right _ _) ?_
        simp only [Interference.add]
        refine Nat.add_le_add ?_ r4
        rw [r2, r3]
        by_cases h1 : (entry (mergeRw (u.resmodel.flatMap Requirement.rwRequests)) q).numReads +
            (entry (mergeRw (u.resmodel.flatMap Requirement.rwRequests)) q).numWrites = 1
        · rw [if_pos h1, if_pos h1, h1]
          exact npFifoMtx_le (tsk := u.info (u.resmodel.flatMap Requirement.rwRequests)) e2 rfl rfl _ _ (Or.inl rfl)
        · rw [if_neg h1, if_neg h1]
          exact npFifoMtx_le (tsk := u.info (u.resmodel.flatMap Requirement.rwRequests)) e2 rfl rfl _ _ (Or.inr rfl)
      · exact Nat.zero_le _

theorem maxLocalSpan_mono (i : ℕ) (t : LockTask) (b b' : ℕ → Bound) (hb : ∀ j, (b j).span.total ≤ (b' j).span.total)
    (f f' : LockTask → List Request) (l : List LockTask) : ∀ k s s', s.total ≤ s'.total →
    (maxLocalSpan i (t.info (f t)) b ((l.map (fun t => t.info (f t))).zipIdx k) s).total ≤
    (maxLocalSpan i (t.info (f' t)) b' ((l.map (fun t => t.info (f' t))).zipIdx k) s').total := by
  induction l with
  | nil => intro k s s' h; exact h
  | cons u l ih =>
    intro k s s' h
    simp only [List.map_cons, List.zipIdx_cons, maxLocalSpan]
    apply ih
    have e : (k ≠ i ∧ (u.info (f u)).cluster = (t.info (f t)).cluster ∧ (u.info (f u)).priority ≥ (t.info (f t)).priority) ↔
        (k ≠ i ∧ (u.info (f' u)).cluster = (t.info (f' t)).cluster ∧ (u.info (f' u)).priority ≥ (t.info (f' t)).priority) :=
      Iff.rfl
    by_cases hc : k ≠ i ∧ (u.info (f u)).cluster = (t.info (f t)).cluster ∧
        (u.info (f u)).priority ≥ (t.info (f t)).priority
    · rw [if_pos hc, if_pos (e.mp hc), max_total, max_total]
      exact max_le_max h (hb k)
    · rw [if_neg hc, if_neg (fun h => hc (e.mpr h))]
      exact h

/-- **C96 (partial).** With one processor per cluster, the bounds for task-fair reader-writer locks do not exceed those for
task-fair mutexes. -/
theorem C96_one_processor_partial (ts : List LockTask)
    (hkeys : ∀ t ∈ ts, (t.resmodel.map (fun q => q.resId)).Nodup) (irq : ℤ) (i : ℕ) (hi : i < ts.length) :
    ∃ b b', (applyTaskFairRw ts 1 irq)[i]? = some b ∧ (applyTaskFairMutex ts 1 irq)[i]? = some b' ∧
      b.blocking.total ≤ b'.blocking.total ∧ b.arrival.total ≤ b'.arrival.total := by
  obtain ⟨t, ht⟩ : ∃ t, ts[i]? = some t := ⟨_, List.getElem?_eq_getElem hi⟩
  have e1 : (rwModel ts)[i]? = some (t.info (t.resmodel.flatMap Requirement.rwRequests)) := by
    unfold rwModel; rw [List.getElem?_map, ht]; rfl
  have e2 : (mutexModel ts)[i]? = some (t.info (t.resmodel.flatMap Requirement.mutexRequests)) := by
    unfold mutexModel; rw [List.getElem?_map, ht]; rfl
  refine ⟨chargeArrival (rwModel ts) (tfDirect (rwModel ts) (mutexModel ts) 1 irq) i
      (t.info (t.resmodel.flatMap Requirement.rwRequests)),
    chargeArrival (mutexModel ts) (omlpDirect (mutexModel ts) 1 irq) i (t.info (t.resmodel.flatMap Requirement.mutexRequests)),
    ?_, omlpBounds_get e2 1 irq, ?_⟩
  · unfold applyTaskFairRw tfBounds
    rw [List.getElem?_map, List.getElem?_zipIdx, e1]
    simp
  · have hs := maxLocalSpan_mono i t (tfDirect (rwModel ts) (mutexModel ts) 1 irq) (omlpDirect (mutexModel ts) 1 irq)
      (fun j => (direct_le hkeys irq j).2) (fun t => t.resmodel.flatMap Requirement.rwRequests)
      (fun t => t.resmodel.flatMap Requirement.mutexRequests) ts 0 {} {} (le_refl _)
    have hb := (direct_le hkeys irq i).1
    unfold chargeArrival
    simp only [Interference.add]
    exact ⟨Nat.add_le_add hb hs, hs⟩

/-- Three tasks on one cluster of two processors; the first has the longest requests. -/
def baseTasks : List LockTask :=
  [⟨100, 50, 0, 0, 30, 100, [⟨0, 1, 20, 0, 0⟩]⟩, ⟨100, 50, 0, 1, 10, 100, [⟨0, 1, 5, 0, 0⟩]⟩,
    ⟨100, 50, 0, 2, 10, 100, [⟨0, 0, 0, 1, 5⟩]⟩]

/-- **C96.** With more processors per cluster, treating reads and writes alike can give smaller bounds: the baseline counts the
requests of the task itself as blocking. -/
theorem C96_violated : ∃ (ts : List LockTask) (procs : ℕ) (irq : ℤ) (i : ℕ) (b b' : Bound),
    (∀ t ∈ ts, (t.resmodel.map (fun q => q.resId)).Nodup) ∧ (∀ t ∈ ts, 0 < t.period) ∧
    (applyTaskFairRw ts procs irq)[i]? = some b ∧ (applyTaskFairMutex ts procs irq)[i]? = some b' ∧
    b'.blocking.total < b.blocking.total :=
  ⟨baseTasks, 2, -1, 0, ((applyTaskFairRw baseTasks 2 (-1))[0]?).getD {}, ((applyTaskFairMutex baseTasks 2 (-1))[0]?).getD {},
    by decide, by decide, by decide, by decide, by decide⟩

/-- The bounds of `C96_one_processor_partial` for these tasks, on three processors. -/
example : (applyTaskFairRw [⟨100, 50, 0, 0, 30, 100, [⟨0, 1, 20, 0, 0⟩]⟩, ⟨100, 50, 1, 1, 10, 100, [⟨0, 1, 5, 0, 0⟩]⟩,
      ⟨100, 50, 1, 2, 10, 100, [⟨0, 0, 0, 1, 5⟩]⟩] 1 (-1)).map (fun b => (b.blocking.total, b.arrival.total)) =
      [(5, 0), (45, 25), (20, 0)] ∧
    (applyTaskFairMutex [⟨100, 50, 0, 0, 30, 100, [⟨0, 1, 20, 0, 0⟩]⟩, ⟨100, 50, 1, 1, 10, 100, [⟨0, 1, 5, 0, 0⟩]⟩,
      ⟨100, 50, 1, 2, 10, 100, [⟨0, 0, 0, 1, 5⟩]⟩] 1 (-1)).map (fun b => (b.blocking.total, b.arrival.total)) =
      [(5, 0), (45, 25), (20, 0)] := by decide

end Verif.SR.Rw
