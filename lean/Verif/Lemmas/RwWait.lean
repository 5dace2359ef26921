/-
Lemmas on the analysis of phase-fair locks: the requests of a job for one resource.
-/
import Verif.Lemmas.RwModel

namespace Verif.SR.Rw
open Verif.Spec

variable {info : Info} {procs irqCpu : ℕ} {irq : ℤ} {R : RwRun info.length}

theorem avail_eq (tsk : TaskInfo) (c : ℕ) : parallelism tsk procs irq c = avail procs irq tsk.cluster c := rfl

theorem cluster_lt_writes (i : Fin info.length) : (info.get i).cluster < (clusterWrites info).length := by
  unfold clusterWrites
  rw [List.length_map]
  exact cluster_lt (get?_fin i)

theorem cluster_lt_split (i : Fin info.length) : (info.get i).cluster < (splitByCluster info).length := by
  have := cluster_lt (get?_fin i)
  unfold clusterResources at this
  rwa [List.length_map] at this

/-- The request object behind a write request. -/
theorem exists_write {s : Section info.length} {q : ℕ} (hs : R.For (system info) s q false) :
    ∃ r ∈ ((clusterWrites info).getD (info.get s.job.1).cluster []).getD q [], From s r := by
  obtain ⟨_, p, h1, h2, h3⟩ := hs
  apply (contention_writes info _ q).exists_from h1
  intro r hr
  obtain ⟨r', h4, h5⟩ := system_req h1
  rw [hr] at h4
  cases h4
  subst h5
  exact ⟨rfl, h2, h3⟩

/-- The request object behind a read request. -/
theorem exists_read {s : Section info.length} {q : ℕ} (hs : R.For (system info) s q true) :
    ∃ r ∈ (allReads info).getD q [], From s r := by
  obtain ⟨_, p, h1, h2, h3⟩ := hs
  apply (contention_reads info q).exists_from h1
  intro r hr
  obtain ⟨r', h4, h5⟩ := system_req h1
  rw [hr] at h4
  cases h4
  subst h5
  exact ⟨h2, h3⟩

/-- Numbers of read and of write requests of a set. -/
structure Counts (R : RwRun info.length) (j : Job info.length) (q nr nw : ℕ)
    (O : Finset (Section info.length)) : Prop where
  own : ∀ k ∈ O, k.job = j
  res : ∀ k ∈ O, ∃ rd, R.For (system info) k q rd
  reads : ∀ F ⊆ O, (∀ k ∈ F, R.For (system info) k q true) → F.card ≤ nr
  writes : ∀ F ⊆ O, (∀ k ∈ F, R.For (system info) k q false) → F.card ≤ nw

theorem Counts.sum_le {j : Job info.length} {q nr nw : ℕ} {O : Finset (Section info.length)}
    (h : Counts R j q nr nw O) (f : Section info.length → ℕ) (a b : ℕ)
    (ha : ∀ k ∈ O, R.For (system info) k q true → f k ≤ a)
    (hb : ∀ k ∈ O, R.For (system info) k q false → f k ≤ b) : ∑ k ∈ O, f k ≤ nr * a + nw * b := by
  classical
  rw [← Finset.sum_filter_add_sum_filter_not O (fun k => R.For (system info) k q true)]
  have h1 := h.reads (O.filter (fun k => R.For (system info) k q true)) (Finset.filter_subset _ _)
    (fun k hk => (Finset.mem_filter.mp hk).2)
  have hw : ∀ k ∈ O.filter (fun k => ¬ R.For (system info) k q true), R.For (system info) k q false := by
    intro k hk
    obtain ⟨hk1, hk2⟩ := Finset.mem_filter.mp hk
    obtain ⟨rd, hrd⟩ := h.res k hk1
    cases rd with
    | true => exact absurd hrd hk2
    | false => exact hrd
  have h2 := h.writes _ (Finset.filter_subset _ _) hw
  apply Nat.add_le_add
  · refine le_trans (Finset.sum_le_card_nsmul _ _ a ?_) ?_
    · intro k hk; exact ha k (Finset.mem_filter.mp hk).1 (Finset.mem_filter.mp hk).2
    · rw [smul_eq_mul]; exact Nat.mul_le_mul_right _ h1
  · refine le_trans (Finset.sum_le_card_nsmul _ _ b ?_) ?_
    · intro k hk; exact hb k (Finset.mem_filter.mp hk).1 (hw k hk)
    · rw [smul_eq_mul]; exact Nat.mul_le_mul_right _ h2

theorem card_filter_biUnion_le {α β : Type} [DecidableEq β] (O : Finset α) (W : α → Finset β)
    (p : β → Prop) [DecidablePred p] : ((O.biUnion W).filter p).card ≤ ∑ k ∈ O, ((W k).filter p).card := by
  rw [Finset.filter_biUnion]
  exact Finset.card_biUnion_le

/-- Requests of one task that are incomplete in the same slot. -/
theorem card_task (h : RwLegal procs irq irqCpu (system info) R) {F : Finset (Section info.length)} {t : ℕ} {r : RB}
    (hF : ∀ s ∈ F, R.issued s ∧ R.Incomplete s t) : (F.filter (fun s => From s r)).card ≤ 1 := by
  rw [Finset.card_le_one]
  intro a ha b hb
  obtain ⟨ha1, ha2⟩ := Finset.mem_filter.mp ha
  obtain ⟨hb1, hb2⟩ := Finset.mem_filter.mp hb
  by_contra hne
  exact h.task_ne (hF a ha1).1 (hF b hb1).1 hne (hF a ha1).2 (hF b hb1).2 (Fin.ext (ha2.1.trans hb2.1.symm))

/-- What a request waits for under phase-fair locks. -/
theorem cover_pf (h : PhaseFair procs irq irqCpu (system info) R) {k : Section info.length} {q : ℕ} {rd : Bool}
    (hk : R.For (system info) k q rd) :
    ∃ W D, Cover (system info) R q k W D ∧
      (∀ c, (W.filter (fun s => (info.get s.job.1).cluster = c)).card ≤
        (if rd then min 1 (avail procs irq (info.get k.job.1).cluster c)
          else avail procs irq (info.get k.job.1).cluster c)) ∧
      (∀ r, (W.filter (fun s => From s r)).card ≤ 1) ∧
      D.card ≤ W.card + (if rd then 0 else 1) ∧
      D.card ≤ if rd then 1 else procs * (splitByCluster info).length - 1 := by
  classical
  have hl := h.toRwLegal
  cases rd with
  | false =>
    obtain ⟨W, D, h1, h2, h3, h4⟩ := h.cover_write (C := (splitByCluster info).length) cluster_lt_split hk
    refine ⟨W, D, h1, ?_, ?_, by simpa using h3, by simpa using h4⟩
    · intro c
      simp only [Bool.false_eq_true, if_false]
      refine hl.card_cluster (k := k) (t := R.enter k) hk.1 ⟨le_refl _, ?_⟩ ?_
      · have := hl.order k hk.1; omega
      · intro s hs
        obtain ⟨hs1, hs2⟩ := Finset.mem_filter.mp hs
        exact ⟨(h1.writes s hs1).1, h2 s hs1, (h1.ne_of_mem hl hk.1 (Finset.mem_union_left _ hs1)).1, hs2⟩
    · intro r
      exact card_task hl (t := R.enter k) (fun s hs => ⟨(h1.writes s hs).1, h2 s hs⟩)
  | true =>
    obtain ⟨W, D, h1, h2, h3⟩ := h.cover_read hk
    refine ⟨W, D, h1, ?_, ?_, by simpa using h3, ?_⟩
    · intro c
      simp only [if_true]
      rw [le_min_iff]
      refine ⟨le_trans (Finset.card_filter_le _ _) h2, ?_⟩
      rcases W.eq_empty_or_nonempty with rfl | ⟨w, hw⟩
      · simp
      · obtain ⟨hne, hi, x, x1, x2, x3⟩ := h1.ne_of_mem hl hk.1 (Finset.mem_union_left _ hw)
        refine hl.card_cluster (k := k) (t := x) hk.1 ⟨x1, ?_⟩ ?_
        · have := hl.order k hk.1; omega
        · intro s hs
          obtain ⟨hs1, hs2⟩ := Finset.mem_filter.mp hs
          have : s = w := Finset.card_le_one.mp h2 s hs1 w hw
          subst this
          exact ⟨hi, x3, hne, hs2⟩
    · intro r
      exact le_trans (Finset.card_filter_le _ _) h2
    · simp only [if_true]; omega

/-- The waiting times of the requests of a job for one resource, under phase-fair locks. -/
theorem pf_wait (hper : ∀ t ∈ info, 0 < t.period) (h : PhaseFair procs irq irqCpu (system info) R)
    {j : Job info.length} {q nr nw : ℕ} {O : Finset (Section info.length)} (hO : Counts R j q nr nw O) :
    ∑ k ∈ O, (R.acquire k - R.enter k) ≤
      (pfWriterFifo j.1 (info.get j.1) (clusterWrites info) nw nr q procs irq).total +
      (pfReaderAll j.1 (info.get j.1) (allReads info) nw
        (pfWriterFifo j.1 (info.get j.1) (clusterWrites info) nw nr q procs irq).count nr q procs
        (procs * (splitByCluster info).length)).total := by
  classical
  have hl := h.toRwLegal
  have hiss : ∀ k ∈ O, R.issued k := fun k hk => by
    obtain ⟨rd, hrd⟩ := hO.res k hk; exact hrd.1
  have hcov : ∀ k : Section info.length, ∃ W D, k ∈ O → Cover (system info) R q k W D ∧
      (∀ rd, R.For (system info) k q rd → (∀ c, (W.filter (fun s => (info.get s.job.1).cluster = c)).card ≤
        (if rd then min 1 (avail procs irq (info.get k.job.1).cluster c)
          else avail procs irq (info.get k.job.1).cluster c)) ∧
      (∀ r, (W.filter (fun s => From s r)).card ≤ 1) ∧
      D.card ≤ W.card + (if rd then 0 else 1) ∧
      D.card ≤ if rd then 1 else procs * (splitByCluster info).length - 1) := by
    intro k
    by_cases hk : k ∈ O
    · obtain ⟨rd, hrd⟩ := hO.res k hk
      obtain ⟨W, D, h1, h2⟩ := cover_pf h hrd
      refine ⟨W, D, fun _ => ⟨h1, ?_⟩⟩
      intro rd' hrd'
      rw [← (hrd.unique hrd').2]
      exact h2
    · exact ⟨∅, ∅, fun h => absurd h hk⟩
  choose W D hWD using hcov
  have hcv := fun k hk => (hWD k hk).1
  have hbd := fun k hk => (hWD k hk).2
  obtain ⟨hsum, hcardW⟩ := combine hl (i := j.1) (O := O) (fun k hk => ⟨hiss k hk, by rw [hO.own k hk]⟩) hcv
  -- facts on the requests that are waited for
  have hfact : ∀ k ∈ O, ∀ s ∈ W k ∪ D k, R.issued s ∧ s.job.1 ≠ j.1 ∧
      (procs = 1 → (info.get s.job.1).cluster ≠ (info.get j.1).cluster) ∧
      ∃ x, R.Incomplete s x ∧ R.release j ≤ x ∧ x < R.finish j := by
    intro k hk s hs
    obtain ⟨h1, h2, x, h3, h4, h5⟩ := (hcv k hk).ne_of_mem hl (hiss k hk) hs
    have hko := hl.order k (hiss k hk)
    have hkw := hl.within k (hiss k hk)
    have hkx : R.Incomplete k x := ⟨h3, by omega⟩
    have hj := hO.own k hk
    refine ⟨h2, ?_, ?_, x, h5, ?_, ?_⟩
    · rw [← hj]; exact hl.task_ne h2 (hiss k hk) h1 h5 hkx
    · intro hp hc
      rw [← hj] at hc
      apply hl.cpu_ne h2 (hiss k hk) h1 h5 hkx hc
      have a1 := hl.cpu_lt s h2
      have a2 := hl.cpu_lt k (hiss k hk)
      omega
    · rw [← hj]; omega
    · rw [← hj]; omega
  have hWf : ∀ s ∈ O.biUnion W, R.For (system info) s q false ∧ s.job.1 ≠ j.1 ∧
      ∃ x, R.Incomplete s x ∧ R.release j ≤ x ∧ x < R.finish j := by
    intro s hs
    obtain ⟨k, hk, hs⟩ := Finset.mem_biUnion.mp hs
    have := hfact k hk s (Finset.mem_union_left _ hs)
    exact ⟨(hcv k hk).writes s hs, this.2.1, this.2.2.2⟩
  have hDf : ∀ s ∈ O.biUnion D, R.For (system info) s q true ∧ s.job.1 ≠ j.1 ∧
      (procs = 1 → (info.get s.job.1).cluster ≠ (info.get j.1).cluster) ∧
      ∃ x, R.Incomplete s x ∧ R.release j ≤ x ∧ x < R.finish j := by
    intro s hs
    obtain ⟨k, hk, hs⟩ := Finset.mem_biUnion.mp hs
    have := hfact k hk s (Finset.mem_union_right _ hs)
    exact ⟨(hcv k hk).reads s hs, this.2.1, this.2.2⟩
  -- writes
  have hw := clusters_le hl (cs := clusterWrites info) (q := q) (fun c => contention_writes info c q)
    cluster_lt_writes (F := O.biUnion W) (i := j.1) (interval := (info.get j.1).response) (per := nr + nw)
    (lim := pfLimit (info.get j.1) procs nw nr irq)
    (fun s hs => fun he => (hWf s hs).2.1 (Fin.ext he)) (fun s hs => (hWf s hs).1.1)
    (fun s hs => exists_write (hWf s hs).1)
    (by
      intro c r hr
      have hr := ((contention_writes info c q).mem r).mp hr
      rw [le_min_iff]
      refine ⟨from_card hper hl j (fun s hs => ⟨(hWf s hs).1.1, (hWf s hs).2.2⟩) hr.1 hr.2.1, ?_⟩
      refine le_trans (card_filter_biUnion_le _ _ _) ?_
      have := hO.sum_le (fun k => ((W k).filter (fun s => From s r)).card) 1 1
        (fun k hk hf => (hbd k hk _ hf).2.1 r) (fun k hk hf => (hbd k hk _ hf).2.1 r)
      omega)
    (by
      intro c
      refine le_trans (card_filter_biUnion_le _ _ _) ?_
      have := hO.sum_le (fun k => ((W k).filter (fun s => (info.get s.job.1).cluster = c)).card)
        (min 1 (avail procs irq (info.get j.1).cluster c)) (avail procs irq (info.get j.1).cluster c)
        (fun k hk hf => by
          have := (hbd k hk _ hf).1 c
          rw [hO.own k hk] at this
          simpa using this)
        (fun k hk hf => by
          have := (hbd k hk _ hf).1 c
          rw [hO.own k hk] at this
          simpa using this)
      refine le_trans this ?_
      unfold pfLimit
      rw [avail_eq]
      by_cases h0 : avail procs irq (info.get j.1).cluster c = 0
      · rw [h0]; simp
      · simp only [ne_eq, h0, not_false_eq_true, if_true]
        have : min 1 (avail procs irq (info.get j.1).cluster c) = 1 := by omega
        rw [this]; omega)
  have e : pfWriterFifo j.1 (info.get j.1) (clusterWrites info) nw nr q procs irq =
      allClusters j.1 (info.get j.1).response (nr + nw) q (pfLimit (info.get j.1) procs nw nr irq) 0
        (clusterWrites info) := pfWriterLoop_eq _ _ _ _ _ _ _ _ _
  rw [← e] at hw
  -- reads
  have hD1 : (O.biUnion D).card ≤ (O.biUnion W).card + nw := by
    refine le_trans Finset.card_biUnion_le ?_
    rw [hcardW]
    have h1 := hO.sum_le (fun k => (D k).card - (W k).card) 0 1
      (fun k hk hf => by have := (hbd k hk _ hf).2.2.1; simp at this; omega)
      (fun k hk hf => by have := (hbd k hk _ hf).2.2.1; simp at this; omega)
    have h2 : ∑ k ∈ O, (D k).card ≤ ∑ k ∈ O, ((W k).card + ((D k).card - (W k).card)) :=
      Finset.sum_le_sum (fun k _ => by omega)
    rw [Finset.sum_add_distrib] at h2
    omega
  have hD2 : (O.biUnion D).card ≤ nr + nw * (procs * (splitByCluster info).length - 1) := by
    refine le_trans Finset.card_biUnion_le ?_
    have h1 := hO.sum_le (fun k => (D k).card) 1 (procs * (splitByCluster info).length - 1)
      (fun k hk hf => by have := (hbd k hk _ hf).2.2.2; simpa using this)
      (fun k hk hf => by have := (hbd k hk _ hf).2.2.2; simpa using this)
    omega
  have hlim : (O.biUnion D).card ≤
      min ((pfWriterFifo j.1 (info.get j.1) (clusterWrites info) nw nr q procs irq).count + nw)
        (nr + nw * (procs * (splitByCluster info).length - 1)) := by
    rw [le_min_iff]
    exact ⟨by have := hw.2; omega, hD2⟩
  have hr := events_le (contention_reads info q).nodup (contention_reads info q).sorted
    (contention_reads info q).inj (F := O.biUnion D) (interval := (info.get j.1).response)
    (per := min ((pfWriterFifo j.1 (info.get j.1) (clusterWrites info) nw nr q procs irq).count + nw)
        (nr + nw * (procs * (splitByCluster info).length - 1)))
    (ok := fun r => decide (r.task ≠ j.1) &&
      (!decide (procs = 1) || decide (r.info.cluster ≠ (info.get j.1).cluster)))
    (by
      intro s hs
      obtain ⟨r, h1, h2⟩ := exists_read (hDf s hs).1
      refine ⟨r, h1, h2, ?_⟩
      have hne := (hDf s hs).2.1
      have hcl := (hDf s hs).2.2.1
      obtain ⟨hi, _⟩ := (contention_reads info q).from_eq h1 h2
      rw [← hi] at hcl
      have : r.task ≠ j.1 := by
        rw [← h2.1]; exact fun he => hne (Fin.ext he)
      simp only [ne_eq, this, not_false_eq_true, decide_true, Bool.true_and, Bool.or_eq_true,
        Bool.not_eq_true', decide_eq_false_iff_not, decide_eq_true_eq]
      by_cases hp : procs = 1
      · exact Or.inr (hcl hp)
      · exact Or.inl hp)
    (fun s hs r hr hsr => (contention_reads info q).length_le hl (hDf s hs).1.1 hr hsr)
    (by
      intro r hr
      have hr := ((contention_reads info q).mem r).mp hr
      rw [le_min_iff]
      refine ⟨from_card hper hl j (fun s hs => ⟨(hDf s hs).1.1, (hDf s hs).2.2.2⟩) hr.1 hr.2.1, ?_⟩
      exact le_trans (Finset.card_filter_le _ _) hlim)
    hlim
  refine le_trans hsum (Nat.add_le_add hw.1 ?_)
  exact hr.1

end Verif.SR.Rw
