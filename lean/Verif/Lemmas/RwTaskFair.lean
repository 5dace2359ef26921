/-
Lemmas on the analysis of task-fair locks.
-/
import Verif.Lemmas.RwMerge

namespace Verif.SR.Rw
open Verif.Spec

variable {info mtx : Info} {procs irqCpu : ℕ} {irq : ℤ} {R : RwRun info.length}

theorem card_sdiff_filter {α : Type} [DecidableEq α] (F X : Finset α) (p : α → Prop) [DecidablePred p] (Y : Finset α)
    (h1 : Y ⊆ X) (h2 : Y ⊆ F.filter p) : ((F \ X).filter p).card + Y.card ≤ (F.filter p).card := by
  have hd : Disjoint ((F \ X).filter p) Y := by
    rw [Finset.disjoint_left]
    intro a ha hy
    exact (Finset.mem_sdiff.mp (Finset.mem_filter.mp ha).1).2 (h1 hy)
  rw [← Finset.card_union_of_disjoint hd]
  apply Finset.card_le_card
  intro a ha
  rcases Finset.mem_union.mp ha with ha | ha
  · obtain ⟨h3, h4⟩ := Finset.mem_filter.mp ha
    exact Finset.mem_filter.mpr ⟨(Finset.mem_sdiff.mp h3).1, h4⟩
  · exact h2 ha

/-- `bound_blocking_all` is at least the length of any set of events that respects the limits per task, per
cluster and in total. -/
theorem boundAll_ge {α : Type} [DecidableEq α] (rel : α → RB → Prop) [∀ r, DecidablePred (fun s => rel s r)]
    (len tk : α → ℕ) (g : ℕ → ℕ) (interval i : ℕ) (cont : List RB) :
    LongestFirst cont → ∀ (tctr cctr : ℕ → ℕ) (maxTotal : ℕ) (F : Finset α),
    (∀ s ∈ F, ∃ r ∈ cont, rel s r) →
    (∀ s ∈ F, ∀ r ∈ cont, rel s r → len s ≤ r.req.length ∧ tk s = r.task) →
    (∀ s ∈ F, tk s ≠ i) → (∀ r ∈ cont, g r.task = r.info.cluster) →
    (∀ r ∈ cont, (F.filter (fun s => rel s r)).card ≤ r.maxNumRequests interval) →
    (∀ t, (F.filter (fun s => tk s = t)).card ≤ tctr t) →
    (∀ c, (F.filter (fun s => g (tk s) = c)).card ≤ cctr c) → F.card ≤ maxTotal →
    ∑ s ∈ F, len s ≤ (boundAllLoop interval i tctr cctr maxTotal cont).total := by
  induction cont with
  | nil =>
    intro _ tctr cctr maxTotal F hmem _ _ _ _ _ _ _
    have : F = ∅ := by
      rw [Finset.eq_empty_iff_forall_notMem]
      intro s hs
      obtain ⟨r, hr, _⟩ := hmem s hs
      simp at hr
    rw [this]; simp
  | cons r cont ih =>
    intro hsort tctr cctr maxTotal F hmem hlen hi hg hx ht hc hT
    obtain ⟨hlong, hsort⟩ := List.pairwise_cons.mp hsort
    have hFr_t : F.filter (fun s => rel s r) ⊆ F.filter (fun s => tk s = r.task) := by
      intro s hs
      obtain ⟨h1, h2⟩ := Finset.mem_filter.mp hs
      exact Finset.mem_filter.mpr ⟨h1, (hlen s h1 r List.mem_cons_self h2).2⟩
    have hFr_c : F.filter (fun s => rel s r) ⊆ F.filter (fun s => g (tk s) = r.info.cluster) := by
      intro s hs
      obtain ⟨h1, h2⟩ := Finset.mem_filter.mp hs
      exact Finset.mem_filter.mpr ⟨h1, by
        rw [(hlen s h1 r List.mem_cons_self h2).2]; exact hg r List.mem_cons_self⟩
    have hskip : F.filter (fun s => rel s r) = ∅ →
        ∑ s ∈ F, len s ≤ (boundAllLoop interval i tctr cctr maxTotal cont).total := by
      intro he
      refine ih hsort tctr cctr maxTotal F ?_ (fun s hs r' hr' => hlen s hs r' (List.mem_cons_of_mem _ hr')) hi
        (fun r' hr' => hg r' (List.mem_cons_of_mem _ hr')) (fun r' hr' => hx r' (List.mem_cons_of_mem _ hr')) ht hc hT
      intro s hs
      obtain ⟨r', hr', h1⟩ := hmem s hs
      rcases List.mem_cons.mp hr' with rfl | hr'
      · exact absurd (Finset.mem_filter.mpr ⟨hs, h1⟩) (by rw [he]; simp)
      · exact ⟨r', hr', h1⟩
    rw [boundAllLoop]
    by_cases c1 : maxTotal = 0
    · rw [if_pos c1]
      rw [c1, Nat.le_zero, Finset.card_eq_zero] at hT
      rw [hT]; simp
    rw [if_neg c1]
    by_cases c2 : r.task = i
    · rw [if_pos c2]
      apply hskip
      rw [Finset.filter_eq_empty_iff]
      intro s hs hr
      exact hi s hs ((hlen s hs r List.mem_cons_self hr).2.trans c2)
    rw [if_neg c2]
    by_cases c3 : tctr r.task = 0
    · rw [if_pos c3]
      apply hskip
      have := le_trans (Finset.card_le_card hFr_t) (ht r.task)
      rw [c3, Nat.le_zero, Finset.card_eq_zero] at this
      exact this
    rw [if_neg c3]
    by_cases c4 : cctr r.info.cluster = 0
    · rw [if_pos c4]
      apply hskip
      have := le_trans (Finset.card_le_card hFr_c) (hc r.info.cluster)
      rw [c4, Nat.le_zero, Finset.card_eq_zero] at this
      exact this
    rw [if_neg c4]
    simp only [Interference.add]
    set num := min (r.maxNumRequests interval) (min (min (tctr r.task) (cctr r.info.cluster)) maxTotal) with hnum
    let Fr := F.filter (fun s => rel s r)
    have hFr : Fr.card ≤ num := by
      have h1 := hx r List.mem_cons_self
      have h2 := le_trans (Finset.card_le_card hFr_t) (ht r.task)
      have h3 := le_trans (Finset.card_le_card hFr_c) (hc r.info.cluster)
      have h4 := le_trans (Finset.card_filter_le F (fun s => rel s r)) hT
      simp only [hnum, le_min_iff]
      exact ⟨h1, ⟨h2, h3⟩, h4⟩
    -- extend to a set of `num` events, preferring those of the task, then those of the cluster
    have hex : ∀ (X : Finset α) (T : Finset α), X ⊆ T → X.card ≤ num →
        ∃ Y, X ⊆ Y ∧ Y ⊆ T ∧ Y.card = min num T.card := by
      intro X T hXT hX
      obtain ⟨Y, h1, h2, h3⟩ := Finset.exists_subsuperset_card_eq hXT
        (n := min num T.card) (le_min hX (Finset.card_le_card hXT)) (min_le_right _ _)
      exact ⟨Y, h1, h2, h3⟩
    obtain ⟨X1, a1, a2, a3⟩ := hex Fr (F.filter (fun s => tk s = r.task)) hFr_t hFr
    have hX1 : X1 ⊆ F.filter (fun s => g (tk s) = r.info.cluster) := by
      intro s hs
      have hs' := Finset.mem_filter.mp (a2 hs)
      exact Finset.mem_filter.mpr ⟨hs'.1, by rw [hs'.2]; exact hg r List.mem_cons_self⟩
    obtain ⟨X2, b1, b2, b3⟩ := hex X1 _ hX1 (by omega)
    obtain ⟨X3, e1, e2, e3⟩ := hex X2 F (fun s hs => (Finset.mem_filter.mp (b2 hs)).1) (by omega)
    have hrest := ih hsort (Function.update tctr r.task (tctr r.task - num))
      (Function.update cctr r.info.cluster (cctr r.info.cluster - num)) (maxTotal - num) (F \ X3)
      (by
        intro s hs
        obtain ⟨h1, h2⟩ := Finset.mem_sdiff.mp hs
        obtain ⟨r', hr', h3⟩ := hmem s h1
        rcases List.mem_cons.mp hr' with rfl | hr'
        · exact absurd (e1 (b1 (a1 (Finset.mem_filter.mpr ⟨h1, h3⟩)))) h2
        · exact ⟨r', hr', h3⟩)
      (fun s hs r' hr' => hlen s (Finset.mem_sdiff.mp hs).1 r' (List.mem_cons_of_mem _ hr'))
      (fun s hs => hi s (Finset.mem_sdiff.mp hs).1)
      (fun r' hr' => hg r' (List.mem_cons_of_mem _ hr'))
      (fun r' hr' => le_trans (Finset.card_le_card (Finset.filter_subset_filter _ Finset.sdiff_subset))
        (hx r' (List.mem_cons_of_mem _ hr')))
      (by
        intro t
        by_cases htr : t = r.task
        · subst htr
          rw [Function.update_self]
          have h1 := card_sdiff_filter F X3 (fun s => tk s = r.task) X1 (fun s hs => e1 (b1 hs)) a2
          have h2 := ht r.task
          omega
        · rw [Function.update_of_ne htr]
          exact le_trans (Finset.card_le_card (Finset.filter_subset_filter _ Finset.sdiff_subset)) (ht t))
      (by
        intro c
        by_cases hcr : c = r.info.cluster
        · subst hcr
          rw [Function.update_self]
          have h1 := card_sdiff_filter F X3 (fun s => g (tk s) = r.info.cluster) X2 e1 b2
          have h2 := hc r.info.cluster
          omega
        · rw [Function.update_of_ne hcr]
          exact le_trans (Finset.card_le_card (Finset.filter_subset_filter _ Finset.sdiff_subset)) (hc c))
      (by
        rw [Finset.card_sdiff_of_subset e2]
        omega)
    have hX3 : ∑ s ∈ X3, len s ≤ num * r.req.length := by
      refine le_trans (Finset.sum_le_card_nsmul X3 len r.req.length ?_) ?_
      · intro s hs
        obtain ⟨r', hr', h3⟩ := hmem s (e2 hs)
        have h4 := (hlen s (e2 hs) r' hr' h3).1
        rcases List.mem_cons.mp hr' with rfl | hr'
        · exact h4
        · exact le_trans h4 (hlong r' hr')
      · rw [smul_eq_mul]
        exact Nat.mul_le_mul_right _ (by omega)
    have hsplit := Finset.sum_sdiff (f := len) e2
    omega

/-- What the requests of a job for a resource wait for. -/
structure Ahead (R : RwRun info.length) (j : Job info.length) (q : ℕ) (O : Finset (Section info.length))
    (W D : Section info.length → Finset (Section info.length)) : Prop where
  sum : ∑ k ∈ O, (R.acquire k - R.enter k) ≤
    ∑ s ∈ O.biUnion W, (R.leave s - R.acquire s) + ∑ s ∈ O.biUnion D, (R.leave s - R.acquire s)
  cardW : (O.biUnion W).card = ∑ k ∈ O, (W k).card
  writes : ∀ s ∈ O.biUnion W, R.For (system info) s q false
  reads : ∀ s ∈ O.biUnion D, R.For (system info) s q true
  facts : ∀ s ∈ O.biUnion W ∪ O.biUnion D, s.job.1 ≠ j.1 ∧
    ∃ x, R.Incomplete s x ∧ R.release j ≤ x ∧ x < R.finish j
  task : ∀ k ∈ O, ∀ i : ℕ, ((W k ∪ D k).filter (fun s => (s.job.1 : ℕ) = i)).card ≤ 1
  cluster : ∀ k ∈ O, ∀ c, ((W k ∪ D k).filter (fun s => (info.get s.job.1).cluster = c)).card ≤
    avail procs irq (info.get j.1).cluster c
  phases : ∀ k ∈ O, ∀ rd, R.For (system info) k q rd → (D k).card ≤ (W k).card + (if rd then 0 else 1)

theorem exists_ahead (h : TaskFair procs irq irqCpu (system info) R) {j : Job info.length} {q nr nw : ℕ}
    {O : Finset (Section info.length)} (hO : Counts R j q nr nw O) :
    ∃ W D, Ahead (procs := procs) (irq := irq) R j q O W D := by
  classical
  have hl := h.toRwLegal
  have hiss : ∀ k ∈ O, R.issued k := fun k hk => by
    obtain ⟨rd, hrd⟩ := hO.res k hk; exact hrd.1
  have hcov : ∀ k : Section info.length, ∃ W D, k ∈ O → Cover (system info) R q k W D ∧
      (∀ s ∈ W ∪ D, R.Incomplete s (R.enter k)) ∧
      (∀ rd, R.For (system info) k q rd → D.card ≤ W.card + (if rd then 0 else 1)) := by
    intro k
    by_cases hk : k ∈ O
    · obtain ⟨rd, hrd⟩ := hO.res k hk
      obtain ⟨W, D, h1, h2, h3⟩ := h.cover hrd
      refine ⟨W, D, fun _ => ⟨h1, h2, ?_⟩⟩
      intro rd' hrd'
      rw [← (hrd.unique hrd').2]
      exact h3
    · exact ⟨∅, ∅, fun h => absurd h hk⟩
  choose W D hWD using hcov
  have hcv := fun k hk => (hWD k hk).1
  obtain ⟨hsum, hcardW⟩ := combine hl (i := j.1) (O := O) (fun k hk => ⟨hiss k hk, by rw [hO.own k hk]⟩) hcv
  refine ⟨W, D, hsum, hcardW, ?_, ?_, ?_, ?_, ?_, fun k hk => (hWD k hk).2.2⟩
  · intro s hs
    obtain ⟨k, hk, hs⟩ := Finset.mem_biUnion.mp hs
    exact (hcv k hk).writes s hs
  · intro s hs
    obtain ⟨k, hk, hs⟩ := Finset.mem_biUnion.mp hs
    exact (hcv k hk).reads s hs
  · intro s hs
    obtain ⟨k, hk, hs⟩ : ∃ k ∈ O, s ∈ W k ∪ D k := by
      rcases Finset.mem_union.mp hs with hs | hs
      · obtain ⟨k, hk, hs⟩ := Finset.mem_biUnion.mp hs
        exact ⟨k, hk, Finset.mem_union_left _ hs⟩
      · obtain ⟨k, hk, hs⟩ := Finset.mem_biUnion.mp hs
        exact ⟨k, hk, Finset.mem_union_right _ hs⟩
    obtain ⟨h1, h2, x, h3, h4, h5⟩ := (hcv k hk).ne_of_mem hl (hiss k hk) hs
    have hko := hl.order k (hiss k hk)
    have hkw := hl.within k (hiss k hk)
    have hj := hO.own k hk
    refine ⟨?_, x, h5, ?_, ?_⟩
    · rw [← hj]; exact hl.task_ne h2 (hiss k hk) h1 h5 ⟨h3, by omega⟩
    · rw [← hj]; omega
    · rw [← hj]; omega
  · intro k hk i
    rw [Finset.card_le_one]
    intro a ha b hb
    obtain ⟨ha1, ha2⟩ := Finset.mem_filter.mp ha
    obtain ⟨hb1, hb2⟩ := Finset.mem_filter.mp hb
    by_contra hne
    exact hl.task_ne ((hcv k hk).ne_of_mem hl (hiss k hk) ha1).2.1 ((hcv k hk).ne_of_mem hl (hiss k hk) hb1).2.1 hne
      ((hWD k hk).2.1 a ha1) ((hWD k hk).2.1 b hb1) (Fin.ext (ha2.trans hb2.symm))
  · intro k hk c
    rw [← hO.own k hk]
    refine hl.card_cluster (k := k) (t := R.enter k) (hiss k hk) ⟨le_refl _, ?_⟩ ?_
    · have := hl.order k (hiss k hk); omega
    · intro s hs
      obtain ⟨hs1, hs2⟩ := Finset.mem_filter.mp hs
      have := (hcv k hk).ne_of_mem hl (hiss k hk) hs1
      exact ⟨this.2.1, (hWD k hk).2.1 s hs1, this.1, hs2⟩

theorem card_biUnion_filter_le {α β : Type} [DecidableEq β] (O : Finset α) (W V : α → Finset β) (hV : ∀ k ∈ O, W k ⊆ V k)
    (p : β → Prop) [DecidablePred p] (b : ℕ) (hb : ∀ k ∈ O, ((V k).filter p).card ≤ b) :
    ((O.biUnion W).filter p).card ≤ O.card * b := by
  refine le_trans (card_filter_biUnion_le _ _ _) ?_
  refine le_trans (Finset.sum_le_card_nsmul O _ b ?_) (by rw [smul_eq_mul])
  intro k hk
  exact le_trans (Finset.card_le_card (Finset.filter_subset_filter _ (hV k hk))) (hb k hk)

theorem Counts.card_le {j : Job info.length} {q nr nw : ℕ} {O : Finset (Section info.length)}
    (h : Counts R j q nr nw O) : O.card ≤ nr + nw := by
  have := h.sum_le (fun _ => 1) 1 1 (fun _ _ _ => le_refl _) (fun _ _ _ => le_refl _)
  simpa using this

/-- `np_fifo_per_resource` on the writes covers the writes that are waited for. -/
theorem tf_writes (hper : ∀ t ∈ info, 0 < t.period) (h : TaskFair procs irq irqCpu (system info) R)
    {j : Job info.length} {q nr nw : ℕ} {O : Finset (Section info.length)} (hO : Counts R j q nr nw O)
    {W D : Section info.length → Finset (Section info.length)}
    (hA : Ahead (procs := procs) (irq := irq) R j q O W D) :
    ∑ s ∈ O.biUnion W, (R.leave s - R.acquire s) ≤
      (npFifo j.1 (info.get j.1) (clusterWrites info) procs q (nr + nw) irq).total ∧
    (O.biUnion W).card ≤ (npFifo j.1 (info.get j.1) (clusterWrites info) procs q (nr + nw) irq).count := by
  classical
  have hl := h.toRwLegal
  have e : npFifo j.1 (info.get j.1) (clusterWrites info) procs q (nr + nw) irq =
      allClusters j.1 (info.get j.1).response (nr + nw) q (fun c => (nr + nw) * parallelism (info.get j.1) procs irq c)
        0 (clusterWrites info) := npFifoLoop_eq _ _ _ _ _ _ _ _
  rw [e]
  refine clusters_le hl (fun c => contention_writes info c q) cluster_lt_writes
    (fun s hs he => (hA.facts s (Finset.mem_union_left _ hs)).1 (Fin.ext he)) (fun s hs => (hA.writes s hs).1)
    (fun s hs => exists_write (hA.writes s hs)) ?_ ?_
  · intro c r hr
    have hr := ((contention_writes info c q).mem r).mp hr
    rw [le_min_iff]
    refine ⟨from_card hper hl j (fun s hs => ⟨(hA.writes s hs).1, (hA.facts s (Finset.mem_union_left _ hs)).2⟩)
      hr.1 hr.2.1, ?_⟩
    have h1 := card_biUnion_filter_le O W (fun k => W k ∪ D k) (fun k _ => Finset.subset_union_left)
      (fun s => (s.job.1 : ℕ) = r.task) 1 (fun k hk => hA.task k hk r.task)
    have h2 : (O.biUnion W).filter (fun s => From s r) ⊆ (O.biUnion W).filter (fun s => (s.job.1 : ℕ) = r.task) := by
      intro s hs
      obtain ⟨a, b⟩ := Finset.mem_filter.mp hs
      exact Finset.mem_filter.mpr ⟨a, b.1⟩
    have h3 := Finset.card_le_card h2
    have := hO.card_le
    omega
  · intro c
    refine le_trans (card_biUnion_filter_le O W (fun k => W k ∪ D k) (fun k _ => Finset.subset_union_left)
      (fun s => (info.get s.job.1).cluster = c) _ (fun k hk => hA.cluster k hk c)) ?_
    exact Nat.mul_le_mul_right _ hO.card_le

/-- `tf_reader_all` covers the reads that are waited for. -/
theorem tf_reads (hper : ∀ t ∈ info, 0 < t.period) (h : TaskFair procs irq irqCpu (system info) R)
    {j : Job info.length} {q nr nw : ℕ} {O : Finset (Section info.length)} (hO : Counts R j q nr nw O)
    {W D : Section info.length → Finset (Section info.length)}
    (hA : Ahead (procs := procs) (irq := irq) R j q O W D) {wb : ℕ} (hwb : (O.biUnion W).card ≤ wb) :
    ∑ s ∈ O.biUnion D, (R.leave s - R.acquire s) ≤
      (tfReaderAll j.1 (info.get j.1) (allReads info) nw wb nr q procs).total := by
  classical
  have hl := h.toRwLegal
  have hc := contention_reads info q
  have hD : (O.biUnion D).card ≤ wb + nw := by
    refine le_trans Finset.card_biUnion_le ?_
    have h1 := hO.sum_le (fun k => (D k).card - (W k).card) 0 1
      (fun k hk hf => by have := hA.phases k hk _ hf; simp at this; omega)
      (fun k hk hf => by have := hA.phases k hk _ hf; simp at this; omega)
    have h2 : ∑ k ∈ O, (D k).card ≤ ∑ k ∈ O, ((W k).card + ((D k).card - (W k).card)) :=
      Finset.sum_le_sum (fun k _ => by omega)
    rw [Finset.sum_add_distrib, ← hA.cardW] at h2
    omega
  have hav : ∀ c, avail procs irq (info.get j.1).cluster c ≤
      if c = (info.get j.1).cluster then procs - 1 else procs := by
    intro c
    unfold avail
    simp only
    have hp : (if (c : ℤ) = irq then procs - 1 else procs) ≤ procs := by split <;> omega
    generalize (if (c : ℤ) = irq then procs - 1 else procs) = p at hp
    by_cases hcj : c = (info.get j.1).cluster
    · rw [if_pos hcj]
      simp only [hcj, and_true]
      split <;> omega
    · rw [if_neg hcj]
      have : ¬ (info.get j.1).cluster = c := fun he => hcj he.symm
      simp only [this, and_false, if_false]
      exact hp
  unfold tfReaderAll boundBlockingAll
  simp only
  let g : ℕ → ℕ := fun i => (info[i]?.map (fun t => t.cluster)).getD 0
  have hg : ∀ i : Fin info.length, g i = (info.get i).cluster := by
    intro i; simp only [g, get?_fin]; rfl
  refine boundAll_ge From (fun s => R.leave s - R.acquire s) (fun s => (s.job.1 : ℕ)) g _ _ _ hc.sorted _ _ _ _
    (fun s hs => exists_read (hA.reads s hs))
    (fun s hs r hr hsr => ⟨hc.length_le hl (hA.reads s hs).1 hr hsr, hsr.1⟩)
    (fun s hs he => (hA.facts s (Finset.mem_union_right _ hs)).1 (Fin.ext he)) ?_ ?_ ?_ ?_ hD
  · intro r hr
    have hr := (hc.mem r).mp hr
    simp only [g, hr.1]; rfl
  · intro r hr
    have hr := (hc.mem r).mp hr
    exact from_card hper hl j (fun s hs => ⟨(hA.reads s hs).1, (hA.facts s (Finset.mem_union_right _ hs)).2⟩)
      hr.1 hr.2.1
  · intro t
    rw [le_min_iff]
    refine ⟨le_trans (Finset.card_filter_le _ _) hD, ?_⟩
    have := card_biUnion_filter_le O D (fun k => W k ∪ D k) (fun k _ => Finset.subset_union_right)
      (fun s => (s.job.1 : ℕ) = t) 1 (fun k hk => hA.task k hk t)
    have := hO.card_le
    omega
  · intro c
    have h1 := card_biUnion_filter_le O D (fun k => W k ∪ D k) (fun k _ => Finset.subset_union_right)
      (fun s => (info.get s.job.1).cluster = c) _ (fun k hk => hA.cluster k hk c)
    simp only [hg]
    refine le_trans h1 (le_trans (Nat.mul_le_mul hO.card_le (hav c)) ?_)
    split <;> exact le_refl _

/-! ### The mutex model -/

/-- `mtx` describes the same tasks as `info`, with a single request object per resource that covers all the
requests of the task for the resource. -/
structure MutexOf (info mtx : Info) : Prop where
  same : ∀ (i : ℕ) (t : TaskInfo), info[i]? = some t → ∃ t' : TaskInfo, mtx[i]? = some t' ∧ t'.period = t.period ∧ t'.response = t.response ∧
    t'.cluster = t.cluster ∧
    ∀ r ∈ t.requests, 0 < r.num → ∃ (k : ℕ) (e : Request), t'.requests[k]? = some e ∧ e.resId = r.resId ∧
      (∀ k' e', t'.requests[k']? = some e' → e'.resId = r.resId → k' = k) ∧
      ((t.requests.filter (fun r' => decide (r'.resId = r.resId))).map (fun r' => r'.num)).sum ≤ e.num ∧
      ∀ r' ∈ t.requests, r'.resId = r.resId → r'.length ≤ e.length
  size : mtx.length = info.length

/-- Requests of one task for a resource in the interval in which a job is pending. -/
theorem task_card (hper : ∀ t ∈ info, 0 < t.period) (h : RwLegal procs irq irqCpu (system info) R)
    (j : Job info.length) {q : ℕ} {F : Finset (Section info.length)}
    (hF : ∀ s ∈ F, (∃ rd, R.For (system info) s q rd) ∧
      ∃ x, R.Incomplete s x ∧ R.release j ≤ x ∧ x < R.finish j) (i : Fin info.length) :
    (F.filter (fun s => s.job.1 = i)).card ≤ (info.get i).maxNumJobs (info.get j.1).response *
      (((info.get i).requests.filter (fun r' => decide (r'.resId = q))).map (fun r' => r'.num)).sum := by
  classical
  have htask : ∀ s ∈ F.filter (fun s => s.job.1 = i), s.job = (i, s.job.2) := by
    intro s hs
    have := (Finset.mem_filter.mp hs).2
    rw [← this]
  let J := (F.filter (fun s => s.job.1 = i)).image (fun s => s.job.2)
  have hJ : J.card ≤ (info.get i).maxNumJobs (info.get j.1).response := by
    apply C40_jobs (info.get i) (hper _ (List.get_mem _ _)) (fun k => R.release (i, k)) (fun k => R.finish (i, k))
    · intro k; exact h.separated i k
    · intro k; exact h.responds (i, k)
    · intro k hk
      obtain ⟨s, hs, rfl⟩ := Finset.mem_image.mp hk
      obtain ⟨⟨rd, h1⟩, x, h2, h3, h4⟩ := hF s (Finset.mem_filter.mp hs).1
      have hw := h.within s h1.1
      rw [htask s hs] at hw
      obtain ⟨a, b⟩ := h2
      have hresp := h.responds j
      refine ⟨x, by omega, by omega, h3, ?_⟩
      change R.finish j ≤ R.release j + (info.get j.1).response at hresp
      omega
  have hcard : (F.filter (fun s => s.job.1 = i)).card ≤
      (J ×ˢ slots (info.get i).requests (fun r => decide (r.resId = q))).card := by
    apply Finset.card_le_card_of_injOn (fun s => (s.job.2, s.idx, s.inst))
    · intro s hs
      simp only [Finset.coe_product, Set.mem_prod, Finset.mem_coe]
      refine ⟨Finset.mem_image_of_mem _ hs, ?_⟩
      obtain ⟨⟨rd, h1, p, h2, h3, _⟩, _⟩ := hF s (Finset.mem_filter.mp hs).1
      obtain ⟨p', h4, h5⟩ := h.declared s h1
      rw [h2] at h4; cases h4
      obtain ⟨r, h6, rfl⟩ := system_req h2
      rw [(Finset.mem_filter.mp hs).2] at h6
      exact mem_slots.mpr ⟨r, h6, by simpa using h3, h5⟩
    · intro a ha b hb hab
      simp only [Prod.mk.injEq] at hab
      have a1 := htask a ha
      have b1 := htask b hb
      obtain ⟨aj, ai, an⟩ := a
      obtain ⟨bj, bi, bn⟩ := b
      simp only at a1 b1 hab
      rw [a1, b1, hab.1, hab.2.1, hab.2.2]
  rw [Finset.card_product] at hcard
  exact le_trans hcard (Nat.mul_le_mul hJ (card_slots _ _))

/-- The analysis as a mutex covers the waiting times as well. -/
theorem tf_mutex (hper : ∀ t ∈ info, 0 < t.period) (hm : MutexOf info mtx)
    (h : TaskFair procs irq irqCpu (system info) R)
    {j : Job info.length} {q nr nw : ℕ} {O : Finset (Section info.length)} (hO : Counts R j q nr nw O) :
    ∑ k ∈ O, (R.acquire k - R.enter k) ≤ (npFifoMtx mtx (info.get j.1) procs q (nr + nw) irq).total := by
  classical
  have hl := h.toRwLegal
  obtain ⟨W, D, hA⟩ := exists_ahead h hO
  have hdisj : Disjoint (O.biUnion W) (O.biUnion D) := by
    rw [Finset.disjoint_left]
    intro s hs hs'
    exact absurd ((hA.writes s hs).unique (hA.reads s hs')).2 (by decide)
  refine le_trans hA.sum ?_
  rw [← Finset.sum_union hdisj]
  have hfor : ∀ s ∈ O.biUnion W ∪ O.biUnion D, ∃ rd, R.For (system info) s q rd := by
    intro s hs
    rcases Finset.mem_union.mp hs with hs | hs
    · exact ⟨_, hA.writes s hs⟩
    · exact ⟨_, hA.reads s hs⟩
  have hU : O.biUnion W ∪ O.biUnion D = O.biUnion (fun k => W k ∪ D k) := by
    ext s
    simp only [Finset.mem_union, Finset.mem_biUnion]
    constructor
    · rintro (⟨k, hk, hs⟩ | ⟨k, hk, hs⟩)
      · exact ⟨k, hk, Or.inl hs⟩
      · exact ⟨k, hk, Or.inr hs⟩
    · rintro ⟨k, hk, hs | hs⟩
      · exact Or.inl ⟨k, hk, hs⟩
      · exact Or.inr ⟨k, hk, hs⟩
  have e : npFifoMtx mtx (info.get j.1) procs q (nr + nw) irq =
      allClusters mtx.length (info.get j.1).response (nr + nw) q
        (fun c => (nr + nw) * parallelism (info.get j.1) procs irq c) 0 (clusterResources mtx) :=
    npFifoLoop_eq _ _ _ _ _ _ _ _
  rw [e]
  have hcont := fun c => contention_cluster mtx c q
  -- the request object of a request
  have hobj : ∀ s ∈ O.biUnion W ∪ O.biUnion D, ∃ (t' : TaskInfo) (k : ℕ) (e : Request), mtx[(s.job.1 : ℕ)]? = some t' ∧
      t'.period = (info.get s.job.1).period ∧ t'.response = (info.get s.job.1).response ∧
      t'.cluster = (info.get s.job.1).cluster ∧ t'.requests[k]? = some e ∧ e.resId = q ∧
      (∀ k' e', t'.requests[k']? = some e' → e'.resId = q → k' = k) ∧
      (((info.get s.job.1).requests.filter (fun r' => decide (r'.resId = q))).map (fun r' => r'.num)).sum ≤ e.num ∧
      R.leave s - R.acquire s ≤ e.length := by
    intro s hs
    obtain ⟨rd, hi, p, h1, h2, _⟩ := hfor s hs
    obtain ⟨p', h3, h4⟩ := hl.declared s hi
    rw [h1] at h3; cases h3
    have hln := hl.length s _ hi h1
    obtain ⟨r, h5, rfl⟩ := system_req h1
    obtain ⟨t', a1, a2, a3, a4, a5⟩ := hm.same s.job.1 _ (get?_fin _)
    have hrm := List.mem_of_getElem? h5
    obtain ⟨k, e, b1, b2, b3, b4, b5⟩ := a5 r hrm (by simp only at h4; omega)
    simp only at h2 hln
    rw [h2] at b2 b3 b4
    have := b5 r hrm rfl
    exact ⟨t', k, e, a1, a2, a3, a4, b1, b2, b3, b4, by omega⟩
  refine (clusters_rel (fun s r => (s.job.1 : ℕ) = r.task) (fun s => R.leave s - R.acquire s)
    (fun s => (info.get s.job.1).cluster) (fun c => (hcont c).nodup) (fun c => (hcont c).sorted)
    ?_ ?_ ?_ ?_ ?_ ?_).1
  · intro s hs
    obtain ⟨t', k, e, a1, a2, a3, a4, _⟩ := hobj s hs
    rw [← a4]
    exact cluster_lt a1
  · intro s hs c a ha b hb h1 h2
    refine (hcont c).inj a ha b hb (h1.symm.trans h2) ?_
    have ha := ((hcont c).mem a).mp ha
    have hb := ((hcont c).mem b).mp hb
    obtain ⟨t', k, e, a1, _, _, _, _, _, a5, _⟩ := hobj s hs
    have e1 : a.info = t' := by have := ha.1; rw [← h1, a1] at this; exact (Option.some.inj this).symm
    have e2 : b.info = t' := by have := hb.1; rw [← h2, a1] at this; exact (Option.some.inj this).symm
    rw [e1] at ha
    rw [e2] at hb
    exact (a5 _ _ ha.2.1 ha.2.2.2).trans (a5 _ _ hb.2.1 hb.2.2.2).symm
  · intro s hs
    obtain ⟨t', k, e, a1, a2, a3, a4, a5, a6, a7, _⟩ := hobj s hs
    refine ⟨⟨s.job.1, t', k, e⟩, ((hcont _).mem _).mpr ⟨a1, a5, a4, a6⟩, rfl, ?_⟩
    have := s.job.1.2
    have hsz := hm.size
    simp only [ne_eq]
    omega
  · intro s hs c r hr hsr
    have hr := ((hcont c).mem r).mp hr
    obtain ⟨t', k, e, a1, _, _, _, a5, _, a7, _, a9⟩ := hobj s hs
    have e1 : r.info = t' := by have := hr.1; rw [← hsr, a1] at this; exact (Option.some.inj this).symm
    rw [e1] at hr
    have hk := a7 _ _ hr.2.1 hr.2.2.2
    have := hr.2.1
    rw [hk, a5] at this
    rw [← Option.some.inj this]
    exact a9
  · intro c r hr
    rcases ((O.biUnion W ∪ O.biUnion D).filter (fun s => (s.job.1 : ℕ) = r.task)).eq_empty_or_nonempty with he | ⟨s0, hs0⟩
    · rw [he]; simp
    obtain ⟨hs0, hsr⟩ := Finset.mem_filter.mp hs0
    have hr := ((hcont c).mem r).mp hr
    obtain ⟨t', k, e, a1, a2, a3, _, a5, _, a7, a8, _⟩ := hobj s0 hs0
    have e1 : r.info = t' := by have := hr.1; rw [← hsr, a1] at this; exact (Option.some.inj this).symm
    rw [le_min_iff]
    constructor
    · have h1 := task_card hper hl j (F := O.biUnion W ∪ O.biUnion D) (q := q)
        (fun s hs => ⟨hfor s hs, (hA.facts s hs).2⟩) s0.job.1
      have h2 : (O.biUnion W ∪ O.biUnion D).filter (fun s => (s.job.1 : ℕ) = r.task) =
          (O.biUnion W ∪ O.biUnion D).filter (fun s => s.job.1 = s0.job.1) := by
        apply Finset.filter_congr
        intro s _
        rw [← hsr, Fin.ext_iff]
      rw [h2]
      refine le_trans h1 ?_
      unfold RB.maxNumRequests TaskInfo.maxNumJobs
      rw [e1, a2, a3]
      apply Nat.mul_le_mul_left
      rw [e1] at hr
      have hk := a7 _ _ hr.2.1 hr.2.2.2
      have := hr.2.1
      rw [hk, a5] at this
      rw [← Option.some.inj this]
      exact a8
    · rw [hU]
      have := card_biUnion_filter_le O (fun k => W k ∪ D k) (fun k => W k ∪ D k) (fun k _ => Finset.Subset.refl _)
        (fun s => (s.job.1 : ℕ) = r.task) 1 (fun k hk => hA.task k hk r.task)
      have := hO.card_le
      omega
  · intro c
    rw [hU]
    refine le_trans (card_biUnion_filter_le O (fun k => W k ∪ D k) (fun k => W k ∪ D k) (fun k _ => Finset.Subset.refl _)
      (fun s => (info.get s.job.1).cluster = c) _ (fun k hk => hA.cluster k hk c)) ?_
    exact Nat.mul_le_mul_right _ hO.card_le

theorem allClusters_count_mono (i interval res per per' : ℕ) (lim lim' : ℕ → ℕ) (h1 : per ≤ per')
    (h2 : ∀ c, lim c ≤ lim' c) (cs : List (List (List RB))) :
    (allClusters i interval per res lim 0 cs).count ≤ (allClusters i interval per' res lim' 0 cs).count := by
  rw [(allClusters_eq i interval per res lim cs 0).2, (allClusters_eq i interval per' res lim' cs 0).2]
  apply Finset.sum_le_sum
  intro c _
  unfold boundBlocking
  rw [boundLoop_count, boundLoop_count]
  refine min_le_min (h2 _) (List.sum_le_sum ?_)
  intro r _
  split
  · exact min_le_min_left _ h1
  · exact le_refl _

theorem npFifo_count_mono (i : ℕ) (tsk : TaskInfo) (cs : List (List (List RB))) (procs res n : ℕ) (irq : ℤ)
    (hn : 1 ≤ n) : (npFifo i tsk cs procs res 1 irq).count ≤ (npFifo i tsk cs procs res n irq).count := by
  unfold npFifo
  rw [npFifoLoop_eq, npFifoLoop_eq]
  exact allClusters_count_mono _ _ _ _ _ _ _ hn (fun c => Nat.mul_le_mul_right _ hn) _

end Verif.SR.Rw
