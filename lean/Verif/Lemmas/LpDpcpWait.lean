/-
How long a request takes under the DPCP, and the iteration that the LP-based analysis uses to bound that time.
-/
import Verif.Lemmas.LpDpcpTerms

namespace Verif.SR.Lp
open Verif.Spec Finset
open Verif.Spec.Dpcp (Delayed Served Ceil)
open Verif.SR.Msrp (system ceilingOf)
open Verif.SR.Dpcp (Locality topology)

variable {info : Info} {m : ℕ} {l : Locality} {loc : ℕ → ℕ} {R : LockRun info.length} {W : Fin info.length → ℕ} {H : ℕ}

theorem le_foldl_max {l : List ℕ} {a b : ℕ} (h : a ∈ l ∨ a ≤ b) : a ≤ l.foldl max b := by
  induction l generalizing b with
  | nil =>
    rcases h with h | h
    · cases h
    · exact h
  | cons c l ih =>
    rw [List.foldl_cons]
    apply ih
    rcases h with h | h
    · rcases List.mem_cons.1 h with rfl | h
      · exact Or.inr (le_max_right _ _)
      · exact Or.inl h
    · exact Or.inr (h.trans (le_max_left _ _))

theorem maxNumJobs_eq {t : TaskInfo} (hT : 0 < t.period) (w : ℕ) : t.maxNumJobs w = cdiv (w + t.response) t.period := by
  unfold TaskInfo.maxNumJobs
  rw [Native.divideWithCeil_eq _ hT]
  rfl

theorem maxNumJobs_mono {t : TaskInfo} (hT : 0 < t.period) {v w : ℕ} (h : v ≤ w) : t.maxNumJobs v ≤ t.maxNumJobs w := by
  rw [maxNumJobs_eq hT, maxNumJobs_eq hT]
  exact cdiv_mono hT (by omega)

/-- Sections for an entry that are incomplete at some time in an interval. -/
theorem entry_sections_le (h : RequestRun m (system info) R) (hb : BoundedBefore R.work R.sched W H)
    (hT : ∀ t ∈ info, 0 < t.period) (hW : ∀ i, W i ≤ (info.get i).response) {x : Fin info.length} {d lo hi w : ℕ}
    {r : Request} (hr : (info.get x).requests[d]? = some r) (hhi : hi ≤ H) (hl : hi - lo ≤ w)
    {F : Finset (Section info.length)}
    (hF : ∀ z ∈ F, R.issued z ∧ z.job.1 = x ∧ z.idx = d ∧ ∃ u, lo ≤ u ∧ u < hi ∧ R.enter z ≤ u ∧ u < R.leave z) :
    F.card ≤ (info.get x).maxNumJobs w * r.num := by
  refine (h.requests_le hb (i := x) (hT _ (List.get_mem info x)) (lock_req' hr) hhi (lo := lo) (F := F) hF).trans ?_
  apply Nat.mul_le_mul_right
  rw [maxNumJobs_eq (hT _ (List.get_mem info x))]
  apply cdiv_mono (hT _ (List.get_mem info x))
  have h1 := hW x
  omega

theorem use_le (h : RequestRun m (system info) R) {z : Section info.length} (hz : R.issued z) {r : Request}
    (hr : (info.get z.job.1).requests[z.idx]? = some r) : R.use z ≤ r.length := by
  have := h.length z _ hz (lock_req' hr)
  unfold LockRun.use
  refine le_trans (le_of_eq ?_) this
  congr

open Classical in
/-- Slots in which requests of some tasks are served. -/
theorem served_slots_le (h : RequestRun m (system info) R) (hb : BoundedBefore R.work R.sched W H)
    (hT : ∀ t ∈ info, 0 < t.period) (hW : ∀ i, W i ≤ (info.get i).response) (h1 : OneEntry info) {lo w : ℕ}
    (hhi : lo + w ≤ H) (p : ℕ × TaskInfo → Prop) [DecidablePred p] (g : Request → Bool) {Y : Finset ℕ}
    (hY : ∀ t ∈ Y, lo ≤ t ∧ t < lo + w ∧ ∃ z, R.Owns z t ∧ z.job ∈ R.sched t ∧
      p ((z.job.1 : ℕ), info.get z.job.1) ∧ ∃ r, (info.get z.job.1).requests[z.idx]? = some r ∧ g r = true) :
    Y.card ≤ (((tasks info).filter (fun t => p t)).map (fun t =>
      ((t.2.requests.filter g).map (fun r => t.2.maxNumJobs w * r.num * r.length)).sum)).sum := by
  rcases Y.eq_empty_or_nonempty with h0 | ⟨t0, ht0⟩
  · rw [h0]; simp
  have hY' : ∀ t ∈ Y, ∃ z, R.Owns z t ∧ z.job ∈ R.sched t ∧
      p ((z.job.1 : ℕ), info.get z.job.1) ∧ ∃ r, (info.get z.job.1).requests[z.idx]? = some r ∧ g r = true :=
    fun t ht => (hY t ht).2.2
  have : Nonempty (Section info.length) := ⟨(hY' t0 ht0).choose⟩
  choose! f hf using hY'
  rw [tasks_sum]
  have hcov : Y ⊆ (univ.filter (fun i : Fin info.length => p ((i : ℕ), info.get i))).biUnion (fun x =>
      (((info.get x).requests.filter g).toFinset).biUnion (fun a =>
        Y.filter (fun t => (f t).job.1 = x ∧ (system info).For (f t) a.resId))) := by
    intro t ht
    obtain ⟨_, _, hp, r, hr, hg⟩ := hf t ht
    refine mem_biUnion.2 ⟨(f t).job.1, mem_filter.2 ⟨mem_univ _, hp⟩, mem_biUnion.2 ⟨r, ?_, ?_⟩⟩
    · exact List.mem_toFinset.2 (List.mem_filter.2 ⟨List.mem_of_getElem? hr, hg⟩)
    · exact mem_filter.2 ⟨ht, rfl, for_iff.2 ⟨r, hr, rfl⟩⟩
  refine (card_le_card hcov).trans (card_biUnion_le.trans (sum_le_sum ?_))
  intro x _
  have hnd : (info.get x).requests.Nodup := List.Nodup.of_map _ (h1 _ (List.get_mem info x))
  rw [← List.sum_toFinset _ (hnd.filter _)]
  refine card_biUnion_le.trans (sum_le_sum ?_)
  intro a ha
  obtain ⟨ha, _⟩ := List.mem_filter.1 (List.mem_toFinset.1 ha)
  set Q := Y.filter (fun t => (f t).job.1 = x ∧ (system info).For (f t) a.resId) with hQ
  have hQ' : ∀ t ∈ Q, t ∈ Y ∧ (f t).job.1 = x ∧ (info.get x).requests[(f t).idx]? = some a := by
    intro t ht
    obtain ⟨ht, hx, hfa⟩ := mem_filter.1 ht
    obtain ⟨b, hb', hba⟩ := for_iff.1 hfa
    rw [hx] at hb'
    rw [h1.eq_of_mem (List.mem_of_getElem? hb') ha hba] at hb'
    exact ⟨ht, hx, hb'⟩
  have hsum : Q.card ≤ ∑ z ∈ Q.image f, R.use z :=
    LockRun.slots_le (fun t ht => ⟨f t, mem_image_of_mem _ ht, (hf t (hQ' t ht).1).1, (hf t (hQ' t ht).1).2.1⟩)
  refine hsum.trans ?_
  have huse : ∀ z ∈ Q.image f, R.use z ≤ a.length := by
    intro z hz
    obtain ⟨t, ht, rfl⟩ := mem_image.1 hz
    obtain ⟨h3, h4, h5⟩ := hQ' t ht
    exact use_le h (hf t h3).1.1 (by rw [h4]; exact h5)
  refine (sum_le_card_nsmul _ _ _ huse).trans ?_
  rw [smul_eq_mul]
  apply Nat.mul_le_mul_right
  rcases Q.eq_empty_or_nonempty with h0 | ⟨t1, ht1⟩
  · rw [h0]; simp
  refine entry_sections_le h hb hT hW (hQ' t1 ht1).2.2 hhi (lo := lo) (by omega) ?_
  intro z hz
  obtain ⟨t, ht, rfl⟩ := mem_image.1 hz
  obtain ⟨h3, h4, h5⟩ := hQ' t ht
  refine ⟨(hf t h3).1.1, h4, ?_, t, (hY t h3).1, (hY t h3).2.1, h.owns_active (hf t h3).1⟩
  exact (h1.eq h5 (hQ' t1 ht1).2.2 rfl).1

/-- **A request takes no longer than a solution of the recurrence.** -/
theorem wait_lt (h : DpcpPrompt (system info) (fun i => (info.get i).priority) loc R)
    (hb : BoundedBefore R.work R.sched W H) (hT : ∀ t ∈ info, 0 < t.period)
    (hW : ∀ i, W i ≤ (info.get i).response) (h1 : OneEntry info)
    (hinj : Function.Injective (fun i : Fin info.length => (info.get i).priority))
    (hloc : ∀ t ∈ info, ∀ r ∈ t.requests, l.at r.resId = some (loc r.resId))
    {s : Section info.length} {c u : ℕ} (hd : Delayed (system info) loc R s c u) (hu : u < H) {a : Request}
    (ha : (info.get s.job.1).requests[s.idx]? = some a) {w : ℕ}
    (hw : 0 < ownLength (info.get s.job.1) a.resId → nextWait info l (info.get s.job.1) a.resId w ≤ w) :
    u < R.enter s + w := by
  classical
  by_contra hc
  obtain ⟨d1, d2, d3, d4, q, d5, d6⟩ := id hd
  have hat : l.at a.resId = some c := by
    rw [hloc _ (List.get_mem info _) a (List.mem_of_getElem? ha), ← d6]
    obtain ⟨b, hb', rfl⟩ := for_iff.1 d5
    rw [ha] at hb'
    cases hb'
    rfl
  have hI : ∀ t ∈ Ico (R.enter s) (R.enter s + w), R.enter s ≤ t ∧ t < R.enter s + w ∧ t < R.leave s ∧ t < H := by
    intro t ht
    have := mem_Ico.1 ht
    omega
  have hdel : ∀ t ∈ Ico (R.enter s) (R.enter s + w), s.job ∉ R.sched t → Delayed (system info) loc R s c t :=
    fun t ht hn => ⟨d1, (hI t ht).1, (hI t ht).2.2.1, hn, q, d5, d6⟩
  set O := (Ico (R.enter s) (R.enter s + w)).filter (fun t => s.job ∈ R.sched t) with hO
  set L := (Ico (R.enter s) (R.enter s + w)).filter (fun t => s.job ∉ R.sched t ∧ ∃ z, Served (system info) loc R z c t ∧
    (info.get s.job.1).priority < (info.get z.job.1).priority ∧
    Ceil (system info) (fun i => (info.get i).priority) z s.job.1) with hL
  set U := (Ico (R.enter s) (R.enter s + w)).filter (fun t => ∃ z, Served (system info) loc R z c t ∧
    (info.get z.job.1).priority < (info.get s.job.1).priority) with hU
  have hcov : Ico (R.enter s) (R.enter s + w) ⊆ O ∪ (L ∪ U) := by
    intro t ht
    by_cases hst : s.job ∈ R.sched t
    · exact mem_union_left _ (mem_filter.2 ⟨ht, hst⟩)
    apply mem_union_right
    have hdt := hdel t ht hst
    obtain ⟨z, hz, hcase⟩ := h.delayed_by hdt
    have hne : z.job.1 ≠ s.job.1 := by
      intro heq
      have hj := ready_eq (h.owns_ready hz.1) (h.active _ t hdt.1 hdt.2.1 hdt.2.2.1) heq
      exact hst (hj ▸ hz.2.1)
    rcases Nat.lt_or_ge (info.get z.job.1).priority (info.get s.job.1).priority with hp | hp
    · exact mem_union_right _ (mem_filter.2 ⟨ht, z, hz, hp⟩)
    · have hp' : (info.get s.job.1).priority < (info.get z.job.1).priority := by
        rcases hp.lt_or_eq with h2 | h2
        · exact h2
        · exact absurd (hinj h2).symm hne
      refine mem_union_left _ (mem_filter.2 ⟨ht, hst, z, hz, hp', ?_⟩)
      rcases hcase with hcase | hcase
      · omega
      · exact hcase.2
  have hOc : O.card + 1 ≤ ownLength (info.get s.job.1) a.resId := by
    have hown : ∀ t, R.enter s ≤ t → t < R.leave s → s.job ∈ R.sched t → R.acquire s ≤ t := by
      intro t h3 h4 h5
      by_contra hw'
      exact h.suspends s t ⟨d1, h3, by omega⟩ h5
    have hlast := h.finish s d1 (by omega)
    have hnot : R.leave s - 1 ∉ O := by
      intro hm
      have := (hI _ (mem_filter.1 hm).1).2.1
      omega
    rw [← card_insert_of_notMem hnot]
    refine le_trans ?_ ((use_le h.toRequestRun d1 ha).trans ?_)
    · unfold LockRun.use
      apply card_le_card
      intro t ht
      rw [mem_filter, mem_Ico]
      rcases mem_insert.1 ht with rfl | ht
      · exact ⟨⟨hown _ (by omega) (by omega) hlast, by omega⟩, hlast⟩
      · obtain ⟨ht, hs⟩ := mem_filter.1 ht
        exact ⟨⟨hown _ (hI t ht).1 (hI t ht).2.2.1 hs, (hI t ht).2.2.1⟩, hs⟩
    · unfold ownLength
      apply le_foldl_max
      left
      exact List.mem_map.2 ⟨a, List.mem_filter.2 ⟨List.mem_of_getElem? ha, by simp⟩, rfl⟩
  have hLc : L.card ≤ waitLower info l (info.get s.job.1) (some c) := by
    rcases L.eq_empty_or_nonempty with h0 | ⟨t0, ht0⟩
    · rw [h0]; simp
    obtain ⟨ht0, hn0, z, hz, hp, hcl⟩ := mem_filter.1 ht0
    have hsub : L.card ≤ R.use z := by
      have : L.card ≤ ∑ s ∈ {z}, R.use s := LockRun.slots_le (by
        intro t ht
        obtain ⟨ht, hn, z', hz', hp', hcl'⟩ := mem_filter.1 ht
        have := h.lower_unique (hdel t0 ht0 hn0) hz hp hcl (hdel t ht hn) hz' hp' hcl'
        rw [this]
        exact ⟨z', mem_singleton_self _, hz'.1, hz'.2.1⟩)
      rwa [sum_singleton] at this
    obtain ⟨q', hq', hlt⟩ := h.declared z hz.1.1
    obtain ⟨b, hb', rfl⟩ := lock_req hq'
    refine hsub.trans ((use_le h.toRequestRun hz.1.1 hb').trans ?_)
    unfold waitLower
    apply le_foldl_max
    left
    refine List.mem_flatMap.2 ⟨((z.job.1 : ℕ), info.get z.job.1), List.mem_filter.2 ⟨mem_tasks.2 ⟨_, rfl⟩, ?_⟩,
      List.mem_map.2 ⟨b, List.mem_filter.2 ⟨List.mem_of_getElem? hb', ?_⟩, rfl⟩⟩
    · simpa using hp.le
    · obtain ⟨_, _, r', hf', hl'⟩ := hz
      have e1 := for_unique hf' (for_iff.2 ⟨b, hb', rfl⟩)
      subst e1
      obtain ⟨r2, x, hf2, hux, hxp⟩ := hcl
      have e2 := for_unique hf2 hf'
      subst e2
      rw [decide_eq_true_eq]
      exact ⟨by rw [hloc _ (List.get_mem info _) b (List.mem_of_getElem? hb'), hl'], Msrp.ceilingOf_le_of ⟨x, hux, hxp⟩⟩
  have hUc : U.card ≤ waitHigher info l (info.get s.job.1) (some c) w := by
    unfold waitHigher
    refine served_slots_le h.toRequestRun hb hT hW h1 (lo := R.enter s) (w := w) (by omega)
      (fun t => t.2.priority < (info.get s.job.1).priority) (fun r => decide (l.at r.resId = some c)) ?_
    intro t ht
    obtain ⟨ht, z, hz, hp⟩ := mem_filter.1 ht
    obtain ⟨e1, e2, r', hf', hl'⟩ := hz
    obtain ⟨b, hb', rfl⟩ := for_iff.1 hf'
    refine ⟨(hI t ht).1, (hI t ht).2.1, z, e1, e2, hp, b, hb', ?_⟩
    rw [decide_eq_true_eq, hloc _ (List.get_mem info _) b (List.mem_of_getElem? hb'), hl']
  have h3 := card_le_card hcov
  rw [Nat.card_Ico] at h3
  have h4 := card_union_le O (L ∪ U)
  have h5 := card_union_le L U
  have h6 := hw (by omega)
  unfold nextWait at h6
  rw [hat] at h6
  omega

/-! ### The iteration -/

theorem waitHigher_mono (hT : ∀ t ∈ info, 0 < t.period) (ti : TaskInfo) (c : Option ℕ) {v w : ℕ} (h : v ≤ w) :
    waitHigher info l ti c v ≤ waitHigher info l ti c w := by
  unfold waitHigher
  apply List.sum_le_sum
  intro t ht
  apply List.sum_le_sum
  intro r _
  obtain ⟨i, rfl⟩ := mem_tasks.1 (List.mem_filter.1 ht).1
  exact Nat.mul_le_mul_right _ (Nat.mul_le_mul_right _ (maxNumJobs_mono (hT _ (List.get_mem info i)) h))

theorem nextWait_mono (hT : ∀ t ∈ info, 0 < t.period) (ti : TaskInfo) (q : ℕ) {v w : ℕ} (h : v ≤ w) :
    nextWait info l ti q v ≤ nextWait info l ti q w :=
  Nat.add_le_add_left (waitHigher_mono hT ti _ h) _

theorem agentLoop_fix (hT : ∀ t ∈ info, 0 < t.period) {ti : TaskInfo} {q b : ℕ} (hb : b ≤ ti.response)
    (hfix : nextWait info l ti q b ≤ b) : ∀ (fuel : ℕ) {e n w : ℕ}, e ≤ b → n = nextWait info l ti q e →
    agentLoop info l ti q fuel e n = some w → nextWait info l ti q w = w ∧ w ≤ ti.response
  | 0, _, _, _, _, _, h => by cases h
  | fuel + 1, e, n, w, he, hn, h => by
    have hnb : n ≤ b := hn ▸ (nextWait_mono hT ti q he).trans hfix
    unfold agentLoop at h
    by_cases hc : n ≤ ti.response ∧ n ≠ e
    · rw [if_pos hc] at h
      exact agentLoop_fix hT hb hfix fuel hnb rfl h
    · rw [if_neg hc] at h
      cases h
      have : n = e := by
        by_contra hne
        exact hc ⟨hnb.trans hb, hne⟩
      exact ⟨by rw [← hn, this], he.trans hb⟩

/-- If the recurrence has a solution no larger than the response time, then the iteration finds one. -/
theorem waitTime_fix (hT : ∀ t ∈ info, 0 < t.period) {ti : TaskInfo} {q b fuel : ℕ} (hb : b ≤ ti.response)
    (hfix : nextWait info l ti q b ≤ b) {w : Option ℕ} (h : waitTime info l fuel ti q = some w) :
    ∃ v, w = some v ∧ (0 < ownLength ti q → nextWait info l ti q v ≤ v) := by
  unfold waitTime at h
  rw [Option.map_eq_some_iff] at h
  obtain ⟨e, he, rfl⟩ := h
  cases fuel with
  | zero => cases he
  | succ fuel =>
    unfold agentLoop at he
    have hle : ownLength ti q + waitLower info l ti (l.at q) ≤ b := by
      refine le_trans ?_ hfix
      unfold nextWait
      omega
    by_cases hc : ownLength ti q + waitLower info l ti (l.at q) ≤ ti.response ∧
        ownLength ti q + waitLower info l ti (l.at q) ≠ 0
    · rw [if_pos hc] at he
      obtain ⟨h1, h2⟩ := agentLoop_fix hT hb hfix fuel hle rfl he
      exact ⟨e, if_pos h2, fun _ => h1.le⟩
    · rw [if_neg hc] at he
      cases he
      refine ⟨0, if_pos (Nat.zero_le _), fun hpos => ?_⟩
      exact absurd ⟨hle.trans hb, by omega⟩ hc

end Verif.SR.Lp
