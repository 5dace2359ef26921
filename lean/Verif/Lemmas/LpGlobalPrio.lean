/-
Priority queues in the LPs for global scheduling.
-/
import Verif.Lemmas.LpGlobalHold

namespace Verif.SR.Lp.Glob
open Verif.Spec Finset
open Verif.SR.Msrp (system)

variable {info : Info} {k : Fin info.length} {m : ℕ} {R : LockRun info.length}

/-- The entries for a resource. -/
theorem filter_entry {l : List Request} (hn : (l.map Request.resId).Nodup) {r : Request} (hr : r ∈ l) :
    l.filter (fun a => a.resId = r.resId) = [r] := by
  induction l with
  | nil => simp at hr
  | cons a l ih =>
    rw [List.map_cons, List.nodup_cons] at hn
    rcases List.mem_cons.1 hr with rfl | hr
    · rw [List.filter_cons_of_pos (by simp)]
      congr 1
      rw [List.filter_eq_nil_iff]
      intro b hb
      simp only [decide_eq_true_eq]
      intro e
      exact hn.1 (List.mem_map.2 ⟨b, hb, e⟩)
    · rw [List.filter_cons_of_neg, ih hn.2 hr]
      simp only [decide_eq_true_eq]
      intro e
      exact hn.1 (List.mem_map.2 ⟨r, hr, e.symm⟩)

section
variable {Z : Finset (Section info.length)} {D I : Section info.length → ℕ} {N : Fin info.length → ℕ} {Y : ℕ}
  (hD : Delay info k m Z D I N Y) (h1 : OneEntry info)
include hD h1

/-- The shares of the lower-priority tasks in a resource. -/
theorem Delay.lower_counted (hp : ∀ x : Fin info.length, (info.get x).priority = x) {f : Section info.length → ℕ}
    (hf : ∀ z, f z ≤ D z + I z) (q : ℕ) :
    (((lowerTasks info (info.get k)).map (fun t => ((t.2.requests.filter (fun r => r.resId = q)).map
      (fun r => (instances (info.get k) t.2 r * share k Z f t.1 r.resId : ℚ))).sum)).sum : ℚ) ≤
      ((Z.filter (fun z => k < z.job.1 ∧ resOf z = q ∧ 0 < f z)).card : ℚ) := by
  rw [lower_sum hp, card_eq_sum_card_fiberwise (s := Z.filter (fun z => k < z.job.1 ∧ resOf z = q ∧ 0 < f z))
    (f := fun z => z.job.1) (t := univ.filter (fun x : Fin info.length => k < x))]
  · push_cast
    apply sum_le_sum
    intro x hx
    have hkx := (mem_filter.1 hx).2
    by_cases hr : ∃ r ∈ (info.get x).requests, r.resId = q
    · obtain ⟨r, hr, rfl⟩ := hr
      rw [filter_entry (h1 _ (List.get_mem info x)) hr, List.map_singleton, List.sum_singleton]
      refine (hD.counted h1 hf hr).trans ?_
      norm_cast
      apply card_le_card
      intro z hz
      obtain ⟨hz, hpos⟩ := mem_filter.1 hz
      obtain ⟨hz, hzx, hzr⟩ := mem_filter.1 hz
      have hzx : z.job.1 = x := Fin.ext hzx
      exact mem_filter.2 ⟨mem_filter.2 ⟨hz, hzx ▸ hkx, hzr, hpos⟩, hzx⟩
    · have e : (info.get x).requests.filter (fun r => r.resId = q) = [] := by
        rw [List.filter_eq_nil_iff]
        intro r hr' e
        exact hr ⟨r, hr', by simpa using e⟩
      simp only [e, List.map_nil, List.sum_nil]
      positivity
  · intro z hz
    exact mem_coe.2 (mem_filter.2 ⟨mem_univ _, (mem_filter.1 (mem_coe.1 hz)).2.1⟩)

/-- Constraint 9. -/
theorem Delay.prioLowerConstraints (hp : ∀ x : Fin info.length, (info.get x).priority = x)
    (hc : ∀ q, (Z.filter (fun z => k < z.job.1 ∧ resOf z = q ∧ 0 < D z)).card ≤ numRequests (info.get k) q)
    {P : Program} (hP : P.Feasible (value k Z D I N)) :
    (prioLowerConstraints info (info.get k) P).Feasible (value k Z D I N) := by
  apply feasible_foldl _ hP
  intro q _ P hP
  apply feasible_addInequality hP
  rw [termSum_flatMap]
  refine le_trans (le_of_eq ?_) ((hD.lower_counted h1 hp (f := D) (fun z => Nat.le_add_right _ _) q).trans
    (by exact_mod_cast hc q))
  congr 1
  apply List.map_congr_left
  intro t _
  rw [termSum_flatMap]
  congr 1
  apply List.map_congr_left
  intro r _
  rw [direct_terms, one_mul]

/-- Constraint 12. -/
theorem Delay.pipIndirectConstraints (hp : ∀ x : Fin info.length, (info.get x).priority = x)
    (hc : ∀ q, (Z.filter (fun z => k < z.job.1 ∧ resOf z = q ∧ 0 < I z)).card ≤ higherRequests info (info.get k) q)
    {P : Program} (hP : P.Feasible (value k Z D I N)) :
    (pipIndirectConstraints info (info.get k) P).Feasible (value k Z D I N) := by
  apply feasible_foldl _ hP
  intro q _ P hP
  apply feasible_addInequality hP
  rw [termSum_flatMap]
  refine le_trans (le_of_eq ?_) ((hD.lower_counted h1 hp (f := I) (fun z => Nat.le_add_left _ _) q).trans
    (by exact_mod_cast hc q))
  congr 1
  apply List.map_congr_left
  intro t _
  rw [termSum_flatMap]
  congr 1
  apply List.map_congr_left
  intro r _
  rw [termSum_append, indirect_terms, preempt_terms, one_mul, add_zero]

theorem foldlM_inv {α : Type} {f : Program → α → Option Program} {C : Program → Prop} (l : List α)
    (hf : ∀ a ∈ l, ∀ P P', f P a = some P' → C P → C P') {P P' : Program} (h : l.foldlM f P = some P') (hP : C P) :
    C P' := by
  clear hD h1
  induction l generalizing P with
  | nil =>
    cases h
    exact hP
  | cons a l ih =>
    rw [List.foldlM_cons] at h
    obtain ⟨P1, h2, h3⟩ := Option.bind_eq_some_iff.1 h
    exact ih (fun b hb => hf b (List.mem_cons_of_mem a hb)) h3 (hf a List.mem_cons_self P P1 h2 hP)

/-- Constraint 10. -/
theorem Delay.prioHigherConstraints (hp : ∀ x : Fin info.length, (info.get x).priority = x) {fuel : ℕ}
    {hold : ℕ × TaskInfo → ℕ → Option ℕ}
    (hc : ∀ (x : Fin info.length), x < k → ∀ a ∈ (info.get x).requests, ∀ W,
      waitTime info (info.get k) fuel hold a.resId = some W → W ≠ Msrp.uintMax →
      ((bucket Z x a.resId).filter (fun z => 0 < D z)).card ≤
        (info.get x).maxNumJobs W * numRequests (info.get x) a.resId * numRequests (info.get k) a.resId)
    {P P' : Program} (h : prioHigherConstraints info (info.get k) fuel hold P = some P')
    (hP : P.Feasible (value k Z D I N)) : P'.Feasible (value k Z D I N) ∧ P'.objective = P.objective := by
  unfold Glob.prioHigherConstraints at h
  refine foldlM_inv hD h1 (C := fun P' => P'.Feasible (value k Z D I N) ∧ P'.objective = P.objective) _ ?_ h ⟨hP, rfl⟩
  intro t ht P1 P1' h2 hC1
  obtain ⟨x, hx, rfl⟩ := (mem_higherTasks hp).1 ht
  refine foldlM_inv hD h1 (C := fun P' => P'.Feasible (value k Z D I N) ∧ P'.objective = P.objective) _ ?_ h2 hC1
  intro q _ P2 P2' h3 hC2
  refine foldlM_inv hD h1 (C := fun P' => P'.Feasible (value k Z D I N) ∧ P'.objective = P.objective) _ ?_ h3 hC2
  intro r hr P3 P3' h4 hC3
  obtain ⟨hr, hrq⟩ := List.mem_filter.1 hr
  have hrq : r.resId = q := by simpa using hrq
  obtain ⟨w, hw, rfl⟩ := Option.map_eq_some_iff.1 h4
  by_cases hw1 : w = Msrp.uintMax
  · rw [if_neg (not_not.2 hw1)]
    exact hC3
  rw [if_pos hw1]
  refine ⟨feasible_addInequality hC3.1 ?_, by rw [objective_addInequality]; exact hC3.2⟩
  unfold higherDirect at hw
  obtain ⟨W, hW, rfl⟩ := Option.map_eq_some_iff.1 hw
  by_cases hW1 : W = Msrp.uintMax
  · rw [if_pos hW1] at hw1
    exact absurd rfl hw1
  rw [if_neg hW1]
  rw [direct_terms, one_mul]
  refine (hD.counted h1 (f := D) (fun z => Nat.le_add_right _ _) hr).trans ?_
  rw [← hrq] at hW ⊢
  exact_mod_cast hc x hx r hr W hW hW1

end

/-! ### Counting requests -/

/-- The requests of a job for a resource. -/
theorem own_requests (h : SuspendRun m (system info) R) (h1 : OneEntry info) {q r : ℕ}
    {F : Finset (Section info.length)}
    (hF : ∀ s ∈ F, s.job = (k, q) ∧ R.issued s ∧ (system info).For s r) : F.card ≤ numRequests (info.get k) r := by
  rcases eq_empty_or_nonempty F with he | ⟨s0, hs0⟩
  · rw [he]
    simp
  obtain ⟨hj0, hi0, hf0⟩ := hF s0 hs0
  obtain ⟨b, hb, hbq, _⟩ := waits_request h.toRequestRun hi0 hf0
  rw [hj0] at hb
  have e0 := numRequests_eq h1 (List.mem_of_getElem? hb)
  rw [hbq] at e0
  rw [e0, ← card_range b.num]
  have hidx : ∀ s ∈ F, s.idx = s0.idx ∧ s.inst < b.num := by
    intro s hs
    obtain ⟨hj, hi, hf⟩ := hF s hs
    obtain ⟨c, hc, hcq, hlt⟩ := waits_request h.toRequestRun hi hf
    rw [hj] at hc
    obtain ⟨e1, e2⟩ := h1.eq hc hb (hcq.trans hbq.symm)
    subst e2
    exact ⟨e1, hlt⟩
  refine card_le_card_of_injOn (fun s => s.inst) (fun s hs => mem_coe.2 (mem_range.2 (hidx s (mem_coe.1 hs)).2)) ?_
  intro s hs s' hs' e
  have hj := (hF s hs).1.trans (hF s' hs').1.symm
  have hi := (hidx s hs).1.trans (hidx s' hs').1.symm
  cases s
  cases s'
  simp only at hj hi e
  rw [hj, hi, e]

/-- Constraint 9. -/
theorem prio_lower_count (h : SuspendRun m (system info) R) (h1 : OneEntry info) (hq : PriorityQueues (system info) R)
    {q : ℕ} {X : Finset ℕ} (r : ℕ) :
    ((allSections k R X).filter (fun z => k < z.job.1 ∧ resOf z = r ∧
      0 < directSlots (lostDirect info R k q) (waitsFor R k q) z)).card ≤ numRequests (info.get k) r := by
  classical
  have key : ∀ z ∈ (allSections k R X).filter (fun z => k < z.job.1 ∧ resOf z = r ∧
      0 < directSlots (lostDirect info R k q) (waitsFor R k q) z), ∃ s, (s.job = (k, q) ∧ R.issued s ∧
        (system info).For s r) ∧ (system info).For z r ∧ R.Owns z (R.enter s) := by
    intro z hz
    obtain ⟨_, hlt, hres, hpos⟩ := mem_filter.1 hz
    obtain ⟨t, ht⟩ := card_pos.1 hpos
    obtain ⟨ht', rfl⟩ := mem_filter.1 ht
    obtain ⟨s, r', hw, hsj, hf, ho, hf', _⟩ := waitsFor_spec ht'
    have e : r' = r := by rw [← hres, resOf_for hf']
    subst e
    exact ⟨s, ⟨hsj, hw.1, hf⟩, hf', prio_early hq hw ho hf hf' (by rw [hsj]; exact hlt)⟩
  set F := (allSections k R X).filter (fun z => k < z.job.1 ∧ resOf z = r ∧
      0 < directSlots (lostDirect info R k q) (waitsFor R k q) z) with hF
  haveI : Nonempty (Section info.length) := ⟨⟨(k, 0), 0, 0⟩⟩
  choose! f hf using key
  rw [← card_image_of_injOn (f := f) (s := F)]
  · refine own_requests (q := q) h h1 ?_
    intro s hs
    obtain ⟨z, hz, rfl⟩ := mem_image.1 hs
    exact (hf z hz).1
  · intro z hz z' hz' e
    have h2 := (hf z' hz').2.2
    rw [← e] at h2
    exact h.exclusive z z' r _ (hf z hz).2.2 h2 (hf z hz).2.1 (hf z' hz').2.1

/-- Constraint 12. -/
theorem pip_indirect_count (h : InheritLocks m (system info) R) (hg : Good info) (hq : PriorityQueues (system info) R)
    {q : ℕ} (hl : Late info R k q) {X : Finset ℕ} (r : ℕ) :
    ((allSections k R X).filter (fun z => k < z.job.1 ∧ resOf z = r ∧
      0 < indirectSlots (lostFull info R k q) (Inherits R k) z)).card ≤ higherRequests info (info.get k) r := by
  classical
  have key : ∀ z ∈ (allSections k R X).filter (fun z => k < z.job.1 ∧ resOf z = r ∧
      0 < indirectSlots (lostFull info R k q) (Inherits R k) z), ∃ s, (R.issued s ∧ s.job.1 < k ∧
        (system info).For s r ∧ ∃ u, R.work.release (k, q) ≤ u ∧ u < R.work.release (k, q) +
          (info.get k).response ∧ R.enter s ≤ u ∧ u < R.leave s) ∧ (system info).For z r ∧
        R.Owns z (R.enter s) := by
    intro z hz
    obtain ⟨_, hlt, hres, hpos⟩ := mem_filter.1 hz
    obtain ⟨t, ht⟩ := card_pos.1 hpos
    obtain ⟨ht', _, ho, _, s, r', hw, hf, hf', hlt'⟩ := mem_filter.1 ht
    have e : r' = r := by rw [← hres, resOf_for hf']
    subst e
    have hlost := (mem_lost.1 (mem_filter.1 ht').1).1
    exact ⟨s, ⟨hw.1, hlt', hf, t, hlost.1, hlost.2, (h.waits_active hw).1, (h.waits_active hw).2⟩, hf',
      prio_early hq hw ho hf hf' (hlt'.trans hlt)⟩
  set F := (allSections k R X).filter (fun z => k < z.job.1 ∧ resOf z = r ∧
      0 < indirectSlots (lostFull info R k q) (Inherits R k) z) with hF
  haveI : Nonempty (Section info.length) := ⟨⟨(k, 0), 0, 0⟩⟩
  choose! f hf using key
  rw [← card_image_of_injOn (f := f) (s := F)]
  · refine higher_count h.toRequestRun hg hl.before ?_
    intro s hs
    obtain ⟨z, hz, rfl⟩ := mem_image.1 hs
    exact (hf z hz).1
  · intro z hz z' hz' e
    have h2 := (hf z' hz').2.2
    rw [← e] at h2
    exact h.exclusive z z' r _ (hf z hz).2.2 h2 (hf z hz).2.1 (hf z' hz').2.1

/-- Constraint 10. -/
theorem prio_higher_count (h : SuspendRun m (system info) R) (hg : Good info) (hq : PriorityQueues (system info) R)
    {q : ℕ} (hl : Late info R k q) {hold : ℕ × TaskInfo → ℕ → Option ℕ} {fuel W : ℕ} {X : Finset ℕ}
    {x : Fin info.length} {a : Request} (ha : a ∈ (info.get x).requests) (hword : (info.get k).deadline < 2 ^ 32)
    (hhold : ∀ s z, R.issued s → s.job.1 = k → (system info).For s a.resId → R.issued z → (system info).For z a.resId →
      ∀ H, hold ((z.job.1 : ℕ), info.get z.job.1) a.resId = some H → H ≠ Msrp.uintMax →
        (heldSlots R (R.work.release (k, q) + (info.get k).response) s z).card ≤ H)
    (hW : waitTime info (info.get k) fuel hold a.resId = some W) (hne : W ≠ Msrp.uintMax) :
    ((bucket (allSections k R X) x a.resId).filter
      (fun z => 0 < directSlots (lostDirect info R k q) (waitsFor R k q) z)).card ≤
      (info.get x).maxNumJobs W * numRequests (info.get x) a.resId * numRequests (info.get k) a.resId := by
  classical
  set E := R.work.release (k, q) + (info.get k).response with hE
  have key : ∀ z ∈ (bucket (allSections k R X) x a.resId).filter
      (fun z => 0 < directSlots (lostDirect info R k q) (waitsFor R k q) z), ∃ s, (s.job = (k, q) ∧ R.issued s ∧
        (system info).For s a.resId) ∧ R.issued z ∧ z.job.1 = x ∧ (system info).For z a.resId ∧ ∃ u, R.enter s ≤ u ∧
          u < R.enter s + W ∧ u < E ∧ R.enter z ≤ u ∧ u < R.leave z := by
    intro z hz
    obtain ⟨hz, hpos⟩ := mem_filter.1 hz
    obtain ⟨_, hx, hres⟩ := mem_filter.1 hz
    obtain ⟨t, ht⟩ := card_pos.1 hpos
    obtain ⟨ht', rfl⟩ := mem_filter.1 ht
    obtain ⟨s, r, hw, hsj, hf, ho, hf', _⟩ := waitsFor_spec ht'
    have e : r = a.resId := by rw [← hres, resOf_for hf']
    subst e
    have hlost := (mem_lost.1 (mem_filter.1 ht').1).1
    have hsk : s.job.1 = k := by rw [hsj]
    have hlt := wait_lt h hg hq hl.before hw.1 hsk hf hword
      (fun z hz hfz H => hhold s z hw.1 hsk hf hz hfz H) hW hne
    have h2 := hw.2.2
    have h3 := hlost.2
    exact ⟨s, ⟨hsj, hw.1, hf⟩, ho.1, Fin.ext hx, hf', t, hw.2.1, by omega, hlost.2, (h.owns_active ho).1,
      (h.owns_active ho).2⟩
  set F := (bucket (allSections k R X) x a.resId).filter
      (fun z => 0 < directSlots (lostDirect info R k q) (waitsFor R k q) z) with hF
  haveI : Nonempty (Section info.length) := ⟨⟨(k, 0), 0, 0⟩⟩
  choose! f hf using key
  refine (card_le_mul_card_image (f := f) F ((info.get x).maxNumJobs W * numRequests (info.get x) a.resId) ?_).trans
    (Nat.mul_le_mul_left _ (own_requests (q := q) h hg.entry ?_))
  · intro s hs
    rw [numRequests_eq hg.entry ha]
    obtain ⟨d, hd, hda⟩ := List.getElem_of_mem ha
    have ha' : (info.get x).requests[d]? = some a := by rw [List.getElem?_eq_getElem hd, hda]
    refine (h.requests_le hl.before (i := x) (hg.period _ (List.get_mem info x)) (lock_req' ha')
      (show min E (R.enter s + W) ≤ E from min_le_left _ _) (lo := R.enter s) ?_).trans ?_
    · intro z hz
      obtain ⟨hz', rfl⟩ := mem_filter.1 hz
      obtain ⟨_, h2, h3, h4, u, h5, h6, h7, h8, h9⟩ := hf z hz'
      obtain ⟨b, hb', hbq, _⟩ := waits_request h.toRequestRun h2 h4
      rw [h3] at hb'
      exact ⟨h2, h3, (hg.entry.eq hb' ha' hbq).1, u, h5, lt_min h7 h6, h8, h9⟩
    · apply Nat.mul_le_mul_right
      unfold TaskInfo.maxNumJobs
      rw [Native.divideWithCeil_eq _ (hg.period _ (List.get_mem info x))]
      apply Nat.div_le_div_right
      have : min E (R.enter s + W) - R.enter s ≤ W := by omega
      simp only [system]
      omega
  · intro s hs
    obtain ⟨z, hz, rfl⟩ := mem_image.1 hs
    exact (hf z hz).1

end Verif.SR.Lp.Glob
