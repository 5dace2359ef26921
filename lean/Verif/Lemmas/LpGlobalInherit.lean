/-
Priority inheritance in the LPs for global scheduling.
-/
import Verif.Lemmas.LpGlobalProto

namespace Verif.Spec

variable {n m : ℕ} {S : LockSystem n} {R : LockRun n}

/-- If a job does not execute, and nor does the owner of what it waits for, all processors serve higher priorities. -/
theorem InheritLocks.cases (h : InheritLocks m S R) {j : Job n} {t : ℕ} (hr : Ready R.work R.sched j t)
    (hn : j ∉ R.sched t) (hno : ∀ s s' r, R.Waits s t → s.job = j → R.Owns s' t → S.For s r → S.For s' r →
      s'.job ∉ R.sched t) :
    (R.sched t).card = m ∧ ∀ j' ∈ R.sched t, ∃ a < j.1, R.ActsFor S j' a t ∧
      ∀ s s' r, R.Waits s t → s.job = j → R.Owns s' t → S.For s r → S.For s' r → a < s'.job.1 := by
  -- nobody executes with the priority of `j`
  have key : ∀ j, Ready R.work R.sched j t → j ∉ R.sched t → (∀ s s' r, R.Waits s t → s.job = j → R.Owns s' t →
      S.For s r → S.For s' r → s'.job ∉ R.sched t) → ∀ j' ∈ R.sched t, ∀ a, R.ActsFor S j' a t → a ≤ j.1 →
      a < j.1 := by
    intro j hr hn hno j' hj' a ha hle
    refine lt_of_le_of_ne hle ?_
    rintro rfl
    rcases ha with ha | ⟨s, s1, r, hw, ho, hf, hf1, ha, hsj⟩
    · exact hn (ready_eq (h.valid.ready t j' hj') hr ha ▸ hj')
    · have e := ready_eq (h.waits_ready hw) hr ha
      exact hno s s1 r hw e ho hf hf1 (hsj ▸ hj')
  by_cases hwt : ∃ s, R.Waits s t ∧ s.job = j
  · obtain ⟨s, hw, hsj⟩ := hwt
    obtain ⟨q, hq, -⟩ := h.declared s hw.1
    have hf : S.For s q.res := ⟨q, hq, rfl⟩
    obtain ⟨s', ho, hf'⟩ := h.owned s _ t hw hf
    have hex : s'.job ∉ R.sched t := hno s s' _ hw hsj ho hf hf'
    obtain ⟨h1, h2⟩ := h.dispatch t s'.job (h.owns_ready ho) hex
      (fun s2 hw2 => h.owns_not_waits ho hw2)
    refine ⟨h1, fun j' hj' => ?_⟩
    obtain ⟨a, ha, hle⟩ := h2 j' hj'
    refine ⟨a, key j hr hn hno j' hj' a ha (hle j.1 (Or.inr ⟨s, s', _, hw, ho, hf, hf', by rw [hsj], rfl⟩)), ha, ?_⟩
    intro s2 s2' r2 hw2 hsj2 ho2 hf2 hf2'
    have e := h.waits_unique hw hw2 (hsj.trans hsj2.symm)
    subst e
    have hr2 := hf.unique hf2
    subst hr2
    rw [← h.exclusive s' s2' _ t ho ho2 hf' hf2']
    exact key s'.job (h.owns_ready ho) hex (fun s3 _ _ hw3 e3 => absurd e3 (h.owns_not_waits ho hw3)) j' hj' a ha
      (hle s'.job.1 (Or.inl rfl))
  · push Not at hwt
    obtain ⟨h1, h2⟩ := h.dispatch t j hr hn hwt
    refine ⟨h1, fun j' hj' => ?_⟩
    obtain ⟨a, ha, hle⟩ := h2 j' hj'
    exact ⟨a, key j hr hn hno j' hj' a ha (hle j.1 (Or.inl rfl)), ha,
      fun s _ _ hw hsj => absurd hsj (hwt s hw)⟩

end Verif.Spec

namespace Verif.SR.Lp.Glob
open Verif.Spec Finset
open Verif.SR.Msrp (system)
open Verif.SR.Fmlp (totalNumRequests)

variable {info : Info} {k : Fin info.length} {m : ℕ} {R : LockRun info.length}

/-- Section `z` of a lower-priority task executes with the priority of a task that has a higher priority than `k`. -/
def Inherits (R : LockRun info.length) (k : Fin info.length) (t : ℕ) (z : Section info.length) : Prop :=
  k < z.job.1 ∧ R.Owns z t ∧ z.job ∈ R.sched t ∧
    ∃ s r, R.Waits s t ∧ (system info).For s r ∧ (system info).For z r ∧ s.job.1 < k

/-- Why a job does not execute with priority inheritance. -/
theorem inherit_cases (h : InheritLocks m (system info) R) {q t : ℕ} (hl : Late info R k q)
    (ht : t ∈ lostFull info R k q) :
    (R.sched t).card = m ∧ ∀ j ∈ R.sched t, ∃ a < k, R.ActsFor (system info) j a t := by
  classical
  obtain ⟨ht, hno⟩ := mem_filter.1 ht
  obtain ⟨h1, h2⟩ := h.cases (hl.ready ht) (mem_lost.1 ht).2 (fun s s' r hw hsj ho hf hf' hx =>
    hno ⟨s', s, r, hw, hsj, hf, ho, hf', hx⟩)
  exact ⟨h1, fun j hj => by obtain ⟨a, ha, hact, _⟩ := h2 j hj; exact ⟨a, ha, hact⟩⟩

theorem inherit_low (h : InheritLocks m (system info) R) {q t : ℕ} (hl : Late info R k q)
    (ht : t ∈ lostFull info R k q) {j : Job info.length} (hj : j ∈ R.sched t) (hlt : k < j.1) :
    ∃ z, z.job.1 = j.1 ∧ Inherits R k t z := by
  obtain ⟨a, ha, hact⟩ := (inherit_cases h hl ht).2 j hj
  rcases hact with hact | ⟨s, z, r, hw, ho, hf, hf', hsa, hzj⟩
  · exact absurd hlt (by rw [hact]; exact not_lt.2 ha.le)
  · exact ⟨z, by rw [hzj], by rw [hzj]; exact hlt, ho, by rw [hzj]; exact hj, s, r, hw, hf, hf', by rw [hsa]; exact ha⟩

theorem inherit_split (h : InheritLocks m (system info) R) {q : ℕ} (hl : Late info R k q) :
    Split info k m R (lostDirect info R k q) (lostFull info R k q) (waitsFor R k q) (Inherits R k) :=
  hl.split h.toSuspendRun _ (fun _ ht => (inherit_cases h hl ht).1) (fun _ _ _ hi => ⟨hi.2.1, hi.2.2.1, hi.1⟩)
    (fun _ ht _ hj hlt => Or.inl (inherit_low h hl ht hj hlt))

theorem inherit_plain (h : InheritLocks m (system info) R) {q : ℕ} (hl : Late info R k q) {x : Fin info.length}
    (hx : k < x) : plainSlots R (lostFull info R k q) (Inherits R k) x = 0 := by
  classical
  unfold plainSlots
  rw [card_eq_zero, filter_eq_empty_iff]
  rintro t ht ⟨⟨p, hp⟩, hno⟩
  exact hno (inherit_low h hl ht hp hx)

/-- The `m` highest priorities are delayed only directly. -/
theorem inherit_high (h : InheritLocks m (system info) R) {q : ℕ} (hl : Late info R k q) (hk : (k : ℕ) < m) :
    lostFull info R k q = ∅ := by
  apply eq_empty_of_forall_notMem
  intro t ht
  obtain ⟨h1, h2⟩ := inherit_cases h hl ht
  exact h.not_full hk h1 h2

/-! ### Requests of higher-priority tasks -/

theorem higher_sum (hp : ∀ x : Fin info.length, (info.get x).priority = x) {M : Type} [AddCommMonoid M]
    (g : ℕ × TaskInfo → M) : ((higherTasks info (info.get k)).map g).sum =
      ∑ x ∈ univ.filter (fun x : Fin info.length => x < k), g (x, info.get x) := by
  unfold higherTasks
  rw [tasks_sum (info := info) (fun t => t.2.priority < (info.get k).priority) g]
  apply sum_congr _ (fun _ _ => rfl)
  ext x
  simp only [mem_filter, hp, Fin.lt_def]

theorem lower_sum (hp : ∀ x : Fin info.length, (info.get x).priority = x) {M : Type} [AddCommMonoid M]
    (g : ℕ × TaskInfo → M) : ((lowerTasks info (info.get k)).map g).sum =
      ∑ x ∈ univ.filter (fun x : Fin info.length => k < x), g (x, info.get x) := by
  unfold lowerTasks
  rw [tasks_sum (info := info) (fun t => t.2.priority > (info.get k).priority) g]
  apply sum_congr _ (fun _ _ => rfl)
  ext x
  simp only [mem_filter, hp, Fin.lt_def, gt_iff_lt]

/-- Requests of higher-priority tasks for a resource in an interval as long as the response time. -/
theorem higher_count (h : RequestRun m (system info) R) (hg : Good info) {r : ℕ}
    (hb : BoundedBefore R.work R.sched (fun i => (info.get i).response) (r + (info.get k).response)) {q : ℕ}
    {F : Finset (Section info.length)}
    (hF : ∀ s ∈ F, R.issued s ∧ s.job.1 < k ∧ (system info).For s q ∧
      ∃ u, r ≤ u ∧ u < r + (info.get k).response ∧ R.enter s ≤ u ∧ u < R.leave s) :
    F.card ≤ higherRequests info (info.get k) q := by
  classical
  have hsum : higherRequests info (info.get k) q = ∑ x ∈ univ.filter (fun x : Fin info.length => x < k),
      (((info.get x).requests.filter (fun a => a.resId = q)).map
        (fun a => instances (info.get k) (info.get x) a)).sum := by
    unfold higherRequests
    rw [higher_sum hg.prio]
  rw [hsum, card_eq_sum_card_fiberwise (f := fun s => s.job.1) (t := univ.filter (fun x : Fin info.length => x < k))]
  · apply sum_le_sum
    intro x hx
    rcases eq_empty_or_nonempty (F.filter (fun s => s.job.1 = x)) with he | ⟨s0, hs0⟩
    · rw [he]
      simp
    · obtain ⟨hs0, hx0⟩ := mem_filter.1 hs0
      obtain ⟨hi0, _, hf0, _⟩ := hF s0 hs0
      obtain ⟨a, ha, haq, _⟩ := waits_request h hi0 hf0
      rw [hx0] at ha
      have h2 : (F.filter (fun s => s.job.1 = x)).card ≤ instances (info.get k) (info.get x) a := by
        refine sections_le_instances h hb hg.period (fun _ => le_rfl) (k := k) ha le_rfl (lo := r) (by omega) ?_
        intro s hs
        obtain ⟨hs, hxs⟩ := mem_filter.1 hs
        obtain ⟨hi, _, hf, hu⟩ := hF s hs
        obtain ⟨b, hb', hbq, _⟩ := waits_request h hi hf
        rw [hxs] at hb'
        exact ⟨hi, hxs, (hg.entry.eq hb' ha (hbq.trans haq.symm)).1, hu⟩
      refine h2.trans ?_
      apply List.single_le_sum (by simp)
      exact List.mem_map.2 ⟨a, List.mem_filter.2 ⟨List.mem_of_getElem? ha, by simpa using haq⟩, rfl⟩
  · intro s hs
    exact mem_coe.2 (mem_filter.2 ⟨mem_univ _, (hF s (mem_coe.1 hs)).2.1⟩)

/-- Constraint 13. -/
theorem fmlp_indirect_count (h : InheritLocks m (system info) R) (hg : Good info) (hq : FifoQueues (system info) R)
    {q : ℕ} (hl : Late info R k q) {x : Fin info.length} {a : Request} {X : Finset ℕ} :
    ((bucket (allSections k R X) x a.resId).filter
      (fun z => 0 < indirectSlots (lostFull info R k q) (Inherits R k) z)).card ≤
      higherRequests info (info.get k) a.resId := by
  classical
  have key : ∀ z ∈ (bucket (allSections k R X) x a.resId).filter
      (fun z => 0 < indirectSlots (lostFull info R k q) (Inherits R k) z), ∃ s, (R.issued s ∧ s.job.1 < k ∧
        (system info).For s a.resId ∧ ∃ u, R.work.release (k, q) ≤ u ∧ u < R.work.release (k, q) +
          (info.get k).response ∧ R.enter s ≤ u ∧ u < R.leave s) ∧
        R.issued z ∧ z.job.1 = x ∧ R.enter z ≤ R.enter s ∧ R.enter s < R.leave z := by
    intro z hz
    obtain ⟨hz, hpos⟩ := mem_filter.1 hz
    obtain ⟨_, hx, hres⟩ := mem_filter.1 hz
    obtain ⟨t, ht⟩ := card_pos.1 hpos
    obtain ⟨ht', _, ho, _, s, r, hw, hf, hf', hlt⟩ := mem_filter.1 ht
    have e : r = a.resId := by rw [← hres, resOf_for hf']
    subst e
    have hlost := (mem_lost.1 (mem_filter.1 ht').1).1
    exact ⟨s, ⟨hw.1, hlt, hf, t, hlost.1, hlost.2, (h.waits_active hw).1, (h.waits_active hw).2⟩, ho.1, Fin.ext hx,
      hq s _ _ t hw ho hf hf', lt_of_le_of_lt hw.2.1 ho.2.2⟩
  choose! f hf using key
  set B := (bucket (allSections k R X) x a.resId).filter
      (fun z => 0 < indirectSlots (lostFull info R k q) (Inherits R k) z) with hB
  refine (h.card_le_instants (i := x) (I := (B.image f).image R.enter) ?_).trans (card_image_le.trans
    (higher_count h.toRequestRun hg hl.before ?_))
  · intro z hz
    obtain ⟨_, h2, h3, h4, h5⟩ := hf z hz
    exact ⟨h2, h3, R.enter (f z), mem_image_of_mem _ (mem_image_of_mem _ hz), h4, h5⟩
  · intro s hs
    obtain ⟨z, hz, rfl⟩ := mem_image.1 hs
    exact (hf z hz).1

section
variable {Z : Finset (Section info.length)} {D I : Section info.length → ℕ} {N : Fin info.length → ℕ} {Y : ℕ}

theorem noCoBoostingConstraint_feasible {P : Program} (hP : P.Feasible (value k Z D I N)) :
    (noCoBoostingConstraint info (info.get k) P).Feasible (value k Z D I N) := by
  apply feasible_addInequality hP
  apply le_of_eq
  apply termSum_zero
  intro t ht
  obtain ⟨a, _, rfl⟩ := List.mem_map.1 ht
  rfl

theorem inheritNoStallingConstraint_feasible (hp : ∀ x : Fin info.length, (info.get x).priority = x)
    (hN : ∀ x : Fin info.length, k < x → N x = 0) {P : Program} (hP : P.Feasible (value k Z D I N)) :
    (inheritNoStallingConstraint info (info.get k) P).Feasible (value k Z D I N) := by
  apply feasible_addInequality hP
  apply le_of_eq
  apply termSum_zero
  intro t ht
  obtain ⟨a, ha, rfl⟩ := List.mem_map.1 ht
  obtain ⟨x, hx, rfl⟩ := (mem_lowerTasks hp).1 ha
  simp only
  rw [value_stalling, hN x hx, Nat.cast_zero]

theorem mHighestConstraint_feasible (hN : (k : ℕ) < m → ∀ x, N x = 0) (hI : (k : ℕ) < m → ∀ z, I z = 0)
    {P : Program} (hP : P.Feasible (value k Z D I N)) :
    (mHighestConstraint info k (info.get k) m P).Feasible (value k Z D I N) := by
  unfold mHighestConstraint
  split_ifs with hk
  · apply feasible_addInequality hP
    apply le_of_eq
    rw [termSum_flatMap]
    apply List.sum_eq_zero
    intro a ha
    obtain ⟨t, ht, rfl⟩ := List.mem_map.1 ha
    obtain ⟨x, _, rfl⟩ := mem_others.1 ht
    rw [termSum_append]
    have e1 : termSum (value k Z D I N) (if (x : ℕ) < k then [((1 : ℚ), Var.intf .regular (x : ℕ))] else []) = 0 := by
      split_ifs
      · rw [termSum_cons, termSum_nil, value_regular, hN hk]
        simp
      · rfl
    rw [e1, zero_add]
    split_ifs
    · rw [termSum_append, termSum_cons, termSum_cons, termSum_nil, value_coBoosting, value_stalling, hN hk,
        termSum_flatMap]
      rw [List.sum_eq_zero]
      · simp
      · intro a ha
        obtain ⟨r, _, rfl⟩ := List.mem_map.1 ha
        rw [termSum_append, indirect_terms, preempt_terms, share_zero (hI hk)]
        ring
    · rfl
  · exact hP

variable (hD : Delay info k m Z D I N Y) (h1 : OneEntry info)
include hD h1

theorem Delay.fmlpIndirectConstraints (hp : ∀ x : Fin info.length, (info.get x).priority = x)
    (hc : ∀ (x : Fin info.length), ∀ a ∈ (info.get x).requests,
      ((bucket Z x a.resId).filter (fun z => 0 < I z)).card ≤ higherRequests info (info.get k) a.resId)
    {P : Program} (hP : P.Feasible (value k Z D I N)) :
    (fmlpIndirectConstraints info (info.get k) P).Feasible (value k Z D I N) := by
  apply feasible_foldl _ hP
  intro q _ P hP
  apply feasible_foldl _ hP
  intro t ht P hP
  apply feasible_foldl _ hP
  intro r hr P hP
  apply feasible_addInequality hP
  obtain ⟨x, _, rfl⟩ := (mem_lowerTasks hp).1 ht
  obtain ⟨hr, hrq⟩ := List.mem_filter.1 hr
  have hrq : r.resId = q := by simpa using hrq
  rw [termSum_append, indirect_terms, preempt_terms, add_zero, one_mul]
  refine (hD.counted h1 (f := I) (fun z => Nat.le_add_left _ _) hr).trans ?_
  rw [← hrq]
  exact_mod_cast hc x r hr

end

end Verif.SR.Lp.Glob
