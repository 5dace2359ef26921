/-
Suspension-oblivious blocking under the OMIP, for one cluster.
-/
import Verif.Model.LpOmip
import Verif.Spec.Omip
import Verif.Lemmas.LpGlobalInherit
import Verif.Lemmas.LpSem

namespace Verif.Spec
open Finset

variable {n m : ℕ} {S : LockSystem n} {R : LockRun n} {queued : Section n → ℕ}

/-- A task is in one section at a time. -/
theorem RequestRun.active_unique (h : RequestRun m S R) {s s' : Section n} {t : ℕ} (hi : R.issued s)
    (hi' : R.issued s') (e : s.job.1 = s'.job.1) (h1 : R.enter s ≤ t) (h2 : t < R.leave s) (h1' : R.enter s' ≤ t)
    (h2' : t < R.leave s') : s = s' :=
  h.section_unique hi hi' (ready_eq (h.active s t hi h1 h2) (h.active s' t hi' h1' h2') e) h1 h2 h1' h2'

/-- A blocked job waits for a section that executes. -/
theorem InheritLocks.blocked (h : InheritLocks m S R) {j : Job n} {t : ℕ} (hb : ObliviousBlocked m R j t) :
    ∃ s z r, R.Waits s t ∧ s.job = j ∧ S.For s r ∧ R.Owns z t ∧ S.For z r ∧ z.job ∈ R.sched t := by
  classical
  by_contra hno
  push Not at hno
  obtain ⟨hr, hn, hlt⟩ := hb
  obtain ⟨h1, h2⟩ := h.cases hr hn (fun s s' r hw hsj ho hf hf' => hno s s' r hw hsj hf ho hf')
  have hle : m ≤ (pendingHigher R j.1 t).card := by
    rw [← h1]
    have : Nonempty (Fin n) := ⟨j.1⟩
    choose! f hf using h2
    refine card_le_card_of_injOn f ?_ ?_
    · intro j' hj'
      obtain ⟨h3, h4, _⟩ := hf j' hj'
      refine mem_coe.2 (mem_filter.2 ⟨mem_univ _, h3, ?_⟩)
      rcases h4 with h4 | ⟨s, _, _, hw, _, _, _, ha, _⟩
      · exact ⟨j'.2, by rw [← h4]; exact (h.valid.ready t j' hj').1⟩
      · exact ⟨s.job.2, by rw [← ha]; exact (h.waits_ready hw).1⟩
    · intro j' hj' j'' hj'' e
      refine h.acts_injective hj' hj'' (hf j' hj').2.1 ?_
      have := (hf j'' hj'').2.1
      rw [show f j'' = f j' from e.symm] at this
      exact this
  omega

/-- Sections in the FIFO queue are active. -/
theorem Omip.inFifo_active (h : Omip m S R queued) {r t : ℕ} {z : Section n} (hz : InFifo S R queued r z t) :
    R.enter z ≤ t ∧ t < R.leave z := ⟨(h.between z hz.1).1.trans hz.2.2.1, hz.2.2.2⟩

/-- A section that blocks a job is in the FIFO queue when the job issues the request, or when the request enters the
FIFO queue. -/
theorem Omip.blocking (h : Omip m S R queued) {j : Job n} {t : ℕ} (hb : ObliviousBlocked m R j t) {s z : Section n}
    {r : ℕ} (hw : R.Waits s t) (hsj : s.job = j) (hf : S.For s r) (ho : R.Owns z t) (hf' : S.For z r) :
    InFifo S R queued r z (R.enter s) ∧ t < queued s ∨ InFifo S R queued r z (queued s) ∧ queued s ≤ t := by
  classical
  by_cases hq : queued s ≤ t
  · right
    exact ⟨⟨ho.1, hf', h.fifo s z r t hw hq ho hf hf', lt_of_le_of_lt hq ho.2.2⟩, hq⟩
  · left
    push Not at hq
    refine ⟨⟨ho.1, hf', ?_, lt_of_le_of_lt hw.2.1 ho.2.2⟩, hq⟩
    by_contra hlt
    push Not at hlt
    obtain ⟨F, hcard, hF⟩ := h.room s r t hw.1 hf hw.2.1 hq
    have hkey : ∀ c ∈ F, c.job.1 < j.1 := by
      intro c hc
      have hc' := hF c hc
      have h1 : queued z ≤ queued c := by
        by_cases hcw : t < R.acquire c
        · exact h.fifo c z r t ⟨hc'.1, (h.inFifo_active hc').1, hcw⟩ hc'.2.2.1 ho hc'.2.1 hf'
        · have := h.exclusive c z r t ⟨hc'.1, not_lt.1 hcw, hc'.2.2.2⟩ ho hc'.2.1 hf'
          rw [this]
      have h2 := h.priority s c r hw.1 hc'.1 hf hc'.2.1 (lt_of_lt_of_le hlt h1) (lt_of_le_of_lt hc'.2.2.1 hq)
      rw [hsj] at h2
      refine lt_of_le_of_ne h2 ?_
      intro e
      have := h.active_unique hc'.1 hw.1 (by rw [hsj]; exact e) (h.inFifo_active hc').1 (h.inFifo_active hc').2
        (h.waits_active hw).1 (h.waits_active hw).2
      rw [this] at hc'
      have := hc'.2.2.1
      omega
    have hle : F.card ≤ (pendingHigher R j.1 t).card := by
      refine card_le_card_of_injOn (fun c => c.job.1) ?_ ?_
      · intro c hc
        have hc' := hF c hc
        refine mem_coe.2 (mem_filter.2 ⟨mem_univ _, hkey c hc, c.job.2, ?_⟩)
        exact (h.active c t hc'.1 (h.inFifo_active hc').1 (h.inFifo_active hc').2).1
      · intro c hc c' hc' e
        have h1 := hF c hc
        have h2 := hF c' hc'
        exact h.active_unique h1.1 h2.1 e (h.inFifo_active h1).1 (h.inFifo_active h1).2 (h.inFifo_active h2).1
          (h.inFifo_active h2).2
    have := hb.2.2
    omega

/-- If at most `m` tasks use a resource, requests enter the FIFO queue at once. -/
theorem Omip.queued_eq (h : Omip m S R queued) {s : Section n} {r : ℕ} (hi : R.issued s) (hf : S.For s r)
    {U : Finset (Fin n)} (hU : U.card ≤ m) (hin : ∀ z, S.For z r → z.job.1 ∈ U) (hlt : R.enter s < R.leave s) :
    queued s = R.enter s := by
  classical
  refine le_antisymm ?_ (h.between s hi).1
  by_contra hc
  push Not at hc
  obtain ⟨F, hcard, hF⟩ := h.room s r _ hi hf le_rfl hc
  have hns : s ∉ F := fun hs => absurd (hF s hs).2.2.1 (not_le.2 hc)
  have hle : (insert s F).card ≤ U.card := by
    refine card_le_card_of_injOn (fun c => c.job.1) ?_ ?_
    · intro c hc
      rcases mem_insert.1 (mem_coe.1 hc) with rfl | hc
      · exact mem_coe.2 (hin _ hf)
      · exact mem_coe.2 (hin _ (hF c hc).2.1)
    · have key : ∀ c ∈ insert s F, R.issued c ∧ R.enter c ≤ R.enter s ∧ R.enter s < R.leave c := by
        intro c hc
        rcases mem_insert.1 hc with rfl | hc
        · exact ⟨hi, le_rfl, hlt⟩
        · exact ⟨(hF c hc).1, h.inFifo_active (hF c hc)⟩
      intro c hc c' hc' e
      obtain ⟨a1, a2, a3⟩ := key c hc
      obtain ⟨b1, b2, b3⟩ := key c' hc'
      exact h.active_unique a1 b1 e a2 a3 b2 b3
  rw [card_insert_of_notMem hns] at hle
  omega

end Verif.Spec

namespace Verif.SR.Lp.Omip
open Verif.Spec Finset
open Verif.SR.Msrp (system)

variable {info : Info} {k : Fin info.length} {m : ℕ} {R : LockRun info.length} {queued : Section info.length → ℕ}

/-! ### The tasks that use a resource -/

open Classical in
/-- The tasks that use a resource. -/
noncomputable def users (info : Info) (q : ℕ) : Finset (Fin info.length) :=
  univ.filter (fun x => ∃ a ∈ (info.get x).requests, a.resId = q)

theorem sum_get (f : TaskInfo → ℕ) : ∑ x : Fin info.length, f (info.get x) = (info.map f).sum := by
  conv_rhs => rw [← List.ofFn_get info, List.map_ofFn, List.sum_ofFn]
  rfl

theorem length_filter (p : TaskInfo → Bool) (l : List TaskInfo) :
    (l.filter p).length = (l.map (fun t => if p t then 1 else 0)).sum := by
  induction l with
  | nil => rfl
  | cons a l ih =>
    rw [List.filter_cons, List.map_cons, List.sum_cons, ← ih]
    split_ifs
    · rw [List.length_cons]; omega
    · omega

theorem users_card (q : ℕ) :
    (users info q).card = (info.filter (fun t => t.requests.any (fun r => r.resId = q))).length := by
  classical
  rw [length_filter, ← sum_get, users, card_filter]
  apply sum_congr rfl
  intro x _
  congr 1
  rw [List.any_eq_true]
  simp

theorem accessCount_eq (h1 : OneEntry info) {c q : ℕ} (hc : ∀ t ∈ info, t.cluster = c) :
    accessCount info c q = (info.filter (fun t => t.requests.any (fun r => r.resId = q))).length := by
  classical
  have e : info.filter (fun t => t.cluster = c) = info := by
    rw [List.filter_eq_self]
    intro t ht
    simpa using hc t ht
  rw [accessCount, e, ← users_card, users, card_filter, ← sum_get]
  apply sum_congr rfl
  intro x _
  split_ifs with h
  · obtain ⟨a, ha, rfl⟩ := h
    rw [h1.filter ha]
    rfl
  · rw [List.length_eq_zero_iff, List.filter_eq_nil_iff]
    intro a ha hq
    exact h ⟨a, ha, by simpa using hq⟩

/-! ### The slots in which a job is blocked -/

open Classical in
/-- The slots in which a job is blocked. -/
noncomputable def blockedSlots (m : ℕ) (R : LockRun info.length) (j : Job info.length) (N : ℕ) : Finset ℕ :=
  (range N).filter (ObliviousBlocked m R j)

theorem mem_blockedSlots {j : Job info.length} {N u : ℕ} :
    u ∈ blockedSlots m R j N ↔ u < N ∧ ObliviousBlocked m R j u := by
  classical
  unfold blockedSlots
  rw [mem_filter, mem_range]

open Classical in
/-- The requests of a job for a resource. -/
noncomputable def requestsFor (info : Info) (R : LockRun info.length) (j : Job info.length) (q : ℕ) :
    Finset (Section info.length) :=
  ((range (info.get j.1).requests.length ×ˢ range (numRequests (info.get j.1) q)).image
    (fun p => (⟨j, p.1, p.2⟩ : Section info.length))).filter (fun s => R.issued s ∧ (system info).For s q)

theorem mem_requestsFor (h : RequestRun m (system info) R) (h1 : OneEntry info) {j : Job info.length} {q : ℕ}
    {s : Section info.length} : s ∈ requestsFor info R j q ↔ s.job = j ∧ R.issued s ∧ (system info).For s q := by
  classical
  unfold requestsFor
  rw [mem_filter, mem_image]
  constructor
  · rintro ⟨⟨p, _, rfl⟩, h2⟩
    exact ⟨rfl, h2⟩
  · rintro ⟨rfl, h2, h3⟩
    obtain ⟨a, ha, hq, hi⟩ := Glob.waits_request h h2 h3
    refine ⟨⟨(s.idx, s.inst), mem_product.2 ⟨mem_range.2 (List.getElem?_eq_some_iff.1 ha).1, ?_⟩, rfl⟩, h2, h3⟩
    rw [← hq, Glob.numRequests_eq h1 (List.mem_of_getElem? ha)]
    exact mem_range.2 hi

theorem requestsFor_card (h : RequestRun m (system info) R) (h1 : OneEntry info) (j : Job info.length) (q : ℕ) :
    (requestsFor info R j q).card ≤ numRequests (info.get j.1) q := by
  classical
  rw [← card_range (numRequests (info.get j.1) q)]
  refine card_le_card_of_injOn (fun s => s.inst) ?_ ?_
  · intro s hs
    obtain ⟨rfl, h2, h3⟩ := (mem_requestsFor h h1).1 hs
    obtain ⟨a, ha, hq, hi⟩ := Glob.waits_request h h2 h3
    rw [← hq, Glob.numRequests_eq h1 (List.mem_of_getElem? ha)]
    exact mem_coe.2 (mem_range.2 hi)
  · intro s hs s' hs' e
    obtain ⟨e1, h2, h3⟩ := (mem_requestsFor h h1).1 hs
    obtain ⟨e1', h2', h3'⟩ := (mem_requestsFor h h1).1 hs'
    obtain ⟨a, ha, hq, _⟩ := Glob.waits_request h h2 h3
    obtain ⟨b, hb, hq', _⟩ := Glob.waits_request h h2' h3'
    rw [e1] at ha
    rw [e1'] at hb
    have := (h1.eq ha hb (hq.trans hq'.symm)).1
    cases s; cases s'
    simp_all

variable {q : ℕ}

/-- What is known about a slot in which a job is blocked. -/
theorem blocked_spec (h : Omip m (system info) R queued) {N u : ℕ} (hu : u ∈ blockedSlots m R (k, q) N) :
    Glob.DirectBy R (k, q) u (Glob.waitsFor R k q u) := by
  classical
  have h1 : ∃ z, Glob.DirectBy R (k, q) u z := by
    obtain ⟨s, z, r, h2⟩ := h.toInheritLocks.blocked (mem_blockedSlots.1 hu).2
    exact ⟨z, s, r, h2⟩
  unfold Glob.waitsFor
  rw [dif_pos h1]
  exact h1.choose_spec

/-- The blocking sections are those of a charge. -/
theorem charge (h : Omip m (system info) R queued) (hT : ∀ t ∈ info, 0 < t.period)
    (hb : ∀ j : Job info.length, Completed R.work R.sched j (R.work.release j + (info.get j.1).response)) (N : ℕ) :
    Charge info k (blockedSlots m R (k, q) N) (Glob.waitsFor R k q) := by
  refine charge_of_owns (lo := R.work.release (k, q)) (hi := R.work.release (k, q) + (info.get k).response)
    (H := R.work.release (k, q) + (info.get k).response)
    (W := fun i => (info.get i).response) h.toRequestRun (fun j _ => hb j) hT (fun _ => le_rfl) le_rfl (by omega)
    ?_ ?_
  · intro u hu
    have hr := (mem_blockedSlots.1 hu).2.1
    refine ⟨hr.1.1, ?_⟩
    by_contra hc
    exact hr.1.2 ((hb (k, q)).mono (not_lt.1 hc))
  · intro u hu
    obtain ⟨s, r, hw, hsj, hf, ho, hf', hx⟩ := blocked_spec h hu
    refine ⟨ho, hx, ?_⟩
    intro e
    have := ready_eq (h.owns_ready ho) (mem_blockedSlots.1 hu).2.1 e
    exact (mem_blockedSlots.1 hu).2.2.1 (this ▸ hx)

/-- A section that blocks, the request that it blocks, and when it has been in the FIFO queue. -/
theorem blocked_section (h : Omip m (system info) R queued) (h1 : OneEntry info) {N u r : ℕ}
    (hu : u ∈ blockedSlots m R (k, q) N) (hf : (system info).For (Glob.waitsFor R k q u) r) :
    ∃ s ∈ requestsFor info R (k, q) r, R.enter s < R.leave s ∧ Glob.waitsFor R k q u ≠ s ∧
      (InFifo (system info) R queued r (Glob.waitsFor R k q u) (R.enter s) ∧ R.enter s < queued s ∨
        InFifo (system info) R queued r (Glob.waitsFor R k q u) (queued s) ∧ queued s < R.leave s) := by
  obtain ⟨s, r', hw, hsj, hf', ho, hf'', hx⟩ := blocked_spec h hu
  have e : r' = r := by
    obtain ⟨a, ha, rfl⟩ := for_iff.1 hf
    obtain ⟨b, hb, rfl⟩ := for_iff.1 hf''
    rw [ha] at hb
    cases hb
    rfl
  subst e
  have hs := h.waits_active hw
  refine ⟨s, (mem_requestsFor h.toRequestRun h1).2 ⟨hsj, hw.1, hf'⟩, by omega, ?_, ?_⟩
  · intro e
    rw [e] at hx
    exact (mem_blockedSlots.1 hu).2.2.1 (hsj ▸ hx)
  · rcases h.blocking (mem_blockedSlots.1 hu).2 hw hsj hf' ho hf'' with h2 | h2
    · exact Or.inl ⟨h2.1, by omega⟩
    · exact Or.inr ⟨h2.1, by omega⟩

open Classical in
/-- The total number of sections that block through a resource. -/
theorem total_count (hm : 0 < m) (h : Omip m (system info) R queued) (h1 : OneEntry info) {N r : ℕ} {F : Finset ℕ}
    (hF : ∀ u ∈ F, u ∈ blockedSlots m R (k, q) N ∧ (system info).For (Glob.waitsFor R k q u) r) :
    (F.image (Glob.waitsFor R k q)).card ≤ numRequests (info.get k) r * (2 * m - 1) := by
  have hsub : F.image (Glob.waitsFor R k q) ⊆ (requestsFor info R (k, q) r).biUnion (fun s =>
      (F.image (Glob.waitsFor R k q)).filter (fun z => InFifo (system info) R queued r z (R.enter s)) ∪
      (F.image (Glob.waitsFor R k q)).filter (fun z => InFifo (system info) R queued r z (queued s) ∧ z ≠ s ∧
        queued s < R.leave s)) := by
    intro z hz
    obtain ⟨u, hu, rfl⟩ := mem_image.1 hz
    obtain ⟨s, hs, h2, h3, h4⟩ := blocked_section h h1 (hF u hu).1 (hF u hu).2
    refine mem_biUnion.2 ⟨s, hs, mem_union.2 ?_⟩
    rcases h4 with h4 | h4
    · exact Or.inl (mem_filter.2 ⟨hz, h4.1⟩)
    · exact Or.inr (mem_filter.2 ⟨hz, h4.1, h3, h4.2⟩)
  refine (card_le_card hsub).trans ((card_biUnion_le_card_mul _ _ (2 * m - 1) ?_).trans
    (Nat.mul_le_mul_right _ (requestsFor_card h.toRequestRun h1 _ _)))
  intro s hs
  obtain ⟨_, hi, hf⟩ := (mem_requestsFor h.toRequestRun h1).1 hs
  refine (card_union_le _ _).trans ?_
  have hP := h.capacity r (R.enter s)
    ((F.image (Glob.waitsFor R k q)).filter (fun z => InFifo (system info) R queued r z (R.enter s)))
    (fun z hz => (mem_filter.1 hz).2)
  have hQ : ((F.image (Glob.waitsFor R k q)).filter (fun z => InFifo (system info) R queued r z (queued s) ∧ z ≠ s ∧
        queued s < R.leave s)).card ≤ m - 1 := by
    rcases eq_empty_or_nonempty ((F.image (Glob.waitsFor R k q)).filter (fun z =>
      InFifo (system info) R queued r z (queued s) ∧ z ≠ s ∧ queued s < R.leave s)) with he | ⟨z0, hz0⟩
    · rw [he]; simp
    · have := h.capacity r (queued s) (insert s ((F.image (Glob.waitsFor R k q)).filter (fun z =>
        InFifo (system info) R queued r z (queued s) ∧ z ≠ s ∧ queued s < R.leave s))) (by
          intro z hz
          rcases mem_insert.1 hz with rfl | hz
          · exact ⟨hi, hf, le_rfl, (mem_filter.1 hz0).2.2.2⟩
          · exact (mem_filter.1 hz).2.1)
      rw [card_insert_of_notMem (fun hc => (mem_filter.1 hc).2.2.1 rfl)] at this
      omega
  omega

open Classical in
/-- The number of sections of a task that block through a resource. -/
theorem task_count (h : Omip m (system info) R queued) (h1 : OneEntry info) {N r : ℕ} {x : Fin info.length}
    {F : Finset ℕ} (hF : ∀ u ∈ F, u ∈ blockedSlots m R (k, q) N ∧ (system info).For (Glob.waitsFor R k q u) r ∧
      (Glob.waitsFor R k q u).job.1 = x) :
    (F.image (Glob.waitsFor R k q)).card ≤ numRequests (info.get k) r * 2 := by
  refine (h.card_le_instants (i := x) (I := (requestsFor info R (k, q) r).image R.enter ∪
    (requestsFor info R (k, q) r).image queued) ?_).trans ?_
  · intro z hz
    obtain ⟨u, hu, rfl⟩ := mem_image.1 hz
    obtain ⟨h2, h3, h4⟩ := hF u hu
    obtain ⟨s, hs, h5, h6, h7⟩ := blocked_section h h1 h2 h3
    rcases h7 with h7 | h7
    · exact ⟨h7.1.1, h4, R.enter s, mem_union_left _ (mem_image_of_mem _ hs), h.inFifo_active h7.1⟩
    · exact ⟨h7.1.1, h4, queued s, mem_union_right _ (mem_image_of_mem _ hs), h.inFifo_active h7.1⟩
  · have h2 := requestsFor_card h.toRequestRun h1 (k, q) r
    have h3 := card_image_le (s := requestsFor info R (k, q) r) (f := R.enter)
    have h4 := card_image_le (s := requestsFor info R (k, q) r) (f := queued)
    refine (card_union_le _ _).trans ?_
    simp only at h2
    omega

open Classical in
/-- The number of sections of a task that block through a resource that few tasks use. -/
theorem task_count_few (h : Omip m (system info) R queued) (h1 : OneEntry info) {N r : ℕ} {x : Fin info.length}
    (hU : (users info r).card ≤ m)
    {F : Finset ℕ} (hF : ∀ u ∈ F, u ∈ blockedSlots m R (k, q) N ∧ (system info).For (Glob.waitsFor R k q u) r ∧
      (Glob.waitsFor R k q u).job.1 = x) :
    (F.image (Glob.waitsFor R k q)).card ≤ numRequests (info.get k) r := by
  refine (h.card_le_instants (i := x) (I := (requestsFor info R (k, q) r).image R.enter) ?_).trans
    (card_image_le.trans (requestsFor_card h.toRequestRun h1 (k, q) r))
  intro z hz
  obtain ⟨u, hu, rfl⟩ := mem_image.1 hz
  obtain ⟨h2, h3, h4⟩ := hF u hu
  obtain ⟨s, hs, h5, h6, h7⟩ := blocked_section h h1 h2 h3
  obtain ⟨_, hi, hf⟩ := (mem_requestsFor h.toRequestRun h1).1 hs
  have e := h.queued_eq hi hf hU (by
    intro z hz
    obtain ⟨a, ha, hq⟩ := for_iff.1 hz
    exact mem_filter.2 ⟨mem_univ _, a, List.mem_of_getElem? ha, hq⟩) h5
  rcases h7 with h7 | h7
  · exact ⟨h7.1.1, h4, R.enter s, mem_image_of_mem _ hs, h.inFifo_active h7.1⟩
  · refine ⟨h7.1.1, h4, R.enter s, mem_image_of_mem _ hs, ?_⟩
    rw [← e]
    exact h.inFifo_active h7.1

/-- The values of the variables. -/
noncomputable def value (m : ℕ) (R : LockRun info.length) (k : Fin info.length) (q N : ℕ) (v : Key) : ℚ :=
  share k (blockedSlots m R (k, q) N) (Glob.waitsFor R k q) (fun _ => .direct) v.ty v.task v.res

theorem objective_program (info : Info) (i : ℕ) (ti : TaskInfo) (p c : ℕ) :
    (program info i ti p c).objective = objective info i ti := by
  unfold program localConstraints remoteConstraints totalConstraints
  simp only
  rw [objective_foldl, objective_foldl, objective_foldl]
  · intro P a; exact objective_addInequality _ _ _
  · intro P a; rw [objective_foldl]; intro P a; exact objective_addInequality _ _ _
  · intro P a; rw [objective_foldl]; intro P a; exact objective_addInequality _ _ _

/-- The values satisfy the constraints. -/
theorem feasible (hm : 0 < m) (h : Omip m (system info) R queued) (h1 : OneEntry info)
    (hT : ∀ t ∈ info, 0 < t.period) {c : ℕ} (hc : ∀ t ∈ info, t.cluster = c)
    (hfew : ∀ r, (info.filter (fun t => t.requests.any (fun a => a.resId = r))).length ≤ m ∨
      2 * m < (info.filter (fun t => t.requests.any (fun a => a.resId = r))).length)
    (hb : ∀ j : Job info.length, Completed R.work R.sched j (R.work.release j + (info.get j.1).response)) (N : ℕ) :
    (program info k (info.get k) m m).Feasible (value m R k q N) := by
  classical
  have hC := charge (k := k) (q := q) h hT hb N
  have hX : ∀ x v r, value m R k q N ⟨.direct, x, v, r⟩ =
      share k (blockedSlots m R (k, q) N) (Glob.waitsFor R k q) (fun _ => .direct) .direct x r := fun _ _ _ => rfl
  unfold program
  simp only
  apply feasible_foldl
  · intro t ht P hP
    apply feasible_foldl _ hP
    intro a ha P hP
    apply feasible_addInequality hP
    obtain ⟨ht, _⟩ := List.mem_filter.1 ht
    obtain ⟨x, _, rfl⟩ := Glob.mem_others.1 ht
    have hle := hC.for_le h1 hX x a.resId
    rw [h1.filter ha, List.flatMap_singleton] at hle
    refine hle.trans (Nat.cast_le.2 ?_)
    have hslots : ∀ u ∈ slots (blockedSlots m R (k, q) N) (Glob.waitsFor R k q) (fun _ => BlockingType.direct) .direct x
        a.resId, u ∈ blockedSlots m R (k, q) N ∧ (system info).For (Glob.waitsFor R k q u) a.resId ∧
          (Glob.waitsFor R k q u).job.1 = x := by
      intro u hu
      obtain ⟨h3, h4, h5, _⟩ := mem_slots.1 hu
      exact ⟨h3, h5, Fin.ext h4⟩
    rw [accessCount_eq h1 (c := (info.get k).cluster)
      (fun t ht => (hc t ht).trans (hc _ (List.get_mem info k)).symm)]
    split_ifs with hlt
    · exact task_count h h1 hslots
    · refine task_count_few h h1 ?_ hslots
      rw [users_card]
      exact (hfew a.resId).resolve_right hlt
  apply feasible_foldl
  · intro d hd P hP
    obtain ⟨hd, hne⟩ := List.mem_filter.1 hd
    obtain ⟨t, ht, rfl⟩ := List.mem_map.1 (List.mem_dedup.1 hd)
    have e : t.cluster = (info.get k).cluster := (hc t ht).trans (hc _ (List.get_mem info k)).symm
    simp [e] at hne
  apply feasible_foldl
  · intro r _ P hP
    apply feasible_addInequality hP
    have hle := hC.tasks_le h1 hX (fun t => t.1 ≠ (k : ℕ)) r
    unfold resourceVars others
    refine hle.trans (Nat.cast_le.2 ?_)
    refine total_count hm h h1 ?_ (N := N)
    intro u hu
    obtain ⟨h2, _, h3, _⟩ := mem_filter.1 hu
    exact ⟨h2, h3⟩
  · exact ⟨by simp, by simp, by simp, by simp, fun v _ => ⟨share_nonneg, hC.share_le h1⟩⟩

/-- The bounds are safe. -/
theorem bounds_safe (h : Omip m (system info) R queued) (h1 : OneEntry info)
    (hT : ∀ t ∈ info, 0 < t.period) {c : ℕ} (hc : ∀ t ∈ info, t.cluster = c)
    (hfew : ∀ r, (info.filter (fun t => t.requests.any (fun a => a.resId = r))).length ≤ m ∨
      2 * m < (info.filter (fun t => t.requests.any (fun a => a.resId = r))).length)
    (hb : ∀ j : Job info.length, Completed R.work R.sched j (R.work.release j + (info.get j.1).response))
    {solve : Solver} (hs : ∀ P x, solve P = some x → P.Maximum x) {bs : List ℕ}
    (hbs : bounds solve info m m = some bs) {j : Job info.length} {b : ℕ} (hj : bs[(j.1 : ℕ)]? = some b) (N : ℕ) :
    obliviousBlocking m R j N ≤ b := by
  classical
  obtain ⟨k, q⟩ := j
  unfold bounds at hbs
  split_ifs at hbs with hne
  have hm : 0 < m := Nat.pos_of_ne_zero (fun e => hne (Or.inl e))
  obtain ⟨b', hsol, hb'⟩ := Glob.mapM_get _ _ _ hbs k ((k : ℕ), info.get k) (by
    unfold tasks
    simp)
  rw [hj] at hb'
  cases hb'
  unfold solved at hsol
  obtain ⟨x, hx, rfl⟩ := Option.map_eq_some_iff.1 hsol
  apply le_lrint
  refine le_trans ?_ ((hs _ _ hx).best _ (feasible (k := k) (q := q) hm h h1 hT hc hfew hb N))
  rw [objective_program]
  refine ((charge (k := k) (q := q) h hT hb N).objective h1 [.direct] (kind := fun _ => .direct)
    (X := value m R k q N) ?_ (by simp)).trans (le_of_eq ?_)
  · intro ty _ x v r
    rfl
  · congr 1
    unfold objective vars
    congr 1
    funext t
    congr 1
    funext a
    rw [List.map_map]
    simp only [List.map_cons, List.map_nil]
    rw [List.map_eq_flatMap]
    rfl

end Verif.SR.Lp.Omip
