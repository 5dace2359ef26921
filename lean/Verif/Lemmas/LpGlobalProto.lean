/-
The constraints of the LPs for global scheduling that are specific to queues and to progress mechanisms.
-/
import Verif.Lemmas.LpGlobalRun

namespace Verif.SR.Lp.Glob
open Verif.Spec Finset
open Verif.SR.Msrp (system)
open Verif.SR.Fmlp (totalNumRequests)

variable {info : Info} {k : Fin info.length} {m : ℕ} {R : LockRun info.length}

/-! ### A late job -/

/-- A job that is not complete at the end of its response-time bound, the first one of this kind. -/
structure Late (info : Info) (R : LockRun info.length) (k : Fin info.length) (q : ℕ) : Prop where
  before : BoundedBefore R.work R.sched (fun i => (info.get i).response)
    (R.work.release (k, q) + (info.get k).response)
  late : ¬ Completed R.work R.sched (k, q) (R.work.release (k, q) + (info.get k).response)
  pred : ∀ p < q, Completed R.work R.sched (k, p) (R.work.release (k, q))

/-- Unless there is a first late job, no job is late. -/
theorem no_late (h : RequestRun m (system info) R) (hg : Good info) (hno : ∀ k q, ¬ Late info R k q)
    (j : Job info.length) :
    Completed R.work R.sched j (R.work.release j + (info.get j.1).response) := by
  by_contra hc
  have hmiss : ¬ MeetsDeadlines R.work (fun i => (info.get i).response) R.sched := fun hm => hc (hm j)
  obtain ⟨⟨k, q⟩, h1, h2⟩ := exists_first_miss hmiss
  refine hno k q ⟨fun j' hj' => h2 j' hj', h1, ?_⟩
  refine pred_done (C := (system info).cost) (T := (system info).period) h.sporadic
    (R := (info.get k).response) (hg.response _ (List.get_mem info k)) ?_
  intro l hl
  apply h2 (k, l)
  have h3 := h.sporadic.separated k l
  have h4 := release_mono h.sporadic k (show l + 1 ≤ q from hl)
  have h5 := hg.period _ (List.get_mem info k)
  have h6 : (system info).period k = (info.get k).period := rfl
  show R.work.release (k, l) + _ < R.work.release (k, q) + _
  rw [h6] at h3
  simp only
  omega

open Classical in
/-- The slots in which the job could execute but does not. -/
noncomputable def lost (info : Info) (R : LockRun info.length) (k : Fin info.length) (q : ℕ) : Finset ℕ :=
  (Ico (R.work.release (k, q)) (R.work.release (k, q) + (info.get k).response)).filter (fun t => (k, q) ∉ R.sched t)

theorem mem_lost {q t : ℕ} : t ∈ lost info R k q ↔ (R.work.release (k, q) ≤ t ∧
    t < R.work.release (k, q) + (info.get k).response) ∧ (k, q) ∉ R.sched t := by
  classical
  unfold lost
  rw [mem_filter, mem_Ico]

theorem Late.ready {q t : ℕ} (h : Late info R k q) (ht : t ∈ lost info R k q) : Ready R.work R.sched (k, q) t := by
  obtain ⟨⟨h1, h2⟩, _⟩ := mem_lost.1 ht
  exact ⟨⟨h1, fun hc => h.late (hc.mono h2.le)⟩, fun p hp => (h.pred p hp).mono h1⟩

theorem Late.card {q : ℕ} (h : Late info R k q) (hr : RequestRun m (system info) R) :
    (info.get k).response + 1 ≤ (lost info R k q).card + (info.get k).cost :=
  unserved R.sched (hr.sporadic.wcet k q) h.late

/-- Job `j` waits for section `z`, which executes. -/
def DirectBy (R : LockRun info.length) (j : Job info.length) (t : ℕ) (z : Section info.length) : Prop :=
  ∃ s r, R.Waits s t ∧ s.job = j ∧ (system info).For s r ∧ R.Owns z t ∧ (system info).For z r ∧ z.job ∈ R.sched t

open Classical in
/-- Slots with direct delays. -/
noncomputable def lostDirect (info : Info) (R : LockRun info.length) (k : Fin info.length) (q : ℕ) : Finset ℕ :=
  (lost info R k q).filter (fun t => ∃ z, DirectBy R (k, q) t z)

open Classical in
/-- Slots without direct delays. -/
noncomputable def lostFull (info : Info) (R : LockRun info.length) (k : Fin info.length) (q : ℕ) : Finset ℕ :=
  (lost info R k q).filter (fun t => ¬ ∃ z, DirectBy R (k, q) t z)

open Classical in
/-- The section the job waits for. -/
noncomputable def waitsFor (R : LockRun info.length) (k : Fin info.length) (q t : ℕ) : Section info.length :=
  if h : ∃ z, DirectBy R (k, q) t z then h.choose else ⟨(k, q), 0, 0⟩

theorem waitsFor_spec {q t : ℕ} (h : t ∈ lostDirect info R k q) : DirectBy R (k, q) t (waitsFor R k q t) := by
  classical
  have h1 := (mem_filter.1 h).2
  unfold waitsFor
  rw [dif_pos h1]
  exact h1.choose_spec

theorem lost_card (q : ℕ) : (lost info R k q).card = (lostDirect info R k q).card + (lostFull info R k q).card := by
  classical
  unfold lostDirect lostFull
  rw [card_filter_add_card_filter_not]

theorem lost_union (q : ℕ) : lostDirect info R k q ∪ lostFull info R k q = lost info R k q := by
  classical
  unfold lostDirect lostFull
  rw [filter_union_filter_not_eq]

/-- The requests that a job waits for are declared. -/
theorem waits_request (h : RequestRun m (system info) R) {s : Section info.length} (hs : R.issued s) {q : ℕ}
    (hf : (system info).For s q) : ∃ a, (info.get s.job.1).requests[s.idx]? = some a ∧ a.resId = q ∧ s.inst < a.num := by
  obtain ⟨a, ha, hq⟩ := for_iff.1 hf
  refine ⟨a, ha, hq, ?_⟩
  obtain ⟨b, hb, hi⟩ := h.declared s hs
  rw [lock_req' ha] at hb
  cases hb
  exact hi

theorem total_ne_zero {t : TaskInfo} {a : Request} (ha : a ∈ t.requests) (h : 0 < a.num) : totalNumRequests t ≠ 0 := by
  have e : totalNumRequests t = (t.requests.map Request.num).sum := by
    unfold totalNumRequests
    rw [List.sum_eq_foldl, List.foldl_map]
  rw [e]
  have := List.single_le_sum (l := t.requests.map Request.num) (by simp) a.num (List.mem_map_of_mem ha)
  omega

theorem numRequests_eq (h1 : OneEntry info) {x : Fin info.length} {a : Request} (ha : a ∈ (info.get x).requests) :
    numRequests (info.get x) a.resId = a.num := by
  unfold numRequests
  have h := h1.requestOf ha
  unfold requestOf at h
  rw [fin_get?] at h
  simp only [Option.map_eq_some_iff] at h
  obtain ⟨b, hb, e⟩ := h
  cases e
  rw [hb]

/-- The slots of a late job. -/
theorem Late.split {q : ℕ} (hl : Late info R k q) (h : SuspendRun m (system info) R)
    (ind : ℕ → Section info.length → Prop)
    (hfull : ∀ t ∈ lostFull info R k q, (R.sched t).card = m)
    (hind : ∀ t ∈ lostFull info R k q, ∀ z, ind t z → R.Owns z t ∧ z.job ∈ R.sched t ∧ k < z.job.1)
    (hstall : ∀ t ∈ lostFull info R k q, ∀ j ∈ R.sched t, k < j.1 →
      (∃ z, z.job.1 = j.1 ∧ ind t z) ∨ totalNumRequests (info.get k) ≠ 0) :
    Split info k m R (lostDirect info R k q) (lostFull info R k q) (waitsFor R k q) ind where
  disjoint := by
    classical
    exact disjoint_filter_filter_not _ _ _
  direct := by
    classical
    intro t ht
    obtain ⟨s, r, hw, hsj, hf, ho, hf', hx⟩ := waitsFor_spec ht
    refine ⟨ho, hx, ?_⟩
    intro e
    have hr := hl.ready (mem_filter.1 ht).1
    have := ready_eq (h.owns_ready ho) hr e
    exact h.owns_not_waits ho hw (hsj.trans this.symm)
  access := by
    intro t ht
    obtain ⟨s, r, hw, hsj, hf, ho, hf', hx⟩ := waitsFor_spec ht
    obtain ⟨a, ha, hq, _⟩ := waits_request h.toRequestRun hw.1 hf
    rw [hsj] at ha
    exact ⟨a, List.mem_of_getElem? ha, by rw [resOf_for hf', hq]⟩
  full := by
    classical
    intro t ht
    refine ⟨hfull t ht, ?_⟩
    intro j hj e
    have hlost := (mem_filter.1 ht).1
    have := ready_eq (h.valid.ready t j hj) (hl.ready hlost) e
    exact (mem_lost.1 hlost).2 (this ▸ hj)
  section_ := hind
  stall := hstall

/-! ### FIFO queues -/

/-- Constraint 8. -/
theorem fifo_count (h : SuspendRun m (system info) R) (h1 : OneEntry info) (hq : FifoQueues (system info) R)
    {q : ℕ} {x : Fin info.length} {a : Request} (ha : a ∈ (info.get x).requests) {X : Finset ℕ} :
    ((bucket (allSections k R X) x a.resId).filter
      (fun z => 0 < directSlots (lostDirect info R k q) (waitsFor R k q) z)).card ≤
      numRequests (info.get k) a.resId := by
  classical
  have key : ∀ z ∈ (bucket (allSections k R X) x a.resId).filter
      (fun z => 0 < directSlots (lostDirect info R k q) (waitsFor R k q) z), ∃ s, s.job = (k, q) ∧ R.issued s ∧
        (system info).For s a.resId ∧ R.issued z ∧ z.job.1 = x ∧ R.enter z ≤ R.enter s ∧ R.enter s < R.leave z := by
    intro z hz
    obtain ⟨hz, hpos⟩ := mem_filter.1 hz
    obtain ⟨_, hx, hres⟩ := mem_filter.1 hz
    obtain ⟨t, ht⟩ := card_pos.1 hpos
    obtain ⟨ht', rfl⟩ := mem_filter.1 ht
    obtain ⟨s, r, hw, hsj, hf, ho, hf', _⟩ := waitsFor_spec ht'
    have e : r = a.resId := by rw [← hres, resOf_for hf']
    subst e
    exact ⟨s, hsj, hw.1, hf, ho.1, Fin.ext hx, hq s _ _ t hw ho hf hf', lt_of_le_of_lt hw.2.1 ho.2.2⟩
  rcases eq_empty_or_nonempty ((bucket (allSections k R X) x a.resId).filter
      (fun z => 0 < directSlots (lostDirect info R k q) (waitsFor R k q) z)) with he | ⟨z0, hz0⟩
  · rw [he]
    simp
  obtain ⟨s0, hs0, hi0, hf0, _⟩ := key z0 hz0
  obtain ⟨b, hb, hbq, _⟩ := waits_request h.toRequestRun hi0 hf0
  rw [hs0] at hb
  rw [← hbq, numRequests_eq h1 (List.mem_of_getElem? hb), hbq]
  refine (h.card_le_instants (i := x) (I := (range b.num).image (fun v => R.enter ⟨(k, q), s0.idx, v⟩)) ?_).trans
    (card_image_le.trans (by rw [card_range]))
  intro z hz
  obtain ⟨s, hsj, hi, hf, h3, h4, h5, h6⟩ := key z hz
  refine ⟨h3, h4, R.enter s, ?_, h5, h6⟩
  obtain ⟨c, hc, hcq, hlt⟩ := waits_request h.toRequestRun hi hf
  rw [hsj] at hc
  obtain ⟨e1, e2⟩ := h1.eq hc hb (hcq.trans hbq.symm)
  subst e2
  rw [mem_image]
  refine ⟨s.inst, mem_range.2 hlt, ?_⟩
  rw [← hsj, ← e1]

section
variable {Z : Finset (Section info.length)} {D I : Section info.length → ℕ} {N : Fin info.length → ℕ} {Y : ℕ}
  (hD : Delay info k m Z D I N Y) (h1 : OneEntry info)
include hD h1

theorem Delay.fifoConstraints (hc : ∀ (x : Fin info.length), ∀ a ∈ (info.get x).requests,
      ((bucket Z x a.resId).filter (fun z => 0 < D z)).card ≤ numRequests (info.get k) a.resId)
    {P : Program} (hP : P.Feasible (value k Z D I N)) :
    (fifoConstraints info k (info.get k) P).Feasible (value k Z D I N) := by
  apply feasible_foldl _ hP
  intro q _ P hP
  apply feasible_foldl _ hP
  intro t ht P hP
  apply feasible_foldl _ hP
  intro r hr P hP
  apply feasible_addInequality hP
  obtain ⟨x, _, rfl⟩ := mem_others.1 ht
  obtain ⟨hr, hrq⟩ := List.mem_filter.1 hr
  have hrq : r.resId = q := by simpa using hrq
  rw [direct_terms, one_mul]
  refine (hD.counted h1 (f := D) (fun z => Nat.le_add_right _ _) hr).trans ?_
  rw [← hrq]
  exact_mod_cast hc x r hr

/-! ### No progress mechanism -/

omit hD h1 in
theorem share_zero (hI : ∀ z, I z = 0) (x q : ℕ) : share k Z I x q = 0 := by
  unfold share
  split
  · rfl
  · rw [sum_congr rfl (fun z _ => hI z)]
    simp

omit hD h1 in
theorem noProgressConstraint_feasible (hI : ∀ z, I z = 0) {P : Program} (hP : P.Feasible (value k Z D I N)) :
    (noProgressConstraint info (info.get k) P).Feasible (value k Z D I N) := by
  apply feasible_addInequality hP
  apply le_of_eq
  rw [termSum_flatMap]
  apply List.sum_eq_zero
  intro a ha
  obtain ⟨t, _, rfl⟩ := List.mem_map.1 ha
  rw [termSum_cons, value_coBoosting, mul_zero, zero_add, termSum_flatMap]
  apply List.sum_eq_zero
  intro a ha
  obtain ⟨r, _, rfl⟩ := List.mem_map.1 ha
  rw [termSum_append, indirect_terms, preempt_terms, share_zero hI]
  ring

omit hD h1 in
theorem noStallingConstraint_feasible (hp : ∀ x : Fin info.length, (info.get x).priority = x)
    (hN : ∀ x : Fin info.length, k < x → lowestSharing info k (info.get k) info.length ≤ x → N x = 0)
    {P : Program} (hP : P.Feasible (value k Z D I N)) :
    (noStallingConstraint info k (info.get k) P).Feasible (value k Z D I N) := by
  apply feasible_addInequality hP
  apply le_of_eq
  apply termSum_zero
  intro t ht
  obtain ⟨a, ha, rfl⟩ := List.mem_map.1 ht
  obtain ⟨ha, hle⟩ := List.mem_filter.1 ha
  obtain ⟨x, hx, rfl⟩ := (mem_lowerTasks hp).1 ha
  simp only at hle ⊢
  rw [value_stalling, hN x hx (by simpa using hle), Nat.cast_zero]

end

theorem lowestSharing_le {ti : TaskInfo} {i : ℕ} {y : Fin info.length} (hy : i < y)
    (hs : ∃ r ∈ (info.get y).requests, 0 < numRequests ti r.resId) :
    ∀ L, (y : ℕ) < L → (y : ℕ) ≤ lowestSharing info i ti L := by
  intro L
  induction L with
  | zero => intro h; omega
  | succ L ih =>
    intro h
    unfold lowestSharing
    have hL : L > i := by omega
    rw [if_pos hL]
    split_ifs with hany
    · omega
    · apply ih
      refine lt_of_le_of_ne (by omega) ?_
      rintro rfl
      apply hany
      obtain ⟨r, hr, hpos⟩ := hs
      rw [List.any_eq_true]
      have e : info.getD (y : ℕ) ⟨0, 0, 0, 0, 0, 0, []⟩ = info.get y := by simp
      rw [e]
      exact ⟨r, hr, by simpa using hpos⟩

/-- Why a job does not execute without a progress mechanism. -/
theorem plain_cases (h : PlainLocks m (system info) R) {q t : ℕ} (hl : Late info R k q)
    (ht : t ∈ lostFull info R k q) : (R.sched t).card = m ∧ ∀ j ∈ R.sched t, j.1 < k ∨
      ∃ s z r, R.Waits s t ∧ s.job = (k, q) ∧ (system info).For s r ∧ R.Owns z t ∧ (system info).For z r ∧
        j.1 < z.job.1 := by
  classical
  obtain ⟨ht, hno⟩ := mem_filter.1 ht
  have hr := hl.ready ht
  by_cases hwt : ∃ s, R.Waits s t ∧ s.job = (k, q)
  · obtain ⟨s, hw, hsj⟩ := hwt
    obtain ⟨a, ha, _⟩ := h.declared s hw.1
    have hf : (system info).For s a.res := ⟨a, ha, rfl⟩
    obtain ⟨z, ho, hf'⟩ := h.owned s _ t hw hf
    have hex : z.job ∉ R.sched t := fun hex => hno ⟨z, s, _, hw, hsj, hf, ho, hf', hex⟩
    obtain ⟨h1, h2⟩ := h.dispatch t z.job (h.owns_ready ho) hex (fun s2 hw2 => h.owns_not_waits ho hw2)
    exact ⟨h1, fun j hj => Or.inr ⟨s, z, _, hw, hsj, hf, ho, hf', h2 j hj⟩⟩
  · push Not at hwt
    obtain ⟨h1, h2⟩ := h.dispatch t (k, q) hr (mem_lost.1 ht).2 hwt
    exact ⟨h1, fun j hj => Or.inl (h2 j hj)⟩

/-- The slots of a late job without a progress mechanism. -/
theorem plain_split (h : PlainLocks m (system info) R) {q : ℕ} (hl : Late info R k q) :
    Split info k m R (lostDirect info R k q) (lostFull info R k q) (waitsFor R k q) (fun _ _ => False) := by
  refine hl.split h.toSuspendRun _ (fun t ht => (plain_cases h hl ht).1) (fun _ _ _ hf => hf.elim) ?_
  intro t ht j hj hlt
  rcases (plain_cases h hl ht).2 j hj with hc | ⟨s, z, r, hw, hsj, hf, _⟩
  · exact absurd hlt (not_lt.2 hc.le)
  · right
    obtain ⟨a, ha, _, hi⟩ := waits_request h.toRequestRun hw.1 hf
    rw [hsj] at ha
    exact total_ne_zero (List.mem_of_getElem? ha) (by omega)

theorem plain_indirect (Xf : Finset ℕ) (z : Section info.length) : indirectSlots Xf (fun _ _ => False) z = 0 := by
  unfold indirectSlots
  simp

/-- Constraint 15. -/
theorem plain_stalling (h : PlainLocks m (system info) R) (h1 : OneEntry info) {q : ℕ} (hl : Late info R k q)
    {x : Fin info.length} (hx : k < x) (hle : lowestSharing info k (info.get k) info.length ≤ x) :
    plainSlots R (lostFull info R k q) (fun _ _ => False) x = 0 := by
  classical
  unfold plainSlots
  rw [card_eq_zero, filter_eq_empty_iff]
  rintro t ht ⟨⟨p, hp⟩, _⟩
  rcases (plain_cases h hl ht).2 _ hp with hc | ⟨s, z, r, hw, hsj, hf, ho, hf', hlt⟩
  · exact absurd hx (not_lt.2 hc.le)
  · simp only at hlt
    obtain ⟨a, ha, hq, hi⟩ := waits_request h.toRequestRun hw.1 hf
    rw [hsj] at ha
    obtain ⟨b, hb, hbq, _⟩ := waits_request h.toRequestRun ho.1 hf'
    have := lowestSharing_le (info := info) (ti := info.get k) (i := k) (y := z.job.1)
      (Fin.lt_def.1 (hx.trans hlt)) ⟨b, List.mem_of_getElem? hb, by
        rw [hbq, ← hq, numRequests_eq h1 (List.mem_of_getElem? ha)]
        omega⟩ info.length z.job.1.2
    have := Fin.lt_def.1 hlt
    omega

end Verif.SR.Lp.Glob
