import Verif.Spec.Pip
import Verif.Lemmas.GlobalFp
import Mathlib.Algebra.BigOperators.Fin

/-! Global fixed-priority scheduling with the priority inheritance protocol: the arguments of
Easwaran and Andersson (RTSS 2009). -/

namespace Verif.Spec
open Finset

section Marked
variable {n m : ℕ} {C T : Fin n → ℕ} {w : Workload n} {σ : Schedule n}

open Classical in
/-- Slots in a window in which a task executes in a certain manner `M`, if each job does so in at
most `x` slots and finishes within `e` of its release. -/
theorem marked_busy (hs : w.Sporadic C T) (hv : ValidSchedule m w σ) {i : Fin n} {e x : ℕ}
    (hT : 0 < T i) (hxT : x ≤ T i) (hxe : x ≤ e) (M : Job n → ℕ → Prop) {r R : ℕ}
    (hx : ∀ q, ((range (r + R)).filter (fun s => (i, q) ∈ σ s ∧ M (i, q) s)).card ≤ x)
    (hb : ∀ q, w.release (i, q) + e < r + R → Completed w σ (i, q) (w.release (i, q) + e)) :
    ((Ico r (r + R)).filter (fun s => ∃ q, (i, q) ∈ σ s ∧ M (i, q) s)).card ≤
      gwork x (T i) (R + e - x) := by
  set σ' : Schedule n := fun s => if s < r + R then (σ s).filter (fun j => j.1 = i ∧ M j s) else ∅
    with hσ'
  have mem' : ∀ s j, j ∈ σ' s ↔ s < r + R ∧ j ∈ σ s ∧ j.1 = i ∧ M j s := by
    intro s j
    rw [hσ']
    by_cases h : s < r + R
    · simp [h]
    · simp [h]
  let w' : Workload n := ⟨w.release, fun j => service σ' j (r + R)⟩
  -- nothing happens after completion
  have later : ∀ j t, Completed w σ j t → Completed w' σ' j t := by
    intro j t hc
    show service σ' j (r + R) ≤ service σ' j t
    unfold service
    apply card_le_card
    intro s hs'
    rw [mem_filter, mem_range] at hs' ⊢
    refine ⟨?_, hs'.2⟩
    by_contra hlt
    have h1 := hv.ready s j ((mem' s j).1 hs'.2).2.1
    exact h1.1.2 (hc.mono (by omega))
  have hs' : w'.Sporadic (fun _ => x) T := by
    refine ⟨hs.separated, fun k q => ?_⟩
    show service σ' (k, q) (r + R) ≤ x
    by_cases hk : k = i
    · subst hk
      refine le_trans (card_le_card ?_) (hx q)
      intro s hs'
      rw [mem_filter] at hs' ⊢
      have := (mem' s _).1 hs'.2
      exact ⟨hs'.1, this.2.1, this.2.2.2⟩
    · have : service σ' (k, q) (r + R) = 0 := by
        unfold service
        rw [card_eq_zero, filter_eq_empty_iff]
        intro s _ hmem
        exact hk ((mem' s _).1 hmem).2.2.1
      omega
  have hv' : ValidSchedule m w' σ' := by
    constructor
    · intro t
      rw [hσ']
      by_cases h : t < r + R
      · simp only [h, if_true]
        exact (card_filter_le _ _).trans (hv.procs t)
      · simp [h]
    · intro t j hj
      have hj' := (mem' t j).1 hj
      have hr := hv.ready t j hj'.2.1
      refine ⟨⟨hr.1.1, ?_⟩, fun l hl => later _ _ (hr.2 l hl)⟩
      show ¬ service σ' j (r + R) ≤ service σ' j t
      have h1 := service_succ σ' j t
      rw [if_pos hj] at h1
      have h2 := service_mono σ' j (show t + 1 ≤ r + R from hj'.1)
      omega
  have hall : ∀ q, Completed w' σ' (i, q) (w'.release (i, q) + e) := by
    intro q
    by_cases h : w.release (i, q) + e < r + R
    · exact later _ _ (hb q h)
    · exact service_mono σ' (i, q) (by show r + R ≤ w.release (i, q) + e; omega)
  have := wc_busy hs' hv' (i := i) hT hxT hxe hall r R
  refine le_trans (le_of_eq ?_) this
  unfold busySlots
  congr 1
  apply filter_congr
  intro s hs1
  rw [mem_Ico] at hs1
  constructor
  · rintro ⟨q, h1, h2⟩
    exact ⟨q, (mem' s _).2 ⟨hs1.2, h1, rfl, h2⟩⟩
  · rintro ⟨q, h1⟩
    have := (mem' s _).1 h1
    exact ⟨q, this.2.1, this.2.2.2⟩

end Marked

variable {n m : ℕ} {S : LockSystem n} {R : LockRun n}

/-- The sections of one job do not overlap. -/
theorem RequestRun.section_unique (h : RequestRun m S R) {s s' : Section n} {t : ℕ} (hi : R.issued s)
    (hi' : R.issued s') (hj : s.job = s'.job) (h1 : R.enter s ≤ t) (h2 : t < R.leave s)
    (h1' : R.enter s' ≤ t) (h2' : t < R.leave s') : s = s' := by
  by_contra hne
  rcases h.serial s s' hi hi' hj hne with h3 | h3 <;> omega

theorem RequestRun.waits_active (h : RequestRun m S R) {s : Section n} {t : ℕ} (hw : R.Waits s t) :
    R.enter s ≤ t ∧ t < R.leave s :=
  ⟨hw.2.1, lt_of_lt_of_le hw.2.2 (h.order s hw.1).2⟩

theorem RequestRun.owns_active (h : RequestRun m S R) {s : Section n} {t : ℕ} (hw : R.Owns s t) :
    R.enter s ≤ t ∧ t < R.leave s :=
  ⟨(h.order s hw.1).1.trans hw.2.1, hw.2.2⟩

theorem RequestRun.waits_ready (h : RequestRun m S R) {s : Section n} {t : ℕ} (hw : R.Waits s t) :
    Ready R.work R.sched s.job t :=
  h.active s t hw.1 (h.waits_active hw).1 (h.waits_active hw).2

theorem RequestRun.owns_ready (h : RequestRun m S R) {s : Section n} {t : ℕ} (hw : R.Owns s t) :
    Ready R.work R.sched s.job t :=
  h.active s t hw.1 (h.owns_active hw).1 (h.owns_active hw).2

/-- A job waits for at most one resource. -/
theorem RequestRun.waits_unique (h : RequestRun m S R) {s s' : Section n} {t : ℕ} (hw : R.Waits s t)
    (hw' : R.Waits s' t) (hj : s.job = s'.job) : s = s' :=
  h.section_unique hw.1 hw'.1 hj (h.waits_active hw).1 (h.waits_active hw).2
    (h.waits_active hw').1 (h.waits_active hw').2

/-- A job that owns a resource does not wait for one. -/
theorem RequestRun.owns_not_waits (h : RequestRun m S R) {s s' : Section n} {t : ℕ} (hw : R.Owns s t)
    (hw' : R.Waits s' t) : s'.job ≠ s.job := by
  intro hj
  have := h.section_unique hw'.1 hw.1 hj (h.waits_active hw').1 (h.waits_active hw').2
    (h.owns_active hw).1 (h.owns_active hw).2
  subst this
  have := hw.2.1
  have := hw'.2.2
  omega

/-- Two ready jobs of a task are the same. -/
theorem ready_eq {w : Workload n} {σ : Schedule n} {j j' : Job n} {t : ℕ} (h : Ready w σ j t) (h' : Ready w σ j' t)
    (e : j.1 = j'.1) : j = j' := by
  obtain ⟨i, p⟩ := j
  obtain ⟨i', p'⟩ := j'
  simp only at e
  subst e
  rw [ready_unique h h']

theorem LockSystem.For.unique {s : Section n} {r r' : ℕ} (h : S.For s r) (h' : S.For s r') : r = r' := by
  obtain ⟨q, h1, h2⟩ := h
  obtain ⟨q', h1', h2'⟩ := h'
  rw [h1] at h1'
  cases h1'
  exact h2.symm.trans h2'

theorem LockSystem.For.uses {s : Section n} {r : ℕ} (h : S.For s r) : S.Uses s.job.1 r := by
  obtain ⟨q, h1, h2⟩ := h
  exact ⟨q, List.mem_of_getElem? h1, h2⟩

/-- Executing jobs have different (inherited) priorities. -/
theorem SuspendRun.acts_injective (h : SuspendRun m S R) {t : ℕ} {j j' : Job n} {a : Fin n}
    (hj : j ∈ R.sched t) (hj' : j' ∈ R.sched t) (ha : R.ActsFor S j a t) (ha' : R.ActsFor S j' a t) :
    j = j' := by
  rcases ha with ha | ⟨s, s1, r, hw, ho, hf, hf1, ha, hsj⟩ <;>
  rcases ha' with ha' | ⟨s', s1', r', hw', ho', hf', hf1', ha', hsj'⟩
  · exact ready_eq (h.valid.ready t j hj) (h.valid.ready t j' hj') (ha.trans ha'.symm)
  · exfalso
    have := ready_eq (h.valid.ready t j hj) (h.waits_ready hw') (ha.trans ha'.symm)
    exact h.suspends s' t hw' (this ▸ hj)
  · exfalso
    have := ready_eq (h.valid.ready t j' hj') (h.waits_ready hw) (ha'.trans ha.symm)
    exact h.suspends s t hw (this ▸ hj')
  · have e := ready_eq (h.waits_ready hw) (h.waits_ready hw') (ha.trans ha'.symm)
    have e2 := h.waits_unique hw hw' e
    subst e2
    have hr := hf.unique hf'
    subst hr
    have := h.exclusive s1 s1' r t ho ho' hf1 hf1'
    rw [← hsj, ← hsj', this]

/-- Why a job does not execute: it waits for a resource whose owner executes, or all processors
serve higher priorities. -/
theorem Pip.cases (h : Pip m S R) {j : Job n} {t : ℕ} (hr : Ready R.work R.sched j t) (hn : j ∉ R.sched t) :
    (∃ s s' r, R.Waits s t ∧ s.job = j ∧ R.Owns s' t ∧ S.For s r ∧ S.For s' r ∧ s'.job ∈ R.sched t ∧
      s'.job.1 ≠ j.1) ∨
    ((R.sched t).card = m ∧ ∀ j' ∈ R.sched t, ∃ a < j.1, R.ActsFor S j' a t) := by
  -- nobody executes with the priority of `j`, unless it owns what `j` waits for
  have key : (∀ s s' r, R.Waits s t → s.job = j → R.Owns s' t → S.For s r → S.For s' r →
      s'.job ∉ R.sched t) → ∀ j' ∈ R.sched t, ∀ a, R.ActsFor S j' a t → a ≤ j.1 → a < j.1 := by
    intro hno j' hj' a ha hle
    refine lt_of_le_of_ne hle ?_
    rintro rfl
    rcases ha with ha | ⟨s, s1, r, hw, ho, hf, hf1, ha, hsj⟩
    · exact hn (ready_eq (h.valid.ready t j' hj') hr ha ▸ hj')
    · have e := ready_eq (h.waits_ready hw) hr ha
      exact hno s s1 r hw e ho hf hf1 (hsj ▸ hj')
  by_cases hwt : ∃ s, R.Waits s t ∧ s.job = j
  · obtain ⟨s, hw, hsj⟩ := hwt
    obtain ⟨q, hq, -⟩ := h.declared s hw.1
    have hf : S.For s q.res := ⟨q, hq, rfl⟩
    obtain ⟨s', ho, hf'⟩ := h.owned s _ t hw hf
    have hne : s'.job.1 ≠ j.1 := by
      intro e
      have := ready_eq (h.owns_ready ho) hr e
      exact h.owns_not_waits ho hw (hsj.trans this.symm)
    by_cases hex : s'.job ∈ R.sched t
    · exact Or.inl ⟨s, s', _, hw, hsj, ho, hf, hf', hex, hne⟩
    · right
      obtain ⟨h1, h2⟩ := h.dispatch t s'.job (h.owns_ready ho) hex
        (fun s2 hw2 => h.owns_not_waits ho hw2)
      refine ⟨h1, fun j' hj' => ?_⟩
      obtain ⟨a, ha, hle⟩ := h2 j' hj'
      refine ⟨a, key ?_ j' hj' a ha (hle j.1 (Or.inr ⟨s, s', _, hw, ho, hf, hf', by rw [hsj], rfl⟩)), ha⟩
      intro s2 s2' r2 hw2 hsj2 ho2 hf2 hf2'
      have e := h.waits_unique hw hw2 (hsj.trans hsj2.symm)
      subst e
      have hr2 := hf.unique hf2
      subst hr2
      rw [← h.exclusive s' s2' _ t ho ho2 hf' hf2']
      exact hex
  · push Not at hwt
    right
    obtain ⟨h1, h2⟩ := h.dispatch t j hr hn hwt
    refine ⟨h1, fun j' hj' => ?_⟩
    obtain ⟨a, ha, hle⟩ := h2 j' hj'
    exact ⟨a, key (fun s _ _ hw hsj _ _ _ => absurd hsj (hwt s hw)) j' hj' a ha (hle j.1 (Or.inl rfl)), ha⟩

/-- Fewer than `m` jobs have a priority higher than one of the `m` highest. -/
theorem SuspendRun.not_full (h : SuspendRun m S R) {k : Fin n} (hk : k.1 < m) {t : ℕ}
    (hc : (R.sched t).card = m) (ha : ∀ j' ∈ R.sched t, ∃ a < k, R.ActsFor S j' a t) : False := by
  classical
  haveI : Nonempty (Fin n) := ⟨k⟩
  choose! f hf using ha
  have h1 := card_le_card_of_injOn f (s := R.sched t) (t := Iio k)
    (fun j hj => mem_coe.2 (mem_Iio.2 (hf j hj).1)) (by
      intro j hj j' hj' e
      refine h.acts_injective hj hj' (hf j hj).2 ?_
      have := (hf j' hj').2
      rw [show f j' = f j from e.symm] at this
      exact this)
  rw [Fin.card_Iio] at h1
  omega

/-- A sum over the requests of a task. -/
theorem sum_reqs (l : List Req) (f : Req → ℕ) : (l.map f).sum = ∑ x : Fin l.length, f (l.get x) := by
  rw [← Fin.sum_univ_fun_getElem]
  rfl

open Classical in
/-- Processor time a job spends in certain sections. -/
theorem RequestRun.used_le (h : RequestRun m S R) (P : ℕ → Prop) (j : Job n) (N : ℕ) :
    ((range N).filter (fun t => j ∈ R.sched t ∧ ∃ s r, s.job = j ∧ R.Owns s t ∧ S.For s r ∧ P r)).card ≤
      ((S.reqs j.1).map (fun q => if P q.res then q.len * q.num else 0)).sum := by
  rw [sum_reqs]
  have hsub : (range N).filter (fun t => j ∈ R.sched t ∧ ∃ s r, s.job = j ∧ R.Owns s t ∧ S.For s r ∧ P r) ⊆
      univ.biUnion (fun x : Fin (S.reqs j.1).length => (range ((S.reqs j.1).get x).num).biUnion (fun a =>
        if R.issued ⟨j, x, a⟩ ∧ P ((S.reqs j.1).get x).res then
          (Ico (R.acquire ⟨j, x, a⟩) (R.leave ⟨j, x, a⟩)).filter (fun t => j ∈ R.sched t) else ∅)) := by
    intro t ht
    rw [mem_filter] at ht
    obtain ⟨-, hj, ⟨sj, idx, a⟩, r, hsj, ho, ⟨q, hq, hqr⟩, hP⟩ := ht
    simp only at hsj
    subst hsj
    obtain ⟨q', hq', ha⟩ := h.declared _ ho.1
    rw [hq] at hq'
    cases hq'
    simp only at hq ha
    obtain ⟨hidx, he⟩ := List.getElem?_eq_some_iff.1 hq
    rw [mem_biUnion]
    refine ⟨⟨idx, hidx⟩, mem_univ _, ?_⟩
    rw [mem_biUnion]
    refine ⟨a, ?_, ?_⟩
    · rw [mem_range, List.get_eq_getElem]; simp only; rw [he]; exact ha
    · rw [if_pos ⟨ho.1, by rw [List.get_eq_getElem]; simp only; rw [he, hqr]; exact hP⟩, mem_filter, mem_Ico]
      exact ⟨ho.2, hj⟩
  refine (card_le_card hsub).trans (card_biUnion_le.trans (sum_le_sum ?_))
  intro x _
  refine card_biUnion_le.trans ?_
  by_cases hP : P ((S.reqs j.1).get x).res
  · rw [if_pos hP, Nat.mul_comm]
    refine (sum_le_card_nsmul _ _ ((S.reqs j.1).get x).len ?_).trans (by rw [card_range, smul_eq_mul])
    intro a _
    split_ifs with hi
    · exact h.length ⟨j, x, a⟩ _ hi.1 (by simp)
    · simp
  · rw [if_neg hP, Nat.le_zero]
    apply sum_eq_zero
    intro a _
    rw [if_neg (fun h => hP h.2), card_empty]

/-- Job `j` waits in slot `t` for a resource owned by a job of a lower-priority task, which executes. -/
def LowBlocked (S : LockSystem n) (R : LockRun n) (j : Job n) (t : ℕ) : Prop :=
  ∃ s s' r, R.Waits s t ∧ s.job = j ∧ R.Owns s' t ∧ S.For s r ∧ S.For s' r ∧ s'.job ∈ R.sched t ∧
    j.1 < s'.job.1

open Classical in
/-- Each request is blocked by at most one request of a lower-priority task. -/
theorem Pip.low_le (h : Pip m S R) (j : Job n) (N : ℕ) (L : ℕ → ℕ)
    (hL : ∀ i, j.1 < i → ∀ q ∈ S.reqs i, q.len ≤ L q.res) :
    ((range N).filter (LowBlocked S R j)).card ≤ ((S.reqs j.1).map (fun q => L q.res * q.num)).sum := by
  rw [sum_reqs]
  have hsub : (range N).filter (LowBlocked S R j) ⊆
      univ.biUnion (fun x : Fin (S.reqs j.1).length => (range ((S.reqs j.1).get x).num).biUnion (fun a =>
        (range N).filter (fun t => ∃ s' r, R.Waits ⟨j, x, a⟩ t ∧ R.Owns s' t ∧ S.For ⟨j, x, a⟩ r ∧ S.For s' r ∧
          s'.job ∈ R.sched t ∧ j.1 < s'.job.1))) := by
    intro t ht
    rw [mem_filter] at ht
    obtain ⟨hN, ⟨sj, idx, a⟩, s', r, hw, hsj, ho, hf, hf', hx, hlt⟩ := ht
    simp only at hsj
    subst hsj
    obtain ⟨q, hq, ha⟩ := h.declared _ hw.1
    simp only at hq ha
    obtain ⟨hidx, he⟩ := List.getElem?_eq_some_iff.1 hq
    rw [mem_biUnion]
    refine ⟨⟨idx, hidx⟩, mem_univ _, ?_⟩
    rw [mem_biUnion]
    refine ⟨a, ?_, ?_⟩
    · rw [mem_range, List.get_eq_getElem]; simp only; rw [he]; exact ha
    · rw [mem_filter]
      exact ⟨hN, s', r, hw, ho, hf, hf', hx, hlt⟩
  refine (card_le_card hsub).trans (card_biUnion_le.trans (sum_le_sum ?_))
  intro x _
  refine card_biUnion_le.trans ?_
  rw [Nat.mul_comm]
  refine (sum_le_card_nsmul _ _ (L ((S.reqs j.1).get x).res) ?_).trans (by rw [card_range, smul_eq_mul])
  intro a _
  rcases eq_empty_or_nonempty ((range N).filter (fun t => ∃ s' r, R.Waits ⟨j, x, a⟩ t ∧ R.Owns s' t ∧
    S.For ⟨j, x, a⟩ r ∧ S.For s' r ∧ s'.job ∈ R.sched t ∧ j.1 < s'.job.1)) with he | ⟨t0, ht0⟩
  · rw [he, card_empty]; exact Nat.zero_le _
  -- the section of the lower-priority job was entered before the request
  have early : ∀ t s' r, R.Waits ⟨j, x, a⟩ t → R.Owns s' t → S.For ⟨j, x, a⟩ r → S.For s' r →
      j.1 < s'.job.1 → R.Owns s' (R.enter ⟨j, x, a⟩) := by
    intro t s' r hw ho hf hf' hlt
    refine ⟨ho.1, ?_, lt_of_le_of_lt hw.2.1 ho.2.2⟩
    by_contra hc
    have := h.queue _ _ r hw.1 ho.1 hf hf' (not_le.1 hc) (lt_of_le_of_lt ho.2.1 hw.2.2)
    exact absurd this (not_le.2 hlt)
  obtain ⟨-, s0, r0, hw0, ho0, hf0, hf0', hx0, hlt0⟩ := mem_filter.1 ht0
  obtain ⟨q0, hq0, hqr0⟩ := hf0'
  have hlen := h.length s0 q0 ho0.1 hq0
  have hle : q0.len ≤ L ((S.reqs j.1).get x).res := by
    have h1 := hL _ hlt0 q0 (List.mem_of_getElem? hq0)
    have h2 : r0 = ((S.reqs j.1).get x).res := hf0.unique ⟨_, by simp, rfl⟩
    rw [← h2, ← hqr0]
    exact h1
  refine le_trans (card_le_card ?_) (hlen.trans hle)
  intro t ht
  obtain ⟨-, s1, r1, hw1, ho1, hf1, hf1', hx1, hlt1⟩ := mem_filter.1 ht
  have hr := hf0.unique hf1
  subst hr
  have e := h.exclusive s0 s1 r0 _ (early t0 s0 r0 hw0 ho0 hf0 ⟨q0, hq0, hqr0⟩ hlt0)
    (early t s1 r0 hw1 ho1 hf1 hf1' hlt1) ⟨q0, hq0, hqr0⟩ hf1'
  subst e
  rw [mem_filter, mem_Ico]
  exact ⟨ho1.2, hx1⟩

/-- In slot `t`, job `j` executes a section for a resource that satisfies `P`. -/
def InSection (S : LockSystem n) (R : LockRun n) (P : ℕ → Prop) (j : Job n) (t : ℕ) : Prop :=
  ∃ s r, s.job = j ∧ R.Owns s t ∧ S.For s r ∧ P r

open Classical in
/-- Slots in which a task executes certain sections. -/
theorem SuspendRun.sections_busy (h : SuspendRun m S R) {i : Fin n} (P : ℕ → Prop) {a l x : ℕ}
    (hT : 0 < S.period i) (hx : ((S.reqs i).map (fun q => if P q.res then q.len * q.num else 0)).sum ≤ x)
    (hxT : x ≤ S.period i) (hxD : x ≤ S.deadline i)
    (hb : BoundedBefore R.work R.sched S.deadline (a + l)) :
    ((Ico a (a + l)).filter (fun t => ∃ q, (i, q) ∈ R.sched t ∧ InSection S R P (i, q) t)).card ≤
      gwork x (S.period i) (l + S.deadline i - x) :=
  marked_busy h.sporadic h.valid hT hxT hxD (InSection S R P)
    (fun q => (h.used_le P (i, q) (a + l)).trans hx) (fun q hq => hb (i, q) hq)

open Classical in
/-- Jobs of the tasks `B` that execute in the manner `M`, over the slots `X`. -/
theorem sum_card_marked {w : Workload n} {σ : Schedule n} (hv : ValidSchedule m w σ) (B : Finset (Fin n))
    (M : Fin n → Job n → ℕ → Prop) (X : Finset ℕ) :
    ∑ t ∈ X, ((σ t).filter (fun j => j.1 ∈ B ∧ M j.1 j t)).card ≤
      ∑ i ∈ B, (X.filter (fun t => ∃ q, (i, q) ∈ σ t ∧ M i (i, q) t)).card := by
  calc ∑ t ∈ X, ((σ t).filter (fun j => j.1 ∈ B ∧ M j.1 j t)).card
      ≤ ∑ t ∈ X, ∑ i ∈ B, (if ∃ q, (i, q) ∈ σ t ∧ M i (i, q) t then 1 else 0) := by
        apply sum_le_sum
        intro t _
        rw [← card_filter]
        refine card_le_card_of_injOn Prod.fst ?_ ?_
        · rintro ⟨i, q⟩ hj
          obtain ⟨h1, h2, h3⟩ := mem_filter.1 (mem_coe.1 hj)
          exact mem_coe.2 (mem_filter.2 ⟨h2, q, h1, h3⟩)
        · intro j hj j' hj' e
          exact ready_eq (hv.ready t j (mem_filter.1 (mem_coe.1 hj)).1)
            (hv.ready t j' (mem_filter.1 (mem_coe.1 hj')).1) e
    _ = ∑ i ∈ B, ∑ t ∈ X, (if ∃ q, (i, q) ∈ σ t ∧ M i (i, q) t then 1 else 0) := sum_comm
    _ = _ := by
        apply sum_congr rfl
        intro i _
        rw [card_filter]

/-- A job among the `m` highest-priority tasks. -/
theorem Pip.top_step (h : Pip m S R) {k : Fin n} (hk : k.1 < m) {q l DB : ℕ} (H : Fin n → ℕ)
    (hpred : ∀ p < q, Completed R.work R.sched (k, p) (R.work.release (k, q)))
    (hDB : ∀ N, (by classical exact ((range N).filter (LowBlocked S R (k, q))).card) ≤ DB)
    (hH : ∀ i < k, (by classical exact ((Ico (R.work.release (k, q)) (R.work.release (k, q) + l)).filter
      (fun t => ∃ p, (i, p) ∈ R.sched t ∧ InSection S R (S.Uses k) (i, p) t)).card) ≤ H i)
    (hR : S.cost k + DB + ∑ i ∈ univ.filter (fun i => i < k), H i ≤ l) :
    Completed R.work R.sched (k, q) (R.work.release (k, q) + l) := by
  classical
  by_contra hinc
  have h1 := unserved R.sched (h.sporadic.wcet k q) hinc
  set r := R.work.release (k, q) with hr
  set X := (Ico r (r + l)).filter (fun s => (k, q) ∉ R.sched s) with hX
  have hsub : X ⊆ (range (r + l)).filter (LowBlocked S R (k, q)) ∪
      (univ.filter (fun i => i < k)).biUnion (fun i => (Ico r (r + l)).filter
        (fun t => ∃ p, (i, p) ∈ R.sched t ∧ InSection S R (S.Uses k) (i, p) t)) := by
    intro t ht
    rw [hX, mem_filter, mem_Ico] at ht
    have hready : Ready R.work R.sched (k, q) t :=
      ⟨⟨ht.1.1, fun h => hinc (h.mono (by omega))⟩, fun p hp => (hpred p hp).mono ht.1.1⟩
    rcases h.cases hready ht.2 with ⟨s, s', rr, hw, hsj, ho, hf, hf', hx, hne⟩ | ⟨h2, h3⟩
    · rcases lt_or_gt_of_ne hne with hlt | hlt
      · refine mem_union_right _ (mem_biUnion.2 ⟨s'.job.1, by simpa using hlt, ?_⟩)
        rw [mem_filter, mem_Ico]
        refine ⟨ht.1, s'.job.2, hx, s', rr, rfl, ho, hf', ?_⟩
        have := hf.uses
        rw [hsj] at this
        exact this
      · exact mem_union_left _ (mem_filter.2 ⟨mem_range.2 ht.1.2, s, s', rr, hw, hsj, ho, hf, hf', hx, hlt⟩)
    · exact (h.not_full hk h2 h3).elim
  have h2 := (card_le_card hsub).trans (card_union_le _ _)
  have h3 := hDB (r + l)
  have h4 := (card_biUnion_le (s := univ.filter (fun i => i < k)) (t := fun i => (Ico r (r + l)).filter
        (fun t => ∃ p, (i, p) ∈ R.sched t ∧ InSection S R (S.Uses k) (i, p) t))).trans
    (sum_le_sum (fun i hi => hH i (mem_filter.1 hi).2))
  omega

/-- A job of another task. -/
theorem Pip.step (h : Pip m S R) (hm : 0 < m) {k : Fin n} {q l DB Ic : ℕ} (H W I : Fin n → ℕ)
    (P : ℕ → Prop) (hP : ∀ a < k, ∀ r, S.Uses a r → P r)
    (hpred : ∀ p < q, Completed R.work R.sched (k, p) (R.work.release (k, q)))
    (hDB : ∀ N, (by classical exact ((range N).filter (LowBlocked S R (k, q))).card) ≤ DB)
    (hH : ∀ i < k, (by classical exact ((Ico (R.work.release (k, q)) (R.work.release (k, q) + l)).filter
      (fun t => ∃ p, (i, p) ∈ R.sched t ∧ InSection S R (S.Uses k) (i, p) t)).card) ≤ H i)
    (hW : ∀ i < k, busySlots R.sched i (R.work.release (k, q)) (R.work.release (k, q) + l) ≤ W i)
    (hI : ∀ i, k < i → (by classical exact ((Ico (R.work.release (k, q)) (R.work.release (k, q) + l)).filter
      (fun t => ∃ p, (i, p) ∈ R.sched t ∧ InSection S R P (i, p) t)).card) ≤ I i)
    (hIc : ∑ i ∈ univ.filter (fun i => k < i), I i ≤ m * Ic)
    (hR : S.cost k + DB + ∑ i ∈ univ.filter (fun i => i < k), H i + Ic +
      ((∑ i ∈ univ.filter (fun i => i < k), W i) - ∑ i ∈ univ.filter (fun i => i < k), H i) / m ≤ l) :
    Completed R.work R.sched (k, q) (R.work.release (k, q) + l) := by
  classical
  by_contra hinc
  have h1 := unserved R.sched (h.sporadic.wcet k q) hinc
  set r := R.work.release (k, q) with hr
  set X := (Ico r (r + l)).filter (fun s => (k, q) ∉ R.sched s) with hX
  set full : ℕ → Prop := fun t => (R.sched t).card = m ∧ ∀ j' ∈ R.sched t, ∃ a < k, R.ActsFor S j' a t
    with hfull
  set high : ℕ → Prop := fun t => ∃ i < k, ∃ p, (i, p) ∈ R.sched t ∧ InSection S R (S.Uses k) (i, p) t
    with hhigh
  set Xa := X.filter full with hXa
  set Xl := X.filter (LowBlocked S R (k, q)) with hXl
  set Xh := (X.filter (fun s => ¬ full s)).filter high with hXh
  have hXI : X ⊆ Ico r (r + l) := filter_subset _ _
  have hready : ∀ t ∈ X, Ready R.work R.sched (k, q) t := by
    intro t ht
    rw [hX, mem_filter, mem_Ico] at ht
    exact ⟨⟨ht.1.1, fun h => hinc (h.mono (by omega))⟩, fun p hp => (hpred p hp).mono ht.1.1⟩
  have hcov : X.card ≤ Xa.card + (Xl.card + Xh.card) := by
    have hsub : X ⊆ Xa ∪ (Xl ∪ Xh) := by
      intro t ht
      by_cases hf : full t
      · exact mem_union_left _ (mem_filter.2 ⟨ht, hf⟩)
      · rcases h.cases (hready t ht) (mem_filter.1 ht).2 with
          ⟨s, s', rr, hw, hsj, ho, hfr, hfr', hx, hne⟩ | h3
        · rcases lt_or_gt_of_ne hne with hlt | hlt
          · refine mem_union_right _ (mem_union_right _ (mem_filter.2 ⟨mem_filter.2 ⟨ht, hf⟩,
              s'.job.1, hlt, s'.job.2, hx, s', rr, rfl, ho, hfr', ?_⟩))
            have := hfr.uses
            rw [hsj] at this
            exact this
          · exact mem_union_right _ (mem_union_left _ (mem_filter.2
              ⟨ht, s, s', rr, hw, hsj, ho, hfr, hfr', hx, hlt⟩))
        · exact absurd h3 hf
    exact (card_le_card hsub).trans ((card_union_le _ _).trans
      (Nat.add_le_add_left (card_union_le _ _) _))
  have hl : Xl.card ≤ DB := by
    refine le_trans (card_le_card ?_) (hDB (r + l))
    intro t ht
    obtain ⟨h2, h3⟩ := mem_filter.1 ht
    exact mem_filter.2 ⟨mem_range.2 (mem_Ico.1 (hXI h2)).2, h3⟩
  set A := univ.filter (fun i => i < k) with hA
  set B := univ.filter (fun i => k < i) with hB
  have hh : Xh.card ≤ ∑ i ∈ A, H i := by
    have hsub : Xh ⊆ A.biUnion (fun i => (Ico r (r + l)).filter
        (fun t => ∃ p, (i, p) ∈ R.sched t ∧ InSection S R (S.Uses k) (i, p) t)) := by
      intro t ht
      obtain ⟨h2, i, hi, h3⟩ := mem_filter.1 ht
      exact mem_biUnion.2 ⟨i, by simpa [hA] using hi, mem_filter.2 ⟨hXI (mem_filter.1 h2).1, h3⟩⟩
    exact (card_le_card hsub).trans (card_biUnion_le.trans
      (sum_le_sum (fun i hi => hH i (mem_filter.1 hi).2)))
  have hdisj : Disjoint Xa Xh := by
    rw [disjoint_left]
    intro s h1 h2
    exact (mem_filter.1 (mem_filter.1 h2).1).2 (mem_filter.1 h1).2
  have hexec : m * Xa.card + Xh.card ≤ ∑ i ∈ A, W i + ∑ i ∈ B, I i := by
    have hsubX : Xa ∪ Xh ⊆ Ico r (r + l) := by
      intro s hs
      rcases mem_union.1 hs with h | h
      · exact hXI (mem_filter.1 h).1
      · exact hXI (mem_filter.1 (mem_filter.1 h).1).1
    have h2 := sum_card_slots h.valid A (Xa ∪ Xh) hsubX
    rw [sum_union hdisj] at h2
    have h4 : Xh.card ≤ ∑ s ∈ Xh, ((R.sched s).filter (fun j => j.1 ∈ A)).card := by
      rw [card_eq_sum_ones]
      apply sum_le_sum
      intro s hs
      obtain ⟨i, hi, p, hip, -⟩ := (mem_filter.1 hs).2
      rw [Nat.one_le_iff_ne_zero, ← Nat.pos_iff_ne_zero, card_pos]
      exact ⟨(i, p), mem_filter.2 ⟨hip, by simpa [hA] using hi⟩⟩
    have h5 : ∑ i ∈ A, min (Xa ∪ Xh).card (busySlots R.sched i r (r + l)) ≤ ∑ i ∈ A, W i := by
      apply sum_le_sum
      intro i hi
      exact (min_le_right _ _).trans (hW i (mem_filter.1 hi).2)
    have h6 : m * Xa.card ≤ ∑ s ∈ Xa, ((R.sched s).filter (fun j => j.1 ∈ A)).card +
        ∑ s ∈ Xa, ((R.sched s).filter (fun j => j.1 ∈ B ∧ InSection S R P j s)).card := by
      rw [← sum_add_distrib, Nat.mul_comm, ← smul_eq_mul, ← sum_const]
      apply sum_le_sum
      intro t ht
      obtain ⟨hX1, hc, hall⟩ := mem_filter.1 ht
      rw [← hc]
      refine le_trans (card_le_card ?_) (card_union_le _ _)
      intro j hj
      obtain ⟨a, ha, hact⟩ := hall j hj
      by_cases hlt : j.1 < k
      · exact mem_union_left _ (mem_filter.2 ⟨hj, by simpa [hA] using hlt⟩)
      · refine mem_union_right _ (mem_filter.2 ⟨hj, ?_, ?_⟩)
        · rw [hB, mem_filter]
          refine ⟨mem_univ _, lt_of_le_of_ne (not_lt.1 hlt) ?_⟩
          intro e
          have := ready_eq (hready t hX1) (h.valid.ready t j hj) e
          exact (mem_filter.1 hX1).2 (this ▸ hj)
        · rcases hact with e | ⟨s, s', rr, hw, ho, hf, hf', ha', hsj⟩
          · exact absurd (e ▸ ha) hlt
          · refine ⟨s', rr, hsj, ho, hf', hP a ha rr ?_⟩
            rw [← ha']
            exact hf.uses
    have h7 : ∑ s ∈ Xa, ((R.sched s).filter (fun j => j.1 ∈ B ∧ InSection S R P j s)).card ≤ ∑ i ∈ B, I i := by
      refine (sum_card_marked h.valid B (fun _ j t => InSection S R P j t) Xa).trans (sum_le_sum ?_)
      intro i hi
      refine le_trans (card_le_card ?_) (hI i (mem_filter.1 hi).2)
      exact filter_subset_filter _ ((filter_subset _ _).trans hXI)
    omega
  -- arithmetic
  have harith : ∀ a x Wt Ht : ℕ, x ≤ Ht → m * a + x ≤ Wt + m * Ic → a + x ≤ Ht + Ic + (Wt - Ht) / m := by
    intro a x Wt Ht hx hle
    rcases le_total a Ic with hc | hc
    · refine le_trans ?_ (Nat.le_add_right _ _)
      omega
    · obtain ⟨b, rfl⟩ := Nat.exists_eq_add_of_le hc
      rw [Nat.mul_add] at hle
      obtain ⟨c, rfl⟩ := Nat.exists_eq_add_of_le hx
      have h3 : b - c ≤ (Wt - (x + c)) / m := by
        rw [Nat.le_div_iff_mul_le hm, Nat.sub_mul]
        have : c ≤ c * m := Nat.le_mul_of_pos_right _ hm
        have e : b * m = m * b := Nat.mul_comm _ _
        omega
      omega
  have := harith Xa.card Xh.card _ _ hh (hexec.trans (Nat.add_le_add_left hIc _))
  omega

end Verif.Spec
