/-
The delays of a job in runs with semaphores under global scheduling.
-/
import Verif.Lemmas.LpGlobal
import Verif.Lemmas.LpSem
import Verif.Lemmas.Bar
import Verif.Spec.GlobalLocks

namespace Verif.SR.Lp.Glob
open Verif.Spec Finset
open Verif.SR.Msrp (system)
open Verif.SR.Fmlp (totalNumRequests)

variable {info : Info} {k : Fin info.length} {m : ℕ} {R : LockRun info.length}

theorem resOf_for {z : Section info.length} {q : ℕ} (h : (system info).For z q) : resOf z = q := by
  obtain ⟨a, ha, rfl⟩ := for_iff.1 h
  exact resOf_some ha

theorem for_resOf {z : Section info.length} {a : Request} (h : (info.get z.job.1).requests[z.idx]? = some a) :
    (system info).For z (resOf z) := for_iff.2 ⟨a, h, (resOf_some h).symm⟩

/-- Why a job of task `k` does not execute: in the slots `Xd`, it waits for the resource of an executing section `sec`; in
the slots `Xf`, `m` jobs of other tasks execute.  Some of those execute sections, as stated by `ind`. -/
structure Split (info : Info) (k : Fin info.length) (m : ℕ) (R : LockRun info.length) (Xd Xf : Finset ℕ)
    (sec : ℕ → Section info.length) (ind : ℕ → Section info.length → Prop) : Prop where
  disjoint : Disjoint Xd Xf
  direct : ∀ t ∈ Xd, R.Owns (sec t) t ∧ (sec t).job ∈ R.sched t ∧ (sec t).job.1 ≠ k
  access : ∀ t ∈ Xd, ∃ r ∈ (info.get k).requests, r.resId = resOf (sec t)
  full : ∀ t ∈ Xf, (R.sched t).card = m ∧ ∀ j ∈ R.sched t, j.1 ≠ k
  section_ : ∀ t ∈ Xf, ∀ z, ind t z → R.Owns z t ∧ z.job ∈ R.sched t ∧ k < z.job.1
  stall : ∀ t ∈ Xf, ∀ j ∈ R.sched t, k < j.1 → (∃ z, z.job.1 = j.1 ∧ ind t z) ∨ totalNumRequests (info.get k) ≠ 0

open Classical in
/-- All sections concerned. -/
noncomputable def allSections (k : Fin info.length) (R : LockRun info.length) (X : Finset ℕ) :
    Finset (Section info.length) :=
  (X.biUnion (fun t => (R.sched t).biUnion (system info).sections)).filter
    (fun z => z.job.1 ≠ k ∧ ∃ t ∈ X, R.Owns z t ∧ z.job ∈ R.sched t)

theorem mem_allSections (h : RequestRun m (system info) R) {X : Finset ℕ} {z : Section info.length} :
    z ∈ allSections k R X ↔ z.job.1 ≠ k ∧ ∃ t ∈ X, R.Owns z t ∧ z.job ∈ R.sched t := by
  classical
  unfold allSections
  rw [mem_filter]
  refine ⟨fun h => h.2, fun hz => ⟨?_, hz⟩⟩
  obtain ⟨_, t, ht, ho, hj⟩ := hz
  exact mem_biUnion.2 ⟨t, ht, mem_biUnion.2 ⟨z.job, hj, LockSystem.mem_sections.2 ⟨rfl, h.declared z ho.1⟩⟩⟩

/-- Slots in which the job is directly delayed by a section. -/
def directSlots (Xd : Finset ℕ) (sec : ℕ → Section info.length) (z : Section info.length) : ℕ :=
  (Xd.filter (fun t => sec t = z)).card

open Classical in
/-- Slots in which a section executes although the job does not wait for it. -/
noncomputable def indirectSlots (Xf : Finset ℕ) (ind : ℕ → Section info.length → Prop) (z : Section info.length) : ℕ :=
  (Xf.filter (fun t => ind t z)).card

open Classical in
/-- Other slots in which a task executes. -/
noncomputable def plainSlots (R : LockRun info.length) (Xf : Finset ℕ) (ind : ℕ → Section info.length → Prop)
    (x : Fin info.length) : ℕ :=
  (Xf.filter (fun t => (∃ p, (x, p) ∈ R.sched t) ∧ ¬ ∃ z, z.job.1 = x ∧ ind t z)).card

theorem workloadBound_eq {t : TaskInfo} {L : ℕ} (hRD : t.response ≤ t.deadline) (hC : t.cost ≤ t.response) :
    workloadBound t L = gwork t.cost t.period (L + t.response - t.cost) := by
  unfold workloadBound gwork
  have e : ∀ s, s = t.deadline - t.response → L + t.deadline - t.cost - s = L + t.response - t.cost := by
    rintro s rfl
    omega
  have e' : (if t.deadline > t.response then t.deadline - t.response else 0) = t.deadline - t.response := by
    split_ifs <;> omega
  simp only [e', e _ rfl]
  congr 2
  have := Nat.div_add_mod (L + t.response - t.cost) t.period
  rw [Nat.mul_comm] at this
  omega

/-- What is assumed about the tasks. -/
structure Good (info : Info) : Prop where
  period : ∀ t ∈ info, 0 < t.period
  entry : OneEntry info
  deadline : ∀ t ∈ info, t.response ≤ t.deadline
  response : ∀ t ∈ info, t.response ≤ t.period
  cost : ∀ t ∈ info, t.cost ≤ t.response
  prio : ∀ x : Fin info.length, (info.get x).priority = x

section
variable {Xd Xf : Finset ℕ} {sec : ℕ → Section info.length} {ind : ℕ → Section info.length → Prop}
  (hs : Split info k m R Xd Xf sec ind) (h : SuspendRun m (system info) R)
include hs h

/-- The full slots in which a task executes. -/
theorem Split.count (x : Fin info.length) (hx : x ≠ k) :
    (by classical exact (Xf.filter (fun t => ∃ p, (x, p) ∈ R.sched t)).card) =
      plainSlots R Xf ind x + ∑ z ∈ ofTask (allSections k R (Xd ∪ Xf)) x, indirectSlots Xf ind z := by
  classical
  have hcard : ∑ z ∈ ofTask (allSections k R (Xd ∪ Xf)) x, indirectSlots Xf ind z =
      (Xf.filter (fun t => ∃ z, z.job.1 = x ∧ ind t z)).card := by
    unfold indirectSlots
    rw [← card_biUnion]
    · congr 1
      ext t
      rw [mem_biUnion, mem_filter]
      constructor
      · rintro ⟨z, hz, ht⟩
        obtain ⟨ht, hi⟩ := mem_filter.1 ht
        exact ⟨ht, z, Fin.ext (mem_filter.1 hz).2, hi⟩
      · rintro ⟨ht, z, hz, hi⟩
        obtain ⟨h1, h2, h3⟩ := hs.section_ t ht z hi
        refine ⟨z, mem_filter.2 ⟨(mem_allSections h.toRequestRun).2 ⟨h3.ne', t, mem_union_right _ ht, h1, h2⟩, ?_⟩,
          mem_filter.2 ⟨ht, hi⟩⟩
        rw [hz]
    · intro z hz z' hz' hne
      change Disjoint _ _
      rw [disjoint_left]
      intro t ht ht'
      obtain ⟨ht, hi⟩ := mem_filter.1 ht
      obtain ⟨_, hi'⟩ := mem_filter.1 ht'
      obtain ⟨h1, h2, h3⟩ := hs.section_ t ht z hi
      obtain ⟨h1', h2', h3'⟩ := hs.section_ t ht z' hi'
      have e : z.job.1 = z'.job.1 := Fin.ext ((mem_filter.1 hz).2.trans (mem_filter.1 hz').2.symm)
      have e2 := ready_eq (h.valid.ready t _ h2) (h.valid.ready t _ h2') e
      exact hne (h.section_unique h1.1 h1'.1 e2 (h.owns_active h1).1 (h.owns_active h1).2 (h.owns_active h1').1
        (h.owns_active h1').2)
  rw [hcard]
  unfold plainSlots
  rw [← card_union_of_disjoint]
  · congr 1
    ext t
    simp only [mem_union, mem_filter]
    constructor
    · rintro ⟨ht, p, hp⟩
      by_cases hc : ∃ z, z.job.1 = x ∧ ind t z
      · exact Or.inr ⟨ht, hc⟩
      · exact Or.inl ⟨ht, ⟨p, hp⟩, hc⟩
    · rintro (⟨ht, hp, _⟩ | ⟨ht, z, hz, hi⟩)
      · exact ⟨ht, hp⟩
      · obtain ⟨_, h2, _⟩ := hs.section_ t ht z hi
        refine ⟨ht, z.job.2, ?_⟩
        rw [← hz]
        exact h2
  · rw [disjoint_left]
    intro t ht ht'
    exact (mem_filter.1 ht).2.2 (mem_filter.1 ht').2

theorem Split.direct_sum (x : Fin info.length) (hx : x ≠ k) :
    ∑ z ∈ ofTask (allSections k R (Xd ∪ Xf)) x, directSlots Xd sec z =
      (Xd.filter (fun t => (sec t).job.1 = x)).card := by
  classical
  rw [card_eq_sum_card_fiberwise (f := sec) (t := ofTask (allSections k R (Xd ∪ Xf)) x)]
  · apply sum_congr rfl
    intro z hz
    unfold directSlots
    congr 1
    ext t
    simp only [mem_filter]
    constructor
    · rintro ⟨ht, rfl⟩
      exact ⟨⟨ht, Fin.ext (mem_filter.1 hz).2⟩, rfl⟩
    · rintro ⟨⟨ht, _⟩, e⟩
      exact ⟨ht, e⟩
  · intro t ht
    obtain ⟨ht, hx⟩ := mem_filter.1 (mem_coe.1 ht)
    obtain ⟨h1, h2, h3⟩ := hs.direct t ht
    refine mem_coe.2 (mem_filter.2 ⟨(mem_allSections h.toRequestRun).2 ⟨h3, t, mem_union_left _ ht, h1, h2⟩, ?_⟩)
    rw [hx]

theorem Split.direct_total : ∑ z ∈ allSections k R (Xd ∪ Xf), directSlots Xd sec z = Xd.card := by
  classical
  rw [card_eq_sum_card_fiberwise (f := sec) (t := allSections k R (Xd ∪ Xf))]
  · rfl
  · intro t ht
    have ht := mem_coe.1 ht
    obtain ⟨h1, h2, h3⟩ := hs.direct t ht
    exact mem_coe.2 ((mem_allSections h.toRequestRun).2 ⟨h3, t, mem_union_left _ ht, h1, h2⟩)

/-- The delays of a job. -/
theorem Split.delay (hg : Good info) {r : ℕ}
    (hb : BoundedBefore R.work R.sched (fun i => (info.get i).response) (r + (info.get k).response))
    (hX : ∀ t ∈ Xd ∪ Xf, r ≤ t ∧ t < r + (info.get k).response) :
    Delay info k m (allSections k R (Xd ∪ Xf)) (directSlots Xd sec) (indirectSlots Xf ind) (plainSlots R Xf ind)
      Xf.card where
  own := by
    classical
    unfold plainSlots
    rw [card_eq_zero, filter_eq_empty_iff]
    rintro t ht ⟨⟨p, hp⟩, _⟩
    exact (hs.full t ht).2 _ hp rfl
  other := fun z hz => ((mem_allSections h.toRequestRun).1 hz).1
  low := by
    classical
    intro z _ hlt
    unfold indirectSlots
    rw [card_eq_zero, filter_eq_empty_iff]
    intro t ht hi
    exact absurd (hs.section_ t ht z hi).2.2 (not_lt.2 hlt.le)
  length := by
    classical
    intro z hz
    obtain ⟨_, t, _, ho, _⟩ := (mem_allSections h.toRequestRun).1 hz
    obtain ⟨q, hq, _⟩ := h.declared z ho.1
    obtain ⟨a, ha, rfl⟩ := lock_req hq
    refine ⟨a, ha, ?_⟩
    have hlen := h.length z _ ho.1 hq
    refine le_trans ?_ hlen
    unfold directSlots indirectSlots
    rw [← card_union_of_disjoint (disjoint_filter_filter hs.disjoint)]
    apply card_le_card
    intro t ht
    rw [mem_filter, mem_Ico]
    rcases mem_union.1 ht with ht | ht
    · obtain ⟨ht', rfl⟩ := mem_filter.1 ht
      obtain ⟨h1, h2, _⟩ := hs.direct t ht'
      exact ⟨h1.2, h2⟩
    · obtain ⟨ht, hi⟩ := mem_filter.1 ht
      obtain ⟨h1, h2, _⟩ := hs.section_ t ht z hi
      exact ⟨h1.2, h2⟩
  count := by
    classical
    intro x d a ha
    refine le_trans (le_of_eq ?_) (sections_le_instances h.toRequestRun hb hg.period (fun _ => le_rfl) (k := k) ha
      le_rfl (lo := r) (by omega) (F := (allSections k R (Xd ∪ Xf)).filter (fun z => z.job.1 = x ∧ z.idx = d)) ?_)
    · congr
    · intro z hz
      obtain ⟨hz, h1, h2⟩ := mem_filter.1 hz
      obtain ⟨_, t, ht, ho, _⟩ := (mem_allSections h.toRequestRun).1 hz
      exact ⟨ho.1, h1, h2, t, (hX t ht).1, (hX t ht).2, (h.owns_active ho).1, (h.owns_active ho).2⟩
  workload := by
    classical
    intro x hx
    have hmem := List.get_mem info x
    rw [workloadBound_eq (hg.deadline _ hmem) (hg.cost _ hmem)]
    have h1 := wc_work (prio := fun _ => 0) (p := 0) h.sporadic h.valid (E := fun i => (info.get i).response) (i := x)
      (hg.period _ hmem) ((hg.cost _ hmem).trans (hg.response _ hmem)) (hg.cost _ hmem) hb
    rw [← busySlots_eq_intf] at h1
    refine le_trans ?_ h1
    rw [sum_add_distrib, hs.direct_sum h x hx]
    have h2 := hs.count h x hx
    have h3 : (Xd.filter (fun t => (sec t).job.1 = x)).card +
        (Xf.filter (fun t => ∃ p, (x, p) ∈ R.sched t)).card ≤
        busySlots R.sched x r (r + (info.get k).response) := by
      rw [← card_union_of_disjoint (disjoint_filter_filter hs.disjoint)]
      unfold busySlots
      apply card_le_card
      intro t ht
      rw [mem_filter, mem_Ico]
      rcases mem_union.1 ht with ht | ht
      · obtain ⟨ht, e⟩ := mem_filter.1 ht
        refine ⟨hX t (mem_union_left _ ht), (sec t).job.2, ?_⟩
        rw [← e]
        exact (hs.direct t ht).2.1
      · obtain ⟨ht, e⟩ := mem_filter.1 ht
        exact ⟨hX t (mem_union_right _ ht), e⟩
    omega
  slack := by
    classical
    intro x hx
    rw [← hs.count h x hx]
    exact card_filter_le _ _
  full := by
    classical
    rw [sum_congr rfl (fun x hx => (hs.count h x (mem_filter.1 hx).2).symm)]
    have e : ∀ x, (Xf.filter (fun t => ∃ p, (x, p) ∈ R.sched t)).card =
        ∑ t ∈ Xf, if ∃ p, (x, p) ∈ R.sched t then 1 else 0 := fun x => card_filter _ _
    simp only [e]
    rw [sum_comm]
    have e2 : ∀ t ∈ Xf, ∑ x ∈ univ.filter (fun x => x ≠ k), (if ∃ p, (x, p) ∈ R.sched t then 1 else 0) = m := by
      intro t ht
      obtain ⟨h1, h2⟩ := hs.full t ht
      have h3 := card_slot h.valid t (univ.filter (fun x => x ≠ k))
      rw [← card_filter]
      rw [filter_true_of_mem (s := R.sched t) (by intro j hj; simpa using h2 j hj), h1] at h3
      rw [h3]
    rw [sum_congr rfl e2, sum_const, smul_eq_mul, Nat.mul_comm]
  independent := by
    classical
    intro h0 x hx
    unfold plainSlots
    rw [card_eq_zero, filter_eq_empty_iff]
    rintro t ht ⟨⟨p, hp⟩, hno⟩
    rcases hs.stall t ht _ hp hx with h1 | h1
    · exact hno h1
    · exact h1 h0
  access := by
    intro z _ hpos
    obtain ⟨t, ht⟩ := card_pos.1 hpos
    obtain ⟨ht', rfl⟩ := mem_filter.1 ht
    exact hs.access t ht'

end

/-! ### Results -/

/-- No bound is too small for a feasible delay. -/
theorem solved_lt {solve : Solver} (hsolve : ∀ P x, solve P = some x → P.Maximum x) {ti : TaskInfo} {P : Program} {b : ℕ}
    (hb : solved solve ti P = some b) {y : Var → ℚ} (hy : P.Feasible y) {d : ℕ} (hd : termSum y P.objective = d)
    (hword : ti.response < ulongMax) (hc : ti.response + 1 ≤ d + ti.cost) : ti.response < ti.cost + b := by
  unfold solved at hb
  split at hb
  · cases hb
    omega
  · rename_i x hx
    have hle := (hsolve P x hx).best y hy
    rw [hd] at hle
    simp only at hb
    split_ifs at hb with h1 h2
    · exfalso
      have : ((ti.response - ti.cost : ℕ) : ℚ) ≤ d := by
        have : ti.response - ti.cost ≤ d := by omega
        exact_mod_cast this
      linarith [h2.1]
    · cases hb
      have h3 : (d : ℤ) ≤ ⌊termSum x P.objective⌋ := Int.le_floor.2 (by exact_mod_cast hle)
      omega

theorem mapM_get {α β : Type} (f : α → Option β) : ∀ (l : List α) (bs : List β), l.mapM f = some bs →
    ∀ (i : ℕ) (a : α), l[i]? = some a → ∃ b, f a = some b ∧ bs[i]? = some b := by
  intro l
  induction l with
  | nil => intro bs _ i a ha; simp at ha
  | cons c l ih =>
    intro bs h i a ha
    rw [List.mapM_cons] at h
    simp only [Option.bind_eq_bind, Option.bind_eq_some_iff, Option.pure_def, Option.some.injEq] at h
    obtain ⟨b, hb, cs, hcs, rfl⟩ := h
    cases i with
    | zero =>
      simp only [List.getElem?_cons_zero, Option.some.injEq] at ha
      subst ha
      exact ⟨b, hb, rfl⟩
    | succ i =>
      rw [List.getElem?_cons_succ] at ha
      obtain ⟨b', h1, h2⟩ := ih cs hcs i a ha
      exact ⟨b', h1, by rwa [List.getElem?_cons_succ]⟩

/-- The loop over the tasks. -/
theorem bounds_get {solve : Solver} {program : ℕ → TaskInfo → Option Program} {bs : List ℕ}
    (h : bounds solve info program = some bs) (i : Fin info.length) :
    (∀ x : Fin info.length, (info.get x).priority = x) ∧
    ∃ P b, program i (info.get i) = some P ∧ solved solve (info.get i) P = some b ∧ bs[(i : ℕ)]? = some b := by
  unfold bounds at h
  have e : (tasks info)[(i : ℕ)]? = some ((i : ℕ), info.get i) := by simp [tasks]
  obtain ⟨b, h1, h2⟩ := mapM_get _ _ _ h i _ e
  split_ifs at h1 with hidx
  simp only [Option.bind_eq_some_iff] at h1
  obtain ⟨P, hP, hs⟩ := h1
  constructor
  · intro x
    unfold indexIsPriority at hidx
    rw [List.all_eq_true] at hidx
    have := hidx _ (mem_tasks.2 ⟨x, rfl⟩)
    simpa using this
  · exact ⟨P, b, hP, hs, h2⟩

end Verif.SR.Lp.Glob
