/-
The demand of a processor under partitioned EDF with the MSRP: solutions of the linear program in terms of numbers of
requests.
-/
import Verif.Lemmas.LpPedfSol

namespace Verif.SR.Pedf
open Verif.Spec Finset
open Verif.SR.Msrp (system uses_iff)

variable {info : Info} {k t : ℕ} {mode : Mode} {spin arr : Fin info.length → ℕ → ℕ} {a0 : Option (Fin info.length × ℕ)}

/-- The tasks of a processor. -/
def procTasks (info : Info) (c : ℕ) : Finset (Fin info.length) := univ.filter (fun i => (info.get i).cluster = c)

theorem mem_procTasks {c : ℕ} {i : Fin info.length} : i ∈ procTasks info c ↔ (info.get i).cluster = c := by
  simp [procTasks]

/-- The tasks of other processors. -/
def otherTasks (info : Info) (c : ℕ) : Finset (Fin info.length) := univ.filter (fun i => (info.get i).cluster ≠ c)

theorem mem_otherTasks {c : ℕ} {i : Fin info.length} : i ∈ otherTasks info c ↔ (info.get i).cluster ≠ c := by
  simp [otherTasks]

/-- Numbers of requests of other tasks that delay local tasks by spinning and by arrival blocking, and the local task and
the resource that cause arrival blocking. -/
structure Sol (info : Info) (mode : Mode) (k t : ℕ) (spin arr : Fin info.length → ℕ → ℕ)
    (a0 : Option (Fin info.length × ℕ)) : Prop where
  joint : ∀ x ∈ otherTasks info k, ∀ q, arr x q + spin x q ≤ remoteJobs (info.get x) t * Lp.numRequests (info.get x) q
  res : ∀ x ∈ otherTasks info k, ∀ q, arr x q ≠ 0 → ∃ i, a0 = some (i, q)
  ac : mode = .ac → a0 = none
  later : ∀ i q, a0 = some (i, q) → (info.get i).cluster = k ∧ t < (info.get i).deadline ∧
    0 < Lp.numRequests (info.get i) q ∧ (system info).Global q
  perProc : ∀ c, c ≠ k → ∀ q, ∑ x ∈ procTasks info c, spin x q ≤
    ∑ i ∈ procTasks info k, localJobs mode (info.get i) t * Lp.numRequests (info.get i) q
  perTask : ∀ x ∈ otherTasks info k, ∀ q, arr x q + spin x q ≤
    ∑ i ∈ procTasks info k, remoteJobs (info.get i) (info.get x).deadline * Lp.numRequests (info.get i) q *
      remoteJobs (info.get x) t
  once : ∀ c, c ≠ k → ∀ q, ∑ x ∈ procTasks info c, arr x q ≤ 1

/-- Time that the local task that causes arrival blocking uses the resource. -/
def ownLength (info : Info) : Option (Fin info.length × ℕ) → ℕ
  | none => 0
  | some (i, q) => requestLength (info.get i) q

/-- The total delay. -/
def delay (info : Info) (k : ℕ) (spin arr : Fin info.length → ℕ → ℕ) (a0 : Option (Fin info.length × ℕ)) : ℕ :=
  ∑ x ∈ otherTasks info k, ∑ q ∈ (Lp.allResources info).toFinset, requestLength (info.get x) q * (spin x q + arr x q) +
    ownLength info a0

/-- Possible demands in an interval of length `t`. -/
def Demand (info : Info) (k t d : ℕ) : Prop :=
  ∃ spin arr a0, Sol info .pdc k t spin arr a0 ∧ d = dbf info k t + delay info k spin arr a0

/-! ### Feasible assignments -/

open Classical in
/-- The assignment of a solution. -/
noncomputable def assign (info : Info) (k : ℕ) (spin arr : Fin info.length → ℕ → ℕ) (a0 : Option (Fin info.length × ℕ)) :
    Var → ℚ
  | .spin i q => if h : i < info.length then (if (info.get ⟨i, h⟩).cluster = k then 0 else (spin ⟨i, h⟩ q : ℚ)) else 0
  | .arrival i q => if h : i < info.length then
      (if (info.get ⟨i, h⟩).cluster = k then (if a0 = some (⟨i, h⟩, q) then 1 else 0) else (arr ⟨i, h⟩ q : ℚ)) else 0
  | .enabled q => if ∃ i, a0 = some (i, q) then 1 else 0
  | .cancelled _ _ => 0

open Classical in
theorem assign_spin (i : Fin info.length) (q : ℕ) : assign info k spin arr a0 (.spin i q) =
    if (info.get i).cluster = k then 0 else (spin i q : ℚ) := by
  unfold assign
  simp only
  rw [dif_pos i.2]

open Classical in
theorem assign_arrival (i : Fin info.length) (q : ℕ) : assign info k spin arr a0 (.arrival i q) =
    if (info.get i).cluster = k then (if a0 = some (i, q) then 1 else 0) else (arr i q : ℚ) := by
  unfold assign
  simp only
  rw [dif_pos i.2]

theorem num_ne_zero {i : Fin info.length} {q : ℕ} (h : 0 < Lp.numRequests (info.get i) q) : (system info).Uses i q := by
  unfold Lp.numRequests at h
  rcases hf : (info.get i).requests.find? (fun r => r.resId = q) with _ | r
  · rw [hf] at h
    exact absurd h (by simp)
  · exact uses_iff.2 ⟨r, List.mem_of_find?_eq_some hf, by simpa using List.find?_some hf⟩

theorem mem_localIds {c : ℕ} {i : ℕ × TaskInfo} :
    i ∈ localIds info c ↔ ∃ j ∈ procTasks info c, i = ((j : ℕ), info.get j) := by
  unfold localIds
  rw [List.mem_filter, Lp.mem_tasks]
  constructor
  · rintro ⟨⟨j, rfl⟩, h⟩
    exact ⟨j, mem_procTasks.2 (by simpa using h), rfl⟩
  · rintro ⟨j, h, rfl⟩
    exact ⟨⟨j, rfl⟩, by simpa using mem_procTasks.1 h⟩

theorem mem_remoteIds {c : ℕ} {i : ℕ × TaskInfo} :
    i ∈ remoteIds info c ↔ ∃ j ∈ otherTasks info c, i = ((j : ℕ), info.get j) := by
  unfold remoteIds
  rw [List.mem_filter, Lp.mem_tasks]
  constructor
  · rintro ⟨⟨j, rfl⟩, h⟩
    exact ⟨j, mem_otherTasks.2 (by simpa using h), rfl⟩
  · rintro ⟨j, h, rfl⟩
    exact ⟨⟨j, rfl⟩, by simpa using mem_otherTasks.1 h⟩

theorem localIds_sum {M : Type} [AddCommMonoid M] (c : ℕ) (g : ℕ × TaskInfo → M) :
    ((localIds info c).map g).sum = ∑ i ∈ procTasks info c, g (i, info.get i) := by
  exact Lp.tasks_sum (fun t : ℕ × TaskInfo => t.2.cluster = c) g

theorem localTasks_sum {M : Type} [AddCommMonoid M] (c : ℕ) (g : TaskInfo → M) :
    ((localTasks info c).map g).sum = ∑ i ∈ procTasks info c, g (info.get i) := by
  exact Lp.info_sum (fun t : TaskInfo => t.cluster = c) g

theorem resources_sum {M : Type} [AddCommMonoid M] (g : ℕ → M) :
    ((Lp.allResources info).map g).sum = ∑ q ∈ (Lp.allResources info).toFinset, g q := by
  exact (List.sum_toFinset _ (List.nodup_dedup _)).symm

theorem dbf_eq : dbf info k t = ∑ i ∈ procTasks info k, pdcJobs (info.get i) t * (info.get i).cost := localTasks_sum _ _

theorem arrivalCurve_eq :
    arrivalCurve info k t = ∑ i ∈ procTasks info k, acJobs (info.get i) t * (info.get i).cost := localTasks_sum _ _

open Classical in
theorem enabled_le (l : List ℕ) (hl : l.Nodup) : (l.map (fun q => assign info k spin arr a0 (.enabled q))).sum ≤ 1 := by
  rw [← List.sum_toFinset _ hl]
  unfold assign
  simp only
  rw [Finset.sum_boole]
  have : (l.toFinset.filter (fun q => ∃ i, a0 = some (i, q))).card ≤ 1 := by
    rw [card_le_one]
    intro a ha b hb
    obtain ⟨i, hi⟩ := (mem_filter.1 ha).2
    obtain ⟨j, hj⟩ := (mem_filter.1 hb).2
    rw [hi] at hj
    cases hj
    rfl
  exact_mod_cast this

theorem Sol.feasible (h : Sol info mode k t spin arr a0) (h1 : Lp.OneEntry info) :
    (msrpProgram info mode k t).Feasible (assign info k spin arr a0) := by
  classical
  have hen : ∀ i q, a0 = some (i, q) → assign info k spin arr a0 (.enabled q) = 1 := fun i q ha => if_pos ⟨i, ha⟩
  have hen0 : ∀ q, (∀ i, a0 ≠ some (i, q)) → assign info k spin arr a0 (.enabled q) = 0 := fun q ha =>
    if_neg (fun ⟨i, hi⟩ => ha i hi)
  have hen2 : ∀ q, assign info k spin arr a0 (.enabled q) = 0 ∨ assign info k spin arr a0 (.enabled q) = 1 := by
    intro q
    by_cases ha : ∃ i, a0 = some (i, q)
    · exact Or.inr (if_pos ha)
    · exact Or.inl (if_neg ha)
  have hcast : ∀ (s : Finset (Fin info.length)) (f : Fin info.length → ℕ) (q : ℕ),
      ((∑ x ∈ s, f x : ℕ) : ℚ) = ∑ x ∈ s, (f x : ℚ) := fun s f q => by push_cast; rfl
  rw [feasible_iff]
  constructor
  · intro i hi r hr
    obtain ⟨hi, hd⟩ := List.mem_filter.1 hi
    obtain ⟨j, hj, rfl⟩ := mem_localIds.1 hi
    simp only [decide_eq_true_eq] at hd
    simp only
    rw [assign_arrival, if_pos (mem_procTasks.1 hj)]
    rw [if_neg]
    intro ha
    have := (h.later _ _ ha).2.1
    omega
  · rw [localIds_sum]
    apply le_of_eq
    apply sum_eq_zero
    intro i hi
    apply List.sum_eq_zero
    intro y hy
    obtain ⟨r, _, rfl⟩ := List.mem_map.1 hy
    rw [assign_spin, if_pos (mem_procTasks.1 hi)]
  · intro i hi r hr
    obtain ⟨j, hj, rfl⟩ := mem_remoteIds.1 hi
    simp only at hr ⊢
    rw [assign_arrival, assign_spin, if_neg (mem_otherTasks.1 hj), if_neg (mem_otherTasks.1 hj)]
    have := h.joint j hj r.resId
    rw [h1.num hr] at this
    exact_mod_cast this
  · cases hm : mode
    · have := h.ac hm
      have e : ((Lp.allResources info).map (fun q => assign info k spin arr a0 (.enabled q))).sum = 0 := by
        apply List.sum_eq_zero
        intro y hy
        obtain ⟨q, _, rfl⟩ := List.mem_map.1 hy
        exact hen0 q (fun i hi => by rw [this] at hi; cases hi)
      rw [e]
      exact le_rfl
    · exact enabled_le _ (List.nodup_dedup _)
  · intro q hq
    refine ⟨hen2 q, ?_⟩
    by_cases ha : ∃ i, a0 = some (i, q)
    · obtain ⟨i, ha⟩ := ha
      rw [hen i q ha]
      obtain ⟨l1, l2, l3, _⟩ := h.later i q ha
      have : 1 ≤ laterRequests info k t q := by
        unfold laterRequests
        refine le_trans l3 (List.single_le_sum (fun _ _ => Nat.zero_le _) _ ?_)
        refine List.mem_map.2 ⟨info.get i, ?_, rfl⟩
        refine List.mem_filter.2 ⟨List.mem_filter.2 ⟨List.get_mem _ _, by simpa using l1⟩, by simpa using l2⟩
      exact_mod_cast this
    · rw [hen0 q (fun i hi => ha ⟨i, hi⟩)]
      exact Nat.cast_nonneg _
  · intro q hq
    rw [localIds_sum]
    have e : ∀ i ∈ procTasks info k, assign info k spin arr a0 (.arrival i q) = if a0 = some (i, q) then 1 else 0 := by
      intro i hi
      rw [assign_arrival, if_pos (mem_procTasks.1 hi)]
    rw [sum_congr rfl e]
    by_cases ha : ∃ i, a0 = some (i, q)
    · obtain ⟨i, ha⟩ := ha
      rw [hen i q ha, sum_boole]
      have : ((procTasks info k).filter (fun i => a0 = some (i, q))).card ≤ 1 := by
        rw [card_le_one]
        intro a ha b hb
        have e1 := (mem_filter.1 ha).2
        have e2 := (mem_filter.1 hb).2
        rw [e1] at e2
        cases e2
        rfl
      exact_mod_cast this
    · rw [hen0 q (fun i hi => ha ⟨i, hi⟩)]
      apply le_of_eq
      apply sum_eq_zero
      intro i _
      exact if_neg (fun hi => ha ⟨i, hi⟩)
  · apply le_of_eq
    apply List.sum_eq_zero
    intro y hy
    obtain ⟨q, hq, rfl⟩ := List.mem_map.1 hy
    apply hen0
    intro i hi
    obtain ⟨_, _, l3, l4⟩ := h.later i q hi
    exact (Msrp.mem_localResources (num_ne_zero l3)).1 (List.mem_filter.1 hq).1 l4
  · intro i hi q hq
    obtain ⟨j, rfl⟩ := Lp.mem_tasks.1 hi
    simp only
    rw [assign_arrival, assign_spin]
    constructor
    · split_ifs
      · exact zero_le_one
      · exact le_rfl
      · exact Nat.cast_nonneg _
    · split_ifs
      · exact le_rfl
      · exact Nat.cast_nonneg _
  · intro c hc q hq
    have hck : c ≠ k := by simpa using (List.mem_filter.1 hc).2
    rw [localIds_sum, localTasks_sum]
    have e : ∀ i ∈ procTasks info c, assign info k spin arr a0 (.spin i q) = (spin i q : ℚ) := by
      intro i hi
      rw [assign_spin, if_neg]
      rw [mem_procTasks.1 hi]
      exact hck
    rw [sum_congr rfl e]
    have := h.perProc c hck q
    exact_mod_cast this
  · intro i hi q hq
    obtain ⟨j, hj, rfl⟩ := mem_remoteIds.1 hi
    simp only
    rw [assign_spin, if_neg (mem_otherTasks.1 hj), localTasks_sum]
    have := h.perTask j hj q
    have : spin j q ≤ ∑ i ∈ procTasks info k, remoteJobs (info.get i) (info.get j).deadline *
      Lp.numRequests (info.get i) q * remoteJobs (info.get j) t := by omega
    exact_mod_cast this
  · intro c hc q hq
    have hck : c ≠ k := by simpa using (List.mem_filter.1 hc).2
    rw [localIds_sum]
    have e : ∀ i ∈ procTasks info c, assign info k spin arr a0 (.arrival i q) = (arr i q : ℚ) := by
      intro i hi
      rw [assign_arrival, if_neg]
      rw [mem_procTasks.1 hi]
      exact hck
    rw [sum_congr rfl e]
    by_cases ha : ∃ i, a0 = some (i, q)
    · obtain ⟨i, ha⟩ := ha
      rw [hen i q ha]
      have := h.once c hck q
      exact_mod_cast this
    · rw [hen0 q (fun i hi => ha ⟨i, hi⟩)]
      apply le_of_eq
      apply sum_eq_zero
      intro i hi
      have : arr i q = 0 := by
        by_contra hne
        have hio : i ∈ otherTasks info k := mem_otherTasks.2 (by rw [mem_procTasks.1 hi]; exact hck)
        exact ha (h.res i hio q hne)
      rw [this]
      rfl

theorem Sol.value (h : Sol info mode k t spin arr a0) :
    valueOf (assign info k spin arr a0) (msrpProgram info mode k t).objective = (delay info k spin arr a0 : ℚ) := by
  classical
  rw [objective_eq]
  have e1 := Lp.tasks_sum (info := info) (fun _ => True) (fun i => ((Lp.allResources info).map (fun q =>
      (requestLength i.2 q : ℚ) * (assign info k spin arr a0 (.spin i.1 q) + assign info k spin arr a0 (.arrival i.1 q)))).sum)
  simp only [decide_true, List.filter_true, Finset.filter_true] at e1
  rw [e1]
  simp only [resources_sum]
  have hsplit : (univ : Finset (Fin info.length)) = otherTasks info k ∪ procTasks info k := by
    ext i
    simp [otherTasks, procTasks, em']
  have hdis : Disjoint (otherTasks info k) (procTasks info k) := by
    rw [disjoint_left]
    intro i h2 h3
    exact (mem_otherTasks.1 h2) (mem_procTasks.1 h3)
  rw [hsplit, sum_union hdis]
  unfold delay
  push_cast
  congr 1
  · apply sum_congr rfl
    intro i hi
    apply sum_congr rfl
    intro q _
    rw [assign_spin, assign_arrival, if_neg (mem_otherTasks.1 hi), if_neg (mem_otherTasks.1 hi)]
  · have e2 : ∀ i ∈ procTasks info k, ∀ q ∈ (Lp.allResources info).toFinset, (requestLength (info.get i) q : ℚ) *
        (assign info k spin arr a0 (.spin i q) + assign info k spin arr a0 (.arrival i q)) =
        if a0 = some (i, q) then (requestLength (info.get i) q : ℚ) else 0 := by
      intro i hi q _
      rw [assign_spin, assign_arrival, if_pos (mem_procTasks.1 hi), if_pos (mem_procTasks.1 hi)]
      split_ifs <;> simp
    rw [sum_congr rfl (fun i hi => sum_congr rfl (e2 i hi))]
    cases ha : a0 with
    | none => simp [ownLength]
    | some p =>
      obtain ⟨i0, q0⟩ := p
      obtain ⟨l1, _, l3, _⟩ := h.later i0 q0 ha
      rw [sum_eq_single_of_mem i0 (mem_procTasks.2 l1)]
      · rw [sum_eq_single_of_mem q0]
        · rw [if_pos rfl]
          rfl
        · rw [List.mem_toFinset, Lp.mem_allResources]
          exact ⟨i0, num_ne_zero l3⟩
        · intro q _ hne
          rw [if_neg]
          intro he
          cases he
          exact hne rfl
      · intro i _ hne
        apply sum_eq_zero
        intro q _
        rw [if_neg]
        intro he
        cases he
        exact hne rfl

/-- The bound covers the delay of all solutions. -/
theorem Sol.le_solved (h : Sol info mode k t spin arr a0) (h1 : Lp.OneEntry info) {solve : Solver}
    (hs : ∀ P x, solve P = some x → P.Maximum x) {b : ℕ}
    (hb : solved solve (msrpProgram info mode k t) = some b) : delay info k spin arr a0 ≤ b := by
  unfold solved at hb
  obtain ⟨x, hx, rfl⟩ := Option.map_eq_some_iff.1 hb
  have := (hs _ _ hx).best _ (h.feasible h1)
  rw [h.value] at this
  have h2 : ((delay info k spin arr a0 : ℕ) : ℤ) ≤ ⌊valueOf x (msrpProgram info mode k t).objective⌋ := by
    rw [Int.le_floor]
    exact_mod_cast this
  omega

/-! ### Longer intervals -/

/-- What is assumed of the tasks. -/
structure Usual (info : Info) : Prop where
  one : Lp.OneEntry info
  deadline : ∀ t ∈ info, 0 < t.deadline
  constrained : ∀ t ∈ info, t.deadline ≤ t.period
  small : ∀ t ∈ info, t.period ≤ 2 ^ 64
  cost : ∀ t ∈ info, 0 < t.cost
  length : ∀ t ∈ info, ∀ r ∈ t.requests, r.length ≤ t.cost

variable (hu : Usual info)
include hu

theorem Usual.period {t : TaskInfo} (ht : t ∈ info) : 0 < t.period := by
  have := hu.deadline t ht
  have := hu.constrained t ht
  omega

theorem remoteJobs_mono {i : Fin info.length} {a b : ℕ} (h : a ≤ b) :
    remoteJobs (info.get i) a ≤ remoteJobs (info.get i) b := by
  have hT := hu.period (List.get_mem info i)
  rw [remoteJobs_eq hT, remoteJobs_eq hT]
  exact cdiv_mono hT (by omega)

theorem pdcJobs_mono {i : Fin info.length} {a b : ℕ} (h : a ≤ b) :
    pdcJobs (info.get i) a ≤ pdcJobs (info.get i) b := by
  have h0 := hu.deadline _ (List.get_mem info i)
  have hD := hu.constrained _ (List.get_mem info i)
  rw [pdcJobs_eq h0 hD, pdcJobs_eq h0 hD]
  split_ifs
  · exact Nat.succ_le_succ (Nat.div_le_div_right (by omega))
  · omega
  · exact Nat.zero_le _
  · exact le_rfl

theorem pdcJobs_new {i : Fin info.length} {a b : ℕ} (h1 : a < (info.get i).deadline) (h2 : (info.get i).deadline ≤ b) :
    pdcJobs (info.get i) a + 1 ≤ pdcJobs (info.get i) b := by
  have h0 := hu.deadline _ (List.get_mem info i)
  have hD := hu.constrained _ (List.get_mem info i)
  rw [pdcJobs_eq h0 hD, pdcJobs_eq h0 hD, if_neg (by omega), if_pos h2]
  exact Nat.succ_le_succ (Nat.zero_le _)

theorem requestLength_le (i : Fin info.length) (q : ℕ) : requestLength (info.get i) q ≤ (info.get i).cost := by
  unfold requestLength
  rcases hf : (info.get i).requests.find? (fun r => r.resId = q) with _ | r
  · simp only [hf]
    exact Nat.zero_le _
  · simp only [hf]
    exact hu.length _ (List.get_mem info i) r (List.mem_of_find?_eq_some hf)

/-- In a longer interval there are demands that are no smaller. -/
theorem Demand.mono {t t' d : ℕ} (h : Demand info k t d) (ht : t ≤ t') : ∃ d', d ≤ d' ∧ Demand info k t' d' := by
  classical
  obtain ⟨spin, arr, a0, hs, rfl⟩ := h
  have hdbf : dbf info k t ≤ dbf info k t' := by
    rw [dbf_eq, dbf_eq]
    exact sum_le_sum (fun i _ => Nat.mul_le_mul_right _ (pdcJobs_mono hu ht))
  have hspin : ∀ q, ∑ i ∈ procTasks info k, localJobs .pdc (info.get i) t * Lp.numRequests (info.get i) q ≤
      ∑ i ∈ procTasks info k, localJobs .pdc (info.get i) t' * Lp.numRequests (info.get i) q := fun q =>
    sum_le_sum (fun i _ => Nat.mul_le_mul_right _ (pdcJobs_mono hu ht))
  have hper : ∀ x q, ∑ i ∈ procTasks info k, remoteJobs (info.get i) (info.get x).deadline * Lp.numRequests (info.get i) q *
      remoteJobs (info.get x) t ≤ ∑ i ∈ procTasks info k, remoteJobs (info.get i) (info.get x).deadline *
      Lp.numRequests (info.get i) q * remoteJobs (info.get x) t' := fun x q =>
    sum_le_sum (fun i _ => Nat.mul_le_mul_left _ (remoteJobs_mono hu ht))
  have hjoint : ∀ x q, remoteJobs (info.get x) t * Lp.numRequests (info.get x) q ≤
      remoteJobs (info.get x) t' * Lp.numRequests (info.get x) q := fun x q =>
    Nat.mul_le_mul_right _ (remoteJobs_mono hu ht)
  by_cases hkeep : ∀ i q, a0 = some (i, q) → t' < (info.get i).deadline
  · refine ⟨dbf info k t' + delay info k spin arr a0, by omega, spin, arr, a0, ?_, rfl⟩
    exact
      { joint := fun x hx q => (hs.joint x hx q).trans (hjoint x q)
        res := hs.res
        ac := hs.ac
        later := fun i q ha => by
          obtain ⟨l1, _, l3⟩ := hs.later i q ha
          exact ⟨l1, hkeep i q ha, l3⟩
        perProc := fun c hc q => (hs.perProc c hc q).trans (hspin q)
        perTask := fun x hx q => (hs.perTask x hx q).trans (hper x q)
        once := hs.once }
  · push Not at hkeep
    obtain ⟨i0, q0, ha, hd⟩ := hkeep
    obtain ⟨l1, l2, l3, _⟩ := hs.later i0 q0 ha
    have hdbf' : dbf info k t + (info.get i0).cost ≤ dbf info k t' := by
      rw [dbf_eq, dbf_eq]
      rw [← add_sum_erase _ _ (mem_procTasks.2 l1), ← add_sum_erase _ _ (mem_procTasks.2 l1)]
      have e1 : ∑ i ∈ (procTasks info k).erase i0, pdcJobs (info.get i) t * (info.get i).cost ≤
          ∑ i ∈ (procTasks info k).erase i0, pdcJobs (info.get i) t' * (info.get i).cost :=
        sum_le_sum (fun i _ => Nat.mul_le_mul_right _ (pdcJobs_mono hu ht))
      have e2 := Nat.mul_le_mul_right (info.get i0).cost (pdcJobs_new hu l2 hd)
      rw [Nat.add_mul, Nat.one_mul] at e2
      omega
    have hspin' : ∑ i ∈ procTasks info k, localJobs .pdc (info.get i) t * Lp.numRequests (info.get i) q0 + 1 ≤
        ∑ i ∈ procTasks info k, localJobs .pdc (info.get i) t' * Lp.numRequests (info.get i) q0 := by
      rw [← add_sum_erase _ _ (mem_procTasks.2 l1), ← add_sum_erase _ _ (mem_procTasks.2 l1)]
      have e1 : ∑ i ∈ (procTasks info k).erase i0, localJobs .pdc (info.get i) t * Lp.numRequests (info.get i) q0 ≤
          ∑ i ∈ (procTasks info k).erase i0, localJobs .pdc (info.get i) t' * Lp.numRequests (info.get i) q0 :=
        sum_le_sum (fun i _ => Nat.mul_le_mul_right _ (pdcJobs_mono hu ht))
      have e2 := Nat.mul_le_mul_right (Lp.numRequests (info.get i0) q0) (pdcJobs_new hu l2 hd)
      rw [Nat.add_mul, Nat.one_mul] at e2
      simp only [localJobs] at e1 ⊢
      omega
    have harr : ∀ c, c ≠ k → ∀ q, q ≠ q0 → ∑ x ∈ procTasks info c, arr x q = 0 := by
      intro c hc q hq
      apply sum_eq_zero
      intro x hx
      by_contra hne
      obtain ⟨i, hi⟩ := hs.res x (mem_otherTasks.2 (by rw [mem_procTasks.1 hx]; exact hc)) q hne
      rw [ha] at hi
      cases hi
      exact hq rfl
    refine ⟨dbf info k t' + delay info k (fun x q => spin x q + arr x q) (fun _ _ => 0) none, ?_, _, _, _, ?_, rfl⟩
    · unfold delay
      rw [ha]
      simp only [ownLength, Nat.add_zero]
      have := requestLength_le hu i0 q0
      omega
    · exact
        { joint := fun x hx q => by
            have := (hs.joint x hx q).trans (hjoint x q)
            omega
          res := fun x _ q h => absurd rfl h
          ac := fun _ => rfl
          later := fun i q h => by cases h
          perProc := fun c hc q => by
            rw [sum_add_distrib]
            by_cases hq : q = q0
            · subst hq
              have h1 := hs.perProc c hc q
              have h2 := hs.once c hc q
              omega
            · rw [harr c hc q hq]
              have h1 := hs.perProc c hc q
              have h2 := hspin q
              omega
          perTask := fun x hx q => by
            have := (hs.perTask x hx q).trans (hper x q)
            omega
          once := fun _ _ _ => by simp }

/-- Between check points the demands are the same. -/
theorem Demand.step {p t d : ℕ} (h : Demand info k t d) (h1 : lastCheckPointBefore info k p ≤ t) (h2 : t < p) :
    Demand info k (lastCheckPointBefore info k p) d := by
  obtain ⟨spin, arr, a0, hs, rfl⟩ := h
  have hloc : ∀ i ∈ procTasks info k, pdcJobs (info.get i) t = pdcJobs (info.get i) (lastCheckPointBefore info k p) ∧
      ((info.get i).deadline ≤ t ↔ (info.get i).deadline ≤ lastCheckPointBefore info k p) := fun i hi =>
    local_const (hu.deadline _ (List.get_mem info i)) (hu.constrained _ (List.get_mem info i)) (List.get_mem info i)
      (mem_procTasks.1 hi) h1 h2
  have hrem : ∀ x ∈ otherTasks info k, remoteJobs (info.get x) t = remoteJobs (info.get x) (lastCheckPointBefore info k p) :=
    fun x hx => remote_const (hu.deadline _ (List.get_mem info x)) (hu.constrained _ (List.get_mem info x))
      (hu.small _ (List.get_mem info x)) (List.get_mem info x) (mem_otherTasks.1 hx) h1 h2
  refine ⟨spin, arr, a0, ?_, ?_⟩
  · exact
      { joint := fun x hx q => by
          rw [← hrem x hx]
          exact hs.joint x hx q
        res := hs.res
        ac := hs.ac
        later := fun i q ha => by
          obtain ⟨l1, l2, l3⟩ := hs.later i q ha
          refine ⟨l1, ?_, l3⟩
          have := (hloc i (mem_procTasks.2 l1)).2
          omega
        perProc := fun c hc q => by
          refine (hs.perProc c hc q).trans (le_of_eq ?_)
          apply sum_congr rfl
          intro i hi
          show pdcJobs _ _ * _ = pdcJobs _ _ * _
          rw [(hloc i hi).1]
        perTask := fun x hx q => by
          rw [← hrem x hx]
          exact hs.perTask x hx q
        once := hs.once }
  · congr 1
    rw [dbf_eq, dbf_eq]
    apply sum_congr rfl
    intro i hi
    rw [(hloc i hi).1]

theorem demandOk {solve : Solver} (hs : ∀ P x, solve P = some x → P.Maximum x) {i : Fin info.length}
    (hi : (info.get i).cluster = k) : DemandOk info k (msrpBlocking solve info k) (Demand info k) where
  mono _ _ _ h ht := h.mono hu ht
  pdc t x d hb h := by
    obtain ⟨spin, arr, a0, hsol, rfl⟩ := h
    have := hsol.le_solved hu.one hs hb
    omega
  tighter t x lb y d hb hy h := by
    have : x = y := Option.some.inj hy
    subst this
    obtain ⟨spin, arr, a0, hsol, rfl⟩ := h
    have := hsol.le_solved hu.one hs hb
    omega
  step p t d _ h1 h2 h := h.step hu h1 h2
  first p hp := minDeadline_le_last (List.get_mem info i) hi hp

/-- What the test has checked if it accepts. -/
theorem accepted {solve : Solver} (hs : ∀ P x, solve P = some x → P.Maximum x) {i : Fin info.length}
    (hi : (info.get i).cluster = k) {fuel : ℕ}
    (h : isSchedulable fuel info k (msrpBlocking solve info k) = some true) :
    ∃ L, 0 < L ∧ (∀ spin arr, Sol info .ac k L spin arr none → arrivalCurve info k L + delay info k spin arr none ≤ L) ∧
      ∀ t d, (∃ j : Fin info.length, (info.get j).cluster = k ∧ (info.get j).deadline ≤ t) → t < L → Demand info k t d →
        d ≤ t := by
  have hac : ∀ l, 0 < l → 0 < arrivalCurve info k l := by
    intro l hl
    rw [arrivalCurve_eq]
    refine lt_of_lt_of_le ?_ (single_le_sum (fun _ _ => Nat.zero_le _) (mem_procTasks.2 hi))
    apply Nat.mul_pos _ (hu.cost _ (List.get_mem info i))
    unfold acJobs
    have hT := hu.period (List.get_mem info i)
    rw [dwc_eq _ hT]
    by_contra hc
    have := (cdiv_le_iff (a := l) (k := 0) hT).1 (by omega)
    omega
  have hmin : 0 < minDeadline info k := by
    obtain ⟨s, hs1, _, hs3⟩ := minDeadline_mem (List.get_mem info i) hi
    rw [← hs3]
    exact hu.deadline s hs1
  obtain ⟨L, x, _, h1, h2, h3, h4⟩ := (demandOk hu hs hi).isSchedulable hac hmin h
  refine ⟨L, h1, ?_, ?_⟩
  · intro spin arr hsol
    have := hsol.le_solved hu.one hs h2
    omega
  · rintro t d ⟨j, hj1, hj2⟩ ht hd
    exact h4 t d ((minDeadline_le (List.get_mem info j) hj1).trans hj2) ht hd

end Verif.SR.Pedf
