/-
C143, C144, C145: the example study.
-/
import Verif.Model.ExampleStudy
import Verif.Props.Rollback
import Mathlib.Tactic.NormNum
import Mathlib.Tactic.Linarith
import Mathlib.Tactic.Ring
import Mathlib.Data.List.Induction
import Mathlib.Algebra.Order.BigOperators.Group.List

namespace Verif.Study
open Verif.Rollback

/-! ### C143: priority points -/

/-- The priority point of G-FL: the deadline minus the share `(m - 1) / m` of the execution cost. -/
def gflPoint (deadline : ℚ) (m : ℤ) (cost : ℚ) : ℚ := deadline - ((m : ℚ) - 1) / m * cost

/-- **C143**: the priority points of the example study are those of G-FL. -/
def PointsAreGfl : Prop := ∀ (deadline : ℚ) (m : ℤ) (cost : ℚ), 1 ≤ m → 0 ≤ cost →
  prioPt deadline m cost = some (gflPoint deadline m cost)

/-- **C143**: they are those of G-EDF instead, on any number of processors. -/
theorem C143_points_are_deadlines (deadline : ℚ) (m : ℤ) (cost : ℚ) (hm : 1 ≤ m) :
    prioPt deadline m cost = some deadline := by
  unfold prioPt
  rw [if_neg (by omega), Int.fdiv_eq_ediv_of_nonneg _ (by omega), Int.ediv_eq_zero_of_lt (by omega) (by omega)]
  simp

theorem C143_gfl_points_violated : ¬ PointsAreGfl := by
  intro h
  have h1 := h 10 2 8 (by norm_num) (by norm_num)
  rw [C143_points_are_deadlines _ _ _ (by norm_num)] at h1
  have := Option.some.inj h1
  norm_num [gflPoint] at this

/-- **C143**: exactly on one processor and for tasks without cost the points are those of G-FL. -/
theorem C143_gfl_points_partial (deadline : ℚ) (m : ℤ) (cost : ℚ) (hm : 1 ≤ m) :
    prioPt deadline m cost = some (gflPoint deadline m cost) ↔ m = 1 ∨ cost = 0 := by
  rw [C143_points_are_deadlines _ _ _ hm, Option.some_inj]
  unfold gflPoint
  have hm' : (m : ℚ) ≠ 0 := by
    have : m ≠ 0 := by omega
    exact_mod_cast this
  constructor
  · intro h
    have h1 : ((m : ℚ) - 1) / m * cost = 0 := by linarith
    rcases mul_eq_zero.1 h1 with h2 | h2
    · rcases div_eq_zero_iff.1 h2 with h3 | h3
      · left
        have : (m : ℚ) = 1 := by linarith
        exact_mod_cast this
      · exact absurd h3 hm'
    · exact Or.inr h2
  · rintro (rfl | rfl) <;> simp

/-- **C143**: the preemption levels that follow from the points may be in the opposite order of those of G-FL.  On two
processors, a task with deadline 10 and cost 8 has precedence over one with deadline 9 and cost 1 under G-FL. -/
theorem C143_levels_violated : ∃ (D₁ C₁ D₂ C₂ : ℚ), ∃ p₁ ∈ prioPt D₁ 2 C₁, ∃ p₂ ∈ prioPt D₂ 2 C₂,
    Lock.preemptionLevels [p₁, p₂] = [some 1, some 0] ∧
    Lock.preemptionLevels [gflPoint D₁ 2 C₁, gflPoint D₂ 2 C₂] = [some 0, some 1] := by
  refine ⟨10, 8, 9, 1, 10, C143_points_are_deadlines _ _ _ (by norm_num), 9,
    C143_points_are_deadlines _ _ _ (by norm_num), by decide +kernel, ?_⟩
  have e1 : gflPoint 10 2 8 = 6 := by norm_num [gflPoint]
  have e2 : gflPoint 9 2 1 = 17 / 2 := by norm_num [gflPoint]
  rw [e1, e2]
  decide +kernel

/-- The points of the task with deadline 10 and cost 8 on two processors. -/
example : prioPt 10 2 8 = some 10 ∧ gflPoint 10 2 8 = 6 :=
  ⟨C143_points_are_deadlines _ _ _ (by norm_num), by norm_num [gflPoint]⟩

/-! ### C144: the iteration of the response times -/

/-- No entry of `new` is larger than that of `old` at the same place. -/
def Confirmed (new old : List (List ℚ)) : Prop :=
  ∀ (i : ℕ) (cn co : List ℚ), new[i]? = some cn → old[i]? = some co →
    ∀ (j : ℕ) (a b : ℚ), cn[j]? = some a → co[j]? = some b → a ≤ b

theorem exceeds_iff (new old : List (List ℚ)) : exceeds new old = false ↔ Confirmed new old := by
  unfold exceeds Confirmed
  rw [List.any_eq_false]
  constructor
  · intro h i cn co h1 h2 j a b h3 h4
    have h5 : ((cn, co) : List ℚ × List ℚ) ∈ new.zip old :=
      List.mem_of_getElem? (i := i) (by rw [List.getElem?_zip_eq_some]; exact ⟨h1, h2⟩)
    have h6 : ((a, b) : ℚ × ℚ) ∈ cn.zip co :=
      List.mem_of_getElem? (i := j) (by rw [List.getElem?_zip_eq_some]; exact ⟨h3, h4⟩)
    have h7 := h _ h5
    rw [Bool.not_eq_true, List.any_eq_false] at h7
    have h8 := h7 _ h6
    simpa using h8
  · rintro h ⟨cn, co⟩ hc
    rw [Bool.not_eq_true, List.any_eq_false]
    rintro ⟨a, b⟩ hab
    obtain ⟨i, hi⟩ := List.mem_iff_getElem?.1 hc
    obtain ⟨j, hj⟩ := List.mem_iff_getElem?.1 hab
    rw [List.getElem?_zip_eq_some] at hi hj
    have := h i cn co hi.1 hi.2 j a b hj.1 hj.2
    simpa using this

theorem boundLoop_eq (round : List (List ℚ) → Option (List (List ℚ))) (old : List (List ℚ)) : ∀ n,
    boundLoop round old (n + 1) = (round old).bind (fun new => if exceeds new old then none else some new) := by
  intro n
  induction n with
  | zero =>
    unfold boundLoop
    rcases round old with _ | new <;> rfl
  | succ n ih =>
    rw [boundLoop, ih]
    rcases round old with _ | new
    · rfl
    · simp only [Option.bind_some]
      split_ifs <;> rfl

/-- **C144**: returned response times are results of the analysis for the response times that were assumed, and no larger
than those. -/
theorem C144_confirmed (round : List (List ℚ) → Option (List (List ℚ))) (old new : List (List ℚ))
    (h : boundCfl round old = some new) : round old = some new ∧ Confirmed new old := by
  unfold boundCfl at h
  rw [boundLoop_eq] at h
  obtain ⟨a, h1, h2⟩ := Option.bind_eq_some_iff.1 h
  split_ifs at h2 with he
  cases h2
  exact ⟨h1, (exceeds_iff _ _).1 (by simpa using he)⟩

/-- Repeated analysis, each time with the response times of the previous round. -/
inductive Reaches (round : List (List ℚ) → Option (List (List ℚ))) : ℕ → List (List ℚ) → List (List ℚ) → Prop
  | refl (a) : Reaches round 0 a a
  | step {a b c n} : round a = some b → Reaches round n b c → Reaches round (n + 1) a c

/-- **C144**: if the iteration of the analysis confirms its assumptions within 100 rounds, response times are returned. -/
def FindsFixedPoint : Prop :=
  ∀ (round : List (List ℚ) → Option (List (List ℚ))) (old mid new : List (List ℚ)) (n : ℕ), n < 100 →
    Reaches round n old mid → round mid = some new → Confirmed new mid → (boundCfl round old).isSome

/-- **C144**: the later rounds repeat the first one. -/
theorem C144_first_round_partial (round : List (List ℚ) → Option (List (List ℚ))) (old : List (List ℚ)) :
    (boundCfl round old).isSome ↔ ∃ new, round old = some new ∧ Confirmed new old := by
  constructor
  · intro h
    obtain ⟨new, hn⟩ := Option.isSome_iff_exists.1 h
    exact ⟨new, C144_confirmed round old new hn⟩
  · rintro ⟨new, h1, h2⟩
    unfold boundCfl
    rw [boundLoop_eq, h1, Option.bind_some, (exceeds_iff _ _).2 h2]
    rfl

/-- The response time of a task that is delayed by 5 and by one more for each job that a task with period 10 may release
before it completes. -/
def exRound (old : List (List ℚ)) : Option (List (List ℚ)) := some (old.map (fun c => c.map (fun r => 5 + (⌈r / 10⌉ : ℚ))))

/-- **C144**: the iteration ends with a response time of 6 in the second round, but is not carried out. -/
theorem C144_fixed_point_violated : ¬ FindsFixedPoint := by
  intro h
  have h1 : exRound [[4]] = some [[6]] := by decide +kernel
  have h2 : exRound [[6]] = some [[6]] := by decide +kernel
  have := h exRound [[4]] [[6]] [[6]] 1 (by omega) (.step h1 (.refl _)) h2
    ((exceeds_iff _ _).1 (by decide +kernel))
  rw [C144_first_round_partial] at this
  obtain ⟨new, h3, h4⟩ := this
  rw [h1] at h3
  cases Option.some.inj h3
  have := (exceeds_iff _ _).2 h4
  revert this
  decide +kernel

/-- With larger deadlines the first round confirms the assumption. -/
example : boundCfl exRound [[7, 11], [8]] = some [[6, 7], [6]] := by decide +kernel

/-! ### C145: the partition -/

/-- **C145**: the clusters that are returned contain each task exactly once, none is empty, they are different, there are
no more than requested (but at least one is available), and the tasks of each do not utilize more than its processors.
With a dedicated interrupt processor, cluster 0 has one processor less. -/
theorem C145_partition {α : Type} (utilization : α → ℚ) (clusterSize : ℤ) (clusters : ℕ) (dedicatedIrq : Bool)
    (hsize : 1 ≤ clusterSize) (taskset : List α) (cs : List (Cluster α))
    (h : partitionTasks utilization clusterSize clusters dedicatedIrq taskset = some cs) :
    (cs.flatMap Cluster.tasks).Perm taskset ∧
    (∀ c ∈ cs, c.tasks ≠ [] ∧ c.partition < max 1 clusters ∧ (c.tasks.map utilization).sum ≤ c.cpus ∧
      c.cpus = if c.partition = 0 ∧ dedicatedIrq = true then clusterSize - 1 else clusterSize) ∧
    cs.Pairwise (fun c d => c.partition < d.partition) := by
  unfold partitionTasks at h
  dsimp only at h
  split_ifs at h with hm
  have h := Option.some.inj h
  set ops := fixedOps utilization (fun i => (binCapacity clusterSize dedicatedIrq i : ℚ)) (fun _ => true) with hops
  have hpl : worstFitPlace ops ∈ placements ops := by simp [placements]
  obtain ⟨h1, h2, _, h4⟩ := C27_conserves ops _ hpl false ⟨List.replicate (1 + (clusters - 1)) [], [], 0⟩ taskset
  have h5 := C27_capacity utilization (fun i => (binCapacity clusterSize dedicatedIrq i : ℚ)) (fun _ => true) _ hpl false
    (by simp) [taskset] ⟨List.replicate (1 + (clusters - 1)) [], [], 0⟩ (by
      intro i hi
      simp only [List.getElem_replicate, List.map_nil, List.sum_nil]
      unfold binCapacity
      have : (0 : ℤ) ≤ if i = 0 ∧ dedicatedIrq = true then clusterSize - 1 else clusterSize := by
        split_ifs <;> omega
      exact_mod_cast this)
  simp only [List.foldl_cons, List.foldl_nil] at h5
  set o := binpack (worstFitPlace ops) ops false ⟨List.replicate (1 + (clusters - 1)) [], [], 0⟩ taskset with ho
  have hlen : o.state.bins.length = 1 + (clusters - 1) := by rw [h4 rfl]; simp
  have hrep : o.reported = [] := by
    rw [List.isEmpty_iff] at hm
    rw [hm] at h2
    simpa using h2.symm
  rw [hrep, List.append_nil] at h1
  have hflat : (List.replicate (1 + (clusters - 1)) ([] : List α)).flatten = [] := by simp
  simp only [hflat, List.nil_append] at h1
  rw [← h]
  refine ⟨?_, ?_, ?_⟩
  · have key : ∀ (l : List (List α)) (n : ℕ), ((((l.zipIdx n).map (fun b =>
        (⟨b.2, binCapacity clusterSize dedicatedIrq b.2, b.1⟩ : Cluster α))).filter
          (fun c => decide (c.tasks.length > 0))).flatMap Cluster.tasks) = l.flatten := by
      intro l
      induction l with
      | nil => intro n; rfl
      | cons a l ih =>
        intro n
        rw [List.zipIdx_cons, List.map_cons, List.filter_cons, List.flatten_cons]
        split_ifs with ha
        · rw [List.flatMap_cons, ih]
        · rw [ih]
          have : a = [] := by simpa using ha
          rw [this, List.nil_append]
    rw [key]
    exact h1
  · intro c hc
    obtain ⟨hc, hne⟩ := List.mem_filter.1 hc
    obtain ⟨⟨b, k⟩, hb, rfl⟩ := List.mem_map.1 hc
    have hk := List.mem_zipIdx_iff_getElem?.1 hb
    simp only at hk
    obtain ⟨hlt, hk⟩ := List.getElem?_eq_some_iff.1 hk
    refine ⟨List.ne_nil_of_length_pos (of_decide_eq_true hne), by simp only; omega, ?_, rfl⟩
    have := h5 k hlt
    rw [hk] at this
    exact this
  · apply List.Pairwise.filter
    rw [List.pairwise_map]
    have key : ∀ (l : List (List α)) (n : ℕ), (l.zipIdx n).Pairwise (fun a b => a.2 < b.2) := by
      intro l
      induction l with
      | nil => intro n; simp
      | cons a l ih =>
        intro n
        rw [List.zipIdx_cons, List.pairwise_cons]
        refine ⟨?_, ih _⟩
        intro b hb
        have := List.le_snd_of_mem_zipIdx hb
        simp only
        omega
    exact key _ _

/-- The first task that is not placed. -/
theorem first_misfit {α : Type} (place : List (List α) → ℕ → α → Bool × List (List α) × ℕ) (ops : BinOps α)
    (s : HState α) (items : List α) : (binpack place ops false s items).reported ≠ [] →
    ∃ pre x post, items = pre ++ x :: post ∧ (binpack place ops false s pre).reported = [] ∧
      (binpack place ops false s (pre ++ [x])).reported = (binpack place ops false s pre).reported ++ [x] := by
  induction items using List.reverseRecOn with
  | nil => intro h; exact absurd rfl h
  | append_singleton pre x ih =>
    intro h
    by_cases hp : (binpack place ops false s pre).reported = []
    · refine ⟨pre, x, [], rfl, hp, ?_⟩
      have hstep : binpack place ops false s (pre ++ [x]) = step place ops false (binpack place ops false s pre) x := by
        simp only [binpack, List.foldl_append, List.foldl_cons, List.foldl_nil]
      rw [hstep] at h ⊢
      unfold step at h ⊢
      rcases hpl : place (binpack place ops false s pre).state.bins (binpack place ops false s pre).state.cur x with
        ⟨ok, bins, cur⟩
      rw [hpl] at h
      cases ok
      · simp
      · exact absurd hp h
    · obtain ⟨pre', y, post, h1, h2, h3⟩ := ih hp
      exact ⟨pre', y, post ++ [x], by rw [h1]; simp, h2, h3⟩

theorem sum_capacity (clusterSize : ℤ) (dedicatedIrq : Bool) (n : ℕ) :
    ((List.range (n + 1)).map (fun i => (binCapacity clusterSize dedicatedIrq i : ℚ))).sum =
      (n + 1) * clusterSize - (if dedicatedIrq = true then 1 else 0) := by
  induction n with
  | zero => cases dedicatedIrq <;> simp [binCapacity]
  | succ n ih =>
    rw [List.range_succ, List.map_append, List.sum_append, ih]
    have e : binCapacity clusterSize dedicatedIrq (n + 1) = clusterSize := if_neg (fun h => absurd h.1 (by omega))
    simp only [List.map_cons, List.map_nil, List.sum_cons, List.sum_nil, e]
    push_cast
    ring

theorem sum_bins {α : Type} (u : α → ℚ) (cap : ℕ → ℚ) (v : ℚ) : ∀ (bins : List (List α)) (k : ℕ),
    (∀ i, ∀ h : i < bins.length, cap (k + i) < (bins[i].map u).sum + v) → bins ≠ [] →
    ((List.range bins.length).map (fun i => cap (k + i))).sum < (bins.flatten.map u).sum + bins.length * v := by
  intro bins
  induction bins with
  | nil => intro k _ h; exact absurd rfl h
  | cons b l ih =>
    intro k h _
    have h0 := h 0 (by simp)
    simp only [Nat.add_zero, List.getElem_cons_zero] at h0
    rw [List.length_cons, List.range_succ_eq_map, List.map_cons, List.sum_cons, List.map_map, List.flatten_cons,
      List.map_append, List.sum_append]
    have e : ((fun i => cap (k + i)) ∘ Nat.succ) = (fun i => cap (k + 1 + i)) := by
      funext i
      change cap (k + (i + 1)) = _
      congr 1
      omega
    rw [e, Nat.add_zero]
    rcases Decidable.em (l = []) with hl | hl
    · subst hl
      simp
      linarith
    · have := ih (k + 1) (by
        intro i hi
        have := h (i + 1) (by simp; omega)
        simp only [List.getElem_cons_succ] at this
        rw [show k + 1 + i = k + (i + 1) by omega]
        exact this) hl
      push_cast
      linarith

/-- **C145**: a partition is found if for each task the capacity of all clusters is at least the utilization of all tasks
plus that of the task once for each other cluster. -/
theorem C145_found {α : Type} (utilization : α → ℚ) (hu : ∀ x, 0 ≤ utilization x) (clusterSize : ℤ) (clusters : ℕ)
    (dedicatedIrq : Bool) (taskset : List α)
    (hfit : ∀ x ∈ taskset, (taskset.map utilization).sum + ((max 1 clusters : ℕ) - 1) * utilization x ≤
      (max 1 clusters : ℕ) * clusterSize - (if dedicatedIrq = true then 1 else 0)) :
    (partitionTasks utilization clusterSize clusters dedicatedIrq taskset).isSome := by
  unfold partitionTasks
  dsimp only
  split_ifs with hm
  · rfl
  exfalso
  set cap : ℕ → ℚ := fun i => (binCapacity clusterSize dedicatedIrq i : ℚ) with hcap
  set ops := fixedOps utilization cap (fun _ => true) with hops
  set s : HState α := ⟨List.replicate (1 + (clusters - 1)) [], [], 0⟩ with hs
  have hpl : worstFitPlace ops ∈ placements ops := by simp [placements]
  have hrep : (binpack (worstFitPlace ops) ops false s taskset).reported ≠ [] := by
    intro hr
    obtain ⟨_, h2, _⟩ := C27_conserves ops _ hpl false s taskset
    rw [hr] at h2
    exact hm (by rw [h2]; rfl)
  obtain ⟨pre, x, post, h1, h2, h3⟩ := first_misfit _ _ _ _ hrep
  obtain ⟨h4, _, _, h5⟩ := C27_conserves ops _ hpl false s pre
  have h6 := (C27_misfit_iff utilization cap s pre x (worstFitPlace ops) (by simp [hops])).1 h3
  have hlen : (binpack (worstFitPlace ops) ops false s pre).state.bins.length = (clusters - 1) + 1 := by
    rw [h5 rfl]; simp [hs, Nat.add_comm]
  have hflat : s.bins.flatten = [] := by simp [hs]
  rw [h2, List.append_nil, hflat, List.nil_append] at h4
  have h7 := sum_bins utilization cap (utilization x) _ 0 (by
    intro i hi
    rw [Nat.zero_add]
    exact h6 i hi) (by
      intro hn
      rw [hn] at hlen
      simp at hlen)
  simp only [Nat.zero_add] at h7
  rw [hlen, hcap, sum_capacity, (h4.map utilization).sum_eq] at h7
  have h8 := hfit x (by rw [h1]; simp)
  have h9 : (taskset.map utilization).sum ≥ (pre.map utilization).sum + utilization x := by
    rw [h1, List.map_append, List.sum_append, List.map_cons, List.sum_cons]
    have : 0 ≤ (post.map utilization).sum := List.sum_nonneg (by
      intro y hy
      obtain ⟨z, _, rfl⟩ := List.mem_map.1 hy
      exact hu z)
    linarith
  have e : (max 1 clusters : ℕ) = (clusters - 1) + 1 := by omega
  rw [e] at h8
  push_cast at h7 h8
  linarith

/-- The tasks of the example below meet this condition with three clusters of two processors. -/
example : ∀ x ∈ ([1 / 2, 3 / 4, 1 / 2, 1 / 4, 1 / 2] : List ℚ), (([1 / 2, 3 / 4, 1 / 2, 1 / 4, 1 / 2] : List ℚ).map id).sum +
    ((max 1 3 : ℕ) - 1) * id x ≤ (max 1 3 : ℕ) * (2 : ℤ) - (if true = true then 1 else 0) := by decide +kernel

/-- Five tasks on two clusters with two processors each, one of which is reserved. -/
example : partitionTasks (id : ℚ → ℚ) 2 2 true [1 / 2, 3 / 4, 1 / 2, 1 / 4, 1 / 2] =
    some [⟨0, 1, [1 / 2, 1 / 2]⟩, ⟨1, 2, [1 / 2, 3 / 4, 1 / 4]⟩] := by decide +kernel

end Verif.Study
