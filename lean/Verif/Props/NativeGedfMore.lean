/-
Properties C86 (the native and the Python tests agree) and C87 (tests that do not support
self-suspensions reject self-suspending tasks).
-/
import Verif.Props.NativeGedf
import Verif.Spec.Suspension
import Mathlib.Data.Fin.VecNotation
import Mathlib.Tactic.IntervalCases

namespace Verif.Native
open Verif.Spec

variable {m : ℕ}

/-! ### C86 -/

theorem native_ok {its : List GEdf.ITask} (hok : ∀ t ∈ its, 0 < t.cost ∧ t.cost ≤ t.deadline ∧ t.deadline ≤ t.period)
    (hU : TaskSystem.utilization (GEdf.system its) ≤ m) :
    Plain (getNativeTaskset its) ∧ preconditions m (getNativeTaskset its) = true ∧
      (getNativeTaskset its).map toI = its := by
  have hI := toI_native its (fun t ht => by have := hok t ht; omega)
  have key : ∀ t ∈ getNativeTaskset its, (0 < t.wcet ∧ t.wcet ≤ t.deadline ∧ t.deadline ≤ t.period) ∧
      t.selfSuspension = 0 := by
    intro t ht
    obtain ⟨s, hs, rfl⟩ := List.mem_map.1 ht
    have h1 := hok s hs
    simp only [Task.init]
    rw [if_neg (by omega)]
    exact ⟨h1, trivial⟩
  refine ⟨fun t ht => (key t ht).1, ?_, hI⟩
  have hu : (getNativeTaskset its).utilization = TaskSystem.utilization (GEdf.system its) := by
    conv_rhs => rw [← hI]
    unfold TaskSet.utilization TaskSystem.utilization GEdf.system
    rw [List.map_map, List.map_map]
    rfl
  unfold preconditions TaskSet.hasOnlyFeasibleTasks TaskSet.isNotOverutilized TaskSet.hasOnlyConstrainedDeadlines
    TaskSet.hasNoSelfSuspendingTasks
  rw [hu]
  simp only [Bool.and_eq_true, List.all_eq_true, decide_eq_true_eq, Task.isFeasible, Task.hasConstrainedDeadline,
    Task.isSelfSuspending, Bool.not_eq_true', decide_eq_false_iff_not]
  refine ⟨⟨⟨fun t ht => ?_, hU⟩, fun t ht => (key t ht).1.2.2⟩, fun t ht => ?_⟩
  · have := key t ht
    omega
  · have := key t ht
    omega

/-- C86: for feasible tasks with constrained deadlines that do not overload the
processors, the native tests give the verdict of the Python tests. -/
theorem C86_same_verdict (m : ℕ) (hm : 0 < m) (its : List GEdf.ITask)
    (hok : ∀ t ∈ its, 0 < t.cost ∧ t.cost ≤ t.deadline ∧ t.deadline ≤ t.period)
    (hU : TaskSystem.utilization (GEdf.system its) ≤ m) :
    gfb m (getNativeTaskset its) = GEdf.gfb m (GEdf.system its) ∧
    baker m (getNativeTaskset its) = GEdf.bak m (GEdf.system its) ∧
    bcl m (getNativeTaskset its) = GEdf.bcl m (GEdf.system its) := by
  obtain ⟨hp, hpre, hI⟩ := native_ok hok hU
  have hpre' := hpre
  unfold preconditions at hpre'
  simp only [Bool.and_eq_true] at hpre'
  refine ⟨?_, ?_, ?_⟩
  · unfold gfb
    rw [hpre]
    have := gfbCore_eq hp hm
    rw [hI] at this
    exact this
  · unfold baker
    rw [hpre'.1.1.1, hpre'.1.1.2, hpre'.2]
    have := bakerCore_eq (m := m) hp
    rw [hI] at this
    exact this
  · unfold bcl
    rw [hpre]
    have := bclCore_eq (m := m) hp
    rw [hI] at this
    exact this

/-- C86: the same for the two iterative tests, for parameters that fit into 64 bits, if the
native test ends. -/
theorem C86_same_verdict_iterative (fuel m rounds step : ℕ) (its : List GEdf.ITask) (hne : its ≠ [])
    (hok : ∀ t ∈ its, 0 < t.cost ∧ t.cost ≤ t.deadline ∧ t.deadline ≤ t.period)
    (hw : ∀ t ∈ its, t.deadline < 2 ^ 64)
    (hU : TaskSystem.utilization (GEdf.system its) ≤ m) (b : Bool) :
    (bcli fuel m (getNativeTaskset its) rounds = some b → GEdf.bcli fuel m its rounds = some b) ∧
    (rta fuel m (getNativeTaskset its) step rounds = some b → GEdf.rta fuel m its rounds step = some b) := by
  obtain ⟨hp, hpre, hI⟩ := native_ok hok hU
  have hpre' := hpre
  unfold preconditions at hpre'
  simp only [Bool.and_eq_true] at hpre'
  have hne' : (getNativeTaskset its).isEmpty = false := by
    unfold getNativeTaskset
    cases its with
    | nil => exact absurd rfl hne
    | cons t l => rfl
  have hw' : ∀ t ∈ getNativeTaskset its, t.deadline < 2 ^ 64 := by
    intro t ht
    have h1 : toI t ∈ (getNativeTaskset its).map toI := List.mem_map_of_mem ht
    rw [hI] at h1
    exact hw _ h1
  constructor
  · intro h
    unfold bcli at h
    rw [hpre, hne'] at h
    rw [← hI]
    exact bcliCore_eq hp hw' h
  · intro h
    unfold rta at h
    rw [hpre'.1.1.1, hpre'.1.1.2, hpre'.1.2, hne'] at h
    rw [← hI]
    exact rtaCore_eq hp hw' h

example : (0 < 2) ∧ ([⟨1, 8, 4⟩, ⟨1, 8, 6⟩, ⟨1, 10, 8⟩, ⟨1, 10, 10⟩] : List GEdf.ITask) ≠ [] ∧
    (∀ t ∈ ([⟨1, 8, 4⟩, ⟨1, 8, 6⟩, ⟨1, 10, 8⟩, ⟨1, 10, 10⟩] : List GEdf.ITask),
      0 < t.cost ∧ t.cost ≤ t.deadline ∧ t.deadline ≤ t.period ∧ t.deadline < 2 ^ 64) ∧
    TaskSystem.utilization (GEdf.system [⟨1, 8, 4⟩, ⟨1, 8, 6⟩, ⟨1, 10, 8⟩, ⟨1, 10, 10⟩]) ≤ 2 ∧
    bcli 10 2 (getNativeTaskset [⟨1, 8, 4⟩, ⟨1, 8, 6⟩, ⟨1, 10, 8⟩, ⟨1, 10, 10⟩]) = some true := by decide +kernel

/-- C86 is violated without these assumptions: the native tests check the feasibility of
each task and the total utilization, the Python tests do not. -/
theorem C86_violated :
    (∃ its, (∀ t ∈ its, 0 < t.cost ∧ t.deadline ≤ t.period) ∧ bcl 2 (getNativeTaskset its) = false ∧
      GEdf.bcl 2 (GEdf.system its) = true) ∧
    (∃ its, (∀ t ∈ its, 0 < t.cost ∧ t.deadline ≤ t.period) ∧ rta 100 2 (getNativeTaskset its) = some false ∧
      GEdf.rta 100 2 its = some true) := by
  refine ⟨⟨[⟨2, 10, 1⟩, ⟨1, 1000, 1000⟩, ⟨1, 1000, 1000⟩, ⟨1, 1000, 1000⟩], ?_⟩,
    ⟨[⟨4, 16, 6⟩, ⟨1, 2, 1⟩, ⟨25, 29, 7⟩], ?_⟩⟩ <;> decide +kernel

/-! ### C87 -/

/-- C87: the density test, the tests of Baker, of Bertogna et al. and of Baruah and the load
test reject every set with a self-suspending task. -/
theorem C87_rejected_partial (m : ℕ) (ts : TaskSet) (hs : ∃ t ∈ ts, 0 < t.selfSuspension)
    (pick : ℕ → (ℕ → ℤ) → ℕ) (late : ℕ → Bool) (fuel rounds : ℕ) (epsilon : ℚ) :
    gfb m ts = false ∧ baker m ts = false ∧ bcl m ts = false ∧ bcli fuel m ts rounds = some false ∧
    baruah pick late fuel m ts = some false ∧ load m ts epsilon = false := by
  have h : ts.hasNoSelfSuspendingTasks = false := by
    obtain ⟨t, ht, h⟩ := hs
    unfold TaskSet.hasNoSelfSuspendingTasks
    rw [Bool.eq_false_iff]
    intro hall
    have := List.all_eq_true.1 hall t ht
    simp only [Task.isSelfSuspending, Bool.not_eq_true', decide_eq_false_iff_not] at this
    exact this h
  have hpre : preconditions m ts = false := by
    unfold preconditions
    rw [h, Bool.and_false]
  refine ⟨?_, ?_, ?_, ?_, ?_, ?_⟩
  · unfold gfb; simp [hpre]
  · unfold baker; simp [h]
  · unfold bcl; simp [hpre]
  · unfold bcli; simp [hpre]
  · unfold baruah; simp [hpre]
  · unfold load; simp [h]

example : ∃ t ∈ ([.init 1 2 2 2 1, .init 1 2 2 2 0] : TaskSet), 0 < t.selfSuspension := by decide

/-- Two tasks that suspend for one slot and then need the processor in the same slot. -/
def suspendingSet : TaskSet := [.init 1 2 2 2 1, .init 1 2 2 2 1]

/-- Both first jobs are suspended in the first slot. -/
def bothSuspended : Suspensions 2 := fun j => if j.2 = 0 then {0} else ∅

def bothWork : Workload 2 := ⟨fun j => 2 * j.2, fun j => if j.2 = 0 then 1 else 0⟩

def bothSched : Schedule 2 := fun t => if t = 1 then {(0, 0)} else if t = 2 then {(1, 0)} else ∅

theorem bothSched_service (i : Fin 2) (t : ℕ) :
    service bothSched (i, 0) t = if i = 0 then (if 1 < t then 1 else 0) else (if 2 < t then 1 else 0) := by
  unfold service bothSched
  induction t with
  | zero => simp
  | succ t ih =>
    rw [Finset.range_add_one, Finset.filter_insert]
    fin_cases i <;> by_cases h1 : t = 1 <;> by_cases h2 : t = 2 <;> simp_all <;>
      split_ifs <;> omega

theorem two_suspend {C S T D : Fin 2 → ℕ} (hC : ∀ i, C i = 1) (hS : ∀ i, S i = 1) (hT : ∀ i, T i = 2)
    (hD : ∀ i, D i = 2) : ¬ SuspensionSchedulable 1 C S T D := by
  have hready : ∀ j t, Available bothWork bothSuspended bothSched j t →
      j = (0, 0) ∧ t = 1 ∨ j = (1, 0) ∧ (t = 1 ∨ t = 2) := by
    rintro ⟨i, k⟩ t ⟨⟨⟨_, h1⟩, _⟩, h2⟩
    have hk : k = 0 := by
      by_contra hk
      apply h1
      unfold Completed bothWork
      simp [hk]
    subst hk
    unfold Completed at h1
    rw [bothSched_service] at h1
    have h3 : t ≠ 0 := by
      rintro rfl
      exact h2 (by simp [bothSuspended])
    have h4 : bothWork.exec (i, 0) = 1 := rfl
    rw [h4] at h1
    fin_cases i
    · left
      simp at h1
      exact ⟨rfl, by omega⟩
    · right
      simp at h1
      exact ⟨rfl, by omega⟩
  intro h
  have := h bothWork bothSuspended bothSched ⟨?_, ?_⟩ ?_ ?_ ?_ ((1 : Fin 2), 0)
  · unfold Completed Workload.deadline at this
    rw [bothSched_service, hD] at this
    revert this
    decide
  · intro i k
    rw [hT]
    change 2 * k + 2 ≤ 2 * (k + 1)
    omega
  · intro i k
    rw [hC]
    change (if k = 0 then 1 else 0) ≤ 1
    split_ifs <;> omega
  · intro i k
    rw [hS]
    unfold bothSuspended
    split_ifs <;> simp
  · intro t
    have hav : ∀ i k s, bothSched s = {(i, k)} → k = 0 → 0 < s → service bothSched (i, 0) s = 0 →
        Available bothWork bothSuspended bothSched (i, k) s := by
      rintro i k s _ rfl h0 hz
      refine ⟨⟨⟨Nat.zero_le _, ?_⟩, fun k hk => absurd hk (Nat.not_lt_zero _)⟩, ?_⟩
      · unfold Completed
        rw [hz]
        change ¬ (1 ≤ 0)
        omega
      · simp [bothSuspended]
        omega
    by_cases h1 : t = 1
    · subst h1
      have e : bothSched 1 = {(0, 0)} := rfl
      refine ⟨by rw [e]; simp, fun j hj => ?_⟩
      rw [e, Finset.mem_singleton] at hj
      subst hj
      exact hav 0 0 1 e rfl one_pos (by rw [bothSched_service]; rfl)
    · by_cases h2 : t = 2
      · subst h2
        have e : bothSched 2 = {(1, 0)} := rfl
        refine ⟨by rw [e]; simp, fun j hj => ?_⟩
        rw [e, Finset.mem_singleton] at hj
        subst hj
        exact hav 1 0 2 e rfl two_pos (by rw [bothSched_service]; rfl)
      · have e : bothSched t = ∅ := by simp [bothSched, h1, h2]
        rw [e]
        simp
  · intro t j hj hn
    rcases hready j t hj with ⟨rfl, rfl⟩ | ⟨rfl, rfl | rfl⟩
    · exact absurd (by simp [bothSched]) hn
    · refine ⟨rfl, fun j' hj' => ?_⟩
      simp only [bothSched, if_true, Finset.mem_singleton] at hj'
      subst hj'
      unfold Workload.deadline
      rw [hD, hD]
      exact le_rfl
    · exact absurd (by simp [bothSched]) hn

theorem suspending_misses : ¬ SuspensionSchedulable 1 (fun i => (suspendingSet.get i).wcet)
    (fun i => (suspendingSet.get i).selfSuspension) (fun i => (suspendingSet.get i).period)
    (fun i => (suspendingSet.get i).deadline) :=
  two_suspend (by decide) (by decide) (by decide) (by decide)

/-- C87 is violated: the response-time analysis accepts self-suspending tasks that miss
deadlines. -/
theorem C87_violated : ∃ ts : TaskSet, (∃ t ∈ ts, 0 < t.selfSuspension) ∧ rta 10 1 ts = some true ∧
    ¬ SuspensionSchedulable 1 (fun i => (ts.get i).wcet) (fun i => (ts.get i).selfSuspension)
      (fun i => (ts.get i).period) (fun i => (ts.get i).deadline) :=
  ⟨suspendingSet, by decide, by decide +kernel, suspending_misses⟩

end Verif.Native
