/-
What acceptance by the global EDF tests implies, and the combined test
`is_schedulable_py` (`schedcat/sched/edf/__init__.py`).
-/
import Verif.Props.GedfRtaTerm
import Verif.Props.GedfBcli
import Verif.Props.BarTest

namespace Verif.GEdf
open Verif.Spec Finset

/-! ### Individually infeasible tasks -/

/-- Whether Baruah's test is used matters only for sets that the response-time analysis
rejects. -/
theorem isSchedulablePy_of_never {fuel m : ℕ} {ts : List ITask} {step : ℕ} (want : WantBaruah)
    {wantRta : Bool} (h : isSchedulablePy fuel m ts step .never wantRta = some true) :
    isSchedulablePy fuel m ts step want wantRta = some true := by
  unfold isSchedulablePy at h ⊢
  simp only [shouldUseBaruah, Bool.false_and] at h
  simp only at h ⊢
  split_ifs at h ⊢ <;> first | rfl | exact h | contradiction | (exact absurd h (by simp))

/-- The tests of Bertogna et al., Baruah's test and the combined test accept task sets
with a task whose cost exceeds its deadline. -/
theorem C17_violated :
    (∃ ts : List ITask, Proper ts ∧ Constrained ts ∧ ¬ Feasible ts ∧ bcl 2 (system ts) = true) ∧
    (∃ ts : List ITask, Proper ts ∧ Constrained ts ∧ ¬ Feasible ts ∧ bcli 10 2 ts = some true) ∧
    (∃ ts : List ITask, Proper ts ∧ Constrained ts ∧ ¬ Feasible ts ∧ bar 2 (system ts) = true) ∧
    (∃ ts : List ITask, Proper ts ∧ Constrained ts ∧ ¬ Feasible ts ∧ rta 100 2 ts = some true) ∧
    (∃ ts : List ITask, Proper ts ∧ Constrained ts ∧ ¬ Feasible ts ∧
      isSchedulablePy 100 2 ts = some true) := by
  refine ⟨⟨[⟨2, 10, 1⟩, ⟨1, 1000, 1000⟩, ⟨1, 1000, 1000⟩, ⟨1, 1000, 1000⟩], ?_⟩,
    ⟨[⟨4, 10, 1⟩, ⟨1, 1000, 1000⟩, ⟨1, 1000, 1000⟩, ⟨1, 1000, 1000⟩, ⟨1, 1000, 1000⟩], ?_⟩,
    ⟨[⟨4, 100, 1⟩, ⟨1, 1000, 1000⟩, ⟨1, 1000, 1000⟩, ⟨1, 1000, 1000⟩], ?_, ?_, ?_,
      bar_of_check (J := 3) ?_ ?_⟩,
    ⟨[⟨4, 16, 6⟩, ⟨1, 2, 1⟩, ⟨25, 29, 7⟩], ?_⟩, ⟨[⟨4, 16, 6⟩, ⟨1, 2, 1⟩, ⟨25, 29, 7⟩], ?_, ?_, ?_,
      isSchedulablePy_of_never _ ?_⟩⟩ <;>
  decide +kernel

/-- On a set with an infeasible task, no schedule of the periodic arrivals meets all
deadlines: acceptance of such a set is wrong. -/
theorem C17_infeasible_misses (m : ℕ) (ts : List ITask) (hp : Proper ts) (hf : ¬ Feasible ts) :
    ¬ Schedulable m ts := by
  intro hs
  apply hf
  intro t ht
  obtain ⟨i, hi⟩ := List.get_of_mem ht
  have := hs.feasible hp.period i
  unfold costs deadlines at this
  rwa [hi] at this

/-- The density test and Baker's test accept only feasible tasks. -/
theorem C53_accepts_feasible (m : ℕ) (ts : List ITask) (hm : 1 ≤ m) (hp : Proper ts)
    (h : gfb m (system ts) = true ∨ bak m (system ts) = true) :
    Feasible ts ∧ ∀ t ∈ ts, t.cost ≤ t.period := by
  have key : (∀ t ∈ ts, (t.toTask).density ≤ 1) → Feasible ts ∧ ∀ t ∈ ts, t.cost ≤ t.period := by
    intro hk
    have h1 : ∀ t ∈ ts, t.cost ≤ min t.period t.deadline := by
      intro t ht
      have h2 := hk t ht
      have h3 := hp t ht
      unfold SporadicTask.density ITask.toTask at h2
      simp only at h2
      have h4 : (0 : ℚ) < min (t.period : ℚ) t.deadline :=
        lt_min (by exact_mod_cast h3.1) (by exact_mod_cast h3.2)
      rw [div_le_one h4, ← Nat.cast_min] at h2
      exact_mod_cast h2
    exact ⟨fun t ht => (h1 t ht).trans (min_le_right _ _), fun t ht => (h1 t ht).trans (min_le_left _ _)⟩
  apply key
  have hpos : ∀ t ∈ ts, 0 ≤ (t.toTask).density := by
    intro t _
    unfold SporadicTask.density ITask.toTask
    positivity
  rcases h with h | h
  · cases ts with
    | nil => simp
    | cons t0 ts =>
      intro t ht
      have hmem : t.toTask ∈ t0.toTask :: system ts := by
        have : t.toTask ∈ (t0 :: ts).map ITask.toTask := List.mem_map_of_mem ht
        exact this
      have h1 := (gfb_iff m t0.toTask (system ts) hm).1 h t.toTask hmem
      have h2 : (t.toTask).density ≤ TaskSystem.density (t0.toTask :: system ts) := by
        unfold TaskSystem.density
        apply List.single_le_sum _ _ (List.mem_map_of_mem hmem)
        intro x hx
        obtain ⟨y, hy, rfl⟩ := List.mem_map.1 hx
        obtain ⟨z, hz, rfl⟩ := List.mem_map.1 (show y ∈ (t0 :: ts).map ITask.toTask from hy)
        exact hpos z hz
      have hm' : (1 : ℚ) ≤ m := by exact_mod_cast hm
      nlinarith
  · intro t ht
    unfold bak at h
    rw [List.all_eq_true] at h
    have h1 := h t.toTask (List.mem_map_of_mem ht)
    unfold bakTask at h1
    simp only at h1
    split_ifs at h1 with hl
    exact not_lt.1 hl

/-! ### Overload -/

theorem Schedulable.utilization_le {m : ℕ} {ts : List ITask} (hp : Proper ts) (h : Schedulable m ts) :
    TaskSystem.utilization (system ts) ≤ m := by
  have := EdfSchedulable.utilization_le h hp.period
  unfold totalUtilization at this
  have e : TaskSystem.utilization (system ts) = ((system ts).map (·.utilization)).sum := rfl
  rw [e, sum_system]
  exact this

/-- Baker's test accepts overloaded sets with arbitrary deadlines, and the
non-iterative test of Bertogna et al. accepts overloaded sets with constrained
deadlines. -/
theorem C18_violated :
    (∃ ts : List ITask, Proper ts ∧ Feasible ts ∧ 2 < TaskSystem.utilization (system ts) ∧
      bak 2 (system ts) = true) ∧
    (∃ ts : List ITask, Proper ts ∧ Constrained ts ∧ 1 < TaskSystem.utilization (system ts) ∧
      bcl 1 (system ts) = true) := by
  refine ⟨⟨[⟨1, 1, 1000⟩, ⟨1, 1, 1000⟩, ⟨1, 1, 1000⟩, ⟨1, 1, 1000⟩], ?_⟩,
    ⟨[⟨2, 1, 1⟩, ⟨2, 1, 1⟩, ⟨2, 1, 1⟩], ?_⟩⟩ <;> decide +kernel

/-- On feasible tasks with constrained deadlines no test accepts an overloaded
system. -/
theorem C18_no_overload_partial (m : ℕ) (ts : List ITask) (hm : 1 ≤ m) (hp : Proper ts)
    (hd : Constrained ts) (hf : Feasible ts)
    (h : gfb m (system ts) = true ∨ bak m (system ts) = true ∨ bar m (system ts) = true ∨
      bcl m (system ts) = true ∨ (∃ fuel limit, bcli fuel m ts limit = some true) ∨
      (∃ fuel limit step, rta fuel m ts limit step = some true)) :
    TaskSystem.utilization (system ts) ≤ m := by
  apply Schedulable.utilization_le hp
  rcases h with h | h | h | h | ⟨fuel, limit, h⟩ | ⟨fuel, limit, step, h⟩
  · exact C15_gfb_safe m ts hm hp h
  · exact C54_bak_safe m ts hm hp hd h
  · exact C56_bar_safe m ts hm hp hf h
  · exact C16_bcl_safe m ts hp hd hf h
  · exact C58_bcli_safe m ts hm hp hd hf fuel limit h
  · exact C20_rta_safe m ts hm hp hd hf fuel limit step h

/-- The density test, Baruah's test and the combined test never accept an overloaded
system, whatever the deadlines. -/
theorem C53_no_overload (m : ℕ) (ts : List ITask) (hm : 1 ≤ m) (hp : Proper ts)
    (h : gfb m (system ts) = true ∨ bar m (system ts) = true ∨
      ∃ fuel step want wantRta, isSchedulablePy fuel m ts step want wantRta = some true) :
    TaskSystem.utilization (system ts) ≤ m := by
  rcases h with h | h | ⟨fuel, step, want, wantRta, h⟩
  · exact Schedulable.utilization_le hp (C15_gfb_safe m ts hm hp h)
  · unfold bar at h
    split_ifs at h with hc
    rw [Bool.or_eq_true, not_or, decide_eq_true_eq, not_le] at hc
    exact hc.1.le
  · unfold isSchedulablePy at h
    by_cases hc : TaskSystem.utilization (system ts) > m
    · rw [if_pos (by simp [hc])] at h
      exact absurd h (by simp)
    · exact not_lt.1 hc

/-! ### The combined test -/

theorem isSchedulablePy_cases {fuel m : ℕ} {ts : List ITask} {step : ℕ} {want : WantBaruah}
    {wantRta : Bool} {ffdbf : Option Bool} (h : isSchedulablePy fuel m ts step want wantRta ffdbf = some true) :
    (m = 1 ∧ TaskSystem.density (system ts) ≤ 1) ∨
    (1 < m ∧ (bak m (system ts) = true ∨ ((system ts).onlyConstrainedDeadlines = true ∧
      (gfb m (system ts) = true ∨ bar m (system ts) = true ∨
        rta fuel m ts (minFixpointStep := step) = some true ∨ ffdbf = some true)))) := by
  unfold isSchedulablePy at h
  simp only at h
  by_cases h2 : m = 1 ∧ TaskSystem.density (system ts) ≤ 1
  · exact Or.inl h2
  by_cases h3 : m > 1
  · right
    refine ⟨h3, ?_⟩
    by_cases h4 : bak m (system ts) = true
    · exact Or.inl h4
    · right
      by_cases h5 : (system ts).onlyConstrainedDeadlines = true
      · refine ⟨h5, ?_⟩
        by_cases h6 : gfb m (system ts) = true
        · exact Or.inl h6
        by_cases h7 : (shouldUseBaruah want (system ts) m && bar m (system ts)) = true
        · rw [Bool.and_eq_true] at h7; exact Or.inr (Or.inl h7.2)
        refine Or.inr (Or.inr ?_)
        rw [if_neg h2, if_pos h3, if_neg h4, if_pos h5, if_neg h6, if_neg h7] at h
        split_ifs at h with h1 h8
        · exact absurd h (by simp)
        · obtain ⟨r, hr, h⟩ := Option.bind_eq_some_iff.1 h
          cases r with
          | true => exact Or.inl hr
          | false => exact Or.inr h
        · exact Or.inr h
      · rw [if_neg h2, if_pos h3, if_neg h4, if_neg h5] at h
        split_ifs at h <;> exact absurd h (by simp)
  · rw [if_neg h2, if_neg h3] at h
    split_ifs at h <;> exact absurd h (by simp)

/-- On a uniprocessor the combined test is safe for arbitrary deadlines. -/
theorem C57_is_schedulable_py_safe_uni (ts : List ITask) (hp : Proper ts) (fuel step : ℕ)
    (want : WantBaruah) (wantRta : Bool)
    (h : isSchedulablePy fuel 1 ts step want wantRta = some true) : Schedulable 1 ts := by
  rcases isSchedulablePy_cases h with ⟨-, h⟩ | ⟨h, -⟩
  · apply gfb_sound hp.period hp.deadline one_pos
    intro k
    have : ∑ i, densityOf (costs ts) (periods ts) (deadlines ts) i = TaskSystem.density (system ts) := by
      unfold TaskSystem.density
      rw [sum_system]
      exact sum_congr rfl (fun i _ => (density_toTask ts i).symm)
    rw [this]
    simpa using h
  · omega

/-- For feasible tasks with constrained deadlines the combined test is safe. -/
theorem C57_is_schedulable_py_safe (m : ℕ) (ts : List ITask) (hp : Proper ts) (hd : Constrained ts)
    (hf : Feasible ts) (fuel step : ℕ) (want : WantBaruah) (wantRta : Bool)
    (h : isSchedulablePy fuel m ts step want wantRta = some true) : Schedulable m ts := by
  rcases isSchedulablePy_cases h with ⟨rfl, -⟩ | ⟨hm, hb | ⟨-, hb | hb | hb | hb⟩⟩
  · exact C57_is_schedulable_py_safe_uni ts hp fuel step want wantRta h
  · exact C54_bak_safe m ts hm.le hp hd hb
  · exact C15_gfb_safe m ts hm.le hp hb
  · exact C56_bar_safe m ts hm.le hp hf hb
  · exact C20_rta_safe m ts hm.le hp hd hf _ _ _ hb
  · cases hb

/-- The combined test ends on every set of feasible tasks. -/
theorem C57_is_schedulable_py_terminates (m : ℕ) (ts : List ITask) (hp : Proper ts) (hf : Feasible ts)
    (step : ℕ) (want : WantBaruah) (wantRta : Bool) :
    ∃ N, ∀ fuel ≥ N, (isSchedulablePy fuel m ts step want wantRta).isSome := by
  by_cases hd : (system ts).onlyConstrainedDeadlines = true
  · have hd' : Constrained ts := by
      intro t ht
      unfold TaskSystem.onlyConstrainedDeadlines at hd
      rw [List.all_eq_true] at hd
      have := hd t.toTask (List.mem_map_of_mem ht)
      unfold SporadicTask.constrainedDeadline ITask.toTask at this
      simpa using this
    obtain ⟨N, hN⟩ := C19_rta_terminates_partial m ts hp hd' hf 25 step (Or.inl (by norm_num))
    refine ⟨N, fun fuel hfuel => ?_⟩
    unfold isSchedulablePy
    simp only
    obtain ⟨r, hr⟩ := Option.isSome_iff_exists.1 (hN fuel hfuel)
    rw [hr]
    cases r <;> split_ifs <;> rfl
  · refine ⟨0, fun fuel _ => ?_⟩
    unfold isSchedulablePy
    simp only
    split_ifs <;> first | rfl | contradiction

/-- The combined test reaches the response-time analysis on this set. -/
example : Proper [⟨2, 7, 6⟩, ⟨4, 9, 7⟩, ⟨3, 9, 8⟩] ∧ Constrained [⟨2, 7, 6⟩, ⟨4, 9, 7⟩, ⟨3, 9, 8⟩] ∧
    Feasible [⟨2, 7, 6⟩, ⟨4, 9, 7⟩, ⟨3, 9, 8⟩] ∧
    isSchedulablePy 30 2 [⟨2, 7, 6⟩, ⟨4, 9, 7⟩, ⟨3, 9, 8⟩] 1 .never = some true ∧
    isSchedulablePy 30 1 [⟨2, 7, 6⟩, ⟨1, 9, 17⟩] = some true := by
  decide +kernel

end Verif.GEdf
