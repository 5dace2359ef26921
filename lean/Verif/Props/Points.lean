/-
Property C03: points of change of `dbf` and `rbf`.
-/
import Verif.Lemmas.Points
import Mathlib.Tactic.NormNum

namespace Verif
open Spec

/-- A task with meaningful parameters. -/
def SporadicTask.Ok (tsk : SporadicTask) : Prop :=
  0 < tsk.cost ∧ 0 < tsk.period ∧ 0 < tsk.deadline

/-- C03 for one task: `dbf_points_of_change(max_t, offset)` enumerates exactly
the points `x <= max_t` such that `dbf` changes at `x + offset`; a positive
offset drops the negative ones. -/
theorem C03_dbf_points_task (tsk : SporadicTask) (h : tsk.Ok) (maxT offset x : ℚ) :
    x ∈ tsk.dbfPointsOfChange maxT offset ↔
      x ≤ maxT ∧ ChangesAt tsk.dbf (x + offset) ∧ (0 < offset → 0 ≤ x) := by
  rw [changesAt_dbf tsk h.2.1 h.2.2 h.1]
  exact mem_points h.2.1 tsk.deadline maxT offset x

theorem C03_rbf_points_task (tsk : SporadicTask) (h : tsk.Ok) (maxT offset x : ℚ) :
    x ∈ tsk.rbfPointsOfChange maxT offset ↔
      x ≤ maxT ∧ ChangesAt tsk.rbf (x + offset) ∧ (0 < offset → 0 ≤ x) := by
  rw [changesAt_rbf tsk h.2.1 h.1]
  have := mem_points h.2.1 0 maxT offset x
  simp only [zero_sub, zero_add] at this
  exact this

/-- C03, membership for task systems. -/
theorem C03_dbf_points_system (ts : TaskSystem) (h : ∀ t ∈ ts, t.Ok) (maxT offset x : ℚ) :
    x ∈ TaskSystem.dbfPointsOfChange ts maxT offset ↔
      x ≤ maxT ∧ ChangesAt (TaskSystem.dbf ts) (x + offset) ∧ (0 < offset → 0 ≤ x) := by
  unfold TaskSystem.dbfPointsOfChange TaskSystem.dbf
  rw [mem_uniq, mem_heapqMerge,
    changesAt_listSum ts SporadicTask.dbf (fun t ht => dbf_mono t (h t ht).2.1 (h t ht).1.le)]
  constructor
  · rintro ⟨l, hl, hx⟩
    obtain ⟨t, ht, rfl⟩ := List.mem_map.1 hl
    obtain ⟨h1, h2, h3⟩ := (C03_dbf_points_task t (h t ht) _ _ _).1 hx
    exact ⟨h1, ⟨t, ht, h2⟩, h3⟩
  · rintro ⟨h1, ⟨t, ht, h2⟩, h3⟩
    exact ⟨_, List.mem_map.2 ⟨t, ht, rfl⟩, (C03_dbf_points_task t (h t ht) _ _ _).2 ⟨h1, h2, h3⟩⟩

theorem C03_rbf_points_system (ts : TaskSystem) (h : ∀ t ∈ ts, t.Ok) (maxT offset x : ℚ) :
    x ∈ TaskSystem.rbfPointsOfChange ts maxT offset ↔
      x ≤ maxT ∧ ChangesAt (TaskSystem.rbf ts) (x + offset) ∧ (0 < offset → 0 ≤ x) := by
  unfold TaskSystem.rbfPointsOfChange TaskSystem.rbf
  rw [mem_uniq, mem_heapqMerge,
    changesAt_listSum ts SporadicTask.rbf (fun t ht => rbf_mono t (h t ht).2.1 (h t ht).1.le)]
  constructor
  · rintro ⟨l, hl, hx⟩
    obtain ⟨t, ht, rfl⟩ := List.mem_map.1 hl
    obtain ⟨h1, h2, h3⟩ := (C03_rbf_points_task t (h t ht) _ _ _).1 hx
    exact ⟨h1, ⟨t, ht, h2⟩, h3⟩
  · rintro ⟨h1, ⟨t, ht, h2⟩, h3⟩
    exact ⟨_, List.mem_map.2 ⟨t, ht, rfl⟩, (C03_rbf_points_task t (h t ht) _ _ _).2 ⟨h1, h2, h3⟩⟩

/-- C03, order: the enumeration is strictly increasing, in particular free
of duplicates. -/
theorem C03_points_strictly_increasing (ts : TaskSystem) (maxT offset : ℚ) :
    (TaskSystem.dbfPointsOfChange ts maxT offset).Pairwise (· < ·) ∧
    (TaskSystem.rbfPointsOfChange ts maxT offset).Pairwise (· < ·) := by
  constructor
  all_goals
    apply uniq_sorted
    apply heapqMerge_sorted
    intro l hl
    obtain ⟨t, _, rfl⟩ := List.mem_map.1 hl
    exact (countUpTo_sorted _ _ _).imp le_of_lt

/-- Between points of change the demand does not change: the demand at `t` is
zero or the demand at some listed point not after `t`. -/
theorem dbf_system_last_point (ts : TaskSystem) (h : ∀ t ∈ ts, t.Ok) (t : ℚ) :
    TaskSystem.dbf ts t = 0 ∨
      ∃ p ≤ t, TaskSystem.dbf ts p = TaskSystem.dbf ts t ∧
        ∃ tsk ∈ ts, ChangesAt tsk.dbf p := by
  induction ts with
  | nil => left; rfl
  | cons a as ih =>
    have ha := h a (by simp)
    have has := fun t ht => h t (List.mem_cons_of_mem a ht)
    have e : ∀ x, TaskSystem.dbf (a :: as) x = a.dbf x + TaskSystem.dbf as x := fun x => rfl
    have m1 := dbf_mono a ha.2.1 ha.1.le
    have m2 : Monotone (TaskSystem.dbf as) :=
      monotone_listSum as SporadicTask.dbf (fun t ht => dbf_mono t (has t ht).2.1 (has t ht).1.le)
    have n2 : ∀ x, 0 ≤ TaskSystem.dbf as x := fun x =>
      List.sum_nonneg (by intro y hy; obtain ⟨t, _, rfl⟩ := List.mem_map.1 hy; exact dbf_nonneg _ _)
    rcases lt_or_ge t a.deadline with hlt | hge
    · have h0 := dbf_of_lt a ha.2.1 ha.1.le t hlt
      rcases ih has with h1 | ⟨p, hp, hp2, tsk, htsk, hch⟩
      · left; rw [e, h0, h1, add_zero]
      · right
        refine ⟨p, hp, ?_, tsk, by simp [htsk], hch⟩
        rw [e, e, hp2, h0, dbf_of_lt a ha.2.1 ha.1.le p (by linarith)]
    · obtain ⟨k, hk1, hk2⟩ := dbf_last_point a ha.2.1 ha.2.2 ha.1.le t hge
      have hch : ChangesAt a.dbf (a.deadline + k * a.period) :=
        (changesAt_dbf a ha.2.1 ha.2.2 ha.1 _).2 ⟨k, rfl⟩
      right
      rcases ih has with h1 | ⟨p, hp, hp2, tsk, htsk, hch'⟩
      · refine ⟨_, hk1, ?_, a, by simp, hch⟩
        rw [e, e, hk2, h1]
        have := m2 hk1
        have := n2 (a.deadline + k * a.period)
        rw [h1] at *
        congr 1; linarith
      · rcases le_total p (a.deadline + k * a.period) with hle | hle
        · refine ⟨_, hk1, ?_, a, by simp, hch⟩
          rw [e, e, hk2]
          have := m2 hle
          have := m2 hk1
          congr 1; linarith
        · refine ⟨p, hp, ?_, tsk, by simp [htsk], hch'⟩
          rw [e, e, hp2]
          have := m1 hle
          have := m1 hp
          congr 1; linarith

/-- C03, sufficiency: if `dbf(p) <= p` at every listed point then
`dbf(t) <= t` for *every* `t` in `[0, max_t]`. -/
theorem C03_points_sufficient (ts : TaskSystem) (h : ∀ t ∈ ts, t.Ok) (maxT : ℚ)
    (hp : ∀ p ∈ TaskSystem.dbfPointsOfChange ts maxT, TaskSystem.dbf ts p ≤ p)
    (t : ℚ) (h0 : 0 ≤ t) (ht : t ≤ maxT) : TaskSystem.dbf ts t ≤ t := by
  rcases dbf_system_last_point ts h t with h1 | ⟨p, hpt, hpe, tsk, htsk, hch⟩
  · rw [h1]; exact h0
  · have hmem : p ∈ TaskSystem.dbfPointsOfChange ts maxT := by
      rw [C03_dbf_points_system ts h]
      refine ⟨hpt.trans ht, ?_, fun h => absurd h (lt_irrefl _)⟩
      rw [add_zero]
      exact (changesAt_listSum ts SporadicTask.dbf
        (fun t ht => dbf_mono t (h t ht).2.1 (h t ht).1.le) p).2 ⟨tsk, htsk, hch⟩
    rw [← hpe]
    exact (hp p hmem).trans hpt

/-- Non-vacuity: two tasks satisfy the hypotheses and have the points
4, 6, 9, 12 up to 13. -/
example : (∀ t ∈ ([⟨1, 5, 4⟩, ⟨2, 6, 6⟩] : TaskSystem), t.Ok) := by
  intro t ht
  simp only [List.mem_cons, List.not_mem_nil, or_false] at ht
  rcases ht with rfl | rfl <;> norm_num [SporadicTask.Ok]

example : (9 : ℚ) ∈ TaskSystem.dbfPointsOfChange [⟨1, 5, 4⟩, ⟨2, 6, 6⟩] 13 := by
  rw [C03_dbf_points_system]
  · refine ⟨by norm_num, ?_, by norm_num⟩
    refine (changesAt_listSum _ SporadicTask.dbf ?_ _).2 ⟨⟨1, 5, 4⟩, by simp, ?_⟩
    · intro t ht
      simp only [List.mem_cons, List.not_mem_nil, or_false] at ht
      rcases ht with rfl | rfl <;> exact dbf_mono _ (by norm_num) (by norm_num)
    · rw [changesAt_dbf _ (by norm_num) (by norm_num) (by norm_num)]
      exact ⟨1, by norm_num⟩
  · intro t ht
    simp only [List.mem_cons, List.not_mem_nil, or_false] at ht
    rcases ht with rfl | rfl <;> norm_num [SporadicTask.Ok]

end Verif
