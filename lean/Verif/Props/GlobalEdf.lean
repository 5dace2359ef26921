/-
Properties of the global EDF schedulability tests (`schedcat/sched/edf/`).
-/
import Verif.Model.GlobalEdf
import Verif.Lemmas.Bak
import Verif.Lemmas.Bar
import Verif.Lemmas.Necessary
import Verif.Props.Points
import Verif.Props.TaskLists
import Mathlib.Algebra.BigOperators.Fin
import Mathlib.Algebra.BigOperators.Field

namespace Verif.GEdf
open Verif.Spec Finset

/-- Parameters of the tasks as functions of their position. -/
def costs (ts : List ITask) : Fin ts.length → ℕ := fun i => (ts.get i).cost
def periods (ts : List ITask) : Fin ts.length → ℕ := fun i => (ts.get i).period
def deadlines (ts : List ITask) : Fin ts.length → ℕ := fun i => (ts.get i).deadline

/-- Positive periods and deadlines. -/
def Proper (ts : List ITask) : Prop := ∀ t ∈ ts, 0 < t.period ∧ 0 < t.deadline

instance (ts : List ITask) : Decidable (Proper ts) := by unfold Proper; infer_instance

/-- A job running alone meets its deadline. -/
def Feasible (ts : List ITask) : Prop := ∀ t ∈ ts, t.cost ≤ t.deadline

instance (ts : List ITask) : Decidable (Feasible ts) := by unfold Feasible; infer_instance

/-- No deadline is larger than the period. -/
def Constrained (ts : List ITask) : Prop := ∀ t ∈ ts, t.deadline ≤ t.period

instance (ts : List ITask) : Decidable (Constrained ts) := by unfold Constrained; infer_instance

/-- No task of `ts` ever misses a deadline under global EDF on `m` processors. -/
abbrev Schedulable (m : ℕ) (ts : List ITask) : Prop :=
  EdfSchedulable m (costs ts) (periods ts) (deadlines ts)

section
variable {ts : List ITask}

theorem Proper.period (h : Proper ts) (i) : 0 < periods ts i := (h _ (List.get_mem ts i)).1
theorem Proper.deadline (h : Proper ts) (i) : 0 < deadlines ts i := (h _ (List.get_mem ts i)).2
theorem Feasible.le (h : Feasible ts) (i) : costs ts i ≤ deadlines ts i := h _ (List.get_mem ts i)
theorem Constrained.le (h : Constrained ts) (i) : deadlines ts i ≤ periods ts i := h _ (List.get_mem ts i)

theorem sum_map_eq {α M : Type} [AddCommMonoid M] (l : List α) (f : α → M) :
    (l.map f).sum = ∑ i : Fin l.length, f (l.get i) := by
  rw [← List.sum_ofFn]
  congr 1
  apply List.ext_getElem <;> simp

theorem sum_eraseIdx_eq {α M : Type} [AddCommGroup M] (l : List α) (f : α → M) (k : Fin l.length) :
    ((l.eraseIdx k).map f).sum = ∑ i ∈ univ.erase k, f (l.get i) := by
  have h1 : (l.map f).sum = f (l.get k) + ((l.eraseIdx k).map f).sum := by
    have hp : l.Perm (l.get k :: l.eraseIdx k) := (List.getElem_cons_eraseIdx_perm k.2).symm
    rw [(hp.map f).sum_eq]; simp
  have h2 := sum_map_eq l f
  rw [← add_sum_erase univ (fun i => f (l.get i)) (mem_univ k)] at h2
  rw [h1] at h2
  exact add_left_cancel h2

theorem sum_system {M : Type} [AddCommMonoid M] (ts : List ITask) (f : SporadicTask → M) :
    ((system ts).map f).sum = ∑ i : Fin ts.length, f ((ts.get i).toTask) := by
  unfold system
  rw [List.map_map, sum_map_eq]
  rfl

end

/-! ### C15: the density test -/

theorem gfb_iff (m : ℕ) (t : SporadicTask) (ts : TaskSystem) (hm : 1 ≤ m) :
    gfb m (t :: ts) = true ↔ ∀ tk ∈ t :: ts, TaskSystem.density (t :: ts) ≤ m - (m - 1) * tk.density := by
  have hm' : (0 : ℚ) ≤ (m : ℚ) - 1 := by
    have : (1 : ℚ) ≤ m := by exact_mod_cast hm
    linarith
  have hmax : ∀ (l : TaskSystem) (d : ℚ), (∀ x ∈ l, x.density ≤ l.foldl (fun d t => max d t.density) d) ∧
      d ≤ l.foldl (fun d t => max d t.density) d ∧
      (l.foldl (fun d t => max d t.density) d = d ∨
        ∃ x ∈ l, l.foldl (fun d t => max d t.density) d = x.density) := by
    intro l
    induction l with
    | nil => intro d; simp
    | cons a l ih =>
      intro d
      obtain ⟨h1, h2, h3⟩ := ih (max d a.density)
      simp only [List.foldl_cons, List.mem_cons]
      refine ⟨?_, (le_max_left _ _).trans h2, ?_⟩
      · rintro x (rfl | hx)
        · exact (le_max_right _ _).trans h2
        · exact h1 x hx
      · rcases h3 with h3 | ⟨x, hx, h3⟩
        · rcases le_total d a.density with h | h
          · right; exact ⟨a, Or.inl rfl, by rw [h3, max_eq_right h]⟩
          · left; rw [h3, max_eq_left h]
        · right; exact ⟨x, Or.inr hx, h3⟩
  obtain ⟨h1, h2, h3⟩ := hmax ts t.density
  unfold gfb
  simp only [decide_eq_true_eq]
  constructor
  · intro h tk htk
    refine h.trans ?_
    have : tk.density ≤ ts.foldl (fun d t => max d t.density) t.density := by
      rcases List.mem_cons.1 htk with rfl | htk
      · exact h2
      · exact h1 tk htk
    have := mul_le_mul_of_nonneg_left this hm'
    linarith
  · intro h
    rcases h3 with h3 | ⟨x, hx, h3⟩
    · rw [h3]; exact h t List.mem_cons_self
    · rw [h3]; exact h x (List.mem_cons_of_mem _ hx)

theorem density_toTask (ts : List ITask) (i) : ((ts.get i).toTask).density =
    densityOf (costs ts) (periods ts) (deadlines ts) i := by
  unfold SporadicTask.density densityOf ITask.toTask costs periods deadlines
  simp

/-- If the density test accepts, no deadline is ever missed under global EDF;
arbitrary deadlines. -/
theorem C15_gfb_safe (m : ℕ) (ts : List ITask) (hm : 1 ≤ m) (hp : Proper ts)
    (h : gfb m (system ts) = true) : Schedulable m ts := by
  cases ts with
  | nil => intro w σ _ _ _ j; exact j.1.elim0
  | cons t ts =>
    apply gfb_sound hp.period hp.deadline hm
    intro k
    have h1 := (gfb_iff m t.toTask (system ts) hm).1 h (((t :: ts).get k).toTask) (by
      have : ((t :: ts).get k).toTask ∈ (t :: ts).map ITask.toTask :=
        List.mem_map_of_mem (List.get_mem _ k)
      simpa [system] using this)
    rw [density_toTask] at h1
    refine le_trans (le_of_eq ?_) h1
    have := sum_system (t :: ts) SporadicTask.density
    unfold TaskSystem.density
    rw [show (t.toTask :: system ts) = system (t :: ts) from rfl, this]
    exact sum_congr rfl (fun i _ => (density_toTask (t :: ts) i).symm)

/-- Two processors, three tasks with constrained and arbitrary deadlines. -/
example : Proper [⟨1, 2, 3⟩, ⟨2, 6, 5⟩, ⟨1, 4, 4⟩] ∧
    gfb 2 (system [⟨1, 2, 3⟩, ⟨2, 6, 5⟩, ⟨1, 4, 4⟩]) = true := by decide +kernel

/-! ### Baker's test -/

theorem bak_cond (m : ℕ) (ts : List ITask) (hd : Constrained ts)
    (h : bak m (system ts) = true) (k : Fin ts.length) :
    (costs ts k : ℚ) / deadlines ts k ≤ 1 ∧
    ∑ i, min 1 ((costs ts i : ℚ) / periods ts i * (1 + ((periods ts i : ℚ) - deadlines ts i) / deadlines ts k) +
        (if (costs ts k : ℚ) / deadlines ts k < costs ts i / periods ts i then
          (costs ts i - (costs ts k : ℚ) / deadlines ts k * periods ts i) / deadlines ts k else 0))
        ≤ m - (m - 1) * ((costs ts k : ℚ) / deadlines ts k) := by
  unfold bak at h
  rw [List.all_eq_true] at h
  have h1 := h ((ts.get k).toTask) (List.mem_map_of_mem (List.get_mem _ k))
  unfold bakTask at h1
  simp only at h1
  have hdens : ((ts.get k).toTask).density = (costs ts k : ℚ) / deadlines ts k := by
    rw [density_toTask]
    unfold densityOf
    rw [min_eq_right (hd.le k)]
  rw [hdens] at h1
  split_ifs at h1 with hl
  refine ⟨not_lt.1 hl, ?_⟩
  rw [decide_eq_true_eq, sum_system] at h1
  refine le_trans (le_of_eq (sum_congr rfl ?_)) h1
  intro i _
  congr 1
  unfold bakBeta SporadicTask.utilization ITask.toTask
  simp only
  by_cases hc : (costs ts k : ℚ) / deadlines ts k < costs ts i / periods ts i
  · rw [if_pos hc, if_pos (by exact hc)]; unfold costs periods deadlines; ring
  · rw [if_neg hc, if_neg (by exact hc)]; unfold costs periods deadlines; ring

/-- Baker's test is safe for tasks with constrained deadlines. -/
theorem C54_bak_safe (m : ℕ) (ts : List ITask) (hm : 1 ≤ m) (hp : Proper ts)
    (hd : Constrained ts) (h : bak m (system ts) = true) : Schedulable m ts := by
  apply bak_sound hp.period hp.deadline hd.le hm
  · intro k
    have h1 := (bak_cond m ts hd h k).1
    have h2 : (0 : ℚ) < deadlines ts k := by exact_mod_cast hp.deadline k
    rw [div_le_one h2] at h1
    exact_mod_cast h1
  · intro k
    exact (bak_cond m ts hd h k).2

example : Proper [⟨2, 7, 6⟩, ⟨1, 5, 5⟩, ⟨3, 9, 8⟩] ∧ Constrained [⟨2, 7, 6⟩, ⟨1, 5, 5⟩, ⟨3, 9, 8⟩] ∧
    bak 2 (system [⟨2, 7, 6⟩, ⟨1, 5, 5⟩, ⟨3, 9, 8⟩]) = true := by decide +kernel

/-- With deadlines larger than periods Baker's test is not safe, although
`is_schedulable_py` relies on it for such task sets: three jobs that need the
first slot cannot all run on two processors. -/
theorem C55_bak_violated : ∃ ts : List ITask, Proper ts ∧ Feasible ts ∧ (∀ t ∈ ts, t.cost ≤ t.period) ∧
    bak 2 (system ts) = true ∧ isSchedulablePy 1 2 ts = some true ∧
    ∃ w : Workload ts.length, w.Sporadic (costs ts) (periods ts) ∧
      ∀ σ, ValidSchedule 2 w σ → ¬ MeetsDeadlines w (deadlines ts) σ := by
  refine ⟨[⟨3, 8, 19⟩, ⟨1, 2, 1⟩, ⟨1, 2, 1⟩, ⟨1, 3, 1⟩], by decide, by decide, by decide,
    by decide +kernel, by decide +kernel, periodic _ _, periodic_sporadic _ _, fun σ hv => ?_⟩
  exact multi_necessary (t := 1) (by decide) hv

/-! ### C16: the test of Bertogna, Cirinei and Lipari -/

theorem bclN_eq (tk ti : ITask) :
    bclN tk.toTask ti.toTask = ((tk.deadline : ℤ) - ti.deadline) / ti.period + 1 := by
  unfold bclN ITask.toTask
  simp only
  congr 1
  rw [← Rat.floor_intCast_div_natCast]
  push_cast
  rfl

theorem bclBeta_eq (tk ti : ITask) :
    bclBeta tk.toTask ti.toTask =
      ((bclWork ti.cost ti.period ti.deadline tk.deadline : ℤ) : ℚ) / tk.deadline := by
  unfold bclBeta
  rw [bclN_eq]
  unfold bclWork ITask.toTask
  push_cast
  rfl

theorem bcl_cond (m : ℕ) (ts : List ITask) (hp : Proper ts) (hd : Constrained ts)
    (h : bcl m (system ts) = true) (k : Fin ts.length) :
    ∑ i ∈ univ.erase k, min (bclWork (costs ts i) (periods ts i) (deadlines ts i) (deadlines ts k))
        ((deadlines ts k : ℤ) - costs ts k) < m * ((deadlines ts k : ℤ) - costs ts k) ∨
      (∑ i ∈ univ.erase k, min (bclWork (costs ts i) (periods ts i) (deadlines ts i) (deadlines ts k))
          ((deadlines ts k : ℤ) - costs ts k) = m * ((deadlines ts k : ℤ) - costs ts k) ∧
        ∃ j ∈ univ.erase k, 0 < bclWork (costs ts j) (periods ts j) (deadlines ts j) (deadlines ts k) ∧
          bclWork (costs ts j) (periods ts j) (deadlines ts j) (deadlines ts k) ≤
            (deadlines ts k : ℤ) - costs ts k) := by
  unfold bcl at h
  rw [List.all_eq_true] at h
  have hk : (k : ℕ) < (system ts).length := by simp [system]
  have h1 := h ((ts.get k).toTask, (k : ℕ)) (by
    rw [List.mem_zipIdx_iff_getElem?]
    simp [system])
  simp only at h1
  have hDk : (0 : ℚ) < deadlines ts k := by exact_mod_cast hp.deadline k
  have hdens : ((ts.get k).toTask).density = (costs ts k : ℚ) / deadlines ts k := by
    rw [density_toTask]
    unfold densityOf
    rw [min_eq_right (hd.le k)]
  have hlk : (1 : ℚ) - (costs ts k : ℚ) / deadlines ts k =
      (((deadlines ts k : ℤ) - costs ts k : ℤ) : ℚ) / deadlines ts k := by
    push_cast; field_simp
  set W : Fin ts.length → ℤ := fun i =>
    bclWork (costs ts i) (periods ts i) (deadlines ts i) (deadlines ts k) with hW
  have hbeta : ∀ i, bclBeta ((ts.get k).toTask) ((ts.get i).toTask) = (W i : ℚ) / deadlines ts k :=
    fun i => bclBeta_eq _ _
  have herase : (system ts).eraseIdx k = (ts.eraseIdx k).map ITask.toTask := by
    unfold system
    exact List.eraseIdx_map ..
  unfold bclTask at h1
  simp only at h1
  rw [hdens, hlk, herase, List.map_map, List.map_map, sum_eraseIdx_eq] at h1
  have hsum : ∑ i ∈ univ.erase k, (((fun b => min b ((((deadlines ts k : ℤ) - costs ts k : ℤ) : ℚ) / deadlines ts k)) ∘
      bclBeta ((ts.get k).toTask)) ∘ ITask.toTask) (ts.get i) =
      ((∑ i ∈ univ.erase k, min (W i) ((deadlines ts k : ℤ) - costs ts k) : ℤ) : ℚ) / deadlines ts k := by
    rw [Int.cast_sum, sum_div]
    apply sum_congr rfl
    intro i _
    simp only [Function.comp]
    rw [hbeta, min_div_div_right hDk.le, Int.cast_min]
  have hcap : (m : ℚ) * ((((deadlines ts k : ℤ) - costs ts k : ℤ) : ℚ) / deadlines ts k) =
      ((m * ((deadlines ts k : ℤ) - costs ts k) : ℤ) : ℚ) / deadlines ts k := by
    push_cast; ring
  rw [hsum, hcap, Bool.or_eq_true, Bool.and_eq_true, decide_eq_true_eq, decide_eq_true_eq] at h1
  rcases h1 with h1 | ⟨h1, h2⟩
  · left
    rw [div_lt_div_iff_of_pos_right hDk] at h1
    exact_mod_cast h1
  · right
    rw [div_left_inj' hDk.ne'] at h1
    refine ⟨by exact_mod_cast h1, ?_⟩
    rw [List.any_eq_true] at h2
    obtain ⟨b, hb, h2⟩ := h2
    rw [decide_eq_true_eq] at h2
    obtain ⟨t', ht', rfl⟩ := List.mem_map.1 hb
    obtain ⟨t, ht, rfl⟩ := List.mem_map.1 ht'
    obtain ⟨i, hi, hne, rfl⟩ := List.mem_eraseIdx_iff_getElem.1 ht
    refine ⟨⟨i, hi⟩, mem_erase.2 ⟨fun hc => hne (by rw [← hc]), mem_univ _⟩, ?_⟩
    have e := hbeta ⟨i, hi⟩
    simp only [List.get_eq_getElem] at e
    simp only [Function.comp, List.get_eq_getElem] at h2
    rw [e] at h2
    have h3 : (0 : ℚ) < W ⟨i, hi⟩ := by
      have := h2.1
      rwa [div_pos_iff_of_pos_right hDk] at this
    have h4 := h2.2
    rw [div_le_div_iff_of_pos_right hDk] at h4
    exact ⟨by exact_mod_cast h3, by exact_mod_cast h4⟩

/-- The test is safe for constrained-deadline tasks each of which is feasible on its
own. -/
theorem C16_bcl_safe (m : ℕ) (ts : List ITask) (hp : Proper ts) (hd : Constrained ts)
    (hf : Feasible ts) (h : bcl m (system ts) = true) : Schedulable m ts := by
  intro w σ hs hv he
  refine (justified_sound (P := fun w => w.deadline (deadlines ts)) (D := deadlines ts) ?_ hs hv he).1
  intro k
  exact ⟨_, _, Justified.init,
    bcl_step hp.period hp.deadline hd.le (hf.le k) (bcl_cond m ts hp hd h k), le_rfl⟩

example : Proper [⟨2, 7, 6⟩, ⟨1, 5, 5⟩, ⟨3, 9, 8⟩] ∧ Constrained [⟨2, 7, 6⟩, ⟨1, 5, 5⟩, ⟨3, 9, 8⟩] ∧
    Feasible [⟨2, 7, 6⟩, ⟨1, 5, 5⟩, ⟨3, 9, 8⟩] ∧
    bcl 2 (system [⟨2, 7, 6⟩, ⟨1, 5, 5⟩, ⟨3, 9, 8⟩]) = true := by decide +kernel

/-- The equality case of the test. -/
example : Proper [⟨1, 2, 2⟩, ⟨1, 4, 3⟩] ∧ Constrained [⟨1, 2, 2⟩, ⟨1, 4, 3⟩] ∧
    bcl 1 (system [⟨1, 2, 2⟩, ⟨1, 4, 3⟩]) = true := by decide +kernel

end Verif.GEdf
