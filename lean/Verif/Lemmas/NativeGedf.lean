/-
The native tests for global EDF compute the same as the Python ones on feasible tasks
with constrained deadlines.
-/
import Verif.Model.NativeGedf
import Verif.Props.GedfCombined

namespace Verif.Native
open Verif.Spec Finset

/-- The parameters of a native task that the Python tests use. -/
def toI (t : Task) : GEdf.ITask := ⟨t.wcet, t.period, t.deadline⟩

/-- Feasible tasks with constrained deadlines. -/
def Plain (ts : TaskSet) : Prop := ∀ t ∈ ts, 0 < t.wcet ∧ t.wcet ≤ t.deadline ∧ t.deadline ≤ t.period

variable {ts : TaskSet} {m : ℕ}

theorem edfSchedulable_cast {n n' : ℕ} (h : n = n') {C T D : Fin n → ℕ} {C' T' D' : Fin n' → ℕ}
    (hC : ∀ i, C i = C' (Fin.cast h i)) (hT : ∀ i, T i = T' (Fin.cast h i)) (hD : ∀ i, D i = D' (Fin.cast h i)) :
    EdfSchedulable m C' T' D' → EdfSchedulable m C T D := by
  subst h
  obtain rfl : C = C' := funext hC
  obtain rfl : T = T' := funext hT
  obtain rfl : D = D' := funext hD
  exact id

theorem of_python (h : GEdf.Schedulable m (ts.map toI)) : EdfSchedulable m (fun i => (ts.get i).wcet)
    (fun i => (ts.get i).period) (fun i => (ts.get i).deadline) := by
  refine edfSchedulable_cast (List.length_map _).symm ?_ ?_ ?_ h <;>
  · intro i
    simp [GEdf.costs, GEdf.periods, GEdf.deadlines, toI]

theorem Plain.proper (h : Plain ts) : GEdf.Proper (ts.map toI) := by
  intro t ht
  obtain ⟨s, hs, rfl⟩ := List.mem_map.1 ht
  obtain ⟨h1, h2, h3⟩ := h s hs
  exact ⟨by change 0 < s.period; omega, by change 0 < s.deadline; omega⟩

theorem Plain.feasible (h : Plain ts) : GEdf.Feasible (ts.map toI) := by
  intro t ht
  obtain ⟨s, hs, rfl⟩ := List.mem_map.1 ht
  exact (h s hs).2.1

theorem Plain.constrained (h : Plain ts) : GEdf.Constrained (ts.map toI) := by
  intro t ht
  obtain ⟨s, hs, rfl⟩ := List.mem_map.1 ht
  exact (h s hs).2.2

/-! ### Density and Baker's test -/

theorem density_eq {t : Task} (h : t.deadline ≤ t.period) : (toI t).toTask.density = t.density := by
  unfold GEdf.ITask.toTask SporadicTask.density Task.density toI
  simp only
  rw [min_eq_right (by exact_mod_cast h)]

theorem density_nonneg (t : Task) : 0 ≤ t.density := by
  unfold Task.density
  positivity

theorem toI_utilization (t : Task) : (toI t).toTask.utilization = t.utilization := rfl

theorem foldl_density (hp : Plain ts) (d : ℚ) :
    (GEdf.system (ts.map toI)).foldl (fun d t => max d t.density) d = ts.foldl (fun d t => max d t.density) d := by
  induction ts generalizing d with
  | nil => rfl
  | cons t ts ih =>
    rw [GEdf.system, List.map_cons, List.map_cons, List.foldl_cons, List.foldl_cons,
      density_eq (hp t List.mem_cons_self).2.2]
    exact ih (fun s hs => hp s (List.mem_cons_of_mem _ hs)) _

theorem sum_density (hp : Plain ts) : TaskSystem.density (GEdf.system (ts.map toI)) = ts.density := by
  unfold TaskSystem.density TaskSet.density GEdf.system
  rw [List.map_map, List.map_map]
  congr 1
  refine List.map_congr_left (fun t ht => ?_)
  exact density_eq (hp t ht).2.2

theorem gfbCore_eq (hp : Plain ts) (hm : 0 < m) : gfbCore m ts = GEdf.gfb m (GEdf.system (ts.map toI)) := by
  cases ts with
  | nil =>
    unfold gfbCore
    have : (0 : ℚ) < m := by exact_mod_cast hm
    simp [TaskSet.density, TaskSet.maxDensity, GEdf.system, GEdf.gfb]
  | cons t ts =>
    have h := foldl_density (ts := ts) (fun s hs => hp s (List.mem_cons_of_mem _ hs)) t.density
    have h2 := sum_density hp
    have h3 : (GEdf.system ((t :: ts).map toI)) = (toI t).toTask :: GEdf.system (ts.map toI) := rfl
    rw [h3] at h2 ⊢
    unfold gfbCore GEdf.gfb
    simp only
    rw [h2, density_eq (hp t List.mem_cons_self).2.2, h]
    unfold TaskSet.maxDensity
    rw [List.foldl_cons, max_eq_right (density_nonneg t)]

theorem bakerBeta_eq {ti tk : Task} (hi : ti.deadline ≤ ti.period) (l : ℚ) :
    bakerBeta ti tk l = GEdf.bakBeta (toI ti).toTask (toI tk).toTask l := by
  unfold bakerBeta GEdf.bakBeta
  rw [toI_utilization]
  have h1 : (ulSub ti.period ti.deadline : ℚ) = (ti.period : ℚ) - ti.deadline := by
    unfold ulSub
    rw [if_pos hi, Nat.cast_sub hi]
  simp only [h1, toI, GEdf.ITask.toTask]
  split_ifs <;> ring

theorem bakerBeta_nonneg {ti tk : Task} (hi : ti.deadline ≤ ti.period) (hT : 0 < ti.period) (l : ℚ) :
    0 ≤ bakerBeta ti tk l := by
  have hu : 0 ≤ ti.utilization := by
    unfold Task.utilization
    positivity
  unfold bakerBeta
  simp only
  split_ifs with h
  · have h2 : 0 ≤ (ti.wcet : ℚ) - l * ti.period := by
      unfold Task.utilization at h
      have h3 : (0 : ℚ) < ti.period := by exact_mod_cast hT
      rw [lt_div_iff₀ h3] at h
      linarith
    have := div_nonneg h2 (Nat.cast_nonneg (α := ℚ) tk.deadline)
    positivity
  · positivity

theorem bakerLoop_iff {tk : Task} {l bound : ℚ} {ts : TaskSet}
    (hp : ∀ t ∈ ts, 0 ≤ bakerBeta t tk l) (s : ℚ) :
    bakerLoop tk l bound ts s ≤ bound ↔ s + (ts.map (fun ti => min (bakerBeta ti tk l) 1)).sum ≤ bound := by
  induction ts generalizing s with
  | nil => simp [bakerLoop]
  | cons t ts ih =>
    rw [bakerLoop, List.map_cons, List.sum_cons]
    split_ifs with h
    · rw [ih (fun s hs => hp s (List.mem_cons_of_mem _ hs)), add_assoc]
    · have h1 : 0 ≤ min (bakerBeta t tk l) 1 := le_min (hp t List.mem_cons_self) (by norm_num)
      have h2 : 0 ≤ (ts.map (fun ti => min (bakerBeta ti tk l) 1)).sum := by
        refine List.sum_nonneg (fun x hx => ?_)
        obtain ⟨s, hs, rfl⟩ := List.mem_map.1 hx
        exact le_min (hp s (List.mem_cons_of_mem _ hs)) (by norm_num)
      constructor
      · intro h3
        exact absurd h3 h
      · intro h3
        linarith

theorem bakerTask_eq (hp : Plain ts) {tk : Task} (hk : tk ∈ ts) :
    bakerTask m tk ts = GEdf.bakTask (GEdf.system (ts.map toI)) (toI tk).toTask m := by
  obtain ⟨hk1, hk2, hk3⟩ := hp tk hk
  have hd : ¬ tk.density > 1 := by
    unfold Task.density
    rw [not_lt, div_le_one (by exact_mod_cast (by omega : 0 < tk.deadline))]
    exact_mod_cast hk2
  unfold bakerTask GEdf.bakTask
  simp only
  rw [density_eq hk3, if_neg hd]
  refine decide_eq_decide.2 ?_
  rw [bakerLoop_iff (fun t ht => bakerBeta_nonneg (hp t ht).2.2
    (by have := hp t ht; omega) _), GEdf.system, List.map_map, List.map_map]
  have h : (ts.map (fun ti => min (bakerBeta ti tk tk.density) 1)) =
      ts.map ((fun ti => min 1 (GEdf.bakBeta ti (toI tk).toTask tk.density)) ∘ GEdf.ITask.toTask ∘ toI) := by
    refine List.map_congr_left (fun t ht => ?_)
    rw [bakerBeta_eq (hp t ht).2.2, min_comm]
    rfl
  rw [h, zero_add]
  have : (m : ℚ) * (1 - tk.density) + tk.density = m - (m - 1) * tk.density := by ring
  rw [this]
  rfl

theorem bakerCore_eq (hp : Plain ts) : bakerCore m ts = GEdf.bak m (GEdf.system (ts.map toI)) := by
  unfold bakerCore GEdf.bak
  rw [show GEdf.system (ts.map toI) = ts.map (GEdf.ITask.toTask ∘ toI) by rw [GEdf.system, List.map_map],
    List.all_map, Bool.eq_iff_iff, List.all_eq_true, List.all_eq_true]
  refine forall₂_congr (fun t ht => ?_)
  rw [bakerTask_eq hp ht, GEdf.system, List.map_map]
  rfl

/-! ### The test of Bertogna, Cirinei and Lipari -/

theorem bclBeta_eq {ti tk : Task} (hi : 0 < ti.wcet ∧ ti.wcet ≤ ti.deadline ∧ ti.deadline ≤ ti.period)
    (hk : 0 < tk.deadline) : bclBeta ti tk = GEdf.bclBeta (toI tk).toTask (toI ti).toTask := by
  have hN : GEdf.bclN (toI tk).toTask (toI ti).toTask = (bclJobs ti tk : ℤ) := by
    unfold GEdf.bclN bclJobs toI GEdf.ITask.toTask
    simp only
    have h1 : ((tk.deadline : ℚ) - ti.deadline) / ti.period =
        ((((tk.deadline : ℤ) - ti.deadline : ℤ) : ℚ)) / ((ti.period : ℕ) : ℚ) := by push_cast; rfl
    rw [h1, Rat.floor_intCast_div_natCast]
    split_ifs with h
    · have : ((tk.deadline : ℤ) - ti.deadline) / ti.period = -1 := by
        rw [Int.ediv_eq_iff_of_pos (by omega)]
        constructor <;> omega
      rw [this]
      rfl
    · push_cast [Nat.cast_sub (not_lt.1 h)]
      ring
  unfold bclBeta GEdf.bclBeta
  rw [hN]
  simp only [toI, GEdf.ITask.toTask]
  congr 1
  have h2 : ((if bclJobs ti tk * ti.period < tk.deadline then tk.deadline - bclJobs ti tk * ti.period else 0 : ℕ) : ℚ)
      = max 0 ((tk.deadline : ℚ) - ((bclJobs ti tk : ℤ) : ℚ) * ti.period) := by
    split_ifs with h
    · rw [Nat.cast_sub h.le, max_eq_right]
      · push_cast; ring
      · have : ((bclJobs ti tk * ti.period : ℕ) : ℚ) < tk.deadline := by exact_mod_cast h
        push_cast at this ⊢
        linarith
    · rw [max_eq_left]
      · rfl
      · have : (tk.deadline : ℚ) ≤ ((bclJobs ti tk * ti.period : ℕ) : ℚ) := by exact_mod_cast not_lt.1 h
        push_cast at this ⊢
        linarith
  rw [← h2]
  push_cast
  rfl

theorem map_eraseIdx' {α β : Type*} (f : α → β) (l : List α) (k : ℕ) :
    (l.eraseIdx k).map f = (l.map f).eraseIdx k := by
  induction l generalizing k with
  | nil => rfl
  | cons a l ih => cases k with
    | zero => rfl
    | succ k => simp [ih]

theorem bclTask_eq {others : TaskSet} (hp : Plain others) {tk : Task} (hk : 0 < tk.deadline ∧ tk.deadline ≤ tk.period) :
    bclTask m tk others = GEdf.bclTask (GEdf.system (others.map toI)) (toI tk).toTask m := by
  have hb : (GEdf.system (others.map toI)).map (GEdf.bclBeta (toI tk).toTask) = others.map (fun ti => bclBeta ti tk) := by
    unfold GEdf.system
    rw [List.map_map, List.map_map]
    refine List.map_congr_left (fun t ht => ?_)
    rw [bclBeta_eq (hp t ht) hk.1]
    rfl
  unfold bclTask GEdf.bclTask
  simp only
  rw [hb, density_eq hk.2, List.map_map, List.any_map, mul_comm (m : ℚ), Bool.and_comm]
  rfl

theorem zipIdx_map' {α β : Type*} (f : α → β) (l : List α) (n : ℕ) :
    (l.map f).zipIdx n = (l.zipIdx n).map (fun p => (f p.1, p.2)) := by
  induction l generalizing n with
  | nil => rfl
  | cons a l ih => simp [ih]

theorem bclCore_eq (hp : Plain ts) : bclCore m ts = GEdf.bcl m (GEdf.system (ts.map toI)) := by
  unfold bclCore GEdf.bcl
  rw [show GEdf.system (ts.map toI) = ts.map (GEdf.ITask.toTask ∘ toI) by rw [GEdf.system, List.map_map],
    zipIdx_map', List.all_map, Bool.eq_iff_iff, List.all_eq_true, List.all_eq_true]
  refine forall₂_congr (fun p h => ?_)
  have hmem : p.1 ∈ ts := by
    obtain ⟨i, h1, h2⟩ := List.mem_iff_getElem.1 h
    rw [List.getElem_zipIdx] at h2
    rw [← h2]
    exact List.getElem_mem _
  have h1 := hp _ hmem
  rw [bclTask_eq (fun t ht => hp t (List.mem_of_mem_eraseIdx ht)) ⟨by omega, h1.2.2⟩]
  simp only [Function.comp]
  rw [GEdf.system, List.map_map, map_eraseIdx']

end Verif.Native
