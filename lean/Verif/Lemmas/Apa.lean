/-
Facts about C=D splitting and the analyses used by the heuristics of
`schedcat/mapping/apa.py`.
-/
import Verif.Spec.SemiPartition
import Verif.Props.Qpa
import Mathlib.Tactic.Positivity

namespace Verif.Apa
open Verif.Native Verif.Spec

/-- The native task of a task. -/
def nat (t : ATask) : Native.Task := Task.init t.cost t.period t.deadline.toNat

/-- Demand of a list of tasks. -/
def dem (ts : List ATask) (x : ℕ) : ℕ := TaskSet.boundDemand (ts.map nat) x

theorem sum_get' {α M : Type} [AddCommMonoid M] (ts : List α) (f : α → M) :
    (ts.map f).sum = ∑ i : Fin ts.length, f (ts.get i) := by
  rw [← List.sum_ofFn]
  congr 1
  apply List.ext_getElem <;> simp

theorem nat_fields {t : ATask} (h : Proper t) :
    (nat t).wcet = t.cost ∧ (nat t).period = t.period ∧ ((nat t).deadline : ℤ) = t.deadline ∧
      (nat t).selfSuspension = 0 := by
  obtain ⟨h1, h2, h3⟩ := h
  have : t.deadline.toNat ≠ 0 := by omega
  unfold nat Task.init
  simp only [this]
  simp
  omega

theorem coreSchedulable_iff {ts : List ATask} (h : ∀ t ∈ ts, Proper t) :
    CoreSchedulable ts ↔ ∀ x, dem ts x ≤ x := by
  have hp : ∀ i : Fin ts.length, 0 < (ts.get i).period := fun i => by
    have := h _ (List.get_mem ts i); unfold Proper at this; omega
  unfold CoreSchedulable
  rw [edfSchedulable_iff hp]
  apply forall_congr'
  intro x
  have : dem ts x = demand (fun i : Fin ts.length => (ts.get i).cost) (fun i => (ts.get i).period)
      (fun i => (ts.get i).deadline.toNat) x := by
    unfold dem TaskSet.boundDemand demand
    rw [List.map_map, sum_get']
    apply Finset.sum_congr rfl
    intro i _
    rw [card_periodic _ _ _ (hp i)]
    obtain ⟨h1, h2, h3, _⟩ := nat_fields (h _ (List.get_mem ts i))
    simp only [Function.comp_apply, Task.boundDemand, h1, h2]
    have : (nat (ts.get i)).deadline = (ts.get i).deadline.toNat := by omega
    rw [this]
    split_ifs <;> simp
  rw [this]

theorem dem_append (a b : List ATask) (x : ℕ) : dem (a ++ b) x = dem a x + dem b x := by
  unfold dem
  rw [List.map_append, boundDemand_append]

theorem dem_single (t : ATask) (x : ℕ) : dem [t] x = (nat t).boundDemand x := by
  simp [dem, TaskSet.boundDemand]

theorem dem_mono (ts : List ATask) {a b : ℕ} (h : a ≤ b) : dem ts a ≤ dem ts b :=
  Native.boundDemand_mono _ h

/-- Demand of a feasible task is at most its density times the interval. -/
theorem demand_le_density {t : ATask} (h : Proper t) {d : ℚ} (hd : t.density = some d) (x : ℕ) :
    ((nat t).boundDemand x : ℚ) ≤ d * x := by
  obtain ⟨h1, h2, h3, _⟩ := nat_fields h
  obtain ⟨p1, p2, p3⟩ := h
  unfold ATask.density at hd
  simp only at hd
  have hm : 0 < min (t.period : ℤ) t.deadline := by omega
  rw [if_neg (by omega), Option.some.injEq] at hd
  subst hd
  unfold Task.boundDemand
  rw [h1, h2]
  split_ifs with hx
  · have : (0 : ℚ) < ((min (t.period : ℤ) t.deadline : ℤ) : ℚ) := by exact_mod_cast hm
    simp only [Nat.cast_zero]
    positivity
  · have hmq : (0 : ℚ) < ((min (t.period : ℤ) t.deadline : ℤ) : ℚ) := by exact_mod_cast hm
    rw [div_mul_eq_mul_div, le_div_iff₀ hmq]
    have hq1 : (x - (nat t).deadline) / t.period * t.period ≤ x - (nat t).deadline :=
      Nat.div_mul_le_self _ _
    generalize (x - (nat t).deadline) / t.period = q at hq1 ⊢
    have key : ((q + 1 : ℕ) : ℤ) * min (t.period : ℤ) t.deadline ≤ x := by
      have hq2 : (q : ℤ) * min (t.period : ℤ) t.deadline ≤ q * t.period :=
        mul_le_mul_of_nonneg_left (min_le_left _ _) (by omega)
      have hq3 : min (t.period : ℤ) t.deadline ≤ t.deadline := min_le_right _ _
      have hq4 : ((q * t.period : ℕ) : ℤ) ≤ ((x - (nat t).deadline : ℕ) : ℤ) := by exact_mod_cast hq1
      push_cast at hq4 ⊢
      rw [add_mul, one_mul]
      omega
    have key2 : (((q + 1 : ℕ) : ℤ) : ℚ) *
        ((min (t.period : ℤ) t.deadline : ℤ) : ℚ) ≤ ((x : ℤ) : ℚ) := by exact_mod_cast key
    have hc : (0 : ℚ) ≤ t.cost := by positivity
    have := mul_le_mul_of_nonneg_left key2 hc
    push_cast at this ⊢
    linarith

theorem dem_le_density {ts : List ATask} (h : ∀ t ∈ ts, Proper t) {d : ℚ} (hd : density ts = some d)
    (x : ℕ) : (dem ts x : ℚ) ≤ d * x := by
  induction ts generalizing d with
  | nil =>
    simp [density] at hd
    simp [dem, TaskSet.boundDemand, ← hd]
  | cons t ts ih =>
    unfold density at hd
    rw [List.mapM_cons, Option.map_eq_some_iff] at hd
    obtain ⟨l, hl, rfl⟩ := hd
    simp only [Option.bind_eq_bind, Option.bind_eq_some_iff, Option.pure_def, Option.some.injEq] at hl
    obtain ⟨a, ha, l', hl', rfl⟩ := hl
    have i1 := ih (fun u hu => h u (by simp [hu])) (d := l'.sum) (by simp [density, hl'])
    have i2 := demand_le_density (h t (by simp)) ha x
    have : dem (t :: ts) x = dem [t] x + dem ts x := dem_append [t] ts x
    rw [this, dem_single, List.sum_cons]
    push_cast
    linarith

theorem mapM_toNative {ts : List ATask} (h : ∀ t ∈ ts, Proper t) :
    ts.mapM toNative = some (ts.map nat) := by
  induction ts with
  | nil => rfl
  | cons t ts ih =>
    have : toNative t = some (nat t) := by
      have := h t (by simp); unfold Proper at this
      unfold toNative nat
      rw [if_neg (by omega)]
    simp [List.mapM_cons, this, ih (fun u hu => h u (by simp [hu]))]

theorem density_some {ts : List ATask} (h : ∀ t ∈ ts, Proper t) :
    ∃ l, ts.mapM ATask.density = some l ∧ density ts = some l.sum := by
  induction ts with
  | nil => exact ⟨[], rfl, rfl⟩
  | cons t ts ih =>
    obtain ⟨l, h1, h2⟩ := ih (fun u hu => h u (by simp [hu]))
    have := h t (by simp); unfold Proper at this
    have h3 : t.density = some ((t.cost : ℚ) / (min (t.period : ℤ) t.deadline : ℤ)) := by
      unfold ATask.density
      simp only
      rw [if_neg (by omega)]
    refine ⟨((t.cost : ℚ) / (min (t.period : ℤ) t.deadline : ℤ)) :: l, ?_, ?_⟩
    · rw [List.mapM_cons, h3, h1]; rfl
    · unfold density
      rw [List.mapM_cons, h3, h1]; rfl

/-- The test used by the heuristics is exact for feasible tasks, and it ends. -/
theorem qpaItFits_spec {ts : List ATask} (h : ∀ t ∈ ts, Proper t) :
    (∃ N b, ∀ fuel ≥ N, qpaItFits fuel ts = some b) ∧
    ∀ fuel b, qpaItFits fuel ts = some b → (b = true ↔ ∀ x, dem ts x ≤ x) := by
  obtain ⟨l, _, hl⟩ := density_some h
  by_cases hd : l.sum ≤ 1
  · have e : ∀ fuel, qpaItFits fuel ts = some true := fun fuel => by
      simp [qpaItFits, hl, hd]
    refine ⟨⟨0, true, fun f _ => e f⟩, fun fuel b hb => ?_⟩
    rw [e, Option.some.injEq] at hb
    subst hb
    simp only [true_iff]
    intro x
    have := dem_le_density h hl x
    have h2 : l.sum * (x : ℚ) ≤ 1 * x := mul_le_mul_of_nonneg_right hd (by positivity)
    rw [one_mul] at h2
    exact_mod_cast this.trans h2
  · have e : ∀ fuel, qpaItFits fuel ts = qpaIsSchedulable fuel (ts.map nat) := fun fuel => by
      simp [qpaItFits, hl, hd, mapM_toNative h]
    obtain ⟨N, b, hN⟩ := C08_qpa_terminates (ts.map nat)
    refine ⟨⟨N, b, fun f hf => by rw [e, hN f hf]⟩, fun fuel b hb => ?_⟩
    rw [e] at hb
    rw [C08_qpa_exact _ _ _ hb]
    have hT : ∀ t ∈ ts.map nat, 0 < t.period := by
      intro t ht
      obtain ⟨u, hu, rfl⟩ := List.mem_map.1 ht
      have h1 := h u hu
      obtain ⟨_, h2, _⟩ := nat_fields h1
      unfold Proper at h1; omega
    simp only [← boundDemand_eq_demand hT]
    constructor
    · exact fun h => h.2.2
    · intro hx
      refine ⟨?_, ?_, hx⟩
      · intro t ht
        obtain ⟨u, hu, rfl⟩ := List.mem_map.1 ht
        have h1 := h u hu
        obtain ⟨n1, n2, n3, n4⟩ := nat_fields h1
        unfold Proper at h1
        refine ⟨n4, ?_, ?_, ?_⟩ <;> omega
      · rw [← utilization_eq]
        exact util_le_of_demand hT hx

/-- A budget with deadline equal to the cost may be reduced. -/
theorem fits_shrink {ts : TaskSet} {period r w : ℕ} (hw : 0 < w) (hwr : w ≤ r) (hp : 0 < period)
    (h : ∀ x, TaskSet.boundDemand (withSplit ts r period) x ≤ x) :
    ∀ x, TaskSet.boundDemand (withSplit ts w period) x ≤ x := by
  intro x
  have hb : ∀ c, Task.boundDemand ⟨c, period, c, c, 0, 0⟩ x =
      if x < c then 0 else ((x - c) / period + 1) * c := fun c => rfl
  have hx := h x
  simp only [withSplit, boundDemand_append] at h hx ⊢
  have e : ∀ c y, TaskSet.boundDemand [⟨c, period, c, c, 0, 0⟩] y =
      if y < c then 0 else ((y - c) / period + 1) * c := fun c y => by
    simp [TaskSet.boundDemand, Task.boundDemand]
  rw [e] at hx ⊢
  split_ifs with hxw
  · omega
  · set k := (x - w) / period with hk
    have hk1 : k * period ≤ x - w := Nat.div_mul_le_self _ _
    have hk2 : x - w < (k + 1) * period := by
      have := Nat.lt_div_mul_add (a := x - w) hp
      rw [Nat.add_mul, one_mul]; exact this
    -- the demand of the others up to the end of the window
    have hy := h (r + k * period)
    rw [e, if_neg (by omega)] at hy
    have : (r + k * period - r) / period = k := by
      rw [Nat.add_sub_cancel_left]; exact Nat.mul_div_cancel _ hp
    rw [this] at hy
    rcases le_or_gt x (r + k * period) with hle | hgt
    · have hm := Native.boundDemand_mono ts hle
      have h3 : (k + 1) * r = k * r + r := by ring
      have h4 : (k + 1) * w = k * w + w := by ring
      have h5 : k * w ≤ k * r := Nat.mul_le_mul_left _ hwr
      omega
    · -- beyond the window the number of jobs is the same
      rw [if_neg (by omega)] at hx
      have hkk : (x - r) / period = k := by
        apply le_antisymm
        · rw [hk]; exact Nat.div_le_div_right (by omega)
        · rw [Nat.le_div_iff_mul_le hp]; omega
      rw [hkk] at hx
      have h5 : (k + 1) * w ≤ (k + 1) * r := Nat.mul_le_mul_left _ hwr
      omega

/-- The chunk computed for a schedulable processor. -/
theorem chunk_spec {ts : List ATask} (h : ∀ t ∈ ts, Proper t) (hs : ∀ x, dem ts x ≤ x) {t : ATask}
    (ht : Proper t) :
    (∃ N r, ∀ fuel ≥ N, qpaSplitOffChunk fuel ts t = some r) ∧
    ∀ fuel r, qpaSplitOffChunk fuel ts t = some r → r ≤ t.cost ∧
      (∀ w, 0 < w → w ≤ r → ∀ x, dem (ts ++ [(splitTask t w).1]) x ≤ x) ∧
      (r = t.cost → ∀ x, dem (ts ++ [t]) x ≤ x) := by
  have hT : ∀ t ∈ ts.map nat, 0 < t.period := by
    intro t ht
    obtain ⟨u, hu, rfl⟩ := List.mem_map.1 ht
    have h1 := h u hu
    obtain ⟨_, h2, _⟩ := nat_fields h1
    unfold Proper at h1; omega
  have hD : ∀ t ∈ ts.map nat, 0 < t.deadline := by
    intro t ht
    obtain ⟨u, hu, rfl⟩ := List.mem_map.1 ht
    have h1 := h u hu
    obtain ⟨_, _, h2, _⟩ := nat_fields h1
    unfold Proper at h1; omega
  have hp : 0 < t.period := by unfold Proper at ht; omega
  have e : ∀ fuel, qpaSplitOffChunk fuel ts t = maxCEqualDCost fuel (ts.map nat) t.cost t.period :=
    fun fuel => by simp [qpaSplitOffChunk, mapM_toNative h]
  simp only [e]
  obtain ⟨s1, s2⟩ := maxCEqualDCost_spec hp hT hD hs t.cost
  refine ⟨s1, fun fuel r hr => ?_⟩
  obtain ⟨a1, a2, a3⟩ := s2 fuel r hr
  have key : ∀ w, 0 < w → w ≤ r → ∀ x, dem (ts ++ [(splitTask t w).1]) x ≤ x := by
    intro w hw hwr x
    have := fits_shrink hw hwr hp (a2 (by omega)) x
    unfold withSplit at this
    rw [boundDemand_append] at this
    rw [dem_append, dem_single]
    have e2 : (nat (splitTask t w).1).boundDemand x = TaskSet.boundDemand [⟨w, t.period, w, w, 0, 0⟩] x := by
      have : w ≠ 0 := by omega
      simp [nat, splitTask, Task.init, TaskSet.boundDemand, Task.boundDemand, this]
    rw [e2]
    exact this
  refine ⟨a1, key, fun hrc x => ?_⟩
  have k1 := key t.cost ht.1 (by omega) x
  rw [dem_append, dem_single] at k1 ⊢
  obtain ⟨n1, n2, n3, _⟩ := nat_fields ht
  have hle : (nat t).boundDemand x ≤ (nat (splitTask t t.cost).1).boundDemand x := by
    have hc : t.cost ≠ 0 := by have := ht.1; omega
    have hd2 : t.cost ≤ (nat t).deadline := by have := ht.2.1; omega
    have e3 : nat (splitTask t t.cost).1 = ⟨t.cost, t.period, t.cost, t.cost, 0, 0⟩ := by
      simp [nat, splitTask, Task.init, hc]
    rw [e3]
    unfold Task.boundDemand
    rw [n1, n2]
    split_ifs with h1 h2 h2
    · omega
    · omega
    · simp only at h2; omega
    · apply Nat.mul_le_mul_right
      apply Nat.add_le_add_right
      apply Nat.div_le_div_right
      simp only
      omega
  omega

end Verif.Apa
