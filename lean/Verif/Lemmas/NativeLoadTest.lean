/-
The native load test for global EDF.
-/
import Verif.Lemmas.Load
import Verif.Lemmas.NativeBar
import Verif.Props.NativeLoad

namespace Verif.Native
open Finset Verif.Spec

variable {m : ℕ} {ts : TaskSet}

theorem foldl_max_le (l : List Task) : ∀ a : ℚ, a ≤ l.foldl (fun d t => max d t.density) a ∧
    (∀ t ∈ l, t.density ≤ l.foldl (fun d t => max d t.density) a) ∧
    (∀ b, a ≤ b → (∀ t ∈ l, t.density ≤ b) → l.foldl (fun d t => max d t.density) a ≤ b) := by
  induction l with
  | nil => intro a; exact ⟨le_rfl, by simp, fun b h _ => h⟩
  | cons t l ih =>
    intro a
    obtain ⟨h1, h2, h3⟩ := ih (max a t.density)
    rw [List.foldl_cons]
    refine ⟨(le_max_left _ _).trans h1, ?_, ?_⟩
    · intro s hs
      rcases List.mem_cons.1 hs with rfl | hs
      · exact (le_max_right _ _).trans h1
      · exact h2 s hs
    · intro b hb hall
      exact h3 b (max_le hb (hall t List.mem_cons_self)) (fun s hs => hall s (List.mem_cons_of_mem _ hs))

theorem demand_total (ts : TaskSet) (L : ℕ) : ts.boundDemand L =
    ∑ i : Fin ts.length, njobs (ts.get i).period (ts.get i).deadline L * (ts.get i).wcet := by
  unfold TaskSet.boundDemand
  rw [sum_map_get]
  refine sum_congr rfl (fun i _ => ?_)
  exact_mod_cast demand_eq (t := ts.get i) L

/-- The load test accepts only task sets that meet all deadlines. -/
theorem loadCore_safe (hp : Plain ts) (hm : 0 < m) {e : ℚ} (he : 0 ≤ e) (h : loadCore m e ts = true) :
    EdfSchedulable m (fun i => (ts.get i).wcet) (fun i => (ts.get i).period) (fun i => (ts.get i).deadline) := by
  by_contra hmiss
  unfold loadCore at h
  simp only [decide_eq_true_eq] at h
  obtain ⟨hd0, hdle, hdub⟩ := foldl_max_le ts 0
  change 0 ≤ ts.maxDensity at hd0
  change ∀ t ∈ ts, t.density ≤ ts.maxDensity at hdle
  set δ := ts.maxDensity with hδ
  have hd1 : δ ≤ 1 := by
    refine hdub 1 zero_le_one (fun t ht => ?_)
    obtain ⟨h1, h2, h3⟩ := hp t ht
    unfold Task.density
    rw [div_le_one (by exact_mod_cast (by omega : 0 < t.deadline))]
    exact_mod_cast h2
  have hmq : (1 : ℚ) ≤ m := by exact_mod_cast hm
  set μ : ℚ := (m : ℚ) - (m - 1) * δ with hμ
  have hμ1 : 1 ≤ μ := by nlinarith
  rw [(C52_big 0 1 one_pos μ).2.1] at h
  have hC : ∀ i : Fin ts.length, ((ts.get i).wcet : ℚ) ≤ δ * (ts.get i).deadline := by
    intro i
    obtain ⟨h1, h2, h3⟩ := hp.get i
    have := hdle _ (List.get_mem ts i)
    unfold Task.density at this
    rwa [div_le_iff₀ (by exact_mod_cast (by omega : 0 < (ts.get i).deadline))] at this
  have hdem := C61_load_safe_partial ts e he (fun t ht => by have := hp t ht; omega)
  have main : ∀ ν : ℚ, 0 < ν → ν ≤ μ → ts.approxLoad e ≤ ν - (⌈ν⌉ - 1) * δ → False := by
    intro ν hν0 hνμ hl
    obtain ⟨L, hL, hlt⟩ := load_miss (fun i => by have := hp.get i; omega) (fun i => by have := hp.get i; omega)
      (fun i => (hp.get i).2.2) hm hC hd0 hν0 hνμ hmiss
    rw [← demand_total] at hlt
    have h1 := hdem L
    have h2 : (0 : ℚ) < L := by exact_mod_cast hL
    nlinarith
  rcases le_max_iff.1 h with h | h
  · exact main μ (by linarith) le_rfl h
  · have hceil : (1 : ℤ) ≤ ⌈μ⌉ := by
      have := Int.le_ceil μ
      have : (1 : ℚ) ≤ (⌈μ⌉ : ℤ) := by linarith
      exact_mod_cast this
    rcases eq_or_lt_of_le hceil with h1 | h1
    · rw [← h1] at h
      push_cast at h
      have hμe : μ ≤ 1 := by
        have := Int.le_ceil μ
        rw [← h1] at this
        simpa using this
      refine main μ (by linarith) le_rfl ?_
      rw [← h1]
      push_cast
      linarith
    · have hν : (0 : ℚ) < (⌈μ⌉ : ℤ) - 1 := by
        have : (1 : ℚ) < (⌈μ⌉ : ℤ) := by exact_mod_cast h1
        linarith
      refine main ((⌈μ⌉ : ℤ) - 1) hν ?_ ?_
      · have := Int.ceil_lt_add_one μ
        linarith
      · have e1 : ⌈((⌈μ⌉ : ℤ) : ℚ) - 1⌉ = ⌈μ⌉ - 1 := by
          rw [show ((⌈μ⌉ : ℤ) : ℚ) - 1 = ((⌈μ⌉ - 1 : ℤ) : ℚ) by push_cast; ring, Int.ceil_intCast]
        rw [e1]
        push_cast
        linarith

end Verif.Native
