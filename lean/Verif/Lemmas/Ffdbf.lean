/-
The loops of the FF-DBF test: they end, and they do not accept a task set for which the
forced-forward demand exceeds the bound at windows that grow with the speed.
-/
import Verif.Lemmas.FfPoints
import Verif.Lemmas.ForcedForward
import Verif.Props.GlobalEdf

namespace Verif.Ff
open Verif.Spec Finset

/-! ### Demand -/

theorem njobs_lo {T D q r : ℕ} (hT : 0 < T) (hDT : D ≤ T) (hr : r < D) : njobs T D (q * T + r) = q := by
  refine le_antisymm ((njobs_le hT).2 (by omega)) ?_
  by_contra hc
  have h1 : njobs T D (q * T + r) ≤ q - 1 := by omega
  rw [njobs_le hT] at h1
  obtain ⟨p, rfl⟩ : ∃ p, q = p + 1 := ⟨q - 1, by omega⟩
  rw [Nat.add_mul, Nat.add_sub_cancel] at h1
  omega

theorem njobs_hi {T D q r : ℕ} (hT : 0 < T) (hr : D ≤ r) (hrT : r < T) : njobs T D (q * T + r) = q + 1 := by
  refine le_antisymm ((njobs_le hT).2 ?_) ?_
  · rw [Nat.add_mul]
    omega
  · by_contra hc
    have h1 : njobs T D (q * T + r) ≤ q := by omega
    rw [njobs_le hT] at h1
    omega

theorem ffDemand_lo {C T D q r : ℕ} {s : ℚ} (hT : 0 < T) (hDT : D ≤ T) (hr : r < D) :
    ffDemand C T D s (q * T + r) = q * C + max 0 (C - ((D : ℚ) - r) * s) := by
  unfold ffDemand
  rw [njobs_lo hT hDT hr]
  push_cast
  congr 3
  ring

theorem ffDemand_hi {C T D q r : ℕ} {s : ℚ} (hT : 0 < T) (hr : D ≤ r) (hrT : r < T) (hs : 0 ≤ s)
    (hC : (C : ℚ) ≤ s * D) : ffDemand C T D s (q * T + r) = (q + 1) * C := by
  unfold ffDemand
  rw [njobs_hi hT hr hrT, max_eq_left]
  · push_cast
    ring
  · push_cast
    have h1 : (r : ℚ) ≤ T := by exact_mod_cast hrT.le
    have h2 : (D : ℚ) * s ≤ ((q + 1) * T + D - (q * T + r)) * s := mul_le_mul_of_nonneg_right (by linarith) hs
    linarith

theorem ffDemand_le {C T D x : ℕ} {s : ℚ} (hT : 0 < T) (hDT : D ≤ T) (hs : 0 ≤ s) (hC : (C : ℚ) ≤ s * D) :
    ffDemand C T D s x ≤ (C : ℚ) / T * x + C := by
  have hTq : (0 : ℚ) < T := by exact_mod_cast hT
  have hx : x = x / T * T + x % T := by rw [Nat.mul_comm, Nat.div_add_mod]
  have hr := Nat.mod_lt x hT
  have h1 : ((x / T : ℕ) : ℚ) * C ≤ (C : ℚ) / T * x := by
    rw [div_mul_eq_mul_div, le_div_iff₀ hTq]
    have : x / T * T ≤ x := Nat.div_mul_le_self x T
    have h2 : ((x / T : ℕ) : ℚ) * T ≤ x := by exact_mod_cast this
    have h3 := mul_le_mul_of_nonneg_left h2 (by positivity : (0 : ℚ) ≤ C)
    linarith
  have h4 : ffDemand C T D s x ≤ (x / T : ℕ) * C + C := by
    rw [hx]
    by_cases h : x % T < D
    · rw [ffDemand_lo hT hDT h, show (x / T * T + x % T) / T = x / T by rw [← hx]]
      have h5 : max 0 ((C : ℚ) - ((D : ℚ) - (x % T : ℕ)) * s) ≤ C := by
        refine max_le (by positivity) ?_
        have : (((x % T : ℕ)) : ℚ) ≤ D := by exact_mod_cast h.le
        have := mul_nonneg (by linarith : (0 : ℚ) ≤ (D : ℚ) - (x % T : ℕ)) hs
        linarith
      linarith
    · rw [ffDemand_hi hT (not_lt.1 h) hr hs hC, show (x / T * T + x % T) / T = x / T by rw [← hx]]
      linarith
  linarith

/-- The quotient and the remainder that the code computes. -/
theorem quot_rem {x T : ℕ} : trunc ((x : ℚ) / T) = ((x / T : ℕ) : ℤ) ∧ ⌊(x : ℚ) / T⌋ = ((x / T : ℕ) : ℤ) ∧
    (x : ℚ) - T * ((x / T : ℕ) : ℚ) = ((x % T : ℕ) : ℚ) := by
  have h1 : ⌊(x : ℚ) / T⌋ = ((x / T : ℕ) : ℤ) := by
    rw [Rat.floor_natCast_div_natCast]
    push_cast
    rfl
  refine ⟨by rw [trunc_div (by positivity), h1], h1, ?_⟩
  have := Nat.div_add_mod x T
  have h2 : (T : ℚ) * ((x / T : ℕ) : ℚ) + ((x % T : ℕ) : ℚ) = x := by exact_mod_cast this
  linarith

theorem pyDemand_eq {t : GEdf.ITask} {s : ℚ} (hT : 0 < t.period) (hDT : t.deadline ≤ t.period) (hs : 0 < s)
    (hC : (t.cost : ℚ) ≤ s * t.deadline) (x : ℕ) :
    pyDemand t x s = ffDemand t.cost t.period t.deadline s x := by
  obtain ⟨h1, h2, h3⟩ := quot_rem (x := x) (T := t.period)
  unfold pyDemand
  rw [h1, h2]
  simp only [Int.cast_natCast]
  rw [h3]
  have hx : x = x / t.period * t.period + x % t.period := by rw [Nat.mul_comm, Nat.div_add_mod]
  have hr := Nat.mod_lt x hT
  by_cases h : x % t.period < t.deadline
  · have h4 : ¬ ((t.deadline : ℚ) ≤ (x % t.period : ℕ)) := by
      rw [not_le]
      exact_mod_cast h
    have h5 : ffDemand t.cost t.period t.deadline s x =
        (x / t.period : ℕ) * t.cost + max 0 (t.cost - ((t.deadline : ℚ) - (x % t.period : ℕ)) * s) := by
      conv_lhs => rw [hx]
      exact ffDemand_lo hT hDT h
    rw [if_neg h4, h5]
    have h6 : (t.deadline : ℚ) - t.cost / s ≤ (x % t.period : ℕ) ↔
        0 ≤ (t.cost : ℚ) - ((t.deadline : ℚ) - (x % t.period : ℕ)) * s := by
      rw [sub_le_comm, le_div_iff₀ hs, sub_nonneg]
    by_cases h7 : (t.deadline : ℚ) - t.cost / s ≤ (x % t.period : ℕ)
    · rw [if_pos h7, max_eq_right (h6.1 h7)]
    · rw [if_neg h7, max_eq_left (le_of_lt (not_le.1 (fun hc => h7 (h6.2 hc)))), add_zero]
  · have h4 : (t.deadline : ℚ) ≤ (x % t.period : ℕ) := by exact_mod_cast not_lt.1 h
    have h5 : ffDemand t.cost t.period t.deadline s x = ((x / t.period : ℕ) + 1) * t.cost := by
      conv_lhs => rw [hx]
      exact ffDemand_hi hT (not_lt.1 h) hr hs.le hC
    rw [if_pos h4, h5]
    ring

theorem cppDemand_eq {t : Native.Task} {s : ℚ} (hT : 0 < t.period) (hDT : t.deadline ≤ t.period) (hs : 0 < s)
    (hC : (t.wcet : ℚ) ≤ s * t.deadline) (x : ℕ) :
    cppDemand t x s = ffDemand t.wcet t.period t.deadline s x := by
  obtain ⟨h1, h2, h3⟩ := quot_rem (x := x) (T := t.period)
  unfold cppDemand
  rw [h1]
  simp only [Int.cast_natCast]
  rw [mul_comm _ (t.period : ℚ), h3]
  have hx : x = x / t.period * t.period + x % t.period := by rw [Nat.mul_comm, Nat.div_add_mod]
  have hr := Nat.mod_lt x hT
  have h6 : -(t.wcet : ℚ) / s + t.deadline ≤ (x % t.period : ℕ) ↔
      0 ≤ (t.wcet : ℚ) - ((t.deadline : ℚ) - (x % t.period : ℕ)) * s := by
    rw [neg_div, neg_add_eq_sub, sub_le_comm, le_div_iff₀ hs, sub_nonneg]
  by_cases h : x % t.period < t.deadline
  · have h4 : (((x % t.period : ℕ)) : ℚ) ≤ t.deadline := by exact_mod_cast h.le
    have h5 : ffDemand t.wcet t.period t.deadline s x =
        (x / t.period : ℕ) * t.wcet + max 0 (t.wcet - ((t.deadline : ℚ) - (x % t.period : ℕ)) * s) := by
      conv_lhs => rw [hx]
      exact ffDemand_lo hT hDT h
    rw [h5]
    by_cases h7 : -(t.wcet : ℚ) / s + t.deadline ≤ (x % t.period : ℕ)
    · rw [if_pos h7, if_pos h4, max_eq_right (h6.1 h7)]
      ring
    · rw [if_neg h7, max_eq_left (le_of_lt (not_le.1 (fun hc => h7 (h6.2 hc)))), add_zero]
  · have h4 : (t.deadline : ℚ) ≤ (x % t.period : ℕ) := by exact_mod_cast not_lt.1 h
    have h5 : ffDemand t.wcet t.period t.deadline s x = ((x / t.period : ℕ) + 1) * t.wcet := by
      conv_lhs => rw [hx]
      exact ffDemand_hi hT (not_lt.1 h) hr hs.le hC
    have h7 : 0 ≤ (t.wcet : ℚ) - ((t.deadline : ℚ) - (x % t.period : ℕ)) * s := by
      have : ((t.deadline : ℚ) - (x % t.period : ℕ)) * s ≤ 0 := mul_nonpos_of_nonpos_of_nonneg (by linarith) hs.le
      have : (0 : ℚ) ≤ t.wcet := by positivity
      linarith
    rw [if_pos (h6.2 h7), h5]
    by_cases h8 : (((x % t.period : ℕ)) : ℚ) ≤ t.deadline
    · have : (((x % t.period : ℕ)) : ℚ) = t.deadline := le_antisymm h8 h4
      rw [if_pos h8, this]
      ring
    · rw [if_neg h8]
      ring

/-! ### Search -/

theorem pySearch_spec {maxd step bound : ℚ} (hstep : 0 < step) {ok : ℚ → Bool} {fuel k : ℕ} {r : ℚ × ℕ}
    (h : pySearch maxd step bound ok fuel k = some r) :
    k < r.2 ∧ (r.1 = 2 ∨ (maxd ≤ r.1 ∧ r.1 ≤ bound ∧ ok r.1 = true ∧ pySigma maxd step k ≤ r.1 ∧
      r.1 ≤ pySigma maxd step r.2 ∧ r.1 = pySigma maxd step (r.2 - 1))) := by
  induction fuel generalizing k with
  | zero => cases h
  | succ fuel ih =>
    unfold pySearch at h
    have hmono : pySigma maxd step k ≤ pySigma maxd step (k + 1) := by
      unfold pySigma
      push_cast
      linarith
    by_cases h1 : maxd ≤ pySigma maxd step k ∧ pySigma maxd step k ≤ bound
    · rw [if_neg (not_not.2 h1)] at h
      by_cases h2 : ok (pySigma maxd step k) = true
      · rw [if_pos h2] at h
        cases h
        exact ⟨Nat.lt_succ_self k, Or.inr ⟨h1.1, h1.2, h2, le_rfl, hmono, by simp⟩⟩
      · rw [if_neg h2] at h
        obtain ⟨h3, h4⟩ := ih h
        refine ⟨by omega, h4.imp id (fun h5 => ⟨h5.1, h5.2.1, h5.2.2.1, hmono.trans h5.2.2.2.1, h5.2.2.2.2⟩)⟩
    · rw [if_pos h1] at h
      cases h
      exact ⟨Nat.lt_succ_self k, Or.inl rfl⟩

theorem pySearch_ends {maxd step bound : ℚ} {ok : ℚ → Bool} {M fuel k : ℕ}
    (hM : ∀ k, M ≤ k → bound < pySigma maxd step k) (hf : M - k < fuel) :
    ∃ r, pySearch maxd step bound ok fuel k = some r := by
  induction fuel generalizing k with
  | zero => omega
  | succ fuel ih =>
    unfold pySearch
    by_cases h1 : maxd ≤ pySigma maxd step k ∧ pySigma maxd step k ≤ bound
    · rw [if_neg (not_not.2 h1)]
      by_cases h2 : ok (pySigma maxd step k) = true
      · rw [if_pos h2]
        exact ⟨_, rfl⟩
      · rw [if_neg h2]
        have hk : k < M := by
          by_contra hc
          exact absurd h1.2 (not_le.2 (hM k (by omega)))
        exact ih (by omega)
    · rw [if_pos h1]
      exact ⟨_, rfl⟩

theorem cppSearch_spec {step bound : ℚ} (hstep : 0 < step) {ok : ℚ → Bool} {fuel : ℕ} {nxt : ℚ} {r : ℚ × ℚ}
    (h : cppSearch step bound ok fuel nxt = some r) :
    nxt ≤ r.1 ∧ r.2 = r.1 + step ∧ (r.1 ≤ bound → ok r.1 = true) := by
  induction fuel generalizing nxt with
  | zero => cases h
  | succ fuel ih =>
    unfold cppSearch at h
    by_cases h1 : nxt ≤ bound ∧ ok nxt = false
    · rw [if_pos h1] at h
      obtain ⟨h2, h3⟩ := ih h
      exact ⟨by linarith, h3⟩
    · rw [if_neg h1] at h
      cases h
      refine ⟨le_rfl, rfl, fun hb => ?_⟩
      by_contra hc
      exact h1 ⟨hb, by simpa using hc⟩

theorem cppSearch_ends {step bound : ℚ} {ok : ℚ → Bool} {fuel j : ℕ} {nxt : ℚ}
    (hj : bound < nxt + j * step) (hf : j < fuel) : ∃ r, cppSearch step bound ok fuel nxt = some r := by
  induction fuel generalizing nxt j with
  | zero => omega
  | succ fuel ih =>
    unfold cppSearch
    by_cases h1 : nxt ≤ bound ∧ ok nxt = false
    · rw [if_pos h1]
      cases j with
      | zero =>
        rw [Nat.cast_zero, zero_mul, add_zero] at hj
        exact absurd h1.1 (not_le.2 hj)
      | succ j =>
        refine ih (j := j) ?_ (by omega)
        push_cast at hj
        linarith
    · rw [if_neg h1]
      exact ⟨_, rfl⟩

/-! ### Points of all tasks -/

theorem pyPoints_seq {ts : List GEdf.ITask} (hp : GEdf.Proper ts) (hd : GEdf.Constrained ts) {s minTime : ℚ}
    (hs : 0 < s) (h0 : 0 ≤ minTime) (i : Fin ts.length) :
    PointSeq (GEdf.periods ts i) (GEdf.deadlines ts i) minTime (pyPoints ts s minTime i) := by
  have e : pyPoints ts s minTime i = pyPoint (ts.get i) s minTime := by
    ext k
    unfold pyPoints
    simp
  rw [e]
  exact pyPoint_seq (hp.period i) (hd.le i) hs h0

theorem cppPoints_seq {ts : Native.TaskSet} {s minTime : ℚ} {fuel : ℕ} {ps : List TestPoints}
    (hps : ts.mapM (fun t => TestPoints.init fuel t s minTime) = some ps) (hs : 0 < s) (h0 : 0 ≤ minTime)
    (i : Fin ts.length) (hT : 0 < (ts.get i).period) (hDT : (ts.get i).deadline ≤ (ts.get i).period) :
    PointSeq (ts.get i).period (ts.get i).deadline minTime (cppPoints ps i) := by
  obtain ⟨hlen, hget⟩ := Native.mapM_some hps
  have hi : (i : ℕ) < ps.length := by rw [hlen]; exact i.2
  have h1 := hget i i.2 hi
  have e : cppPoints ps i = fun k => (TestPoints.next^[k] ps[(i : ℕ)]).cur := by
    ext k
    unfold cppPoints
    rw [List.getElem?_eq_getElem hi]
    rfl
  rw [e]
  exact cppPoint_seq hT hDT hs h0 h1

theorem mapM_ends {α β : Type} {f : α → Option β} {l : List α} (h : ∀ a ∈ l, ∃ b, f a = some b) :
    ∃ r, l.mapM f = some r := by
  induction l with
  | nil => exact ⟨[], by rw [List.mapM_nil]; rfl⟩
  | cons a l ih =>
    obtain ⟨b, hb⟩ := h a List.mem_cons_self
    obtain ⟨r, hr⟩ := ih (fun x hx => h x (List.mem_cons_of_mem _ hx))
    exact ⟨b :: r, by rw [List.mapM_cons, hb, hr]; rfl⟩

end Verif.Ff
