/-
The test points of a task in the FF-DBF test: they ascend, include every deadline after
the start, and grow without bound.
-/
import Verif.Lemmas.FfMerge
import Verif.Lemmas.NativePoints
import Mathlib.Algebra.Order.Field.Basic
import Mathlib.Tactic.Ring
import Mathlib.Tactic.FieldSimp
import Mathlib.Order.Monotone.Basic

namespace Verif.Ff

/-- What the test needs to know about the points of a task. -/
structure PointSeq (T D : ℕ) (minTime : ℚ) (x : ℕ → ℚ) : Prop where
  mono : Monotone x
  cover : ∀ k : ℕ, minTime < ((k * T + D : ℕ) : ℚ) → ∃ j, x j = ((k * T + D : ℕ) : ℚ)
  grow : ∀ j, ((j / 2 : ℕ) : ℚ) ≤ x j

theorem PointSeq.bound {T D : ℕ} {minTime : ℚ} {x : ℕ → ℚ} (h : PointSeq T D minTime x) {bound : ℚ} {j : ℕ}
    (hj : x j ≤ bound) : j < 2 * (⌈bound⌉.toNat + 1) := by
  have h1 := (h.grow j).trans hj
  have h2 : ((j / 2 : ℕ) : ℤ) ≤ ⌈bound⌉ := by
    have h3 : (((j / 2 : ℕ) : ℤ) : ℚ) ≤ ⌈bound⌉ := by
      rw [Int.cast_natCast]
      exact h1.trans (Int.le_ceil bound)
    exact_mod_cast h3
  omega

theorem trunc_div {a : ℚ} {T : ℕ} (ha : 0 ≤ a) : trunc (a / T) = ⌊a / T⌋ := by
  unfold trunc
  rw [if_pos (by positivity)]

theorem floor_spec {a : ℚ} {T : ℕ} (ha : 0 ≤ a) (hT : 0 < T) :
    ∃ f : ℕ, ⌊a / T⌋ = f ∧ (f : ℚ) * T ≤ a ∧ a < (f + 1) * T := by
  have hTq : (0 : ℚ) < T := by exact_mod_cast hT
  have h0 : 0 ≤ ⌊a / T⌋ := Int.floor_nonneg.2 (by positivity)
  obtain ⟨f, hf⟩ := Int.eq_ofNat_of_zero_le h0
  refine ⟨f, hf, ?_, ?_⟩
  · have := Int.floor_le (a / T)
    rw [hf] at this
    rw [← le_div_iff₀ hTq]
    exact_mod_cast this
  · have := Int.lt_floor_add_one (a / T)
    rw [hf] at this
    rw [← div_lt_iff₀ hTq]
    exact_mod_cast this

/-- An index of a deadline after the start. -/
theorem le_of_cover {T D f k : ℕ} {minTime : ℚ} (hDT : D ≤ T) (hf : (f : ℚ) * T ≤ minTime)
    (hk : minTime < ((k * T + D : ℕ) : ℚ)) : f ≤ k := by
  by_contra hc
  have h1 : ((k * T + D : ℕ) : ℚ) ≤ (f : ℚ) * T := by
    have : (k + 1) * T ≤ f * T := Nat.mul_le_mul_right _ (by omega)
    have h2 : k * T + D ≤ f * T := by
      rw [Nat.add_mul] at this
      omega
    exact_mod_cast h2
  linarith

theorem pyPoint_seq {t : GEdf.ITask} {speed minTime : ℚ} (hT : 0 < t.period) (hDT : t.deadline ≤ t.period)
    (hs : 0 < speed) (h0 : 0 ≤ minTime) : PointSeq t.period t.deadline minTime (pyPoint t speed minTime) := by
  obtain ⟨f, hf, hf1, hf2⟩ := floor_spec h0 hT
  have hTq : (1 : ℚ) ≤ t.period := by exact_mod_cast hT
  have hDq : (t.deadline : ℚ) ≤ t.period := by exact_mod_cast hDT
  set o := min ((t.cost : ℚ) / speed) t.deadline with ho
  have ho0 : 0 ≤ o := le_min (by positivity) (by positivity)
  have hoD : o ≤ t.deadline := min_le_right _ _
  have hf0 : (0 : ℚ) ≤ (f : ℚ) * t.period := by positivity
  set b : ℚ := (f : ℚ) * t.period + t.deadline with hb
  -- the points yielded after the first ones
  let z : ℕ → ℚ := fun j => b + (j / 2 + 1 : ℕ) * t.period - if j % 2 = 0 then o else 0
  have hz : ∀ k, pyPoint t speed minTime k =
      if h : k < ([b - o, b].filter (fun x => decide (minTime < x))).length
        then ([b - o, b].filter (fun x => decide (minTime < x)))[k]
        else z (k - ([b - o, b].filter (fun x => decide (minTime < x))).length) := by
    intro k
    unfold pyPoint
    rw [trunc_div h0, hf]
    simp only [Int.cast_natCast, ← ho, ← hb, z]
    congr 1
    ext h
    split_ifs <;> ring
  have hzm : Monotone z := by
    apply monotone_nat_of_le_succ
    intro j
    simp only [z]
    rcases Nat.even_or_odd' j with ⟨c, rfl | rfl⟩
    · rw [show 2 * c / 2 = c by omega, show (2 * c + 1) / 2 = c by omega, if_pos (by omega), if_neg (by omega)]
      linarith
    · rw [show (2 * c + 1) / 2 = c by omega, show (2 * c + 1 + 1) / 2 = c + 1 by omega, if_neg (by omega),
        if_pos (by omega)]
      push_cast
      linarith
  have hz0 : b ≤ z 0 := by
    simp only [z]
    norm_num
    linarith
  have hzg : ∀ j, ((j / 2 + 1 : ℕ) : ℚ) ≤ z j := by
    intro j
    simp only [z]
    have h1 : ((j / 2 + 1 : ℕ) : ℚ) ≤ (j / 2 + 1 : ℕ) * t.period := by
      have : ((j / 2 + 1 : ℕ) : ℚ) * 1 ≤ (j / 2 + 1 : ℕ) * t.period :=
        mul_le_mul_of_nonneg_left hTq (by positivity)
      linarith
    split_ifs <;> linarith
  have hcov : ∀ k, f < k → z (2 * (k - f - 1) + 1) = ((k * t.period + t.deadline : ℕ) : ℚ) := by
    intro k hk
    obtain ⟨c, rfl⟩ := Nat.exists_eq_add_of_lt hk
    simp only [z]
    rw [show f + c + 1 - f - 1 = c by omega, show (2 * c + 1) / 2 = c by omega, if_neg (by omega), hb]
    push_cast
    ring
  by_cases h1 : minTime < b - o
  · have h2 : minTime < b := by linarith
    have hlist : [b - o, b].filter (fun x => decide (minTime < x)) = [b - o, b] := by
      simp [List.filter_cons, h1, h2]
    have hx : ∀ k, pyPoint t speed minTime k = if k = 0 then b - o else if k = 1 then b else z (k - 2) := by
      intro k
      rw [hz k]
      simp only [hlist]
      match k with
      | 0 => rfl
      | 1 => rfl
      | k + 2 => simp
    refine ⟨monotone_nat_of_le_succ (fun k => ?_), fun k hk => ?_, fun k => ?_⟩
    · rw [hx, hx]
      match k with
      | 0 => simpa using ho0
      | 1 => simpa using hz0
      | k + 2 => simpa using hzm (Nat.le_succ k)
    · rcases (le_of_cover hDT hf1 hk).eq_or_lt with he | hlt
      · refine ⟨1, ?_⟩
        rw [hx, ← he, hb]
        simp
      · refine ⟨2 * (k - f - 1) + 1 + 2, ?_⟩
        rw [hx, ← hcov k hlt]
        simp
    · rw [hx]
      match k with
      | 0 => simpa using (by linarith : (0 : ℚ) ≤ b - o)
      | 1 => simpa using (by linarith : (0 : ℚ) ≤ b)
      | k + 2 =>
        have := hzg k
        rw [show (k + 2) / 2 = k / 2 + 1 by omega]
        simpa using this
  · by_cases h2 : minTime < b
    · have hlist : [b - o, b].filter (fun x => decide (minTime < x)) = [b] := by
        simp [List.filter_cons, h1, h2]
      have hx : ∀ k, pyPoint t speed minTime k = if k = 0 then b else z (k - 1) := by
        intro k
        rw [hz k]
        simp only [hlist]
        match k with
        | 0 => rfl
        | k + 1 => simp
      refine ⟨monotone_nat_of_le_succ (fun k => ?_), fun k hk => ?_, fun k => ?_⟩
      · rw [hx, hx]
        match k with
        | 0 => simpa using hz0
        | k + 1 => simpa using hzm (Nat.le_succ k)
      · rcases (le_of_cover hDT hf1 hk).eq_or_lt with he | hlt
        · refine ⟨0, ?_⟩
          rw [hx, ← he, hb]
          simp
        · refine ⟨2 * (k - f - 1) + 1 + 1, ?_⟩
          rw [hx, ← hcov k hlt]
          simp
      · rw [hx]
        match k with
        | 0 => simpa using (by linarith : (0 : ℚ) ≤ b)
        | k + 1 =>
          have := hzg k
          have h3 : (((k + 1) / 2 : ℕ) : ℚ) ≤ (k / 2 + 1 : ℕ) := by
            exact_mod_cast (by omega : (k + 1) / 2 ≤ k / 2 + 1)
          simpa using h3.trans this
    · have hlist : [b - o, b].filter (fun x => decide (minTime < x)) = [] := by
        simp [List.filter_cons, h1, h2]
      have hx : ∀ k, pyPoint t speed minTime k = z k := by
        intro k
        rw [hz k]
        simp only [hlist]
        simp
      refine ⟨fun a c hac => ?_, fun k hk => ?_, fun k => ?_⟩
      · rw [hx, hx]
        exact hzm hac
      · rcases (le_of_cover hDT hf1 hk).eq_or_lt with he | hlt
        · exfalso
          apply h2
          rw [← he] at hk
          rw [hb]
          exact_mod_cast hk
        · exact ⟨_, (hx _).trans (hcov k hlt)⟩
      · rw [hx]
        refine le_trans ?_ (hzg k)
        exact_mod_cast (by omega : k / 2 ≤ k / 2 + 1)

/-! ### C++ -/

theorem next_iter (a b : ℚ) (T k : ℕ) :
    TestPoints.next^[k] ⟨a, b, T, true⟩ = ⟨a + (k / 2 : ℕ) * T, b + (k / 2 : ℕ) * T, T, k % 2 == 0⟩ := by
  induction k with
  | zero => simp
  | succ k ih =>
    rw [Function.iterate_succ_apply', ih]
    unfold TestPoints.next
    rcases Nat.even_or_odd' k with ⟨c, rfl | rfl⟩
    · simp only [show 2 * c % 2 = 0 by omega, show (2 * c + 1) % 2 = 1 by omega, show 2 * c / 2 = c by omega,
        show (2 * c + 1) / 2 = c by omega]
      rfl
    · simp only [show (2 * c + 1) % 2 = 1 by omega, show (2 * c + 1 + 1) % 2 = 0 by omega,
        show (2 * c + 1) / 2 = c by omega, show (2 * c + 1 + 1) / 2 = c + 1 by omega]
      have e : ((c + 1 : ℕ) : ℚ) * T = c * T + T := by push_cast; ring
      rw [e]
      simp [add_assoc]

theorem next_cur (a b : ℚ) (T k : ℕ) :
    (TestPoints.next^[k] ⟨a, b, T, true⟩).cur = (if k % 2 = 0 then b else a) + (k / 2 : ℕ) * T := by
  rw [next_iter]
  unfold TestPoints.cur
  by_cases h : k % 2 = 0
  · simp [h]
  · simp [h]

theorem skip_spec {minTime : ℚ} {fuel : ℕ} {p r : TestPoints} (h : TestPoints.skip minTime fuel p = some r) :
    ∃ j, r = TestPoints.next^[j] p ∧ ∀ i < j, (TestPoints.next^[i] p).cur ≤ minTime := by
  induction fuel generalizing p with
  | zero => cases h
  | succ fuel ih =>
    unfold TestPoints.skip at h
    by_cases hc : p.cur ≤ minTime
    · rw [if_pos hc] at h
      obtain ⟨j, hj, hlt⟩ := ih h
      refine ⟨j + 1, hj, fun i hi => ?_⟩
      cases i with
      | zero => exact hc
      | succ i => exact hlt i (by omega)
    · rw [if_neg hc] at h
      cases h
      exact ⟨0, rfl, fun i hi => absurd hi (by omega)⟩

theorem skip_ends {minTime : ℚ} {fuel : ℕ} {p : TestPoints} {j : ℕ}
    (hj : minTime < (TestPoints.next^[j] p).cur) (hf : j < fuel) : ∃ r, TestPoints.skip minTime fuel p = some r := by
  induction fuel generalizing p j with
  | zero => omega
  | succ fuel ih =>
    unfold TestPoints.skip
    by_cases hc : p.cur ≤ minTime
    · rw [if_pos hc]
      cases j with
      | zero => exact absurd hj (not_lt.2 hc)
      | succ j => exact ih (j := j) hj (by omega)
    · rw [if_neg hc]
      exact ⟨_, rfl⟩

theorem init_ends {t : Native.Task} {speed minTime : ℚ} (hT : 0 < t.period) (h0 : 0 ≤ minTime) {fuel : ℕ}
    (hf : 2 < fuel) : ∃ r, TestPoints.init fuel t speed minTime = some r := by
  obtain ⟨f, hf0, hf1, hf2⟩ := floor_spec h0 hT
  unfold TestPoints.init
  rw [trunc_div h0, hf0]
  refine skip_ends (j := 2) ?_ hf
  rw [next_cur]
  rw [if_pos (by norm_num)]
  have hoD : (if (t.wcet : ℚ) / speed > t.deadline then (t.deadline : ℚ) else (t.wcet : ℚ) / speed) ≤ t.deadline := by
    split_ifs with h
    · exact le_rfl
    · exact not_lt.1 h
  generalize (if (t.wcet : ℚ) / speed > t.deadline then (t.deadline : ℚ) else (t.wcet : ℚ) / speed) = o at hoD
  norm_num
  linarith

theorem cppPoint_seq {t : Native.Task} {speed minTime : ℚ} (hT : 0 < t.period) (hDT : t.deadline ≤ t.period)
    (hs : 0 < speed) (h0 : 0 ≤ minTime) {fuel : ℕ} {p : TestPoints} (hp : TestPoints.init fuel t speed minTime = some p) :
    PointSeq t.period t.deadline minTime (fun k => (TestPoints.next^[k] p).cur) := by
  obtain ⟨f, hf, hf1, hf2⟩ := floor_spec h0 hT
  have hTq : (1 : ℚ) ≤ t.period := by exact_mod_cast hT
  have hDq : (t.deadline : ℚ) ≤ t.period := by exact_mod_cast hDT
  have hf0 : (0 : ℚ) ≤ (f : ℚ) * t.period := by positivity
  unfold TestPoints.init at hp
  rw [trunc_div h0, hf] at hp
  have hoD : (if (t.wcet : ℚ) / speed > t.deadline then (t.deadline : ℚ) else (t.wcet : ℚ) / speed) ≤ t.deadline := by
    split_ifs with h
    · exact le_rfl
    · exact not_lt.1 h
  have ho0 : 0 ≤ (if (t.wcet : ℚ) / speed > t.deadline then (t.deadline : ℚ) else (t.wcet : ℚ) / speed) := by
    split_ifs with h <;> positivity
  generalize (if (t.wcet : ℚ) / speed > t.deadline then (t.deadline : ℚ) else (t.wcet : ℚ) / speed) = o at hoD ho0 hp
  simp only [Int.cast_natCast] at hp
  set b : ℚ := (f : ℚ) * t.period + t.deadline with hb
  obtain ⟨j, hj, hlt⟩ := skip_spec hp
  have hx : ∀ k, (TestPoints.next^[k] p).cur =
      (if (k + j) % 2 = 0 then o * -1 + b else b) + ((k + j) / 2 : ℕ) * t.period := by
    intro k
    rw [hj, ← Function.iterate_add_apply, next_cur]
  refine ⟨monotone_nat_of_le_succ (fun k => ?_), fun k hk => ?_, fun k => ?_⟩
  · rw [hx, hx]
    generalize hc : k + j = c
    rw [show k + 1 + j = c + 1 by omega]
    rcases Nat.even_or_odd' c with ⟨a, rfl | rfl⟩
    · rw [show 2 * a / 2 = a by omega, show (2 * a + 1) / 2 = a by omega, if_pos (by omega), if_neg (by omega)]
      linarith
    · rw [show (2 * a + 1) / 2 = a by omega, show (2 * a + 1 + 1) / 2 = a + 1 by omega, if_neg (by omega),
        if_pos (by omega)]
      push_cast
      linarith
  · have hle := le_of_cover hDT hf1 hk
    have hpt : (if (2 * (k - f) + 1) % 2 = 0 then o * -1 + b else b) + ((2 * (k - f) + 1) / 2 : ℕ) * t.period =
        ((k * t.period + t.deadline : ℕ) : ℚ) := by
      obtain ⟨c, rfl⟩ := Nat.exists_eq_add_of_le hle
      rw [show f + c - f = c by omega, if_neg (by omega), show (2 * c + 1) / 2 = c by omega, hb]
      push_cast
      ring
    have hjk : j ≤ 2 * (k - f) + 1 := by
      by_contra hc
      have h1 := hlt (2 * (k - f) + 1) (by omega)
      rw [next_cur, hpt] at h1
      linarith
    refine ⟨2 * (k - f) + 1 - j, ?_⟩
    rw [hx, show 2 * (k - f) + 1 - j + j = 2 * (k - f) + 1 by omega, hpt]
  · rw [hx]
    have h1 : ((k / 2 : ℕ) : ℚ) ≤ ((k + j) / 2 : ℕ) := by exact_mod_cast (by omega : k / 2 ≤ (k + j) / 2)
    have h2 : (((k + j) / 2 : ℕ) : ℚ) * 1 ≤ ((k + j) / 2 : ℕ) * t.period :=
      mul_le_mul_of_nonneg_left hTq (by positivity)
    split_ifs <;> linarith

end Verif.Ff
