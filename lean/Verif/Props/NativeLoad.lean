/-
C52: integer helper arithmetic; C61: approximation of the load.
-/
import Verif.Model.NativeLoad
import Verif.Lemmas.Qpa
import Mathlib.Algebra.BigOperators.Ring.List
import Mathlib.Data.Finset.Max
import Mathlib.Data.Rat.Floor
import Mathlib.Algebra.Order.Archimedean.Basic

namespace Verif.Native

open TaskSet

/-- **C52**: the helpers on `unsigned long` are the exact ceiling and floor, and their
results fit into an `unsigned long` if the numerator does. -/
theorem C52_unsigned (a b : ℕ) (hb : 0 < b) :
    (divideWithCeil a b : ℤ) = ⌈(a : ℚ) / b⌉ ∧ (divideWithFloor a b : ℤ) = ⌊(a : ℚ) / b⌋ ∧
      divideWithCeil a b ≤ a ∧ divideWithFloor a b ≤ a := by
  have hbq : (0 : ℚ) < b := by exact_mod_cast hb
  refine ⟨?_, ?_, ?_, Nat.div_le_self a b⟩
  · symm
    rw [Int.ceil_eq_iff]
    constructor
    · rw [lt_div_iff₀ hbq]
      have h : ¬ divideWithCeil a b ≤ divideWithCeil a b - 1 ∨ divideWithCeil a b = 0 := by omega
      rcases h with h | h
      · rw [divideWithCeil_le_iff hb] at h
        push Not at h
        have h1 : 1 ≤ divideWithCeil a b := by
          by_contra hc
          have h0 : divideWithCeil a b = 0 := by omega
          have := (divideWithCeil_le_iff (a := a) (k := 0) hb).1 (by omega)
          rw [h0] at h
          simp at h this
          omega
        have h2 : (((divideWithCeil a b - 1 : ℕ) : ℚ)) * b < a := by exact_mod_cast h
        rw [Nat.cast_sub h1] at h2
        push_cast at h2 ⊢
        exact h2
      · rw [h]
        push_cast
        have : (0 : ℚ) ≤ a := by positivity
        linarith
    · rw [div_le_iff₀ hbq]
      have := le_divideWithCeil_mul a hb
      exact_mod_cast this
  · unfold divideWithFloor
    rw [Rat.floor_natCast_div_natCast]
    push_cast
    rfl
  · rw [divideWithCeil_le_iff hb]
    exact Nat.le_mul_of_pos_right a hb

/-- **C52**: the helpers on big integers and fractions; the numerator may be negative. -/
theorem C52_big (a b : ℤ) (hb : 0 < b) (f : ℚ) :
    divideWithCeilZ a b = ⌈(a : ℚ) / b⌉ ∧ roundUp f = ⌈f⌉ ∧ IsLeast {z : ℤ | f ≤ z} (roundUp f) := by
  refine ⟨?_, roundUp_eq f, ?_, ?_⟩
  · obtain ⟨n, rfl⟩ := Int.eq_ofNat_of_zero_le hb.le
    unfold divideWithCeilZ cdivQ
    rw [← Rat.ceil_intCast_div_natCast]
    push_cast
    rfl
  · rw [roundUp_eq]; exact Int.le_ceil f
  · intro z hz; rw [roundUp_eq]; exact Int.ceil_le.2 hz

example : divideWithCeil 7 3 = 3 ∧ divideWithCeil 6 3 = 2 ∧ divideWithCeil 0 3 = 0 ∧
    divideWithCeilZ (-7) 3 = -2 ∧ roundUp (-7 / 3) = -2 ∧ roundUp (7 / 3) = 3 := by decide +kernel

theorem cdivQ_eq (a : ℤ) {b : ℕ} : cdivQ a b = ⌈(a : ℚ) / (b : ℚ)⌉ := by
  rw [Rat.ceil_intCast_div_natCast]; rfl

/-- The demand grows at most linearly. -/
theorem boundDemand_le_lin (t : Task) (hT : 0 < t.period) {x : ℕ} (hx : t.deadline ≤ x) :
    (t.boundDemand x : ℚ) ≤ ((x : ℚ) - t.deadline) * t.wcet / t.period + t.wcet := by
  have hTq : (0 : ℚ) < t.period := by exact_mod_cast hT
  unfold Task.boundDemand
  rw [if_neg (by omega)]
  have h1 : (((x - t.deadline) / t.period : ℕ) : ℚ) ≤ ((x : ℚ) - t.deadline) / t.period := by
    have := @Nat.cast_div_le ℚ _ _ _ (x - t.deadline) t.period
    rwa [Nat.cast_sub hx] at this
  push_cast
  have hC : (0 : ℚ) ≤ t.wcet := by positivity
  have : ((x : ℚ) - t.deadline) * t.wcet / t.period = ((x : ℚ) - t.deadline) / t.period * t.wcet := by
    ring
  rw [this]
  nlinarith

/-- and at least linearly. -/
theorem lin_le_boundDemand (t : Task) (hT : 0 < t.period) {x : ℕ} (hx : t.deadline ≤ x) :
    ((x : ℚ) - t.deadline) * t.wcet / t.period ≤ (t.boundDemand x : ℚ) := by
  have hTq : (0 : ℚ) < t.period := by exact_mod_cast hT
  unfold Task.boundDemand
  rw [if_neg (by omega)]
  have h1 : ((x : ℚ) - t.deadline) / t.period ≤ ((x - t.deadline) / t.period : ℕ) + 1 := by
    rw [div_le_iff₀ hTq]
    have := Nat.lt_div_mul_add hT (a := x - t.deadline)
    have h2 : ((x - t.deadline : ℕ) : ℚ) ≤
        (((x - t.deadline) / t.period * t.period + t.period : ℕ) : ℚ) := by exact_mod_cast this.le
    rw [Nat.cast_sub hx] at h2
    push_cast at h2
    linarith
  push_cast
  have hC : (0 : ℚ) ≤ t.wcet := by positivity
  have : ((x : ℚ) - t.deadline) * t.wcet / t.period = ((x : ℚ) - t.deadline) / t.period * t.wcet := by
    ring
  rw [this]
  exact mul_le_mul_of_nonneg_right h1 hC

theorem lin_le_approxDemand (t : Task) {x k : ℕ} (hk : k * t.period + t.deadline ≤ x) :
    ((x : ℚ) - t.deadline) * t.wcet / t.period + t.wcet ≤ (t.approxDemand x k : ℚ) := by
  unfold Task.approxDemand
  rw [if_neg (by omega), cdivQ_eq]
  push_cast
  have := Int.le_ceil (((x : ℚ) - t.deadline) * t.wcet / t.period)
  linarith

/-- **C52**, approximate demand: it never underestimates the demand bound, by at most
one cost overestimates it, is exact before the `k`-th step, and its relative error is at
most `1/(k+1)`. -/
theorem C52_approx_demand (t : Task) (hT : 0 < t.period) (x k : ℕ) :
    (t.boundDemand x : ℤ) ≤ t.approxDemand x k ∧
    t.approxDemand x k ≤ t.boundDemand x + t.wcet ∧
    (x < t.deadline + k * t.period → t.approxDemand x k = t.boundDemand x) ∧
    (k + 1) * t.approxDemand x k ≤ (k + 2) * t.boundDemand x := by
  have hTq : (0 : ℚ) < t.period := by exact_mod_cast hT
  by_cases hk : x < k * t.period + t.deadline
  · have : t.approxDemand x k = t.boundDemand x := by
      unfold Task.approxDemand; rw [if_pos hk]
    rw [this]
    refine ⟨le_rfl, by omega, fun _ => rfl, ?_⟩
    have : (0 : ℤ) ≤ t.boundDemand x := by positivity
    nlinarith
  · push Not at hk
    have hD : t.deadline ≤ x := le_trans (Nat.le_add_left _ _) hk
    have h1 : (t.boundDemand x : ℤ) ≤ t.approxDemand x k := by
      have h := (boundDemand_le_lin t hT hD).trans (lin_le_approxDemand t hk)
      exact_mod_cast h
    have h2 : t.approxDemand x k ≤ t.boundDemand x + t.wcet := by
      unfold Task.approxDemand
      rw [if_neg (by omega), cdivQ_eq]
      have h3 : ⌈(((((x : ℤ) - t.deadline) * t.wcet : ℤ)) : ℚ) / t.period⌉ ≤ (t.boundDemand x : ℤ) := by
        rw [Int.ceil_le]
        have := lin_le_boundDemand t hT hD
        push_cast
        exact this
      linarith
    refine ⟨h1, h2, fun h => by omega, ?_⟩
    have h4 : (k + 1) * t.wcet ≤ t.boundDemand x := by
      unfold Task.boundDemand
      rw [if_neg (by omega)]
      apply Nat.mul_le_mul_right
      apply Nat.add_le_add_right
      rw [Nat.le_div_iff_mul_le hT]
      omega
    have h5 : ((k : ℤ) + 1) * t.wcet ≤ t.boundDemand x := by exact_mod_cast h4
    have h6 : ((k : ℤ) + 1) * t.approxDemand x k ≤ (k + 1) * (t.boundDemand x + t.wcet) :=
      mul_le_mul_of_nonneg_left h2 (by positivity)
    linarith

/-- Non-vacuity: the approximation differs from the demand, by the whole cost. -/
example : (Task.init 1 10 5).approxDemand 16 1 = 3 ∧ (Task.init 1 10 5).boundDemand 16 = 2 := by
  decide +kernel

/-! ### Approximation of the load -/

theorem loadLoop_lower (f : ℕ → ℚ) (d : ℚ) (times : List ℕ) (hs : times.Pairwise (· ≤ ·)) :
    ∀ load last, loadLoop f d load last times = d ∨
      load ≤ loadLoop f d load last times ∧
        ∀ x ∈ times, last < x → f x ≤ loadLoop f d load last times := by
  induction times with
  | nil => intro load last; right; exact ⟨le_rfl, by simp⟩
  | cons t times ih =>
    intro load last
    rw [List.pairwise_cons] at hs
    unfold loadLoop
    by_cases h1 : last < t
    · rw [if_pos h1]
      by_cases h2 : d < f t
      · rw [if_pos h2]; left; rfl
      · rw [if_neg h2]
        by_cases h3 : load < f t
        · rw [if_pos h3]
          rcases ih hs.2 (f t) t with h | ⟨g1, g2⟩
          · left; exact h
          · right
            refine ⟨h3.le.trans g1, fun x hx _ => ?_⟩
            rcases List.mem_cons.1 hx with rfl | hx
            · exact g1
            · rcases (hs.1 x hx).lt_or_eq with h | rfl
              · exact g2 x hx h
              · exact g1
        · rw [if_neg h3]
          rcases ih hs.2 load t with h | ⟨g1, g2⟩
          · left; exact h
          · right
            refine ⟨g1, fun x hx _ => ?_⟩
            rcases List.mem_cons.1 hx with rfl | hx
            · exact (not_lt.1 h3).trans g1
            · rcases (hs.1 x hx).lt_or_eq with h | rfl
              · exact g2 x hx h
              · exact (not_lt.1 h3).trans g1
    · rw [if_neg h1]
      rcases ih hs.2 load last with h | ⟨g1, g2⟩
      · left; exact h
      · right
        refine ⟨g1, fun x hx hlt => ?_⟩
        rcases List.mem_cons.1 hx with rfl | hx
        · exact absurd hlt h1
        · exact g2 x hx hlt

theorem loadLoop_upper (f : ℕ → ℚ) (d B : ℚ) (times : List ℕ) :
    ∀ load last, load ≤ B → (∀ x ∈ times, last < x → f x ≤ B) →
      loadLoop f d load last times ≤ B := by
  induction times with
  | nil => intro load last h _; exact h
  | cons t times ih =>
    intro load last hl hB
    unfold loadLoop
    by_cases h1 : last < t
    · have ht := hB t (by simp) h1
      have hB' : ∀ x ∈ times, t < x → f x ≤ B := fun x hx h => hB x (by simp [hx]) (by omega)
      rw [if_pos h1]
      split_ifs with h2 h3
      · linarith
      · exact ih _ _ ht hB'
      · exact ih _ _ hl hB'
    · rw [if_neg h1]
      exact ih _ _ hl (fun x hx h => hB x (by simp [hx]) h)

theorem mem_testPoints {ts : TaskSet} {e : ℚ} {x : ℕ} :
    x ∈ testPoints ts e ↔ ∃ t ∈ ts, ∃ j ≤ ts.kForEpsilon t e, x = t.deadline + j * t.period := by
  unfold testPoints testPointsOf
  rw [(List.perm_insertionSort _ _).mem_iff]
  simp only [List.mem_flatMap, List.mem_map, List.mem_range]
  constructor
  · rintro ⟨t, ht, j, hj, rfl⟩; exact ⟨t, ht, j, by omega, rfl⟩
  · rintro ⟨t, ht, j, hj, rfl⟩; exact ⟨t, ht, j, by omega, rfl⟩

theorem cast_boundDemand (ts : TaskSet) (x : ℕ) :
    (TaskSet.boundDemand ts x : ℚ) = (ts.map (fun t => (t.boundDemand x : ℚ))).sum := by
  unfold TaskSet.boundDemand
  induction ts with
  | nil => rfl
  | cons t ts ih => simp only [List.map_cons, List.sum_cons]; push_cast; rw [ih]

theorem approxLoadAt_eq (ts : TaskSet) (e : ℚ) {x : ℕ} (hx : 0 < x) :
    approxLoadAt ts e x * x
      = (ts.map (fun t => (t.approxDemand x (ts.kForEpsilon t e) : ℚ))).sum := by
  unfold approxLoadAt
  rw [← List.sum_map_mul_right]
  congr 1
  apply List.map_congr_left
  intro t _
  unfold Task.approxLoad
  rw [if_pos hx, div_mul_cancel₀]
  exact_mod_cast hx.ne'

theorem sum_map_le_q {β : Type} (l : List β) (f g : β → ℚ) (h : ∀ x ∈ l, f x ≤ g x) :
    (l.map f).sum ≤ (l.map g).sum := List.sum_le_sum h

/-- No step of the demand bound in between: it is constant. -/
theorem boundDemand_const (t : Task) (hT : 0 < t.period) {s x k : ℕ} (hsx : s ≤ x)
    (hx : x < k * t.period + t.deadline)
    (hno : ∀ j ≤ k, ¬ (s < t.deadline + j * t.period ∧ t.deadline + j * t.period ≤ x)) :
    t.boundDemand x = t.boundDemand s := by
  unfold Task.boundDemand
  by_cases h1 : x < t.deadline
  · rw [if_pos h1, if_pos (by omega)]
  · have h2 : ¬ s < t.deadline := fun h => hno 0 (by omega) ⟨by omega, by omega⟩
    rw [if_neg h1, if_neg h2]
    have hq : (x - t.deadline) / t.period = (s - t.deadline) / t.period := by
      apply le_antisymm
      · rw [Nat.le_div_iff_mul_le hT]
        set j := (x - t.deadline) / t.period with hj
        have h3 : j * t.period ≤ x - t.deadline := Nat.div_mul_le_self _ _
        have h4 : j < k := by
          by_contra hc
          have : k * t.period ≤ j * t.period := Nat.mul_le_mul_right _ (by omega)
          omega
        have := hno j h4.le
        omega
      · exact Nat.div_le_div_right (by omega)
    rw [hq]

/-- Any bound on the test points, at least the utilization, bounds the load. -/
theorem load_of_testPoints (ts : TaskSet) (e R : ℚ) (hT : ∀ t ∈ ts, 0 < t.period)
    (hD : ∀ t ∈ ts, 0 < t.deadline)
    (hU : utilization ts ≤ R) (hR0 : 0 ≤ R)
    (hR : ∀ x ∈ testPoints ts e, 0 < x → approxLoadAt ts e x ≤ R) (x : ℕ) :
    (TaskSet.boundDemand ts x : ℚ) ≤ R * x := by
  by_cases hex : ∃ s ∈ testPoints ts e, s ≤ x
  · obtain ⟨s, hs, hsx, hmax⟩ : ∃ s ∈ testPoints ts e, s ≤ x ∧
        ∀ y ∈ testPoints ts e, y ≤ x → y ≤ s := by
      classical
      have hne : ((testPoints ts e).toFinset.filter (· ≤ x)).Nonempty := by
        obtain ⟨s, hs, h⟩ := hex
        exact ⟨s, by simp [hs, h]⟩
      obtain ⟨s, hs, hm⟩ := Finset.exists_max_image _ id hne
      simp only [Finset.mem_filter, List.mem_toFinset, id] at hs hm
      exact ⟨s, hs.1, hs.2, fun y hy hyx => hm y ⟨hy, hyx⟩⟩
    have hs0 : 0 < s := by
      obtain ⟨t, ht, j, _, rfl⟩ := mem_testPoints.1 hs
      have := hD t ht
      omega
    have hstep : ∀ t ∈ ts, (t.boundDemand x : ℚ) ≤
        (t.approxDemand s (ts.kForEpsilon t e) : ℚ) + t.utilization * ((x : ℚ) - s) := by
      intro t ht
      have hTt := hT t ht
      have hTq : (0 : ℚ) < t.period := by exact_mod_cast hTt
      have hu : 0 ≤ t.utilization := by unfold Task.utilization; positivity
      have hsxq : (s : ℚ) ≤ x := by exact_mod_cast hsx
      by_cases hk : s < ts.kForEpsilon t e * t.period + t.deadline
      · have hxk : x < ts.kForEpsilon t e * t.period + t.deadline := by
          by_contra hc
          have := hmax _ (mem_testPoints.2 ⟨t, ht, ts.kForEpsilon t e, le_rfl, rfl⟩) (by omega)
          omega
        have hc := boundDemand_const t hTt hsx hxk (fun j hj hh => by
          have := hmax _ (mem_testPoints.2 ⟨t, ht, j, hj, rfl⟩) hh.2
          omega)
        have ha : t.approxDemand s (ts.kForEpsilon t e) = t.boundDemand s := by
          unfold Task.approxDemand; rw [if_pos hk]
        rw [hc, ha]
        push_cast
        have : 0 ≤ t.utilization * ((x : ℚ) - s) := mul_nonneg hu (by linarith)
        linarith
      · have h1 := boundDemand_le_lin t hTt (x := x) (by omega)
        have h2 := lin_le_approxDemand t (x := s) (k := ts.kForEpsilon t e) (by omega)
        have h3 : ((x : ℚ) - t.deadline) * t.wcet / t.period
            = ((s : ℚ) - t.deadline) * t.wcet / t.period + t.utilization * ((x : ℚ) - s) := by
          unfold Task.utilization; field_simp; ring
        linarith
    have hsum := sum_map_le_q ts _ _ hstep
    rw [← cast_boundDemand] at hsum
    have hsplit : (ts.map (fun t => (t.approxDemand s (ts.kForEpsilon t e) : ℚ)
        + t.utilization * ((x : ℚ) - s))).sum
        = approxLoadAt ts e s * s + utilization ts * ((x : ℚ) - s) := by
      rw [approxLoadAt_eq ts e hs0, List.sum_map_add, List.sum_map_mul_right]
      rfl
    rw [hsplit] at hsum
    have hsxq : (0 : ℚ) ≤ (x : ℚ) - s := by
      have : (s : ℚ) ≤ x := by exact_mod_cast hsx
      linarith
    have h1 : approxLoadAt ts e s * s ≤ R * s :=
      mul_le_mul_of_nonneg_right (hR s hs hs0) (by positivity)
    have h2 : utilization ts * ((x : ℚ) - s) ≤ R * ((x : ℚ) - s) :=
      mul_le_mul_of_nonneg_right hU hsxq
    linarith
  · have : TaskSet.boundDemand ts x = 0 := by
      unfold TaskSet.boundDemand
      apply List.sum_eq_zero
      intro y hy
      obtain ⟨t, ht, rfl⟩ := List.mem_map.1 hy
      unfold Task.boundDemand
      rw [if_pos]
      by_contra hc
      exact hex ⟨_, mem_testPoints.2 ⟨t, ht, 0, Nat.zero_le _, rfl⟩, by omega⟩
    rw [this]
    push_cast
    positivity

theorem boundDemand_le_density (t : Task) (hT : 0 < t.period) (hD0 : 0 < t.deadline)
    (hDT : t.deadline ≤ t.period) (x : ℕ) : (t.boundDemand x : ℚ) ≤ t.density * x := by
  have hTq : (0 : ℚ) < t.period := by exact_mod_cast hT
  have hDq : (0 : ℚ) < t.deadline := by exact_mod_cast hD0
  have hC : (0 : ℚ) ≤ t.wcet := by positivity
  by_cases hx : t.deadline ≤ x
  · have h1 := boundDemand_le_lin t hT hx
    have hDTq : (t.deadline : ℚ) ≤ t.period := by exact_mod_cast hDT
    have hxq : (t.deadline : ℚ) ≤ x := by exact_mod_cast hx
    refine h1.trans ?_
    unfold Task.density
    have h2 : ((x : ℚ) - t.deadline) * t.wcet / t.period ≤ ((x : ℚ) - t.deadline) * t.wcet / t.deadline :=
      div_le_div_of_nonneg_left (mul_nonneg (by linarith) hC) hDq hDTq
    have h3 : ((x : ℚ) - t.deadline) * t.wcet / t.deadline + t.wcet = t.wcet / t.deadline * x := by
      field_simp; ring
    linarith
  · unfold Task.boundDemand
    rw [if_pos (by omega)]
    unfold Task.density
    push_cast
    positivity

theorem demand_le_density (ts : TaskSet) (hT : ∀ t ∈ ts, 0 < t.period)
    (hD : ∀ t ∈ ts, 0 < t.deadline) (hDT : ∀ t ∈ ts, t.deadline ≤ t.period) (x : ℕ) :
    (TaskSet.boundDemand ts x : ℚ) ≤ density ts * x := by
  rw [cast_boundDemand]
  unfold density
  rw [← List.sum_map_mul_right]
  exact sum_map_le_q _ _ _ (fun t ht => boundDemand_le_density t (hT t ht) (hD t ht) (hDT t ht) x)

/-- **C61**, safety, for constrained deadlines: the value computed by `approx_load` is
an upper bound of the demand per time over intervals of every length. -/
theorem C61_load_safe_partial (ts : TaskSet) (e : ℚ) (he : 0 ≤ e)
    (htasks : ∀ t ∈ ts, 0 < t.deadline ∧ t.deadline ≤ t.period) (x : ℕ) :
    (TaskSet.boundDemand ts x : ℚ) ≤ approxLoad ts e * x := by
  have hT : ∀ t ∈ ts, 0 < t.period := fun t ht => (htasks t ht).1.trans_le (htasks t ht).2
  have hD : ∀ t ∈ ts, 0 < t.deadline := fun t ht => (htasks t ht).1
  have hdens := demand_le_density ts hT hD (fun t ht => (htasks t ht).2) x
  have hU0 : 0 ≤ utilization ts := by
    apply List.sum_nonneg
    intro y hy
    obtain ⟨t, _, rfl⟩ := List.mem_map.1 hy
    unfold Task.utilization; positivity
  unfold approxLoad
  by_cases h : utilization ts < density ts
  · rw [if_pos h]
    rcases loadLoop_lower (approxLoadAt ts e) (density ts) (testPoints ts e)
      (List.pairwise_insertionSort _ _) (utilization ts + e) 0 with h1 | ⟨h1, h2⟩
    · rw [h1]; exact hdens
    · exact load_of_testPoints ts e _ hT hD (by linarith) (by linarith) h2 x
  · rw [if_neg h]
    refine hdens.trans ?_
    exact mul_le_mul_of_nonneg_right (not_lt.1 h) (by positivity)

/-- The full claim of C61 without the restriction to constrained deadlines is false:
the iteration stops at the total density, which is no upper bound of the load if a
deadline is larger than the period.  Here the value returned is 9/8 but the demand in
32 time units is 39. -/
theorem C61_arbitrary_violated :
    ¬ ∀ (ts : TaskSet) (e : ℚ), 0 < e → (∀ t ∈ ts, 0 < t.deadline ∧ 0 < t.period) →
      ∀ x : ℕ, (TaskSet.boundDemand ts x : ℚ) ≤ approxLoad ts e * x := by
  intro h
  have := h [Task.init 32 40 32, Task.init 1 4 8] (1 / 100) (by norm_num) (by decide) 32
  revert this
  decide +kernel

/-- Some interval has the utilization as a lower bound of its load, up to any
difference: a bound of the load bounds the utilization. -/
theorem utilization_le_of_load (ts : TaskSet) (L : ℚ) (hT : ∀ t ∈ ts, 0 < t.period)
    (hL : ∀ x : ℕ, 0 < x → (TaskSet.boundDemand ts x : ℚ) ≤ L * x) : utilization ts ≤ L := by
  by_contra hc
  push Not at hc
  set K : ℚ := (ts.map (fun t => (t.deadline : ℚ) * t.utilization)).sum with hK
  obtain ⟨n, hn⟩ := exists_nat_gt (K / (utilization ts - L))
  have hpos : 0 < utilization ts - L := by linarith
  rw [div_lt_iff₀ hpos] at hn
  set M := (ts.map (fun t => t.deadline)).sum with hM
  have hx0 : 0 < n + M + 1 := by omega
  have h1 := hL (n + M + 1) hx0
  rw [cast_boundDemand] at h1
  have h2 : (ts.map (fun t => ((n + M + 1 : ℕ) : ℚ) * t.utilization)).sum
      ≤ (ts.map (fun t => (t.boundDemand (n + M + 1) : ℚ) + (t.deadline : ℚ) * t.utilization)).sum := by
    apply sum_map_le_q
    intro t ht
    have hle : t.deadline ≤ M := List.le_sum_of_mem (List.mem_map.2 ⟨t, ht, rfl⟩)
    have h3 := lin_le_boundDemand t (hT t ht) (x := n + M + 1) (by omega)
    have h5 : (((n + M + 1 : ℕ) : ℚ) - t.deadline) * t.wcet / t.period
        = ((n + M + 1 : ℕ) : ℚ) * t.utilization - (t.deadline : ℚ) * t.utilization := by
      unfold Task.utilization; ring
    linarith
  rw [List.sum_map_add, List.sum_map_mul_left] at h2
  have h4 : ((n + M + 1 : ℕ) : ℚ) * utilization ts ≤ L * (n + M + 1 : ℕ) + K := by
    have h6 : (ts.map (fun t => t.utilization)).sum = utilization ts := rfl
    rw [h6] at h2
    linarith
  push_cast at h4
  have hMq : (0 : ℚ) ≤ M := by positivity
  nlinarith

/-- The error of the approximate load at a point. -/
theorem approxLoadAt_le (ts : TaskSet) (e : ℚ) (he : 0 < e) (hT : ∀ t ∈ ts, 0 < t.period)
    {x : ℕ} (hx : 0 < x) :
    approxLoadAt ts e x * x ≤ TaskSet.boundDemand ts x + e * x := by
  rw [approxLoadAt_eq ts e hx, cast_boundDemand]
  by_cases hn : ts = []
  · subst hn; simp; positivity
  have hn0 : (0 : ℚ) < ts.length := by exact_mod_cast List.length_pos_iff.2 hn
  have hxq : (0 : ℚ) < x := by exact_mod_cast hx
  have h1 : (ts.map (fun t => (t.approxDemand x (ts.kForEpsilon t e) : ℚ))).sum
      ≤ (ts.map (fun t => (t.boundDemand x : ℚ) + e / ts.length * x)).sum := by
    apply sum_map_le_q
    intro t ht
    have hTq : (0 : ℚ) < t.period := by exact_mod_cast hT t ht
    obtain ⟨_, h2, h3, _⟩ := C52_approx_demand t (hT t ht) x (ts.kForEpsilon t e)
    by_cases hk : x < t.deadline + ts.kForEpsilon t e * t.period
    · rw [h3 hk]
      push_cast
      have : 0 ≤ e / ts.length * x := by positivity
      linarith
    · push Not at hk
      have h2q : (t.approxDemand x (ts.kForEpsilon t e) : ℚ) ≤ (t.boundDemand x : ℚ) + t.wcet := by
        exact_mod_cast h2
      have hkq : (t.deadline : ℚ) + (ts.kForEpsilon t e : ℚ) * t.period ≤ x := by exact_mod_cast hk
      have hke : t.utilization * ts.length / e - (t.deadline : ℚ) / t.period ≤ ts.kForEpsilon t e :=
        (le_max_right _ _).trans (Nat.le_ceil _)
      have h4 : (t.wcet : ℚ) * ts.length / e ≤ x := by
        refine le_trans ?_ hkq
        have h5 := mul_le_mul_of_nonneg_right hke hTq.le
        have h6 : (t.utilization * ts.length / e - (t.deadline : ℚ) / t.period) * t.period
            = (t.wcet : ℚ) * ts.length / e - t.deadline := by
          unfold Task.utilization; field_simp
        linarith
      have h7 : (t.wcet : ℚ) ≤ e / ts.length * x := by
        have h8 := mul_le_mul_of_nonneg_left h4 (by positivity : (0 : ℚ) ≤ e / ts.length)
        have h9 : e / ts.length * ((t.wcet : ℚ) * ts.length / e) = t.wcet := by field_simp
        linarith
      linarith
  refine h1.trans (le_of_eq ?_)
  rw [List.sum_map_add]
  congr 1
  rw [List.map_const', List.sum_replicate, nsmul_eq_mul]
  field_simp

/-- **C61**, precision: the value computed by `approx_load` exceeds every upper bound
of the demand per time by at most `epsilon` (all deadlines, also larger than periods). -/
theorem C61_load_precise (ts : TaskSet) (e : ℚ) (he : 0 < e) (hT : ∀ t ∈ ts, 0 < t.period)
    (L : ℚ) (hL : ∀ x : ℕ, 0 < x → (TaskSet.boundDemand ts x : ℚ) ≤ L * x) :
    approxLoad ts e ≤ L + e := by
  have hU := utilization_le_of_load ts L hT hL
  unfold approxLoad
  split_ifs with h
  · apply loadLoop_upper
    · linarith
    · intro x _ hx
      have hxq : (0 : ℚ) < x := by exact_mod_cast hx
      have h1 := approxLoadAt_le ts e he hT hx
      have h2 := hL x hx
      have : approxLoadAt ts e x * x ≤ (L + e) * x := by linarith
      exact le_of_mul_le_mul_right this hxq
  · linarith

/-- Non-vacuity: a set with constrained deadlines whose load, 1 (at the points 2 and 4),
lies between its utilization 3/4 and its density 7/6, and is computed up to 1/10. -/
def loadExample : TaskSet := [Task.init 1 4 2, Task.init 2 4 3]
example : approxLoad loadExample (1 / 10) = 1 ∧ utilization loadExample = 3 / 4 ∧
    density loadExample = 7 / 6 ∧ (∀ t ∈ loadExample, 0 < t.deadline ∧ t.deadline ≤ t.period) := by
  decide +kernel

end Verif.Native
