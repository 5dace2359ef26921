import Verif.Model.Qpa
import Mathlib.Tactic.Linarith
import Mathlib.Tactic.Ring
import Mathlib.Tactic.FieldSimp
import Mathlib.Tactic.Positivity
import Mathlib.Algebra.Order.BigOperators.Group.List
import Mathlib.Algebra.Order.Field.Basic
import Mathlib.Algebra.BigOperators.Ring.List
import Mathlib.Data.Nat.Cast.Order.Field

namespace Verif.Native
open TaskSet

/-! ### Demand -/

theorem sum_map_le {α : Type} {M : Type} [AddCommMonoid M] [Preorder M] [AddLeftMono M]
    [AddRightMono M] (l : List α) (f g : α → M)
    (h : ∀ x ∈ l, f x ≤ g x) : (l.map f).sum ≤ (l.map g).sum := by
  induction l with
  | nil => simp
  | cons a as ih =>
    simp only [List.map_cons, List.sum_cons]
    exact add_le_add (h a (by simp)) (ih (fun x hx => h x (by simp [hx])))

theorem cast_list_sum (l : List ℕ) : ((l.sum : ℕ) : ℚ) = (l.map (fun x : ℕ => (x : ℚ))).sum := by
  induction l with
  | nil => simp
  | cons a as ih => simp [ih]

theorem Task.boundDemand_mono (t : Task) {a b : ℕ} (h : a ≤ b) : t.boundDemand a ≤ t.boundDemand b := by
  unfold Task.boundDemand
  split_ifs with h1 h2 h2
  · exact le_rfl
  · exact Nat.zero_le _
  · omega
  · apply Nat.mul_le_mul_right
    have := Nat.div_le_div_right (c := t.period) (Nat.sub_le_sub_right h t.deadline)
    omega

theorem boundDemand_mono (ts : TaskSet) {a b : ℕ} (h : a ≤ b) :
    boundDemand ts a ≤ boundDemand ts b :=
  sum_map_le _ _ _ (fun t _ => t.boundDemand_mono h)

theorem boundDemand_append (ts us : TaskSet) (x : ℕ) :
    boundDemand (ts ++ us) x = boundDemand ts x + boundDemand us x := by
  simp [boundDemand]

theorem utilization_append (ts us : TaskSet) :
    utilization (ts ++ us) = utilization ts + utilization us := by
  simp [utilization]

/-! ### Smallest deadline -/

theorem minRelativeDeadline_none {ts : TaskSet} (h : minRelativeDeadline ts = none) : ts = [] := by
  cases ts with
  | nil => rfl
  | cons t ts =>
    rw [minRelativeDeadline] at h
    split at h <;> simp at h

theorem minRelativeDeadline_le {ts : TaskSet} {d : ℕ} (h : minRelativeDeadline ts = some d) :
    ∀ t ∈ ts, d ≤ t.deadline := by
  induction ts generalizing d with
  | nil => simp
  | cons t ts ih =>
    rw [minRelativeDeadline] at h
    split at h
    · rename_i hn
      have := minRelativeDeadline_none hn
      subst this
      simp only [Option.some.injEq] at h
      simp [h]
    · rename_i d' hd'
      simp only [Option.some.injEq] at h
      intro s hs
      rcases List.mem_cons.1 hs with rfl | hs
      · omega
      · have := ih hd' s hs; omega

theorem boundDemand_eq_zero {ts : TaskSet} {x : ℕ} (h : ∀ t ∈ ts, x < t.deadline) :
    boundDemand ts x = 0 := by
  unfold boundDemand
  rw [List.sum_eq_zero]
  intro y hy
  obtain ⟨t, ht, rfl⟩ := List.mem_map.1 hy
  unfold Task.boundDemand
  rw [if_pos (h t ht)]

/-! ### Test points -/

theorem taskTestpoint_some {t : Task} (hT : 0 < t.period) {M q : ℕ}
    (h : taskTestpoint t M = some q) :
    q < M ∧ t.deadline ≤ q ∧ ∀ x, q ≤ x → x < M → t.boundDemand x = t.boundDemand q := by
  unfold taskTestpoint at h
  split_ifs at h with h1
  unfold maxDeadline at h
  set a := (M - t.deadline) / t.period with ha
  have hle : a * t.period ≤ M - t.deadline := Nat.div_mul_le_self _ _
  have hlt : M - t.deadline < (a + 1) * t.period := by
    rw [ha]; exact Nat.lt_mul_of_div_lt (Nat.lt_succ_self _) hT
  have hexp : (a + 1) * t.period = a * t.period + t.period := by ring
  simp only at h
  split_ifs at h with h2
  · rw [Option.some.injEq] at h
    have ha1 : 1 ≤ a := by
      by_contra hc
      have h0 : a = 0 := Nat.eq_zero_of_not_pos hc
      rw [h0, Nat.zero_mul, Nat.zero_add] at h2; exact h1.ne h2
    obtain ⟨b, hb⟩ : ∃ b, a = b + 1 := ⟨a - 1, by omega⟩
    rw [hb] at h2 h
    have hexp2 : (b + 1) * t.period = b * t.period + t.period := by ring
    have hq : q = b * t.period + t.deadline := by omega
    refine ⟨by omega, by omega, fun x hx1 hx2 => ?_⟩
    unfold Task.boundDemand
    rw [if_neg (by omega), if_neg (by omega)]
    have e1 : (q - t.deadline) / t.period = b := by
      rw [hq, Nat.add_sub_cancel]; exact Nat.mul_div_cancel _ hT
    have e2 : (x - t.deadline) / t.period = b := by
      apply Nat.div_eq_of_lt_le
      · omega
      · rw [hexp2]; omega
    rw [e1, e2]
  · rw [Option.some.injEq] at h
    refine ⟨by omega, by omega, fun x hx1 hx2 => ?_⟩
    unfold Task.boundDemand
    rw [if_neg (by omega), if_neg (by omega)]
    have e1 : (q - t.deadline) / t.period = a := by
      rw [← h, Nat.add_sub_cancel]; exact Nat.mul_div_cancel _ hT
    have e2 : (x - t.deadline) / t.period = a := by
      apply Nat.div_eq_of_lt_le
      · omega
      · rw [hexp]; omega
    rw [e1, e2]

theorem taskTestpoint_none {t : Task} {M : ℕ} (h : taskTestpoint t M = none) :
    ∀ x < M, t.boundDemand x = 0 := by
  unfold taskTestpoint at h
  split_ifs at h with h1 h2
  · simp only at h; split_ifs at h
  · intro x hx
    unfold Task.boundDemand
    rw [if_pos (by omega)]

/-- The fold of `largestTestpoint` from an arbitrary start. -/
theorem largest_fold (M : ℕ) (ts : TaskSet) : ∀ p : ℕ,
    let r := ts.foldl (fun point t => match taskTestpoint t M with
      | some maxDl => if maxDl > point then maxDl else point
      | none => point) p
    p ≤ r ∧ (∀ t ∈ ts, ∀ q, taskTestpoint t M = some q → q ≤ r) ∧
      (r = p ∨ ∃ t ∈ ts, taskTestpoint t M = some r) := by
  induction ts with
  | nil => intro p; simp
  | cons t ts ih =>
    intro p
    simp only [List.foldl_cons]
    cases ht : taskTestpoint t M with
    | none =>
      simp only
      obtain ⟨h1, h2, h3⟩ := ih p
      refine ⟨h1, ?_, ?_⟩
      · intro s hs q hq
        rcases List.mem_cons.1 hs with rfl | hs
        · rw [ht] at hq; simp at hq
        · exact h2 s hs q hq
      · rcases h3 with h3 | ⟨s, hs, h3⟩
        · exact Or.inl h3
        · exact Or.inr ⟨s, by simp [hs], h3⟩
    | some v =>
      simp only
      split_ifs with hv
      · obtain ⟨h1, h2, h3⟩ := ih v
        refine ⟨by omega, ?_, ?_⟩
        · intro s hs q hq
          rcases List.mem_cons.1 hs with rfl | hs
          · rw [ht] at hq; simp only [Option.some.injEq] at hq; omega
          · exact h2 s hs q hq
        · rcases h3 with h3 | ⟨s, hs, h3⟩
          · exact Or.inr ⟨t, by simp, by rw [ht, h3]⟩
          · exact Or.inr ⟨s, by simp [hs], h3⟩
      · obtain ⟨h1, h2, h3⟩ := ih p
        refine ⟨h1, ?_, ?_⟩
        · intro s hs q hq
          rcases List.mem_cons.1 hs with rfl | hs
          · rw [ht] at hq; simp only [Option.some.injEq] at hq; omega
          · exact h2 s hs q hq
        · rcases h3 with h3 | ⟨s, hs, h3⟩
          · exact Or.inl h3
          · exact Or.inr ⟨s, by simp [hs], h3⟩

theorem largestTestpoint_lt {ts : TaskSet} (hT : ∀ t ∈ ts, 0 < t.period) (M : ℕ) (hM : 0 < M) :
    largestTestpoint ts M < M := by
  obtain ⟨_, _, h3⟩ := largest_fold M ts 0
  rcases h3 with h3 | ⟨t, ht, h3⟩
  · change largestTestpoint ts M = 0 at h3; omega
  · exact (taskTestpoint_some (hT t ht) h3).1

theorem largestTestpoint_const {ts : TaskSet} (hT : ∀ t ∈ ts, 0 < t.period) (M : ℕ) {x : ℕ}
    (h1 : largestTestpoint ts M ≤ x) (h2 : x < M) :
    boundDemand ts x = boundDemand ts (largestTestpoint ts M) := by
  have hlt : largestTestpoint ts M < M := by omega
  obtain ⟨_, hc, _⟩ := largest_fold M ts 0
  unfold boundDemand
  congr 1
  apply List.map_congr_left
  intro t ht
  cases hq : taskTestpoint t M with
  | none => rw [taskTestpoint_none hq x h2, taskTestpoint_none hq _ hlt]
  | some q =>
    have hqle : q ≤ largestTestpoint ts M := hc t ht q hq
    obtain ⟨_, _, h⟩ := taskTestpoint_some (hT t ht) hq
    rw [h x (by omega) h2, h _ hqle hlt]

/-! ### Busy interval -/

/-- No relative deadline lies between the largest test point and the limit. -/
theorem deadline_le_largestTestpoint {ts : TaskSet} (hT : ∀ t ∈ ts, 0 < t.period) {M : ℕ} {t : Task}
    (ht : t ∈ ts) (h : t.deadline < M) : t.deadline ≤ largestTestpoint ts M := by
  obtain ⟨_, h2, _⟩ := largest_fold M ts 0
  cases hq : taskTestpoint t M with
  | none =>
    unfold taskTestpoint at hq
    rw [if_pos h] at hq
    simp only at hq
    split_ifs at hq
  | some q => exact (taskTestpoint_some (hT t ht) hq).2.1.trans (h2 t ht q hq)

theorem divideWithCeil_eq (a : ℕ) {b : ℕ} (hb : 0 < b) : divideWithCeil a b = (a + b - 1) / b := by
  unfold divideWithCeil
  have hdm := Nat.div_add_mod a b
  have hml := Nat.mod_lt a hb
  split_ifs with h
  · symm
    apply Nat.div_eq_of_lt_le
    · have : a / b * b = b * (a / b) := Nat.mul_comm _ _
      omega
    · have : (a / b + 1) * b = b * (a / b) + b := by ring
      omega
  · symm
    apply Nat.div_eq_of_lt_le
    · have : (a / b + 1) * b = b * (a / b) + b := by ring
      omega
    · have : (a / b + 1 + 1) * b = b * (a / b) + b + b := by ring
      omega

theorem divideWithCeil_mono {a a' b : ℕ} (hb : 0 < b) (h : a ≤ a') :
    divideWithCeil a b ≤ divideWithCeil a' b := by
  rw [divideWithCeil_eq _ hb, divideWithCeil_eq _ hb]
  exact Nat.div_le_div_right (by omega)

theorem le_divideWithCeil_mul (a : ℕ) {b : ℕ} (hb : 0 < b) : a ≤ divideWithCeil a b * b := by
  unfold divideWithCeil
  have hdm := Nat.div_add_mod a b
  have hml := Nat.mod_lt a hb
  have h1 : a / b * b = b * (a / b) := Nat.mul_comm _ _
  have h2 : (a / b + 1) * b = b * (a / b) + b := by ring
  split_ifs with h <;> omega

theorem divideWithCeil_pos {a b : ℕ} (ha : 0 < a) (hb : 0 < b) : 1 ≤ divideWithCeil a b := by
  by_contra h
  have h0 : divideWithCeil a b = 0 := by omega
  have := le_divideWithCeil_mul a hb
  rw [h0] at this; omega

/-- `ceil(a/b) ≤ k` iff `a ≤ k b`. -/
theorem divideWithCeil_le_iff {a b k : ℕ} (hb : 0 < b) : divideWithCeil a b ≤ k ↔ a ≤ k * b := by
  constructor
  · intro h
    exact (le_divideWithCeil_mul a hb).trans (Nat.mul_le_mul_right b h)
  · intro h
    rw [divideWithCeil_eq _ hb]
    have : (a + b - 1) / b ≤ (k * b + b - 1) / b := Nat.div_le_div_right (by omega)
    have e : (k * b + b - 1) / b = k := by
      apply Nat.div_eq_of_lt_le
      · omega
      · have : (k + 1) * b = k * b + b := by ring
        omega
    omega

theorem busyStep_mono {ts : TaskSet} (hT : ∀ t ∈ ts, 0 < t.period) {a b : ℕ} (h : a ≤ b) :
    busyStep ts a ≤ busyStep ts b :=
  sum_map_le _ _ _ (fun t ht => Nat.mul_le_mul_right _ (divideWithCeil_mono (hT t ht) h))

theorem busyLoop_spec {ts : TaskSet} (hT : ∀ t ∈ ts, 0 < t.period) (fuel : ℕ) :
    ∀ (x L : ℕ), x ≤ busyStep ts x → busyLoop ts fuel x = some L → busyStep ts L = L ∧ x ≤ L := by
  induction fuel with
  | zero => intro x L _ h; simp [busyLoop] at h
  | succ fuel ih =>
    intro x L hx h
    rw [busyLoop] at h
    split_ifs at h with hc
    · rw [Option.some.injEq] at h
      rw [← h]; exact ⟨hc.symm, le_rfl⟩
    · obtain ⟨h1, h2⟩ := ih _ L (busyStep_mono hT hx) h
      exact ⟨h1, hx.trans h2⟩

theorem start_le_busyStep {ts : TaskSet} (hT : ∀ t ∈ ts, 0 < t.period) :
    (ts.map Task.wcet).sum ≤ busyStep ts (ts.map Task.wcet).sum := by
  rcases Nat.eq_zero_or_pos (ts.map Task.wcet).sum with h | h
  · omega
  · unfold busyStep
    apply sum_map_le
    intro t ht
    have := divideWithCeil_pos h (hT t ht)
    exact Nat.le_mul_of_pos_left _ this

theorem edfBusyInterval_spec {ts : TaskSet} (hT : ∀ t ∈ ts, 0 < t.period) {fuel L : ℕ}
    (h : edfBusyInterval fuel ts = some L) :
    busyStep ts L = L ∧ (ts.map Task.wcet).sum ≤ L :=
  busyLoop_spec hT fuel _ L (start_le_busyStep hT) h

/-- Demand beyond the end of a busy interval. -/
theorem Task.boundDemand_add (t : Task) (hT : 0 < t.period) (hD : 0 < t.deadline) (L s : ℕ) :
    t.boundDemand (L + s) ≤ divideWithCeil L t.period * t.wcet + t.boundDemand s := by
  unfold Task.boundDemand
  split_ifs with h1 h2 h2
  · omega
  · omega
  · -- `s < D ≤ L + s`
    rw [Nat.add_zero]
    apply Nat.mul_le_mul_right
    have hc := le_divideWithCeil_mul L hT
    have : (L + s - t.deadline) / t.period < divideWithCeil L t.period := by
      rw [Nat.div_lt_iff_lt_mul hT]; omega
    omega
  · rw [← Nat.add_mul]
    apply Nat.mul_le_mul_right
    have hc := le_divideWithCeil_mul L hT
    have e : L + s - t.deadline = L + (s - t.deadline) := by omega
    have : (L + s - t.deadline) / t.period
        ≤ divideWithCeil L t.period + (s - t.deadline) / t.period := by
      rw [e]
      calc (L + (s - t.deadline)) / t.period
          ≤ ((s - t.deadline) + divideWithCeil L t.period * t.period) / t.period :=
            Nat.div_le_div_right (by omega)
        _ = _ := by rw [Nat.add_mul_div_right _ _ hT]; omega
    omega

theorem boundDemand_add {ts : TaskSet} (hT : ∀ t ∈ ts, 0 < t.period) (hD : ∀ t ∈ ts, 0 < t.deadline)
    (L s : ℕ) : boundDemand ts (L + s) ≤ busyStep ts L + boundDemand ts s := by
  unfold boundDemand busyStep
  rw [← List.sum_map_add]
  exact sum_map_le _ _ _ (fun t ht => t.boundDemand_add (hT t ht) (hD t ht) L s)

theorem demand_of_busy {ts : TaskSet} (hT : ∀ t ∈ ts, 0 < t.period) (hD : ∀ t ∈ ts, 0 < t.deadline)
    {fuel L : ℕ} (h : edfBusyInterval fuel ts = some L)
    (hok : ∀ t < L, boundDemand ts t ≤ t) : ∀ t, boundDemand ts t ≤ t := by
  obtain ⟨h1, h2⟩ := edfBusyInterval_spec hT h
  rcases Nat.eq_zero_or_pos L with h0 | hpos
  · have hz : ∀ t ∈ ts, t.wcet = 0 := by
      intro t ht
      have : t.wcet ≤ (ts.map Task.wcet).sum := List.le_sum_of_mem (List.mem_map.2 ⟨t, ht, rfl⟩)
      omega
    intro t
    have : boundDemand ts t = 0 := by
      unfold boundDemand
      rw [List.sum_eq_zero]
      intro y hy
      obtain ⟨a, ha, rfl⟩ := List.mem_map.1 hy
      unfold Task.boundDemand
      rw [hz a ha]; simp
    omega
  · intro t
    induction t using Nat.strong_induction_on with
    | _ t ih =>
      by_cases ht : t < L
      · exact hok t ht
      · have e : t = L + (t - L) := by omega
        have := boundDemand_add hT hD L (t - L)
        rw [← e, h1] at this
        have := ih (t - L) (by omega)
        omega

/-- Product of all periods: a bound for the busy interval. -/
theorem exists_hyper {ts : TaskSet} (hT : ∀ t ∈ ts, 0 < t.period) :
    ∃ H : ℕ, 0 < H ∧ ∀ t ∈ ts, t.period ∣ H := by
  induction ts with
  | nil => exact ⟨1, one_pos, by simp⟩
  | cons t ts ih =>
    obtain ⟨H, h1, h2⟩ := ih (fun s hs => hT s (by simp [hs]))
    refine ⟨t.period * H, Nat.mul_pos (hT t (by simp)) h1, fun s hs => ?_⟩
    rcases List.mem_cons.1 hs with rfl | hs
    · exact Dvd.intro _ rfl
    · exact (h2 s hs).mul_left _

theorem busyStep_hyper {ts : TaskSet} (hT : ∀ t ∈ ts, 0 < t.period) {H : ℕ}
    (hH : ∀ t ∈ ts, t.period ∣ H) : (busyStep ts H : ℚ) = utilization ts * H := by
  unfold busyStep utilization
  rw [cast_list_sum, List.map_map, ← List.sum_map_mul_right]
  congr 1
  apply List.map_congr_left
  intro t ht
  obtain ⟨k, rfl⟩ := hH t ht
  have hp : (0 : ℚ) < t.period := by exact_mod_cast hT t ht
  simp only [Function.comp, divideWithCeil, Nat.mul_mod_right, if_true, Task.utilization]
  rw [Nat.mul_div_cancel_left _ (hT t ht)]
  push_cast
  field_simp

/-- The busy-interval iteration ends if the utilization is at most 1. -/
theorem busyLoop_terminates {ts : TaskSet} (hT : ∀ t ∈ ts, 0 < t.period) {H : ℕ}
    (hH : busyStep ts H ≤ H) : ∀ (fuel x : ℕ), x ≤ busyStep ts x → x ≤ H → H - x < fuel →
    ∃ L, busyLoop ts fuel x = some L := by
  intro fuel
  induction fuel with
  | zero => intro x _ _ h; omega
  | succ fuel ih =>
    intro x hx hxH hf
    rw [busyLoop]
    split_ifs with hc
    · exact ⟨x, rfl⟩
    · have := busyStep_mono hT hxH
      exact ih _ (busyStep_mono hT hx) (by omega) (by omega)

theorem busyLoop_mono_fuel {ts : TaskSet} {fuel : ℕ} : ∀ {x L : ℕ},
    busyLoop ts fuel x = some L → ∀ {fuel'}, fuel ≤ fuel' → busyLoop ts fuel' x = some L := by
  induction fuel with
  | zero => intro x L h; simp [busyLoop] at h
  | succ fuel ih =>
    intro x L h fuel' hf
    obtain ⟨f', rfl⟩ : ∃ f', fuel' = f' + 1 := ⟨fuel' - 1, by omega⟩
    rw [busyLoop] at h ⊢
    split_ifs at h ⊢ with hc
    · exact h
    · exact ih h (by omega)

theorem edfBusyInterval_terminates {ts : TaskSet} (hT : ∀ t ∈ ts, 0 < t.period)
    (hU : utilization ts ≤ 1) : ∃ N L, ∀ fuel ≥ N, edfBusyInterval fuel ts = some L := by
  obtain ⟨H, h1, h2⟩ := exists_hyper hT
  have h3 : busyStep ts H ≤ H := by
    have := busyStep_hyper hT h2
    have h4 : (busyStep ts H : ℚ) ≤ H := by
      rw [this]
      have : (0 : ℚ) < H := by exact_mod_cast h1
      nlinarith
    exact_mod_cast h4
  have h4 : (ts.map Task.wcet).sum ≤ H := by
    refine le_trans ?_ h3
    unfold busyStep
    apply sum_map_le
    intro t ht
    exact Nat.le_mul_of_pos_left _ (divideWithCeil_pos h1 (hT t ht))
  obtain ⟨L, hL⟩ := busyLoop_terminates hT h3 (H + 1) _ (start_le_busyStep hT) h4 (by omega)
  exact ⟨H + 1, L, fun fuel hf => busyLoop_mono_fuel hL hf⟩

/-! ### Zhang and Burns' interval -/

theorem zb_fold (ts : TaskSet) : ∀ a : ℤ,
    let r := ts.foldl (fun acc t => max acc ((t.deadline : ℤ) - t.period)) a
    a ≤ r ∧ ∀ t ∈ ts, (t.deadline : ℤ) - t.period ≤ r := by
  induction ts with
  | nil => intro a; simp
  | cons t ts ih =>
    intro a
    simp only [List.foldl_cons]
    obtain ⟨h1, h2⟩ := ih (max a ((t.deadline : ℤ) - t.period))
    refine ⟨(le_max_left _ _).trans h1, fun s hs => ?_⟩
    rcases List.mem_cons.1 hs with rfl | hs
    · exact (le_max_right _ _).trans h1
    · exact h2 s hs

theorem Task.boundDemand_le_linear (t : Task) (hT : 0 < t.period) {x : ℕ}
    (hx : (t.deadline : ℤ) - t.period ≤ x) :
    (t.boundDemand x : ℚ) ≤ ((x : ℚ) + ((t.period : ℚ) - t.deadline)) * t.utilization := by
  have hp : (0 : ℚ) < t.period := by exact_mod_cast hT
  have hx' : (t.deadline : ℚ) - t.period ≤ x := by exact_mod_cast hx
  unfold Task.boundDemand Task.utilization
  have hc : (0 : ℚ) ≤ t.wcet := by positivity
  split_ifs with h
  · have : (0 : ℚ) ≤ (x : ℚ) + ((t.period : ℚ) - t.deadline) := by linarith
    push_cast
    positivity
  · push_cast
    have h1 : (((x - t.deadline) / t.period : ℕ) : ℚ) ≤ ((x - t.deadline : ℕ) : ℚ) / t.period :=
      Nat.cast_div_le
    rw [Nat.cast_sub (by omega)] at h1
    have h2 : ((((x - t.deadline) / t.period : ℕ) : ℚ) + 1)
        ≤ ((x : ℚ) + ((t.period : ℚ) - t.deadline)) / t.period := by
      have : ((x : ℚ) + ((t.period : ℚ) - t.deadline)) / t.period
          = ((x : ℚ) - t.deadline) / t.period + 1 := by field_simp; ring
      rw [this]; linarith
    calc ((((x - t.deadline) / t.period : ℕ) : ℚ) + 1) * t.wcet
        ≤ ((x : ℚ) + ((t.period : ℚ) - t.deadline)) / t.period * t.wcet :=
          mul_le_mul_of_nonneg_right h2 hc
      _ = _ := by ring

theorem demand_of_zb {ts : TaskSet} (hT : ∀ t ∈ ts, 0 < t.period) (hU : utilization ts < 1) {x : ℕ}
    (hx : zhangBurnsInterval ts ≤ x) : boundDemand ts x ≤ x := by
  unfold zhangBurnsInterval at hx
  simp only at hx
  set I := ts.foldl (fun acc t => max acc ((t.deadline : ℤ) - t.period)) (0 : ℤ) with hI
  set S := (ts.map (fun t => ((t.period : ℚ) - t.deadline) * t.utilization)).sum with hS
  obtain ⟨h0, hfold⟩ := zb_fold ts 0
  rw [← hI] at h0 hfold
  have hx1 : max I (roundUp (S / (1 - utilization ts))) ≤ (x : ℤ) := by
    have h2 : 0 ≤ max I (roundUp (S / (1 - utilization ts))) := h0.trans (le_max_left _ _)
    have := Int.toNat_of_nonneg h2
    omega
  have hIx : I ≤ x := (le_max_left _ _).trans hx1
  have hSx : S / (1 - utilization ts) ≤ x := by
    have h2 := (le_max_right _ _).trans hx1
    rw [roundUp_eq] at h2
    have h3 := Int.ceil_le.1 h2
    exact_mod_cast h3
  have hS' : S ≤ x * (1 - utilization ts) := by
    rwa [div_le_iff₀ (by linarith)] at hSx
  have hsum : (boundDemand ts x : ℚ)
      ≤ (ts.map (fun t => ((x : ℚ) + ((t.period : ℚ) - t.deadline)) * t.utilization)).sum := by
    unfold boundDemand
    rw [cast_list_sum, List.map_map]
    apply sum_map_le
    intro t ht
    exact t.boundDemand_le_linear (hT t ht) ((hfold t ht).trans hIx)
  have hexp : (ts.map (fun t => ((x : ℚ) + ((t.period : ℚ) - t.deadline)) * t.utilization)).sum
      = x * utilization ts + S := by
    rw [hS]
    unfold utilization
    rw [← List.sum_map_mul_left, ← List.sum_map_add]
    congr 1
    apply List.map_congr_left
    intro t _
    ring
  have : (boundDemand ts x : ℚ) ≤ x := by rw [hexp] at hsum; linarith
  exact_mod_cast this

/-! ### The loop -/

/-- Beyond the maximum interval the demand never exceeds the interval, if it
does not below. -/
theorem demand_of_maxInterval {ts : TaskSet} (hT : ∀ t ∈ ts, 0 < t.period)
    (hD : ∀ t ∈ ts, 0 < t.deadline) {fuel M : ℕ}
    (h : maxInterval fuel ts (utilization ts) = some M)
    (hok : ∀ t < M, boundDemand ts t ≤ t) : ∀ t, boundDemand ts t ≤ t := by
  unfold maxInterval at h
  split at h
  · simp at h
  · rename_i busy hb
    rw [Option.some.injEq] at h
    apply demand_of_busy hT hD hb
    split_ifs at h with hU
    · intro t ht
      by_cases hz : zhangBurnsInterval ts ≤ t
      · exact demand_of_zb hT hU hz
      · exact hok t (by omega)
    · rw [h]; exact hok

theorem exceeds_false {ts : TaskSet} {demand : ℕ}
    (h : exceeds demand (minRelativeDeadline ts) = false) : ∀ t ∈ ts, demand ≤ t.deadline := by
  intro t ht
  cases hm : minRelativeDeadline ts with
  | none => rw [minRelativeDeadline_none hm] at ht; simp at ht
  | some d =>
    rw [hm] at h
    simp only [exceeds, decide_eq_false_iff_not, not_lt] at h
    exact h.trans (minRelativeDeadline_le hm t ht)

theorem minRelativeDeadline_mem {ts : TaskSet} {d : ℕ} (h : minRelativeDeadline ts = some d) :
    ∃ t ∈ ts, t.deadline = d := by
  induction ts generalizing d with
  | nil => simp [minRelativeDeadline] at h
  | cons t ts ih =>
    rw [minRelativeDeadline] at h
    split at h
    · simp only [Option.some.injEq] at h
      exact ⟨t, by simp, h⟩
    · rename_i d' hd'
      simp only [Option.some.injEq] at h
      rcases le_total t.deadline d' with hle | hle
      · exact ⟨t, by simp, by omega⟩
      · obtain ⟨s, hs, e⟩ := ih hd'
        exact ⟨s, by simp [hs], by omega⟩

/-- What the loop needs of the demand: it is monotone, constant between two test points and
0 below the smallest deadline. -/
structure StepDemand (ts : TaskSet) (dem : ℕ → ℕ) : Prop where
  mono : ∀ {a b}, a ≤ b → dem a ≤ dem b
  const : ∀ {M x}, largestTestpoint ts M ≤ x → x < M → dem x = dem (largestTestpoint ts M)
  zero : ∀ {x}, (∀ t ∈ ts, x < t.deadline) → dem x = 0

theorem stepDemand_boundDemand {ts : TaskSet} (hT : ∀ t ∈ ts, 0 < t.period) :
    StepDemand ts (boundDemand ts) :=
  ⟨fun h => boundDemand_mono ts h, fun h1 h2 => largestTestpoint_const hT _ h1 h2,
    fun h => boundDemand_eq_zero h⟩

/-- If the loop ends with a demand not above the smallest deadline, the demand
criterion holds. Otherwise it fails at the final interval. -/
theorem qpaLoop_spec {ts : TaskSet} {dem : ℕ → ℕ} (hdem : StepDemand ts dem) (fuel : ℕ) :
    ∀ (next interval demand : ℕ),
    (dem next ≤ next → (∀ t < next, dem t ≤ t) → ∀ t, dem t ≤ t) →
    qpaLoop dem ts (minRelativeDeadline ts) fuel next = some (interval, demand) →
    demand = dem interval ∧
    (exceeds demand (minRelativeDeadline ts) = false → ∀ t, dem t ≤ t) ∧
    (exceeds demand (minRelativeDeadline ts) = true → interval < demand) := by
  induction fuel with
  | zero => intro n i d _ h; simp [qpaLoop] at h
  | succ fuel ih =>
    intro next interval demand hinv h
    rw [qpaLoop] at h
    split_ifs at h with hc hlt
    · -- continue with `next = demand`
      refine ih _ _ _ ?_ h
      intro h1 h2
      apply hinv hc.1
      intro t ht
      by_cases htd : t < dem next
      · exact h2 t htd
      · have := hdem.mono ht.le; omega
    · -- continue with the next test point
      refine ih _ _ _ ?_ h
      intro h1 h2
      apply hinv hc.1
      intro t ht
      by_cases htl : t < largestTestpoint ts next
      · exact h2 t htl
      · rw [hdem.const (by omega) ht]; omega
    · rw [Option.some.injEq, Prod.mk.injEq] at h
      obtain ⟨rfl, rfl⟩ := h
      refine ⟨rfl, fun hex => ?_, fun hex => ?_⟩
      · have hall := exceeds_false hex
        by_cases hle : dem next ≤ next
        · apply hinv hle
          intro t ht
          by_cases htz : ∀ s ∈ ts, t < s.deadline
          · rw [hdem.zero htz]; exact Nat.zero_le _
          · push Not at htz
            obtain ⟨s, hs, hst⟩ := htz
            have h1 := hdem.mono ht.le
            have h2 := hall s hs
            omega
        · exfalso
          push Not at hle
          by_cases htz : ∀ s ∈ ts, next < s.deadline
          · rw [hdem.zero htz] at hle; omega
          · push Not at htz
            obtain ⟨s, hs, hst⟩ := htz
            have h2 := hall s hs
            omega
      · by_contra hle
        exact hc ⟨by omega, hex⟩

/-- The loop is safe for every step function below the demand it uses. -/
theorem qpaLoop_safe {ts : TaskSet} {dem dem' : ℕ → ℕ} (hdem : StepDemand ts dem')
    (hle : ∀ x, dem' x ≤ dem x) (fuel : ℕ) : ∀ (next interval demand : ℕ),
    (dem' next ≤ next → (∀ t < next, dem' t ≤ t) → ∀ t, dem' t ≤ t) →
    qpaLoop dem ts (minRelativeDeadline ts) fuel next = some (interval, demand) →
    exceeds demand (minRelativeDeadline ts) = false → ∀ t, dem' t ≤ t := by
  induction fuel with
  | zero => intro n i d _ h; simp [qpaLoop] at h
  | succ fuel ih =>
    intro next interval demand hinv h hex
    have hn := hle next
    rw [qpaLoop] at h
    split_ifs at h with hc hlt
    · refine ih _ _ _ ?_ h hex
      intro h1 h2
      apply hinv (by omega)
      intro t ht
      by_cases htd : t < dem next
      · exact h2 t htd
      · have := hdem.mono ht.le; omega
    · refine ih _ _ _ ?_ h hex
      intro h1 h2
      apply hinv (by omega)
      intro t ht
      by_cases htl : t < largestTestpoint ts next
      · exact h2 t htl
      · rw [hdem.const (by omega) ht]; omega
    · rw [Option.some.injEq, Prod.mk.injEq] at h
      obtain ⟨rfl, rfl⟩ := h
      have hall := exceeds_false hex
      have hle' : dem' next ≤ next := by
        by_contra hlt
        by_cases htz : ∀ s ∈ ts, next < s.deadline
        · rw [hdem.zero htz] at hlt; omega
        · push Not at htz
          obtain ⟨s, hs, hst⟩ := htz
          have h2 := hall s hs
          omega
      apply hinv hle'
      intro t ht
      by_cases htz : ∀ s ∈ ts, t < s.deadline
      · rw [hdem.zero htz]; exact Nat.zero_le _
      · push Not at htz
        obtain ⟨s, hs, hst⟩ := htz
        have h1 := hdem.mono ht.le
        have h2 := hall s hs
        omega

theorem qpaLoop_terminates {ts : TaskSet} (dem : ℕ → ℕ) (hT : ∀ t ∈ ts, 0 < t.period)
    (fuel : ℕ) : ∀ next, next < fuel →
    ∃ r, qpaLoop dem ts (minRelativeDeadline ts) fuel next = some r := by
  induction fuel with
  | zero => intro n h; omega
  | succ fuel ih =>
    intro next hn
    rw [qpaLoop]
    by_cases hc : dem next ≤ next ∧
        exceeds (dem next) (minRelativeDeadline ts) = true
    · rw [if_pos hc]
      split_ifs with hlt
      · exact ih _ (by omega)
      · have hpos : 0 < next := by
          rcases Nat.eq_zero_or_pos next with h0 | h0
          · exfalso
            have : dem next = 0 := by omega
            rw [this] at hc
            have h2 := hc.2
            cases hm : minRelativeDeadline ts <;> rw [hm] at h2 <;> simp [exceeds] at h2
          · exact h0
        have := largestTestpoint_lt hT next hpos
        exact ih _ (by omega)
    · rw [if_neg hc]; exact ⟨_, rfl⟩

theorem qpaLoop_mono_fuel {ts : TaskSet} {dem : ℕ → ℕ} {mi : Option ℕ} {fuel : ℕ} :
    ∀ {x : ℕ} {r : ℕ × ℕ}, qpaLoop dem ts mi fuel x = some r →
    ∀ {fuel'}, fuel ≤ fuel' → qpaLoop dem ts mi fuel' x = some r := by
  induction fuel with
  | zero => intro x r h; simp [qpaLoop] at h
  | succ fuel ih =>
    intro x r h fuel' hf
    obtain ⟨f', rfl⟩ : ∃ f', fuel' = f' + 1 := ⟨fuel' - 1, by omega⟩
    rw [qpaLoop] at h ⊢
    by_cases hc : dem x ≤ x ∧ exceeds (dem x) mi = true
    · rw [if_pos hc] at h ⊢
      exact ih h (by omega)
    · rw [if_neg hc] at h ⊢
      exact h

/-- The scan performed by QPA: maximum interval and loop. -/
def qpaScan (fuel : ℕ) (ts : TaskSet) : Option (ℕ × ℕ) :=
  match maxInterval fuel ts (utilization ts) with
  | none => none
  | some maxInt => qpaLoop (boundDemand ts) ts (minRelativeDeadline ts) fuel (largestTestpoint ts maxInt)

theorem qpaScan_spec {ts : TaskSet} (hT : ∀ t ∈ ts, 0 < t.period) (hD : ∀ t ∈ ts, 0 < t.deadline)
    {fuel interval demand : ℕ} (h : qpaScan fuel ts = some (interval, demand)) :
    demand = boundDemand ts interval ∧
    (exceeds demand (minRelativeDeadline ts) = false → ∀ t, boundDemand ts t ≤ t) ∧
    (exceeds demand (minRelativeDeadline ts) = true → interval < demand) := by
  unfold qpaScan at h
  split at h
  · simp at h
  · rename_i M hM
    refine qpaLoop_spec (stepDemand_boundDemand hT) fuel _ interval demand ?_ h
    intro h1 h2
    apply demand_of_maxInterval hT hD hM
    intro t ht
    by_cases htl : t < largestTestpoint ts M
    · exact h2 t htl
    · rw [largestTestpoint_const hT M (by omega) ht]; omega

theorem qpaScan_terminates {ts : TaskSet} (hT : ∀ t ∈ ts, 0 < t.period)
    (hU : utilization ts ≤ 1) : ∃ N r, ∀ fuel ≥ N, qpaScan fuel ts = some r := by
  obtain ⟨N, L, hN⟩ := edfBusyInterval_terminates hT hU
  set M := if utilization ts < 1 then min L (zhangBurnsInterval ts) else L with hM
  obtain ⟨r, hr⟩ := qpaLoop_terminates (boundDemand ts) hT (largestTestpoint ts M + 1) (largestTestpoint ts M) (by omega)
  refine ⟨max N (largestTestpoint ts M + 1), r, fun fuel hf => ?_⟩
  unfold qpaScan maxInterval
  rw [hN fuel (by omega)]
  simp only [← hM]
  exact qpaLoop_mono_fuel hr (by omega)

end Verif.Native
