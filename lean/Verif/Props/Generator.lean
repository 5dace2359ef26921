/-
C46, C70-C72: task generators (`schedcat/generator/`).
-/
import Verif.Model.Generator
import Mathlib.Tactic.Linarith
import Mathlib.Tactic.Ring
import Mathlib.Tactic.FieldSimp
import Mathlib.Tactic.NormNum
import Mathlib.Tactic.Positivity
import Mathlib.Data.List.Range

namespace Verif.Gen
open Verif

/-- Sum of the utilizations. -/
def totalUtil (l : List SporadicTask) : ℚ := (l.map SporadicTask.utilization).sum

theorem truncQ_nonneg {x : ℚ} (h : 0 ≤ x) :
    0 ≤ truncQ x ∧ (truncQ x : ℚ) ≤ x ∧ x < (truncQ x : ℚ) + 1 := by
  unfold truncQ
  rw [if_pos h]
  exact ⟨Int.floor_nonneg.2 h, Int.floor_le x, Int.lt_floor_add_one x⟩

theorem task_params (g : Source) (conv : ℚ → ℤ) (k : ℕ) :
    1 ≤ (g.task conv k).cost ∧ 1 ≤ (g.task conv k).period ∧ 1 ≤ (g.task conv k).deadline := by
  unfold Source.task
  simp only
  refine ⟨?_, ?_, ?_⟩ <;> exact_mod_cast le_max_left _ _

theorem task_util_pos (g : Source) (conv : ℚ → ℤ) (k : ℕ) :
    0 < (g.task conv k).cost / (g.task conv k).period := by
  obtain ⟨h1, h2, -⟩ := task_params g conv k
  exact div_pos (by linarith) (by linarith)

/-- The tasks made from draws `a, …, a + k - 1`. -/
abbrev drawn (g : Source) (conv : ℚ → ℤ) (a k : ℕ) : List SporadicTask :=
  (List.range' a k).map (g.task conv)

theorem drawn_succ (g : Source) (conv : ℚ → ℤ) (a k : ℕ) :
    drawn g conv a (k + 1) = g.task conv a :: drawn g conv (a + 1) k := by
  simp [drawn, List.range'_succ]

theorem totalUtil_cons (t : SporadicTask) (l : List SporadicTask) :
    totalUtil (t :: l) = t.cost / t.period + totalUtil l := by
  simp [totalUtil, SporadicTask.utilization]

theorem totalUtil_append (l l' : List SporadicTask) :
    totalUtil (l ++ l') = totalUtil l + totalUtil l' := by
  simp [totalUtil]

theorem totalUtil_drawn_nonneg (g : Source) (conv : ℚ → ℤ) (k : ℕ) :
    ∀ a, 0 ≤ totalUtil (drawn g conv a k) := by
  induction k with
  | zero => intro a; simp [drawn, totalUtil]
  | succ k ih =>
    intro a
    rw [drawn_succ, totalUtil_cons]
    have := task_util_pos g conv a
    have := ih (a + 1)
    linarith

/-- What a run of the loop yields. -/
structure Yields (g : Source) (conv : ℚ → ℤ) (maxTasks : Option ℕ) (maxUtil : Option ℚ)
    (squeeze : Bool) (count : ℕ) (usum : ℚ) (r : List SporadicTask × Bool) (k : ℕ) : Prop where
  limit : ∀ b, maxTasks = some b → count ≤ b → count + r.1.length ≤ b
  cases :
    (r.1 = drawn g conv count k ∧
      (∀ b, maxUtil = some b → 0 < k → usum + totalUtil (drawn g conv count k) ≤ b) ∧
      (r.2 = true → (∃ b, maxTasks = some b ∧ b ≤ count + k) ∨
        (∃ b, maxUtil = some b ∧ b ≤ usum + totalUtil (drawn g conv count k)) ∨
        (squeeze = false ∧ ∃ b, maxUtil = some b ∧ b < usum + totalUtil (drawn g conv count k) +
          (g.task conv (count + k)).utilization))) ∨
    (squeeze = true ∧ ∃ (b : ℚ) (c : ℤ), maxUtil = some b ∧
      r.1 = drawn g conv count k ++ [{ g.task conv (count + k) with cost := (c : ℚ) }] ∧
      usum + totalUtil (drawn g conv count k) < b ∧
      b < usum + totalUtil (drawn g conv count k) + (g.task conv (count + k)).utilization ∧
      0 ≤ c ∧ (c : ℚ) ≤ (g.task conv (count + k)).period *
        (b - (usum + totalUtil (drawn g conv count k))) ∧
      (g.task conv (count + k)).period * (b - (usum + totalUtil (drawn g conv count k))) < c + 1)

theorem tasksLoop_stopped (g : Source) (conv : ℚ → ℤ) (maxTasks : Option ℕ) (b : ℚ)
    (squeeze : Bool) (fuel count : ℕ) (usum : ℚ) (h : b ≤ usum) :
    (tasksLoop g conv maxTasks (some b) squeeze fuel count usum).1 = [] := by
  cases fuel with
  | zero => rfl
  | succ fuel =>
    rw [tasksLoop, if_neg]
    simp [below, not_lt.2 h]

theorem yields (g : Source) (conv : ℚ → ℤ) (maxTasks : Option ℕ) (maxUtil : Option ℚ)
    (squeeze : Bool) : ∀ (fuel count : ℕ) (usum : ℚ), 0 ≤ usum →
    ∃ k, Yields g conv maxTasks maxUtil squeeze count usum
      (tasksLoop g conv maxTasks maxUtil squeeze fuel count usum) k := by
  intro fuel
  induction fuel with
  | zero =>
    intro count usum h0
    exact ⟨0, fun b _ hb => by simpa [tasksLoop] using hb,
      Or.inl ⟨by simp [tasksLoop, drawn], by simp, by simp [tasksLoop]⟩⟩
  | succ fuel ih =>
    intro count usum h0
    rw [tasksLoop]
    by_cases hc : (fewer maxTasks count && below maxUtil usum) = true
    · rw [if_pos hc]
      rw [Bool.and_eq_true] at hc
      have hb1 : ∀ b, maxTasks = some b → count < b := by
        rintro b rfl; simpa [fewer] using hc.1
      have hb2 : ∀ b, maxUtil = some b → usum < b := by
        rintro b rfl; simpa [below] using hc.2
      set t := g.task conv count with ht
      have hup := task_util_pos g conv count
      have htp := task_params g conv count
      rw [← ht] at hup htp
      by_cases hx : exceeds maxUtil (usum + t.cost / t.period) = true
      · simp only
        rw [if_pos hx]
        cases hmu : maxUtil with
        | none => rw [hmu] at hx; simp [exceeds] at hx
        | some b =>
          rw [hmu] at hx
          simp only [exceeds, Bool.and_eq_true, decide_eq_true_eq] at hx
          have hlt := hb2 b hmu
          cases squeeze with
          | false =>
            refine ⟨0, fun b' hb' h => by simpa using h, Or.inl ⟨by simp [drawn], by simp, ?_⟩⟩
            intro _
            right; right
            refine ⟨rfl, b, rfl, ?_⟩
            simp only [drawn, List.range'_zero, List.map_nil, Nat.add_zero]
            rw [← ht]
            have : totalUtil [] = 0 := rfl
            rw [this]
            unfold SporadicTask.utilization
            linarith [hx.2]
          | true =>
            simp only [if_true]
            rw [tasksLoop_stopped g conv maxTasks b true fuel (count + 1) _ hx.2.le]
            have hpos : 0 ≤ t.period * (t.cost / t.period - (usum + t.cost / t.period - b)) := by
              refine mul_nonneg (by linarith [htp.2.1]) (by linarith)
            obtain ⟨q1, q2, q3⟩ := truncQ_nonneg hpos
            have e : t.period * (t.cost / t.period - (usum + t.cost / t.period - b)) =
                t.period * (b - (usum + totalUtil (drawn g conv count 0))) := by
              have : totalUtil (drawn g conv count 0) = 0 := rfl
              rw [this]; ring
            refine ⟨0, ?_, Or.inr ⟨rfl, b, truncQ (t.period * (t.cost / t.period -
                (usum + t.cost / t.period - b))), rfl, ?_, ?_, ?_, q1, ?_, ?_⟩⟩
            · intro b' hb' _
              have := hb1 b' hb'
              simp; omega
            · simp [drawn, ht]
            · have : totalUtil (drawn g conv count 0) = 0 := rfl
              rw [this]; linarith
            · have : totalUtil (drawn g conv count 0) = 0 := rfl
              rw [this, Nat.add_zero, ← ht]
              unfold SporadicTask.utilization
              linarith [hx.2]
            · rw [Nat.add_zero, ← ht, ← e]; exact q2
            · rw [Nat.add_zero, ← ht, ← e]; exact q3
      · simp only
        rw [if_neg hx]
        have hnx : ∀ b, maxUtil = some b → usum + t.cost / t.period ≤ b := by
          rintro b rfl
          have h1 := hb2 b rfl
          simp only [exceeds, Bool.and_eq_true, decide_eq_true_eq, not_and] at hx
          exact not_lt.1 (hx (by intro hb0; rw [hb0] at h1; linarith))
        obtain ⟨k, hk⟩ := ih (count + 1) (usum + t.cost / t.period) (by linarith)
        have eU : ∀ k, usum + totalUtil (drawn g conv count (k + 1)) =
            usum + t.cost / t.period + totalUtil (drawn g conv (count + 1) k) := by
          intro k; rw [drawn_succ, totalUtil_cons]; ring
        have eK : count + 1 + k = count + (k + 1) := by omega
        refine ⟨k + 1, ?_, ?_⟩
        · intro b hb _
          have := hk.limit b hb (hb1 b hb)
          simp only [List.length_cons]
          omega
        · rw [eU]
          rcases hk.cases with ⟨c1, c2, c3⟩ | ⟨c1, b, c, c2, c3, c4, c5, c6, c7, c8⟩
          · left
            refine ⟨by rw [drawn_succ, c1], ?_, ?_⟩
            · intro b hb _
              rcases Nat.eq_zero_or_pos k with rfl | hk0
              · have : totalUtil (drawn g conv (count + 1) 0) = 0 := rfl
                rw [this]; have := hnx b hb; linarith
              · exact c2 b hb hk0
            · intro hr
              rw [← eK]
              exact c3 hr
          · right
            refine ⟨c1, b, c, c2, ?_, c4, ?_, c6, ?_, ?_⟩
            · simp only; rw [drawn_succ, c3, ← eK]; rfl
            · rw [← eK]; exact c5
            · rw [← eK]; exact c7
            · rw [← eK]; exact c8
    · rw [if_neg hc]
      refine ⟨0, fun b _ hb => by simpa using hb, Or.inl ⟨by simp [drawn], by simp, ?_⟩⟩
      intro _
      rw [Bool.and_eq_true, not_and_or] at hc
      rcases hc with hc | hc
      · left
        cases hm : maxTasks with
        | none => rw [hm] at hc; simp [fewer] at hc
        | some b => rw [hm] at hc; exact ⟨b, rfl, by simpa [fewer] using hc⟩
      · right; left
        cases hm : maxUtil with
        | none => rw [hm] at hc; simp [below] at hc
        | some b =>
          rw [hm] at hc
          have : totalUtil (drawn g conv count 0) = 0 := rfl
          exact ⟨b, rfl, by rw [this]; simpa [below] using hc⟩

/-- **C46.**  Whatever is drawn, the generator yields at most `max_tasks` tasks,
whose total utilization is at most `max_util`; periods and deadlines are at
least 1, and so are costs unless the last task is squeezed. -/
theorem C46_limits (g : Source) (conv : ℚ → ℤ) (maxTasks : Option ℕ) (maxUtil : Option ℚ)
    (squeeze : Bool) (fuel : ℕ) :
    let r := tasks g conv maxTasks maxUtil squeeze fuel
    (∀ b, maxTasks = some b → r.1.length ≤ b) ∧
    (∀ b, maxUtil = some b → 0 ≤ b → totalUtil r.1 ≤ b) ∧
    (∀ t ∈ r.1, 1 ≤ t.period ∧ 1 ≤ t.deadline ∧ 0 ≤ t.cost ∧ (squeeze = false → 1 ≤ t.cost)) := by
  intro r
  obtain ⟨k, hk⟩ := yields g conv maxTasks maxUtil squeeze fuel 0 0 le_rfl
  have hr : r = tasksLoop g conv maxTasks maxUtil squeeze fuel 0 0 := rfl
  rw [← hr] at hk
  refine ⟨?_, ?_, ?_⟩
  · intro b hb
    have := hk.limit b hb (Nat.zero_le _)
    omega
  · intro b hb hb0
    rcases hk.cases with ⟨c1, c2, -⟩ | ⟨c1, b', c, c2, c3, c4, -, c6, c7, -⟩
    · rw [c1]
      rcases Nat.eq_zero_or_pos k with rfl | hk0
      · have : totalUtil (drawn g conv 0 0) = 0 := rfl
        rw [this]; exact hb0
      · have := c2 b hb hk0; linarith
    · rw [hb, Option.some.injEq] at c2
      subst c2
      rw [c3, totalUtil_append]
      have htp := (task_params g conv (0 + k)).2.1
      have : totalUtil [{ g.task conv (0 + k) with cost := (c : ℚ) }] =
          c / (g.task conv (0 + k)).period := by
        rw [totalUtil_cons]; simp [totalUtil]
      rw [this]
      have : (c : ℚ) / (g.task conv (0 + k)).period ≤ b - (0 + totalUtil (drawn g conv 0 k)) := by
        rw [div_le_iff₀ (by linarith), mul_comm]; exact c7
      linarith
  · intro t ht
    rcases hk.cases with ⟨c1, -⟩ | ⟨c1, b', c, c2, c3, c4, -, c6, c7, -⟩
    · rw [c1] at ht
      obtain ⟨a, -, rfl⟩ := List.mem_map.1 ht
      obtain ⟨h1, h2, h3⟩ := task_params g conv a
      exact ⟨h2, h3, by linarith, fun _ => h1⟩
    · rw [c3, List.mem_append, List.mem_singleton] at ht
      rcases ht with ht | rfl
      · obtain ⟨a, -, rfl⟩ := List.mem_map.1 ht
        obtain ⟨h1, h2, h3⟩ := task_params g conv a
        exact ⟨h2, h3, by linarith, fun _ => h1⟩
      · obtain ⟨h1, h2, h3⟩ := task_params g conv (0 + k)
        refine ⟨h2, h3, ?_, fun h => by rw [c1] at h; simp at h⟩
        show (0 : ℚ) ≤ (c : ℚ)
        exact_mod_cast c6

/-- **C46**: the tasks are the drawn ones in order, converted to integers; none
is skipped.  Without `squeeze`, the generator only ends when there are
`max_tasks` tasks, the limit is used up, or the next drawn task does not fit. -/
theorem C46_in_order (g : Source) (conv : ℚ → ℤ) (maxTasks : Option ℕ) (maxUtil : Option ℚ)
    (fuel : ℕ) :
    let r := tasks g conv maxTasks maxUtil false fuel
    ∃ k, r.1 = (List.range k).map (g.task conv) ∧
      (r.2 = true → maxTasks = some k ∨ maxUtil = some (totalUtil r.1) ∨
        ∃ b, maxUtil = some b ∧ (b ≤ 0 ∨ b < totalUtil r.1 + (g.task conv k).utilization)) := by
  intro r
  obtain ⟨k, hk⟩ := yields g conv maxTasks maxUtil false fuel 0 0 le_rfl
  have hr : r = tasksLoop g conv maxTasks maxUtil false fuel 0 0 := rfl
  rw [← hr] at hk
  rcases hk.cases with ⟨c1, c2, c3⟩ | ⟨c1, -⟩
  · refine ⟨k, by rw [c1, List.range_eq_range'], ?_⟩
    intro he
    rw [c1]
    rcases c3 he with ⟨b, hb, hle⟩ | ⟨b, hb, hle⟩ | ⟨-, b, hb, hlt⟩
    · left
      have := hk.limit b hb (Nat.zero_le _)
      rw [c1] at this
      simp at this
      rw [hb]; congr 1; omega
    · rcases Nat.eq_zero_or_pos k with rfl | hk0
      · right; right
        have : totalUtil (drawn g conv 0 0) = 0 := rfl
        rw [this] at hle
        exact ⟨b, hb, Or.inl (by linarith)⟩
      · right; left
        have := c2 b hb hk0
        rw [hb]; congr 1; linarith
    · right; right
      refine ⟨b, hb, Or.inr ?_⟩
      rw [Nat.zero_add] at hlt
      linarith
  · simp at c1

theorem ends_count (g : Source) (conv : ℚ → ℤ) (b : ℕ) (maxUtil : Option ℚ) (squeeze : Bool) :
    ∀ (fuel count : ℕ) (usum : ℚ), b + 1 ≤ fuel + count → 1 ≤ fuel →
    (tasksLoop g conv (some b) maxUtil squeeze fuel count usum).2 = true := by
  intro fuel
  induction fuel with
  | zero => intro _ _ _ h; omega
  | succ fuel ih =>
    intro count usum h _
    rw [tasksLoop]
    by_cases hc : count < b
    · have ih' := fun u => ih (count + 1) u (by omega) (by omega)
      simp only
      split_ifs <;> first | rfl | exact ih' _
    · rw [if_neg (by simp [fewer, below, hc])]

theorem ends_util (g : Source) (conv : ℚ → ℤ) (maxTasks : Option ℕ) (b : ℚ) (squeeze : Bool)
    (P : ℚ) (hP : 1 ≤ P) (hper : ∀ k, (conv (g.period k) : ℚ) ≤ P) :
    ∀ (fuel count : ℕ) (usum : ℚ), P * (b - usum) ≤ (fuel : ℚ) - 1 → 1 ≤ fuel →
    (tasksLoop g conv maxTasks (some b) squeeze fuel count usum).2 = true := by
  intro fuel
  induction fuel with
  | zero => intro _ _ _ h; omega
  | succ fuel ih =>
    intro count usum h _
    rw [tasksLoop]
    by_cases hc : usum < b
    · have hup : 1 / P ≤ (g.task conv count).cost / (g.task conv count).period := by
        obtain ⟨h1, h2, -⟩ := task_params g conv count
        have h3 : (g.task conv count).period ≤ P := by
          unfold Source.task; simp only
          push_cast
          exact max_le hP (hper count)
        rw [div_le_div_iff₀ (by linarith) (by linarith)]
        nlinarith
      have hP0 : 0 < P := by linarith
      have hstep : P * (1 / P) = 1 := by field_simp
      have h4 := mul_le_mul_of_nonneg_left hup hP0.le
      rw [hstep] at h4
      push_cast at h
      have hf : 1 ≤ fuel := by
        by_contra hf
        have : fuel = 0 := by omega
        rw [this] at h
        push_cast at h
        have : 0 < P * (b - usum) := mul_pos hP0 (by linarith)
        linarith
      have ih' := ih (count + 1) (usum + (g.task conv count).cost / (g.task conv count).period)
        (by linarith [mul_sub P b (usum + (g.task conv count).cost / (g.task conv count).period),
              mul_sub P b usum,
              mul_add P usum ((g.task conv count).cost / (g.task conv count).period)]) hf
      simp only
      split_ifs <;> first | rfl | exact ih'
    · rw [if_neg (by simp [fewer, below, hc])]

/-- **C46**: the generator ends if the number of tasks is limited, and also if
the total utilization is limited and periods are bounded. -/
theorem C46_terminates (g : Source) (conv : ℚ → ℤ) (squeeze : Bool) :
    (∀ (b : ℕ) (maxUtil : Option ℚ) (fuel : ℕ), b + 1 ≤ fuel →
      (tasks g conv (some b) maxUtil squeeze fuel).2 = true) ∧
    (∀ (b P : ℚ) (maxTasks : Option ℕ), 1 ≤ P → (∀ k, (conv (g.period k) : ℚ) ≤ P) →
      ∃ fuel, (tasks g conv maxTasks (some b) squeeze fuel).2 = true) := by
  refine ⟨fun b mu fuel hf => ends_count g conv b mu squeeze fuel 0 0 (by omega) (by omega), ?_⟩
  intro b P mt hP hper
  refine ⟨⌈P * b⌉₊ + 1, ends_util g conv mt b squeeze P hP hper _ 0 0 ?_ (by omega)⟩
  push_cast
  have := Nat.le_ceil (P * b)
  linarith

/-- **C46**: limiters.  `truncate` and `redraw` return values in the requested
range; `redraw` returns the first drawn value that lies in it. -/
theorem C46_range {minval maxval : ℚ} :
    (∀ val, minval ≤ maxval → minval ≤ truncate minval maxval val ∧
      truncate minval maxval val ≤ maxval ∧
      (minval ≤ val → val ≤ maxval → truncate minval maxval val = val)) ∧
    (∀ (draws : ℕ → ℚ) (fuel k : ℕ) (v : ℚ) (k' : ℕ),
      redraw minval maxval draws fuel k = some (v, k') →
      minval ≤ v ∧ v ≤ maxval ∧ k < k' ∧ v = draws (k' - 1) ∧
      ∀ i, k ≤ i → i < k' - 1 → ¬ (minval ≤ draws i ∧ draws i ≤ maxval)) ∧
    (∀ (draws : ℕ → ℚ) (k : ℕ), (∃ i, k ≤ i ∧ minval ≤ draws i ∧ draws i ≤ maxval) →
      ∃ fuel, (redraw minval maxval draws fuel k).isSome) := by
  refine ⟨?_, ?_, ?_⟩
  · intro val h
    unfold truncate
    exact ⟨le_min h (le_max_left _ _), min_le_left _ _, fun h1 h2 => by
      rw [max_eq_right h1, min_eq_right h2]⟩
  · intro draws fuel
    induction fuel with
    | zero => intro k v k' h; simp [redraw] at h
    | succ fuel ih =>
      intro k v k' h
      rw [redraw] at h
      split_ifs at h with hc
      · simp only [Option.some.injEq, Prod.mk.injEq] at h
        obtain ⟨rfl, rfl⟩ := h
        exact ⟨hc.1, hc.2, by omega, by simp, fun i h1 h2 => by omega⟩
      · obtain ⟨h1, h2, h3, h4, h5⟩ := ih _ _ _ h
        refine ⟨h1, h2, by omega, h4, fun i hi hi' => ?_⟩
        rcases Nat.lt_or_ge k i with hki | hki
        · exact h5 i hki hi'
        · have : i = k := by omega
          rw [this]; exact hc
  · intro draws k ⟨i, hi, h1, h2⟩
    obtain ⟨d, rfl⟩ := Nat.exists_eq_add_of_le hi
    clear hi
    induction d generalizing k with
    | zero => exact ⟨1, by rw [redraw, if_pos ⟨h1, h2⟩]; rfl⟩
    | succ d ih =>
      obtain ⟨fuel, hf⟩ := ih (k + 1) (by rw [show k + 1 + d = k + (d + 1) by omega]; exact h1)
        (by rw [show k + 1 + d = k + (d + 1) by omega]; exact h2)
      refine ⟨fuel + 1, ?_⟩
      rw [redraw]
      split_ifs
      · rfl
      · exact hf

/-- **C46**: `log_uniform_int`, `uniform_choice`, `multimodal` and `uniform_slack`
stay within their ranges, given that `randint` and `uniform` do. -/
theorem C46_distributions :
    (∀ (minval maxval : ℤ) (draw : ℚ), minval ≤ maxval →
      minval ≤ logUniformInt minval maxval draw ∧ logUniformInt minval maxval draw ≤ maxval) ∧
    (∀ (choices : List ℚ) (idx : ℤ), choices ≠ [] → 0 ≤ idx → idx ≤ choices.length - 1 →
      ∃ x ∈ choices, uniformChoice choices idx = some x) ∧
    (∀ (weights : List ℚ) (x : ℚ), weights ≠ [] → (∀ w ∈ weights, 0 ≤ w) → 0 ≤ x →
      x ≤ weights.sum → ∃ k < weights.length, multimodal weights x = some k ∧
        x ≤ (weights.take (k + 1)).sum ∧ (0 < k → (weights.take k).sum < x)) ∧
    (∀ (a b cost period : ℚ) (draw : ℚ → ℚ → ℚ), 0 ≤ a → a ≤ b → b ≤ 1 → cost ≤ period →
      (∀ x y, x ≤ y → x ≤ draw x y ∧ draw x y ≤ y) →
      cost ≤ uniformSlack a b draw cost period ∧ uniformSlack a b draw cost period ≤ period) := by
  refine ⟨?_, ?_, ?_, ?_⟩
  · intro a b d h
    unfold logUniformInt
    exact ⟨le_min h (le_max_left _ _), min_le_left _ _⟩
  · intro choices idx hne h0 h1
    have hlen : choices.length ≠ 0 := by simpa using hne
    have hlt : idx.toNat < choices.length := by omega
    refine ⟨choices[idx.toNat], List.getElem_mem hlt, ?_⟩
    unfold uniformChoice
    rw [if_neg hlen, List.getElem?_eq_getElem hlt]
  · have key : ∀ (weights : List ℚ) (x wsum : ℚ) (k : ℕ), weights ≠ [] →
        x ≤ wsum + weights.sum → ∃ i < weights.length, multimodalLoop x wsum k weights = some (k + i) ∧
          x ≤ wsum + (weights.take (i + 1)).sum ∧ (0 < i → wsum + (weights.take i).sum < x) := by
      intro weights
      induction weights with
      | nil => intro _ _ _ h; exact absurd rfl h
      | cons w ws ih =>
        intro x wsum k _ hx
        rw [multimodalLoop]
        split_ifs with hc
        · exact ⟨0, by simp, by simp, by simpa using hc, by simp⟩
        · have hws : ws ≠ [] := by
            rintro rfl
            simp at hx
            exact hc hx
          obtain ⟨i, h1, h2, h3, h4⟩ := ih x (wsum + w) (k + 1) hws (by
            rw [List.sum_cons] at hx; linarith)
          refine ⟨i + 1, by simpa using h1, by rw [h2]; congr 1; omega, ?_, ?_⟩
          · rw [List.take_succ_cons, List.sum_cons]; linarith
          · intro _
            rw [List.take_succ_cons, List.sum_cons]
            rcases Nat.eq_zero_or_pos i with rfl | hi
            · simp
              exact not_le.1 hc
            · have := h4 hi; linarith
    intro weights x hne _ _ hx
    obtain ⟨i, h1, h2, h3, h4⟩ := key weights x 0 0 hne (by linarith)
    refine ⟨i, h1, ?_, by linarith, fun h => by have := h4 h; linarith⟩
    unfold multimodal
    rw [h2, Nat.zero_add]
  · intro a b cost period draw ha hab hb hcp hd
    unfold uniformSlack
    simp only
    have hs : 0 ≤ period - cost := by linarith
    obtain ⟨h1, h2⟩ := hd ((period - cost) * a) ((period - cost) * b)
      (mul_le_mul_of_nonneg_left hab hs)
    constructor
    · have := mul_nonneg hs ha; linarith
    · have : (period - cost) * b ≤ (period - cost) * 1 := mul_le_mul_of_nonneg_left hb hs
      linarith

/-- Non-vacuity: draws with several tasks that fit and one that does not. -/
example : let g : Source := ⟨fun k => if k = 0 then 21 / 2 else 10, fun _ => 2 / 5, fun _ _ p => p⟩
    (tasks g truncQ none (some 1) false 10).1 = [⟨4, 10, 10⟩, ⟨4, 10, 10⟩] ∧
    (tasks g truncQ none (some 1) true 10).1 = [⟨4, 10, 10⟩, ⟨4, 10, 10⟩, ⟨2, 10, 10⟩] ∧
    (tasks g truncQ (some 1) (some 1) true 10) = ([⟨4, 10, 10⟩], true) := by
  decide +kernel

example : redraw 0 1 (fun k => if k < 3 then 2 else 1 / 2) 5 0 = some (1 / 2, 4) := by decide +kernel

/-! ### C70: squeezing -/

/-- **C70, negated.**  With `squeeze`, the last task may get cost 0, and the total
utilization need not be `max_util`. -/
theorem C70_squeeze_violated :
    ∃ g : Source, (∀ k, 0 < g.period k ∧ 0 < g.util k ∧ g.util k ≤ 1) ∧
      tasks g truncQ none (some (21 / 20)) true 10 = ([⟨10, 10, 10⟩, ⟨0, 10, 10⟩], true) ∧
      totalUtil [⟨10, 10, 10⟩, ⟨0, 10, 10⟩] ≠ 21 / 20 :=
  ⟨⟨fun _ => 10, fun _ => 1, fun _ _ p => p⟩, fun _ => by norm_num, by decide +kernel,
    by decide +kernel⟩

/-- **C70**, what does hold: if only the total utilization is limited, a squeezed
task set misses `max_util` by less than one time unit of its last task. -/
theorem C70_squeeze_partial (g : Source) (conv : ℚ → ℤ) (b : ℚ) (hb : 0 < b) (fuel : ℕ)
    (l : List SporadicTask) (hl : tasks g conv none (some b) true fuel = (l, true)) :
    ∃ l' t, l = l' ++ [t] ∧ totalUtil l ≤ b ∧ b - 1 / t.period < totalUtil l := by
  obtain ⟨k, hk⟩ := yields g conv none (some b) true fuel 0 0 le_rfl
  have hlim := (C46_limits g conv none (some b) true fuel).2.1 b rfl hb.le
  have hr : tasksLoop g conv none (some b) true fuel 0 0 = (l, true) := hl
  rw [hr] at hk
  rw [hl] at hlim
  simp only at hlim
  rcases hk.cases with ⟨c1, c2, c3⟩ | ⟨c1, b', c, c2, c3, c4, c5, c6, c7, c8⟩
  · rcases c3 rfl with ⟨_, h, _⟩ | ⟨b', h, hle⟩ | ⟨h, _⟩
    · simp at h
    · rw [Option.some.injEq] at h
      subst h
      simp only at c1
      cases k with
      | zero =>
        have : totalUtil (drawn g conv 0 0) = 0 := rfl
        rw [this] at hle
        linarith
      | succ k =>
        refine ⟨drawn g conv 0 k, g.task conv k, ?_, hlim, ?_⟩
        · rw [c1]
          simp [drawn, List.range'_1_concat]
        · rw [c1]
          have := (task_params g conv k).2.1
          have : 0 < 1 / (g.task conv k).period := by positivity
          linarith
    · simp at h
  · rw [Option.some.injEq] at c2
    subst c2
    simp only at c3
    refine ⟨_, _, c3, hlim, ?_⟩
    rw [c3, totalUtil_append]
    have htp := (task_params g conv (0 + k)).2.1
    have h0 : 0 < (g.task conv (0 + k)).period := by linarith
    have : totalUtil [{ g.task conv (0 + k) with cost := (c : ℚ) }] =
        c / (g.task conv (0 + k)).period := by
      rw [totalUtil_cons]; simp [totalUtil]
    rw [this]
    show b - 1 / (g.task conv (0 + k)).period < _
    have : b - (0 + totalUtil (drawn g conv 0 k)) <
        ((c : ℚ) + 1) / (g.task conv (0 + k)).period := by
      rw [lt_div_iff₀ h0, mul_comm]; exact c8
    rw [add_div] at this
    linarith

/-- Non-vacuity of C70: a set that uses the limit up, and one that is squeezed. -/
example : tasks ⟨fun _ => 10, fun _ => 1 / 4, fun _ _ p => p⟩ truncQ none (some (1 / 2)) true 10 =
    ([⟨2, 10, 10⟩, ⟨2, 10, 10⟩, ⟨1, 10, 10⟩], true) := by decide +kernel

/-! ### C71, C72 -/

theorem stafford_sum (e : ℕ → ℤ → Bool) (sx : ℕ → ℚ) (i : ℕ) : ∀ (s sm pr : ℚ) (j : ℤ),
    (stafford e sx i s sm pr j).length = i + 1 ∧
    (stafford e sx i s sm pr j).sum = ((i : ℚ) + 1) * sm + pr * s := by
  induction i with
  | zero => intro s sm pr j; simp [stafford]
  | succ i ih =>
    intro s sm pr j
    rw [stafford]
    simp only [List.length_cons, List.sum_cons]
    obtain ⟨h1, h2⟩ := ih (s - if e (i + 1) j then 1 else 0)
      (sm + (1 - sx (i + 1)) * pr * s / ((i : ℚ) + 2)) (sx (i + 1) * pr)
      (if e (i + 1) j then j - 1 else j)
    refine ⟨by rw [h1], ?_⟩
    rw [h2]
    push_cast
    have : ((i : ℚ) + 2) ≠ 0 := by positivity
    field_simp
    ring

/-- **C71.**  Whatever is drawn, `StaffordRandFixedSum(n, u)` returns `n` values with
sum `u` (in exact arithmetic, and in whatever order), and `gen_taskset` returns `n` tasks of total
utilization `u`, if times are scaled by a positive factor and parameters are not
rounded. -/
theorem C71_fixed_sum (e : ℕ → ℤ → Bool) (sx : ℕ → ℚ) (n : ℕ) (hn : 1 ≤ n) (u : ℚ)
    (utils : List ℚ) (hu : utils.Perm (staffordRandFixedSum e sx n u)) :
    utils.length = n ∧ utils.sum = u ∧
    ∀ (periodMin : ℚ) (gran : Option ℚ) (f : ℚ) (draws : List ℚ), 0 < periodMin → 0 < f →
      draws.length = n →
      (genTaskset periodMin gran (f * ·) utils draws).length = n ∧
      totalUtil (genTaskset periodMin gran (f * ·) utils draws) = u := by
  have h0 : (staffordRandFixedSum e sx n u).length = n ∧ (staffordRandFixedSum e sx n u).sum = u := by
    unfold staffordRandFixedSum
    split_ifs with h1
    · simp [h1]
    · obtain ⟨a, b⟩ := stafford_sum e sx (n - 1) u 0 1 (⌊u⌋ + 1)
      exact ⟨by rw [a]; omega, by rw [b]; ring⟩
  have hl : utils.length = n := hu.length_eq.trans h0.1
  have hs : utils.sum = u := hu.sum_eq.trans h0.2
  refine ⟨hl, hs, ?_⟩
  intro pm gran f draws hpm hf hd
  have key : ∀ (us ds : List ℚ), us.length = ds.length →
      (genTaskset pm gran (f * ·) us ds).length = us.length ∧
      totalUtil (genTaskset pm gran (f * ·) us ds) = us.sum := by
    intro us
    induction us with
    | nil => intro ds _; simp [genTaskset, totalUtil]
    | cons x xs ih =>
      intro ds hds
      cases ds with
      | nil => simp at hds
      | cons d ds =>
        obtain ⟨i1, i2⟩ := ih ds (by simpa using hds)
        have e1 : genTaskset pm gran (f * ·) (x :: xs) (d :: ds) =
            SporadicTask.mk' (f * (x * genPeriod pm (gran.getD pm) d))
              (f * genPeriod pm (gran.getD pm) d) :: genTaskset pm gran (f * ·) xs ds := rfl
        rw [e1]
        refine ⟨by simp [i1], ?_⟩
        rw [totalUtil_cons, i2, List.sum_cons]
        congr 1
        have hp : 0 < genPeriod pm (gran.getD pm) d := by
          unfold genPeriod
          exact lt_of_lt_of_le hpm ((le_max_left _ _).trans (le_max_right _ _))
        simp only [SporadicTask.mk']
        field_simp
  obtain ⟨k1, k2⟩ := key utils draws (by rw [hl, hd])
  exact ⟨by rw [k1, hl], by rw [k2, hs]⟩

/-- Non-vacuity of C71: three utilizations with sum 3/2. -/
example : let l := staffordRandFixedSum (fun i _ => decide (i = 2)) (fun _ => 1 / 2) 3 (3 / 2)
    l = [3 / 4, 5 / 16, 7 / 16] ∧ l.sum = 3 / 2 := by decide +kernel

/-- **C72, negated.**  Periods may exceed the requested maximum: with the range
(10, 25), the default granularity is 10, values below 35 are drawn, and the
period may be 30. -/
theorem C72_period_range_violated :
    ∃ periodMin periodMax draw : ℚ, periodMin ≤ draw ∧ draw < periodMax + periodMin ∧
      periodMax < genPeriod periodMin periodMin draw :=
  ⟨10, 25, 34, by norm_num, by norm_num, by decide +kernel⟩

/-- **C72**, what does hold: periods are at least the requested minimum, and at
most the requested maximum if that is a multiple of the granularity. -/
theorem C72_period_range_partial (periodMin periodMax gran draw : ℚ) (hg : 0 < gran)
    (hgm : gran ≤ periodMax) (hmm : periodMin ≤ periodMax) :
    periodMin ≤ genPeriod periodMin gran draw ∧
    (draw < periodMax + gran → (∃ k : ℤ, periodMax = k * gran) →
      genPeriod periodMin gran draw ≤ periodMax) := by
  unfold genPeriod
  refine ⟨(le_max_left _ _).trans (le_max_right _ _), ?_⟩
  rintro hd ⟨k, hk⟩
  refine max_le ?_ (max_le hmm hgm)
  have : ⌊draw / gran⌋ < k + 1 := by
    rw [Int.floor_lt, div_lt_iff₀ hg]
    push_cast
    rw [hk] at hd; linarith
  have h2 : ⌊draw / gran⌋ ≤ k := by omega
  rw [hk]
  exact mul_le_mul_of_nonneg_right (by exact_mod_cast h2) hg.le

/-- Non-vacuity of C72. -/
example : genPeriod 10 10 (107 : ℚ) = 100 ∧ genPeriod 10 10 (12 : ℚ) = 10 := by decide +kernel

/-! ### C73: integral parameters -/

/-- **C73, negated.**  With `want_integral=True` the result may still have
fractional parameters (and a task whose cost exceeds its period): the rounding
stops at the first task that no longer fits, and its answer is ignored. -/
theorem C73_integral_violated :
    ∃ (periodMin : ℚ) (utils draws : List ℚ),
      0 < periodMin ∧ (∀ u ∈ utils, 0 < u ∧ u < 1) ∧ (∀ d ∈ draws, periodMin ≤ d) ∧
      genTasksetIntegral periodMin none id utils draws =
        [⟨11, 10, 10⟩, ⟨21 / 4, 21 / 2, 21 / 2⟩] :=
  ⟨21 / 2, [99 / 100, 1 / 2], [12, 11], by norm_num, by norm_num, by norm_num, by decide +kernel⟩

theorem quantized_fits : ∀ (l : List SporadicTask),
    (∀ t ∈ l, 1 ≤ t.period ∧ t.deadline = t.period ∧ (⌈t.cost⌉ : ℤ) ≤ ⌊t.period⌋) →
    quantized l = l.map (fun t => ⟨(⌈t.cost⌉ : ℤ), (⌊t.period⌋ : ℤ), (⌊t.deadline⌋ : ℤ)⟩) := by
  intro l
  induction l with
  | nil => intro _; rfl
  | cons t ts ih =>
    intro h
    obtain ⟨h1, h2, h3⟩ := h t (by simp)
    have hf : (1 : ℤ) ≤ ⌊t.period⌋ := Int.le_floor.2 (by exact_mod_cast h1)
    have hfq : (1 : ℚ) ≤ (⌊t.period⌋ : ℤ) := by exact_mod_cast hf
    rw [quantized, if_neg, ih (fun t ht => h t (by simp [ht]))]
    · rfl
    · rw [h2]
      simp only [min_self, not_or, gt_iff_lt, not_lt]
      refine ⟨by linarith, ?_⟩
      unfold SporadicTask.density
      simp only [min_self]
      rw [div_le_one (by linarith)]
      exact_mod_cast h3

/-- **C73**, what does hold: if every period is at least 1 and the rounded up cost
of every task is at most its rounded down period (in particular if the scaled
periods are integers and utilizations are at most 1), every task is rounded:
costs up, periods down. -/
theorem C73_integral_partial (periodMin : ℚ) (gran : Option ℚ) (scale : ℚ → ℚ)
    (utils draws : List ℚ)
    (h : ∀ t ∈ genTaskset periodMin gran scale utils draws,
      1 ≤ t.period ∧ (⌈t.cost⌉ : ℤ) ≤ ⌊t.period⌋) :
    genTasksetIntegral periodMin gran scale utils draws =
      (genTaskset periodMin gran scale utils draws).map
        (fun t => ⟨(⌈t.cost⌉ : ℤ), (⌊t.period⌋ : ℤ), (⌊t.period⌋ : ℤ)⟩) := by
  have hd : ∀ t ∈ genTaskset periodMin gran scale utils draws, t.deadline = t.period := by
    intro t ht
    unfold genTaskset at ht
    simp only at ht
    rw [List.zipWith_eq_zipWith_take_min, List.mem_iff_getElem] at ht
    obtain ⟨i, hi, rfl⟩ := ht
    simp [SporadicTask.mk']
  unfold genTasksetIntegral
  rw [quantized_fits _ (fun t ht => ⟨(h t ht).1, hd t ht, (h t ht).2⟩)]
  exact List.map_congr_left (fun t ht => by rw [hd t ht])

/-- Non-vacuity of C73. -/
example : genTasksetIntegral 10 none (1000 * ·) [1 / 3, 1] [12, 27] =
    [⟨3334, 10000, 10000⟩, ⟨20000, 20000, 20000⟩] := by decide +kernel

end Verif.Gen
