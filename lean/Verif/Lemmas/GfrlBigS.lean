/-
The slope changes of `S_i`, as `gfrl.py` computes them.
-/
import Verif.Lemmas.GfrlCorners

namespace Verif.Gfrl
open Verif.Gel

variable {n m : ℕ} {ts : Fin n → GTask}

/-- The change of the slope of `S_i`. -/
def dS (i : Fin n) : Change n → ℚ
  | .bigS _ k p q => if k = i then q - p else 0
  | _ => 0

/-- The slope of `max 0 (v + p x)` after 0. -/
def eff (v p : ℚ) : ℚ := if v < 0 ∨ (v = 0 ∧ p < 0) then 0 else p

/-- One segment of the loop. -/
theorem within_spec {i : Fin n} {L₀ l v p : ℚ} (hl : L₀ ≤ l) {w : List (Change n) × ℚ}
    (hw : w = if v < 0 then (if v + (l - L₀) * p > 0 then ([.bigS (L₀ - v / p) i 0 p], p) else ([], 0))
      else if v > 0 ∧ v + (l - L₀) * p < 0 then ([.bigS (L₀ - v / p) i p 0], 0)
      else if v = 0 ∧ p < 0 then ([], 0)
      else ([], p)) :
    (∀ d ∈ w.1, L₀ ≤ d.loc ∧ ∃ x a b, d = .bigS x i a b) ∧
    (∀ L, L₀ ≤ L → L ≤ l → max 0 (v + p * (L - L₀)) =
      max 0 v + eff v p * (L - L₀) + (w.1.map (fun d => dS i d * max 0 (L - d.loc))).sum) ∧
    ∀ L, l ≤ L → max 0 v + eff v p * (L - L₀) + (w.1.map (fun d => dS i d * max 0 (L - d.loc))).sum =
      max 0 (v + (l - L₀) * p) + w.2 * (L - l) := by
  by_cases hv : v < 0
  · rw [if_pos hv] at hw
    have he : eff v p = 0 := if_pos (Or.inl hv)
    by_cases hn : v + (l - L₀) * p > 0
    · rw [if_pos hn] at hw
      subst hw
      have hp : 0 < p := by
        by_contra hp
        have := mul_nonpos_of_nonneg_of_nonpos (show 0 ≤ l - L₀ by linarith) (not_lt.1 hp)
        linarith
      have hx : p * (v / p) = v := by field_simp
      have hvp : v / p < 0 := div_neg_of_neg_of_pos hv hp
      have hxl : L₀ - v / p ≤ l := by
        by_contra hc
        have := mul_lt_mul_of_pos_right (show l - L₀ < - (v / p) by linarith) hp
        linarith
      have e : ∀ L, v + p * (L - L₀) = p * (L - (L₀ - v / p)) := by intro L; linarith
      refine ⟨?_, ?_, ?_⟩
      · intro d hd
        rw [List.mem_singleton] at hd
        subst hd
        exact ⟨by show L₀ ≤ L₀ - v / p; linarith, _, _, _, rfl⟩
      · intro L h1 h2
        simp only [List.map_cons, List.map_nil, List.sum_cons, List.sum_nil, dS, if_true, Change.loc, he, max_eq_left hv.le]
        rw [e, mul_max_of_nonneg _ _ (show 0 ≤ p - 0 by linarith), mul_zero]
        simp
      · intro L h1
        simp only [List.map_cons, List.map_nil, List.sum_cons, List.sum_nil, dS, if_true, Change.loc, he, max_eq_left hv.le]
        rw [max_eq_right (show 0 ≤ L - (L₀ - v / p) by linarith), max_eq_right hn.le]
        linarith
    · rw [if_neg hn] at hw
      subst hw
      push Not at hn
      refine ⟨by simp, ?_, ?_⟩
      · intro L h1 h2
        simp only [List.map_nil, List.sum_nil, he, max_eq_left hv.le]
        rw [max_eq_left]
        · ring
        · rcases le_total p 0 with hp | hp
          · have := mul_nonpos_of_nonpos_of_nonneg hp (show 0 ≤ L - L₀ by linarith)
            linarith
          · have := mul_le_mul_of_nonneg_left (show L - L₀ ≤ l - L₀ by linarith) hp
            linarith
      · intro L h1
        simp only [List.map_nil, List.sum_nil, he, max_eq_left hv.le, max_eq_left hn]
        ring
  · rw [if_neg hv] at hw
    by_cases hn : v > 0 ∧ v + (l - L₀) * p < 0
    · rw [if_pos hn] at hw
      subst hw
      have hp : p < 0 := by
        by_contra hp
        have := mul_nonneg (show 0 ≤ l - L₀ by linarith) (not_lt.1 hp)
        linarith [hn.1, hn.2]
      have he : eff v p = p := if_neg (by rintro (h | h); exacts [hv h, by linarith [hn.1, h.1]])
      have hp0 : p ≠ 0 := hp.ne
      have hx : p * (v / p) = v := by field_simp
      have hvp : v / p < 0 := div_neg_of_pos_of_neg hn.1 hp
      have hxl : L₀ - v / p ≤ l := by
        by_contra hc
        have := mul_lt_mul_of_neg_right (show l - L₀ < - (v / p) by linarith) hp
        linarith [hn.2]
      have e : ∀ L, v + p * (L - L₀) = p * (L - (L₀ - v / p)) := by intro L; linarith
      refine ⟨?_, ?_, ?_⟩
      · intro d hd
        rw [List.mem_singleton] at hd
        subst hd
        exact ⟨by show L₀ ≤ L₀ - v / p; linarith, _, _, _, rfl⟩
      · intro L h1 h2
        simp only [List.map_cons, List.map_nil, List.sum_cons, List.sum_nil, dS, if_true, Change.loc, he, max_eq_right hn.1.le]
        rw [show v + p * (L - L₀) + ((0 - p) * max 0 (L - (L₀ - v / p)) + 0) =
          v + p * (L - L₀) - p * max 0 (L - (L₀ - v / p)) by ring, e]
        rcases le_total L (L₀ - v / p) with h | h
        · have := mul_nonneg_of_nonpos_of_nonpos hp.le (show L - (L₀ - v / p) ≤ 0 by linarith)
          rw [max_eq_right this, max_eq_left (by linarith)]
          ring
        · have := mul_nonpos_of_nonpos_of_nonneg hp.le (show 0 ≤ L - (L₀ - v / p) by linarith)
          rw [max_eq_left this, max_eq_right (by linarith)]
          ring
      · intro L h1
        simp only [List.map_cons, List.map_nil, List.sum_cons, List.sum_nil, dS, if_true, Change.loc, he, max_eq_right hn.1.le]
        rw [max_eq_right (show 0 ≤ L - (L₀ - v / p) by linarith), max_eq_left hn.2.le]
        linarith
    · rw [if_neg hn] at hw
      push Not at hv
      by_cases hz : v = 0 ∧ p < 0
      · rw [if_pos hz] at hw
        subst hw
        have he : eff v p = 0 := if_pos (Or.inr hz)
        obtain ⟨hz, hp⟩ := hz
        subst hz
        refine ⟨by simp, ?_, ?_⟩
        · intro L h1 h2
          simp only [List.map_nil, List.sum_nil, he, max_self]
          have := mul_nonpos_of_nonpos_of_nonneg hp.le (show 0 ≤ L - L₀ by linarith)
          rw [max_eq_left (by linarith)]
          ring
        · intro L h1
          simp only [List.map_nil, List.sum_nil, he, max_self]
          have := mul_nonpos_of_nonneg_of_nonpos (show 0 ≤ l - L₀ by linarith) hp.le
          rw [max_eq_left (by linarith)]
          ring
      · rw [if_neg hz] at hw
        subst hw
        have he : eff v p = p := if_neg (by rintro (h | h); exacts [by linarith, hz h])
        -- not negative at the end
        have hend : 0 ≤ v + (l - L₀) * p := by
          rcases hv.lt_or_eq with h | h
          · by_contra hc
            exact hn ⟨h, not_le.1 hc⟩
          · have hp : 0 ≤ p := by
              by_contra hc
              exact hz ⟨h.symm, not_le.1 hc⟩
            have := mul_nonneg (show 0 ≤ l - L₀ by linarith) hp
            linarith
        refine ⟨by simp, ?_, ?_⟩
        · intro L h1 h2
          simp only [List.map_nil, List.sum_nil, he, max_eq_right hv]
          rw [max_eq_right]
          · ring
          · rcases le_total p 0 with hp | hp
            · have := mul_le_mul_of_nonpos_left (show L - L₀ ≤ l - L₀ by linarith) hp
              linarith
            · have := mul_nonneg hp (show 0 ≤ L - L₀ by linarith)
              linarith
        · intro L h1
          simp only [List.map_nil, List.sum_nil, he, max_eq_right hv, max_eq_right hend]
          ring

theorem sum_pos_zero {α : Type*} {l : List α} {f : α → ℚ} {g : α → ℚ} {L : ℚ} (h : ∀ d ∈ l, L ≤ g d) :
    (l.map (fun d => f d * max 0 (L - g d))).sum = 0 := by
  apply List.sum_eq_zero
  intro x hx
  obtain ⟨d, hd, rfl⟩ := List.mem_map.1 hx
  have := h d hd
  rw [max_eq_left (by linarith), mul_zero]

/-- The raw value of `S_i`. -/
def rawAt (ts : Fin n → GTask) (i : Fin n) (cs : List (Corner n)) (L₀ v p L : ℚ) : ℚ :=
  v + p * (L - L₀) + (cs.map (fun c => util ts i * (((ts c.j).deadline : ℚ) - (ts c.i).deadline) * max 0 (L - c.loc))).sum

/-- The changes describe `S_i`. -/
theorem bigS_spec {i : Fin n} : ∀ {cs : List (Corner n)} {L₀ v p B : ℚ}, cs.Pairwise (fun c d => c.loc < d.loc) →
    (∀ c ∈ cs, L₀ ≤ c.loc) → (∀ L, L₀ ≤ L → rawAt ts i cs L₀ v p L ≤ B) →
    (∀ d ∈ bigSChanges ts i cs L₀ v p, L₀ ≤ d.loc ∧ ∃ x a b, d = .bigS x i a b) ∧
    ∀ L, L₀ ≤ L → max 0 (rawAt ts i cs L₀ v p L) = max 0 v + eff v p * (L - L₀) +
      ((bigSChanges ts i cs L₀ v p).map (fun d => dS i d * max 0 (L - d.loc))).sum := by
  intro cs
  induction cs with
  | nil =>
    intro L₀ v p B _ _ hB
    have hraw : ∀ L, rawAt ts i [] L₀ v p L = v + p * (L - L₀) := by intro L; simp [rawAt]
    simp only [hraw] at hB ⊢
    have hp : p ≤ 0 := by
      by_contra hp
      push Not at hp
      have hB0 : v ≤ B := by have := hB L₀ le_rfl; simpa using this
      have h1 : 0 ≤ (B - v + 1) / p := div_nonneg (by linarith) hp.le
      have := hB (L₀ + (B - v + 1) / p) (by linarith)
      have e : p * ((B - v + 1) / p) = B - v + 1 := by field_simp
      rw [show L₀ + (B - v + 1) / p - L₀ = (B - v + 1) / p by ring, e] at this
      linarith
    rw [bigSChanges]
    by_cases hv : v < 0
    · have hnx : ¬ ((if p < 0 then (-1 : ℚ) else v) > 0) := by split_ifs <;> linarith
      rw [if_pos hv, if_neg hnx]
      refine ⟨by simp, fun L hL => ?_⟩
      have := mul_nonpos_of_nonpos_of_nonneg hp (show 0 ≤ L - L₀ by linarith)
      rw [eff, if_pos (Or.inl hv), max_eq_left (by linarith), max_eq_left hv.le]
      simp
    · rw [if_neg hv]
      by_cases hn : v > 0 ∧ (if p < 0 then (-1 : ℚ) else v) < 0
      · have hp' : p < 0 := by
          by_contra hc
          rw [if_neg hc] at hn
          linarith [hn.1, hn.2]
        have hvp : v / p < 0 := div_neg_of_pos_of_neg hn.1 hp'
        have hp0 : p ≠ 0 := hp'.ne
        have hx : p * (v / p) = v := by field_simp
        have e : ∀ L, v + p * (L - L₀) = p * (L - (L₀ - v / p)) := by intro L; linarith
        rw [if_pos hn]
        refine ⟨?_, fun L hL => ?_⟩
        · intro d hd
          rw [List.mem_singleton] at hd
          subst hd
          exact ⟨by show L₀ ≤ L₀ - v / p; linarith, _, _, _, rfl⟩
        · simp only [List.map_cons, List.map_nil, List.sum_cons, List.sum_nil, dS, if_true, Change.loc]
          rw [eff, if_neg (by rintro (h | h); exacts [hv h, by linarith [hn.1, h.1]]), max_eq_right (show 0 ≤ v by linarith),
            show v + p * (L - L₀) + ((0 - p) * max 0 (L - (L₀ - v / p)) + 0) =
              v + p * (L - L₀) - p * max 0 (L - (L₀ - v / p)) by ring, e]
          rcases le_total L (L₀ - v / p) with h | h
          · have := mul_nonneg_of_nonpos_of_nonpos hp (show L - (L₀ - v / p) ≤ 0 by linarith)
            rw [max_eq_right this, max_eq_left (by linarith)]
            ring
          · have := mul_nonpos_of_nonpos_of_nonneg hp (show 0 ≤ L - (L₀ - v / p) by linarith)
            rw [max_eq_left this, max_eq_right (by linarith)]
            ring
      · rw [if_neg hn]
        push Not at hv
        refine ⟨by simp, fun L hL => ?_⟩
        simp only [List.map_nil, List.sum_nil, add_zero]
        rcases hp.lt_or_eq with hp' | hp'
        · rw [if_pos hp'] at hn
          have hv0 : v = 0 := by
            by_contra hc
            exact hn ⟨lt_of_le_of_ne hv (Ne.symm hc), by norm_num⟩
          subst hv0
          rw [eff, if_pos (Or.inr ⟨rfl, hp'⟩), max_self]
          have := mul_nonpos_of_nonpos_of_nonneg hp (show 0 ≤ L - L₀ by linarith)
          rw [max_eq_left (by linarith)]
          ring
        · subst hp'
          simp [eff]
  | cons c rest ih =>
    intro L₀ v p B hs hge hB
    rw [List.pairwise_cons] at hs
    have hcl : L₀ ≤ c.loc := hge c List.mem_cons_self
    have hrest : ∀ d ∈ rest, c.loc ≤ d.loc := fun d hd => (hs.1 d hd).le
    rw [bigSChanges]
    generalize hq : p + util ts i * (((ts c.j).deadline : ℚ) - (ts c.i).deadline) = q
    generalize hw : (if v < 0 then (if v + (c.loc - L₀) * p > 0 then ([.bigS (L₀ - v / p) i 0 p], p) else ([], 0))
      else if v > 0 ∧ v + (c.loc - L₀) * p < 0 then ([.bigS (L₀ - v / p) i p 0], 0)
      else if v = 0 ∧ p < 0 then ([], 0)
      else ([], p) : List (Change n) × ℚ) = w
    obtain ⟨w1, w2, w3⟩ := within_spec hcl hw.symm
    generalize hnx : v + (c.loc - L₀) * p = next at *
    -- the raw value after the corner
    have hraw : ∀ L, c.loc ≤ L → rawAt ts i (c :: rest) L₀ v p L = rawAt ts i rest c.loc next q L := by
      intro L hL
      unfold rawAt
      rw [List.map_cons, List.sum_cons, max_eq_right (show 0 ≤ L - c.loc by linarith), ← hq, ← hnx]
      ring
    have hraw' : ∀ L, L ≤ c.loc → rawAt ts i (c :: rest) L₀ v p L = v + p * (L - L₀) := by
      intro L hL
      unfold rawAt
      rw [sum_pos_zero (g := Corner.loc), add_zero]
      intro d hd
      rcases List.mem_cons.1 hd with rfl | hd
      · exact hL
      · exact hL.trans (hrest d hd)
    obtain ⟨r1, r2⟩ := ih (v := next) (p := q) (B := B) hs.2 hrest
      (fun L hL => by rw [← hraw L hL]; exact hB L (hcl.trans hL))
    have hafter : (if next < 0 then 0 else if next = 0 ∧ q < 0 then 0 else q : ℚ) = eff next q := by
      unfold eff
      by_cases h1 : next < 0
      · rw [if_pos h1, if_pos (Or.inl h1)]
      · rw [if_neg h1]
        by_cases h2 : next = 0 ∧ q < 0
        · rw [if_pos h2, if_pos (Or.inr h2)]
        · rw [if_neg h2, if_neg (by tauto)]
    rw [hafter]
    have hmid : ∀ L, ((if w.2 ≠ eff next q then [Change.bigS c.loc i w.2 (eff next q)] else []).map
        (fun d => dS i d * max 0 (L - d.loc))).sum = (eff next q - w.2) * max 0 (L - c.loc) := by
      intro L
      split_ifs with h
      · simp [dS, Change.loc]
      · push Not at h
        rw [h]; simp
    refine ⟨?_, fun L hL => ?_⟩
    · intro d hd
      rw [List.mem_append, List.mem_append] at hd
      rcases hd with (hd | hd) | hd
      · exact w1 d hd
      · split_ifs at hd
        · rw [List.mem_singleton] at hd
          subst hd
          exact ⟨hcl, _, _, _, rfl⟩
        · cases hd
      · exact ⟨hcl.trans (r1 d hd).1, (r1 d hd).2⟩
    · rw [List.map_append, List.map_append, List.sum_append, List.sum_append, hmid]
      rcases le_total L c.loc with h | h
      · rw [hraw' L h, w2 L hL h, sum_pos_zero (l := bigSChanges ts i rest c.loc next q) (g := Change.loc)
          (fun d hd => h.trans (r1 d hd).1), max_eq_left (show L - c.loc ≤ 0 by linarith)]
        ring
      · rw [hraw L h, r2 L h, max_eq_right (show 0 ≤ L - c.loc by linarith)]
        have := w3 L h
        linarith

end Verif.Gfrl
