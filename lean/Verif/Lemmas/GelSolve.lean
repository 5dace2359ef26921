/-
The function traced by the GEL analysis: sums of the largest lines, the binary
search for its root and the exact sweep.
-/
import Verif.Model.Gel
import Verif.Spec.Gel
import Mathlib.Algebra.Order.BigOperators.Group.Finset
import Mathlib.Algebra.Order.Field.Rat
import Mathlib.Data.Finset.Max
import Mathlib.Algebra.BigOperators.Ring.Finset
import Mathlib.Tactic.Linarith
import Mathlib.Tactic.FieldSimp
import Mathlib.Tactic.Positivity
import Mathlib.Tactic.Ring

namespace Verif.Gel
open Verif.Spec Finset

variable {n : ℕ}

/-! ### Sums of largest values -/

theorem largest_sum_ge {v : Fin n → ℚ} {k : ℕ} {Q R : Finset (Fin n)} (hQ : Largest v k Q)
    (hR : R.card = Q.card) : ∑ i ∈ R, v i ≤ ∑ i ∈ Q, v i := by
  classical
  have hcard : (R \ Q).card = (Q \ R).card := by
    have h1 := card_sdiff_add_card_inter R Q
    have h2 := card_sdiff_add_card_inter Q R
    rw [inter_comm] at h2
    omega
  rw [← sum_sdiff (inter_subset_left : R ∩ Q ⊆ R), ← sum_sdiff (inter_subset_right : R ∩ Q ⊆ Q)]
  rw [sdiff_inter_self_left, sdiff_inter_self_right]
  suffices h : ∑ i ∈ R \ Q, v i ≤ ∑ i ∈ Q \ R, v i by linarith
  rcases (Q \ R).eq_empty_or_nonempty with he | hne
  · rw [he, card_empty, card_eq_zero] at hcard
    rw [he, hcard]
  · obtain ⟨a, ha, hmin⟩ := exists_min_image _ v hne
    have h1 : ∑ i ∈ R \ Q, v i ≤ (R \ Q).card • v a := by
      apply sum_le_card_nsmul
      intro j hj
      rw [mem_sdiff] at hj ha
      exact hQ.top a ha.1 j hj.2
    have h2 : (Q \ R).card • v a ≤ ∑ i ∈ Q \ R, v i := card_nsmul_le_sum _ _ _ hmin
    rw [hcard] at h1
    exact h1.trans h2

theorem largest_sum_eq {v : Fin n → ℚ} {k : ℕ} {Q R : Finset (Fin n)} (hQ : Largest v k Q)
    (hR : Largest v k R) : ∑ i ∈ R, v i = ∑ i ∈ Q, v i :=
  le_antisymm (largest_sum_ge hQ (by rw [hR.card, hQ.card])) (largest_sum_ge hR (by rw [hR.card, hQ.card]))

theorem nlargestIdx_nodup (k : ℤ) (v : Fin n → ℚ) : (nlargestIdx k v).Nodup := by
  unfold nlargestIdx
  apply List.Nodup.sublist (List.take_sublist _ _)
  exact (List.perm_insertionSort _ _).nodup_iff.2 (List.nodup_finRange n)

theorem nlargestIdx_largest (k : ℤ) (v : Fin n → ℚ) : Largest v k.toNat (nlargestIdx k v).toFinset := by
  classical
  constructor
  · rw [List.toFinset_card_of_nodup (nlargestIdx_nodup k v)]
    unfold nlargestIdx
    rw [List.length_take, List.length_insertionSort, List.length_finRange]
  · intro i hi j hj
    rw [List.mem_toFinset] at hi hj
    unfold nlargestIdx at hi hj
    set l := (List.finRange n).insertionSort (fun i j => v j ≤ v i) with hl
    have : Std.Total (fun i j : Fin n => v j ≤ v i) := ⟨fun a b => le_total _ _⟩
    have : IsTrans (Fin n) (fun i j : Fin n => v j ≤ v i) := ⟨fun a b c h1 h2 => h2.trans h1⟩
    have hs : l.Pairwise (fun i j => v j ≤ v i) := List.pairwise_insertionSort _ _
    have hjm : j ∈ l := (List.mem_insertionSort _).2 (List.mem_finRange j)
    rw [← List.take_append_drop k.toNat l] at hs hjm
    rw [List.pairwise_append] at hs
    rcases List.mem_append.1 hjm with h | h
    · exact absurd h hj
    · exact hs.2.2 i hi j h

theorem nlargest_sum (k : ℤ) (v : Fin n → ℚ) :
    (nlargest k ((List.finRange n).map v)).sum = ∑ i ∈ (nlargestIdx k v).toFinset, v i := by
  classical
  rw [List.sum_toFinset _ (nlargestIdx_nodup k v)]
  unfold nlargest nlargestIdx
  rw [← List.map_insertionSort (r := fun i j : Fin n => v j ≤ v i) (s := fun a b : ℚ => b ≤ a) v _
    (fun a _ b _ => Iff.rfl), ← List.map_take]

/-! ### The function -/

variable {m : ℕ} {k : ℤ} {S : ℚ} {Y u : Fin n → ℚ}

theorem M_eq {s : ℚ} {Q : Finset (Fin n)} (hQ : Largest (fun i => Y i + u i * s) k.toNat Q) :
    M m k S Y u s = ∑ i ∈ Q, (Y i + u i * s) + S - m * s := by
  unfold M
  rw [nlargest_sum k (fun i => Y i + u i * s), largest_sum_eq hQ (nlargestIdx_largest k _)]

theorem M_decr (hu : ∀ i, u i ≤ 1) (hk : k.toNat + 1 ≤ m) {s t : ℚ} (hst : s ≤ t) :
    M m k S Y u t ≤ M m k S Y u s - (t - s) := by
  classical
  have hQ := nlargestIdx_largest k (fun i => Y i + u i * t)
  have hR := nlargestIdx_largest k (fun i => Y i + u i * s)
  rw [M_eq hQ, M_eq hR]
  set Q := (nlargestIdx k (fun i => Y i + u i * t)).toFinset
  set R := (nlargestIdx k (fun i => Y i + u i * s)).toFinset
  have h1 := largest_sum_ge (R := Q) hR (by rw [hQ.card, hR.card])
  have h2 : ∑ i ∈ Q, (Y i + u i * t) = ∑ i ∈ Q, (Y i + u i * s) + (∑ i ∈ Q, u i) * (t - s) := by
    rw [sum_mul, ← sum_add_distrib]
    apply sum_congr rfl
    intro i _
    ring
  have h3 : ∑ i ∈ Q, u i ≤ (m : ℚ) - 1 := by
    have h4 : ∑ i ∈ Q, u i ≤ Q.card • (1 : ℚ) := sum_le_card_nsmul _ _ _ (fun i _ => hu i)
    have h5 : Q.card + 1 ≤ m := by rw [hQ.card]; omega
    have h6 : (Q.card : ℚ) + 1 ≤ m := by exact_mod_cast h5
    rw [nsmul_eq_mul, mul_one] at h4
    linarith
  have h7 := mul_le_mul_of_nonneg_right h3 (show 0 ≤ t - s by linarith)
  rw [h2]
  nlinarith

/-- At 0 the function is not negative. -/
theorem M_zero {Sv : Fin n → ℚ} (hS : S = ∑ i, Sv i) (h0 : ∀ i, 0 ≤ Sv i) (h1 : ∀ i, 0 ≤ Y i + Sv i) :
    0 ≤ M m k S Y u 0 := by
  classical
  rw [M_eq (nlargestIdx_largest k _)]
  set Q := (nlargestIdx k (fun i => Y i + u i * 0)).toFinset
  have h2 : ∑ i ∈ Q, (0 - Sv i) ≤ ∑ i ∈ Q, (Y i + u i * 0) :=
    sum_le_sum (fun i _ => by have := h1 i; simp only [mul_zero]; linarith)
  have h3 : ∑ i ∈ Q, Sv i ≤ ∑ i, Sv i := sum_le_sum_of_subset_of_nonneg (subset_univ _) (fun i _ _ => h0 i)
  rw [sum_sub_distrib, sum_const_zero] at h2
  simp only [mul_zero, sub_zero] at h2 ⊢
  linarith

/-! ### Binary search -/

section
variable {f : ℚ → ℚ}

theorem doubling_spec (strict : Bool) : ∀ (fuel : ℕ) (a b a' b' : ℚ), doubling f strict fuel a b = some (a', b') →
    0 ≤ f a → (0 ≤ a ∧ a < b) → b - a ≤ max 1 a →
      0 ≤ f a' ∧ f b' ≤ 0 ∧ 0 ≤ a' ∧ a' < b' ∧ b' - a' ≤ max 1 a' := by
  intro fuel
  induction fuel with
  | zero => intro a b a' b' h; simp [doubling] at h
  | succ fuel ih =>
    intro a b a' b' h ha hab hw
    unfold doubling at h
    split_ifs at h with hc
    · have hb : 0 ≤ f b := by
        rcases hc with hc | hc
        · exact hc.le
        · exact hc.2.ge
      apply ih b (b * 2) a' b' h hb ⟨by linarith [hab.1, hab.2], by linarith [hab.1, hab.2]⟩
      apply le_max_of_le_right
      linarith
    · simp only [Option.some.injEq, Prod.mk.injEq] at h
      obtain ⟨rfl, rfl⟩ := h
      push Not at hc
      exact ⟨ha, hc.1, hab.1, hab.2, hw⟩

theorem bisect_spec : ∀ (r : ℕ) (a b : ℚ), 0 ≤ f a → f b ≤ 0 → a ≤ b →
    0 ≤ f (bisect f r a b).1 ∧ f (bisect f r a b).2 ≤ 0 ∧ a ≤ (bisect f r a b).1 ∧ (bisect f r a b).2 ≤ b ∧
      (bisect f r a b).1 ≤ (bisect f r a b).2 ∧
      (bisect f r a b).2 - (bisect f r a b).1 = (b - a) / 2 ^ r := by
  intro r
  induction r with
  | zero => intro a b ha hb hab; simp [bisect, ha, hb, hab]
  | succ r ih =>
    intro a b ha hb hab
    unfold bisect
    simp only
    split_ifs with hc
    · obtain ⟨h1, h2, h3, h4, h5, h6⟩ := ih a ((b + a) / 2) ha hc.le (by linarith)
      refine ⟨h1, h2, h3, by linarith, h5, ?_⟩
      rw [h6, pow_succ]
      field_simp
      ring
    · obtain ⟨h1, h2, h3, h4, h5, h6⟩ := ih ((b + a) / 2) b (not_lt.1 hc) hb (by linarith)
      refine ⟨h1, h2, by linarith, h4, h5, ?_⟩
      rw [h6, pow_succ]
      field_simp
      ring

theorem doubling_ends (strict : Bool) (hf : ∀ s t, s ≤ t → f t ≤ f s - (t - s)) :
    ∀ (N : ℕ) (a b : ℚ), 1 ≤ b → f b < N → ∀ fuel, N < fuel → ∃ r, doubling f strict fuel a b = some r := by
  intro N
  induction N with
  | zero =>
    intro a b hb hN fuel hfuel
    obtain ⟨fuel, rfl⟩ : ∃ x, fuel = x + 1 := ⟨fuel - 1, by omega⟩
    unfold doubling
    have hlt : f b < 0 := by exact_mod_cast hN
    rw [if_neg (by push Not; exact ⟨hlt.le, fun _ => hlt.ne⟩)]
    exact ⟨_, rfl⟩
  | succ N ih =>
    intro a b hb hN fuel hfuel
    obtain ⟨fuel, rfl⟩ : ∃ x, fuel = x + 1 := ⟨fuel - 1, by omega⟩
    unfold doubling
    split_ifs
    · apply ih b (b * 2) (by linarith) _ fuel (by omega)
      have := hf b (b * 2) (by linarith)
      push_cast at hN
      linarith
    · exact ⟨_, rfl⟩

end

/-! ### The sweep -/

/-- Where line `j` overtakes the flatter line `i`. -/
def cross (Y u : Fin n → ℚ) (i j : Fin n) : ℚ := (Y i - Y j) / (u j - u i)

/-- What the sweep needs to know about its list of replacements. -/
structure GoodRepl (Y u : Fin n → ℚ) (l : List (Repl n)) : Prop where
  mem : ∀ r, r ∈ l ↔ u r.old < u r.new ∧ r.loc = cross Y u r.old r.new ∧ 0 ≤ r.loc
  sorted : l.Pairwise (keyLe u)

theorem below_cross {i j : Fin n} (h : u i < u j) {s : ℚ} (hs : s ≤ cross Y u i j) :
    Y j + u j * s ≤ Y i + u i * s := by
  unfold cross at hs
  rw [le_div_iff₀ (by linarith)] at hs
  linarith

theorem le_cross {i j : Fin n} (h : u i < u j) {s : ℚ} (hs : Y j + u j * s ≤ Y i + u i * s) :
    s ≤ cross Y u i j := by
  unfold cross
  rw [le_div_iff₀ (by linarith)]
  linarith

theorem at_cross {i j : Fin n} (h : u i < u j) :
    Y j + u j * cross Y u i j = Y i + u i * cross Y u i j := by
  unfold cross
  have : u j - u i ≠ 0 := by linarith
  field_simp
  ring

/-- Invariant of the sweep. -/
structure SweepInv (m k' : ℕ) (S : ℚ) (Y u : Fin n → ℚ) (all rest : List (Repl n)) (pres : Fin n → Bool)
    (s value slope : ℚ) : Prop where
  suffix : rest <:+ all
  later : ∀ r ∈ rest, s ≤ r.loc
  start : 0 ≤ s
  card : (univ.filter (fun i => pres i = true)).card = k'
  value_eq : value = ∑ i ∈ univ.filter (fun i => pres i = true), (Y i + u i * s) + S - m * s
  slope_eq : slope = ∑ i ∈ univ.filter (fun i => pres i = true), u i - m
  value_nonneg : 0 ≤ value
  top : ∀ i j, pres i = true → pres j = false → Y j + u j * s ≤ Y i + u i * s
  todo : ∀ i j, pres i = true → pres j = false → u i < u j → (⟨cross Y u i j, i, j⟩ : Repl n) ∈ rest

theorem SweepInv.slope_neg {m k' : ℕ} {all rest : List (Repl n)} {pres : Fin n → Bool} {s value slope : ℚ}
    (h : SweepInv m k' S Y u all rest pres s value slope) (hu : ∀ i, u i ≤ 1) (hk : k' + 1 ≤ m) : slope < 0 := by
  rw [h.slope_eq]
  have h4 : ∑ i ∈ univ.filter (fun i => pres i = true), u i ≤ (univ.filter (fun i => pres i = true)).card • (1 : ℚ) :=
    sum_le_card_nsmul _ _ _ (fun i _ => hu i)
  rw [h.card, nsmul_eq_mul, mul_one] at h4
  have h6 : (k' : ℚ) + 1 ≤ m := by exact_mod_cast hk
  linarith

/-- The lines present stay on top until the next replacement. -/
theorem SweepInv.top_until {m k' : ℕ} {all rest : List (Repl n)} {pres : Fin n → Bool} {s value slope : ℚ}
    (h : SweepInv m k' S Y u all rest pres s value slope) {t : ℚ} (hst : s ≤ t) (ht : ∀ r ∈ rest, t ≤ r.loc)
    {i j : Fin n} (hi : pres i = true) (hj : pres j = false) : Y j + u j * t ≤ Y i + u i * t := by
  rcases le_or_gt (u j) (u i) with hle | hlt
  · have h1 := h.top i j hi hj
    have h2 := mul_le_mul_of_nonneg_right hle (show 0 ≤ t - s by linarith)
    linarith
  · exact below_cross hlt (ht _ (h.todo i j hi hj hlt))

theorem SweepInv.largest {m k' : ℕ} {all rest : List (Repl n)} {pres : Fin n → Bool} {s value slope : ℚ}
    (h : SweepInv m k' S Y u all rest pres s value slope) (hk' : k' ≤ n) {t : ℚ} (hst : s ≤ t) (ht : ∀ r ∈ rest, t ≤ r.loc) :
    Largest (fun i => Y i + u i * t) k' (univ.filter (fun i => pres i = true)) := by
  refine ⟨by rw [h.card]; omega, ?_⟩
  intro i hi j hj
  rw [mem_filter] at hi hj
  exact h.top_until hst ht hi.2 (by simpa using hj)

theorem SweepInv.value_at {m k' : ℕ} {all rest : List (Repl n)} {pres : Fin n → Bool} {s value slope : ℚ}
    (h : SweepInv m k' S Y u all rest pres s value slope) (t : ℚ) :
    ∑ i ∈ univ.filter (fun i => pres i = true), (Y i + u i * t) + S - m * t = value + (t - s) * slope := by
  rw [h.value_eq, h.slope_eq]
  have : ∑ i ∈ univ.filter (fun i => pres i = true), (Y i + u i * t) =
      ∑ i ∈ univ.filter (fun i => pres i = true), (Y i + u i * s) +
        (∑ i ∈ univ.filter (fun i => pres i = true), u i) * (t - s) := by
    rw [sum_mul, ← sum_add_distrib]
    apply sum_congr rfl
    intro i _
    ring
  rw [this]
  ring

/-- A replacement with a larger key than the head comes later. -/
theorem later_of_key {all rest : List (Repl n)} {r e : Repl n} (hs : all.Pairwise (keyLe u))
    (hsuf : (r :: rest) <:+ all) (he : e ∈ all) (hk : ¬ keyLe u e r) : e ∈ rest := by
  obtain ⟨pre, rfl⟩ := hsuf
  rw [List.pairwise_append] at hs
  rcases List.mem_append.1 he with h | h
  · exact absurd (hs.2.2 e h r List.mem_cons_self) hk
  · rcases List.mem_cons.1 h with h | h
    · subst h
      exact absurd (Or.inr ⟨rfl, le_rfl⟩) hk
    · exact h

theorem trace_spec {m k' : ℕ} (hu : ∀ i, u i ≤ 1) (hk : k' + 1 ≤ m) (hkn : k' ≤ n) {all : List (Repl n)}
    (hall : GoodRepl Y u all) :
    ∀ (rest : List (Repl n)) (pres : Fin n → Bool) (s value slope : ℚ),
      SweepInv m k' S Y u all rest pres s value slope →
      ∃ z, trace u rest pres s value slope = some z ∧ 0 ≤ z ∧
        ∃ Q, Largest (fun i => Y i + u i * z) k' Q ∧ ∑ i ∈ Q, (Y i + u i * z) + S = m * z := by
  classical
  intro rest
  induction rest with
  | nil =>
    intro pres s value slope h
    have hsl := h.slope_neg hu hk
    unfold trace
    rw [if_neg hsl.ne]
    have hz : s ≤ s - value / slope := by
      have := div_nonpos_of_nonneg_of_nonpos h.value_nonneg hsl.le
      linarith
    refine ⟨_, rfl, h.start.trans hz, _, h.largest hkn hz (by simp), ?_⟩
    have h1 := h.value_at (s - value / slope)
    have h2 : value + (s - value / slope - s) * slope = 0 := by
      have := hsl.ne
      field_simp
      ring
    rw [h2] at h1
    linarith
  | cons r rest ih =>
    intro pres s value slope h
    have hsl := h.slope_neg hu hk
    unfold trace
    rw [if_neg hsl.ne]
    simp only
    have hz : s ≤ s - value / slope := by
      have := div_nonpos_of_nonneg_of_nonpos h.value_nonneg hsl.le
      linarith
    have hrall : r ∈ all := h.suffix.subset List.mem_cons_self
    have hrmem := (hall.mem r).1 hrall
    have hkey : ∀ e ∈ rest, keyLe u r e := by
      have := hall.sorted.sublist h.suffix.sublist
      exact (List.pairwise_cons.1 this).1
    have hloc : ∀ e ∈ rest, r.loc ≤ e.loc := by
      intro e he
      rcases hkey e he with h1 | h1
      · exact h1.le
      · exact h1.1.le
    have hlocs : ∀ e ∈ r :: rest, r.loc ≤ e.loc := by
      intro e he
      rcases List.mem_cons.1 he with rfl | he
      · exact le_rfl
      · exact hloc e he
    have hsr : s ≤ r.loc := h.later r List.mem_cons_self
    have hdone : ¬ s - value / slope > r.loc →
        ∃ z, some (s - value / slope) = some z ∧ 0 ≤ z ∧
        ∃ Q, Largest (fun i => Y i + u i * z) k' Q ∧ ∑ i ∈ Q, (Y i + u i * z) + S = m * z := by
      intro hn
      refine ⟨_, rfl, h.start.trans hz, _, h.largest hkn hz (fun e he => (not_lt.1 hn).trans (hlocs e he)), ?_⟩
      have h1 := h.value_at (s - value / slope)
      have h2 : value + (s - value / slope - s) * slope = 0 := by
        have := hsl.ne
        field_simp
        ring
      rw [h2] at h1
      linarith
    have hval : s - value / slope > r.loc → 0 ≤ value + (r.loc - s) * slope := by
      intro hg
      have h1 : (r.loc - s) ≤ - (value / slope) := by linarith
      have h2 := mul_le_mul_of_nonpos_right h1 hsl.le
      have h3 : -(value / slope) * slope = -value := by
        have := hsl.ne
        field_simp
      linarith
    have htop : ∀ i j, pres i = true → pres j = false → Y j + u j * r.loc ≤ Y i + u i * r.loc :=
      fun i j hi hj => h.top_until hsr hlocs hi hj
    have hsuf : rest <:+ all := (List.suffix_cons r rest).trans h.suffix
    by_cases hsw : pres r.old = true ∧ pres r.new = false
    · rw [if_pos hsw]
      by_cases hg : s - value / slope > r.loc
      · rw [if_pos hg]
        apply ih
        set pres' : Fin n → Bool := fun i => if i = r.new then true else if i = r.old then false else pres i with hp'
        have hne : r.old ≠ r.new := by
          intro he
          have := hrmem.1
          rw [he] at this
          exact lt_irrefl _ this
        have hset : univ.filter (fun i => pres' i = true) =
            insert r.new ((univ.filter (fun i => pres i = true)).erase r.old) := by
          ext i
          simp only [hp', mem_filter, mem_univ, true_and, mem_insert, mem_erase]
          by_cases h1 : i = r.new
          · simp [h1]
          · by_cases h2 : i = r.old
            · simp [h2, hne]
            · simp [h1, h2]
        have hnotin : r.new ∉ (univ.filter (fun i => pres i = true)).erase r.old := by
          simp [hsw.2]
        have hin : r.old ∈ univ.filter (fun i => pres i = true) := by simp [hsw.1]
        have heq : Y r.new + u r.new * r.loc = Y r.old + u r.old * r.loc := by
          rw [hrmem.2.1]; exact at_cross hrmem.1
        have hsum : ∀ g : Fin n → ℚ, ∑ i ∈ univ.filter (fun i => pres' i = true), g i =
            ∑ i ∈ univ.filter (fun i => pres i = true), g i - g r.old + g r.new := by
          intro g
          rw [hset, sum_insert hnotin, sum_erase_eq_sub hin]
          ring
        have hcase : ∀ i, pres' i = true → i = r.new ∨ (i ≠ r.old ∧ pres i = true) := by
          intro i hi
          simp only [hp'] at hi
          split_ifs at hi with h1 h2
          · exact Or.inl h1
          · exact Or.inr ⟨h2, hi⟩
        have hcase' : ∀ j, pres' j = false → j ≠ r.new ∧ (j = r.old ∨ pres j = false) := by
          intro j hj
          simp only [hp'] at hj
          split_ifs at hj with h1 h2
          · exact ⟨h1, Or.inl h2⟩
          · exact ⟨h1, Or.inr hj⟩
        refine ⟨hsuf, hloc, h.start.trans hsr, ?_, ?_, ?_, hval hg, ?_, ?_⟩
        · rw [hset, card_insert_of_notMem hnotin, card_erase_of_mem hin, h.card]
          have : 0 < (univ.filter (fun i => pres i = true)).card := card_pos.2 ⟨_, hin⟩
          rw [h.card] at this
          omega
        · rw [hsum (fun i => Y i + u i * r.loc)]
          have := h.value_at r.loc
          linarith
        · rw [hsum u, h.slope_eq]; ring
        · intro i j hi hj
          obtain ⟨hjn, hj⟩ := hcase' j hj
          rcases hcase i hi with hi | ⟨hio, hi⟩
          · subst hi
            rcases hj with hj | hj
            · subst hj; exact heq.ge
            · rw [heq]; exact htop _ _ hsw.1 hj
          · rcases hj with hj | hj
            · subst hj; rw [← heq]; exact htop _ _ hi hsw.2
            · exact htop _ _ hi hj
        · intro i j hi hj hij
          obtain ⟨hjn, hj⟩ := hcase' j hj
          rcases hcase i hi with hi | ⟨hio, hi⟩
          · subst hi
            rcases hj with hj | hj
            · subst hj; exact absurd hij (not_lt.2 hrmem.1.le)
            · -- new line against an absent one
              have hle : r.loc ≤ cross Y u r.new j := le_cross hij (by rw [heq]; exact htop _ _ hsw.1 hj)
              apply later_of_key hall.sorted h.suffix
              · exact (hall.mem _).2 ⟨hij, rfl, hrmem.2.2.trans hle⟩
              · rintro (h1 | ⟨_, h1⟩)
                · simp only at h1; linarith
                · simp only at h1
                  have := hrmem.1
                  linarith
          · rcases hj with hj | hj
            · -- a present line against the one removed
              subst hj
              have hin2 : u i < u r.new := hij.trans hrmem.1
              have h1 := h.todo i r.new hi hsw.2 hin2
              rcases List.mem_cons.1 h1 with h2 | h2
              · exact absurd (congrArg Repl.old h2) hio
              · have h3 : r.loc < cross Y u i r.new := by
                  rcases hkey _ h2 with h3 | ⟨_, h3⟩
                  · exact h3
                  · simp only at h3; linarith
                have h4 : r.loc < cross Y u i r.old := by
                  unfold cross at h3 ⊢
                  rw [lt_div_iff₀ (by linarith)] at h3 ⊢
                  linarith
                apply later_of_key hall.sorted h.suffix
                · exact (hall.mem _).2 ⟨hij, rfl, hrmem.2.2.trans h4.le⟩
                · rintro (h5 | ⟨h5, _⟩)
                  · simp only at h5; linarith
                  · simp only at h5; linarith
            · rcases List.mem_cons.1 (h.todo i j hi hj hij) with h2 | h2
              · exact absurd (congrArg Repl.old h2) hio
              · exact h2
      · rw [if_neg hg]; exact hdone hg
    · rw [if_neg hsw]
      by_cases hg : s - value / slope > r.loc
      · rw [if_pos hg]
        apply ih
        refine ⟨hsuf, hloc, h.start.trans hsr, h.card, ?_, h.slope_eq, hval hg, htop, ?_⟩
        · have := h.value_at r.loc
          linarith
        · intro i j hi hj hij
          rcases List.mem_cons.1 (h.todo i j hi hj hij) with h2 | h2
          · apply absurd (show pres r.old = true ∧ pres r.new = false from ?_) hsw
            rw [← h2]
            exact ⟨hi, hj⟩
          · exact h2
      · rw [if_neg hg]; exact hdone hg

theorem mem_allRepl {r : Repl n} :
    r ∈ allRepl Y u ↔ u r.old < u r.new ∧ r.loc = cross Y u r.old r.new ∧ 0 ≤ r.loc := by
  have hswap : ∀ i j : Fin n, (Y j - Y i) / (u i - u j) = (Y i - Y j) / (u j - u i) := by
    intro i j
    rw [← neg_sub (Y i) (Y j), ← neg_sub (u j) (u i), neg_div_neg_eq]
  unfold allRepl
  simp only [List.mem_flatMap, List.mem_finRange, true_and, List.mem_filterMap, List.mem_filter, decide_eq_true_eq]
  constructor
  · rintro ⟨i, j, hij, hr⟩
    unfold replOf at hr
    simp only at hr
    split_ifs at hr with h1 h2 h3
    · simp only [Option.some.injEq] at hr
      subst hr
      exact ⟨h3, hswap i j, h2⟩
    · simp only [Option.some.injEq] at hr
      subst hr
      exact ⟨lt_of_le_of_ne (not_lt.1 h3) (Ne.symm h1), rfl, h2⟩
  · rintro ⟨h1, h2, h3⟩
    obtain ⟨loc, o, w⟩ := r
    simp only at h1 h2 h3
    have hne : o ≠ w := by rintro rfl; exact lt_irrefl _ h1
    rcases lt_or_gt_of_ne hne with hlt | hlt
    · refine ⟨o, w, hlt, ?_⟩
      unfold replOf
      rw [if_pos h1.ne]
      simp only
      have he : (Y w - Y o) / (u o - u w) = loc := by rw [hswap, h2]; rfl
      rw [he, if_pos h3, if_pos h1]
    · refine ⟨w, o, hlt, ?_⟩
      unfold replOf
      rw [if_pos h1.ne']
      simp only
      have he : (Y o - Y w) / (u w - u o) = loc := by rw [h2]; rfl
      rw [he, if_pos h3, if_neg (not_lt.2 h1.le)]

theorem goodRepl_of_perm {l : List (Repl n)} (hp : l.Perm (allRepl Y u)) (hs : l.Pairwise (keyLe u)) :
    GoodRepl Y u l :=
  ⟨fun r => by rw [hp.mem_iff, mem_allRepl], hs⟩

theorem keyLe_sorted (u : Fin n → ℚ) (l : List (Repl n)) : (l.insertionSort (keyLe u)).Pairwise (keyLe u) := by
  have : Std.Total (keyLe (n := n) u) := ⟨fun a b => by
    unfold keyLe
    rcases lt_trichotomy a.loc b.loc with h | h | h
    · exact Or.inl (Or.inl h)
    · rcases le_total (u a.old) (u b.old) with h' | h'
      · exact Or.inl (Or.inr ⟨h, h'⟩)
      · exact Or.inr (Or.inr ⟨h.symm, h'⟩)
    · exact Or.inr (Or.inl h)⟩
  have : IsTrans (Repl n) (keyLe u) := ⟨fun a b c h1 h2 => by
    unfold keyLe at *
    rcases h1 with h1 | ⟨h1, h1'⟩
    · rcases h2 with h2 | ⟨h2, _⟩
      · exact Or.inl (h1.trans h2)
      · exact Or.inl (h2 ▸ h1)
    · rcases h2 with h2 | ⟨h2, h2'⟩
      · exact Or.inl (h1 ▸ h2)
      · exact Or.inr ⟨h1.trans h2, h1'.trans h2'⟩⟩
  exact List.pairwise_insertionSort _ _

theorem goodRepl_sort : GoodRepl Y u ((allRepl Y u).insertionSort (keyLe u)) :=
  goodRepl_of_perm (List.perm_insertionSort _ _) (keyLe_sorted _ _)

/-- The sweep finds the root. -/
theorem traceFrom_spec {m k' : ℕ} (hu : ∀ i, u i ≤ 1) (hk : k' + 1 ≤ m) (hkn : k' ≤ n) {Sv : Fin n → ℚ}
    (hS : S = ∑ i, Sv i) (h0 : ∀ i, 0 ≤ Sv i) (h1 : ∀ i, 0 ≤ Y i + Sv i)
    {init : List (Fin n)} (hnd : init.Nodup) (hinit : Largest Y k' init.toFinset) {l : List (Repl n)}
    (hl : GoodRepl Y u l) :
    ∃ z, traceFrom m S Y u init l = some z ∧ 0 ≤ z ∧
      ∃ Q, Largest (fun i => Y i + u i * z) k' Q ∧ ∑ i ∈ Q, (Y i + u i * z) + S = m * z := by
  classical
  unfold traceFrom
  apply trace_spec hu hk hkn hl
  have hset : univ.filter (fun i => decide (i ∈ init) = true) = init.toFinset := by
    ext i; simp
  have hsumY : (init.map Y).sum = ∑ i ∈ init.toFinset, Y i := (List.sum_toFinset _ hnd).symm
  have hsumu : (init.map u).sum = ∑ i ∈ init.toFinset, u i := (List.sum_toFinset _ hnd).symm
  refine ⟨List.suffix_rfl, fun r hr => ((hl.mem r).1 hr).2.2, le_rfl, ?_, ?_, ?_, ?_, ?_, ?_⟩
  · rw [hset, hinit.card]; omega
  · rw [hset, hsumY]; simp only [mul_zero, add_zero, sub_zero]; ring
  · rw [hset, hsumu]; ring
  · rw [hsumY, hS]
    have h2 : ∑ i ∈ init.toFinset, (0 - Sv i) ≤ ∑ i ∈ init.toFinset, Y i :=
      sum_le_sum (fun i _ => by have := h1 i; linarith)
    have h3 : ∑ i ∈ init.toFinset, Sv i ≤ ∑ i, Sv i :=
      sum_le_sum_of_subset_of_nonneg (subset_univ _) (fun i _ _ => h0 i)
    rw [sum_sub_distrib, sum_const_zero] at h2
    linarith
  · intro i j hi hj
    simp only [mul_zero, add_zero]
    exact hinit.top i (by simpa using hi) j (by simpa using hj)
  · intro i j hi hj hij
    rw [hl.mem]
    refine ⟨hij, rfl, ?_⟩
    apply le_cross hij
    simp only [mul_zero, add_zero]
    exact hinit.top i (by simpa using hi) j (by simpa using hj)

end Verif.Gel
