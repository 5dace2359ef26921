/-
Linear programs whose constraints split into two independent parts, and the best choice of a limited number of
items.
-/
import Verif.Lemmas.LpCharge

namespace Verif.SR.Lp
open Verif.Spec Finset

/-! ### Independent parts -/

/-- Each inequality is only about variables in `L`, or only about others; equalities only say that variables are zero. -/
structure Splits (L : Key → Prop) (P : Program) : Prop where
  eq : ∀ c ∈ P.equalities, c.2 = 0 ∧ ∀ t ∈ c.1, t.1 = 1
  le : ∀ c ∈ P.inequalities, (∀ t ∈ c.1, L t.2) ∨ ∀ t ∈ c.1, ¬ L t.2
  integers : P.integers = []
  binaries : P.binaries = []

variable {L : Key → Prop} {P : Program} {x y : Key → ℚ}

theorem Splits.addInequality (h : Splits L P) {e : Exp} {b : ℚ} (he : (∀ t ∈ e, L t.2) ∨ ∀ t ∈ e, ¬ L t.2) :
    Splits L (addInequality P e b) := by
  unfold Lp.addInequality
  split_ifs
  · exact h
  · refine ⟨h.eq, ?_, h.integers, h.binaries⟩
    intro c hc
    rcases List.mem_append.1 hc with hc | hc
    · exact h.le c hc
    · rw [List.mem_singleton.1 hc]
      exact he

theorem Splits.addEquality (h : Splits L P) {e : Exp} (he : ∀ t ∈ e, t.1 = 1) : Splits L (addEquality P e 0) := by
  unfold Lp.addEquality
  split_ifs
  · exact h
  · refine ⟨?_, h.le, h.integers, h.binaries⟩
    intro c hc
    rcases List.mem_append.1 hc with hc | hc
    · exact h.eq c hc
    · rw [List.mem_singleton.1 hc]
      exact ⟨rfl, he⟩

theorem Splits.foldl {α : Type} {f : Program → α → Program} {l : List α}
    (hf : ∀ a ∈ l, ∀ P : Program, Splits L P → Splits L (f P a)) :
    ∀ {P : Program}, Splits L P → Splits L (l.foldl f P) := by
  induction l with
  | nil => intro P h; exact h
  | cons a l ih =>
    intro P h
    exact ih (fun b hb => hf b (List.mem_cons_of_mem _ hb)) (hf a (List.mem_cons_self ..) P h)

theorem termSum_congr {e : Exp} (h : ∀ t ∈ e, x t.2 = y t.2) : termSum x e = termSum y e := by
  unfold termSum
  congr 1
  apply List.map_congr_left
  intro t ht
  rw [h t ht]

theorem termSum_nonneg {e : Exp} (h : ∀ t ∈ e, 0 ≤ t.1 * x t.2) : 0 ≤ termSum x e := by
  unfold termSum
  apply List.sum_nonneg
  intro a ha
  obtain ⟨t, ht, rfl⟩ := List.mem_map.1 ha
  exact h t ht

theorem zero_of_termSum {e : Exp} (h1 : ∀ t ∈ e, t.1 = 1) (h0 : ∀ t ∈ e, 0 ≤ x t.2) (hs : termSum x e = 0) :
    ∀ t ∈ e, x t.2 = 0 := by
  induction e with
  | nil => simp
  | cons a e ih =>
    have e1 : termSum x (a :: e) = a.1 * x a.2 + termSum x e := by simp [termSum]
    rw [e1, h1 a (List.mem_cons_self ..), one_mul] at hs
    have h2 := h0 a (List.mem_cons_self ..)
    have h3 : 0 ≤ termSum x e := termSum_nonneg (fun t ht => by
      rw [h1 t (List.mem_cons_of_mem _ ht), one_mul]
      exact h0 t (List.mem_cons_of_mem _ ht))
    intro t ht
    rcases List.mem_cons.1 ht with rfl | ht
    · linarith
    · exact ih (fun t ht => h1 t (List.mem_cons_of_mem _ ht)) (fun t ht => h0 t (List.mem_cons_of_mem _ ht))
        (by linarith) t ht

open Classical in
/-- Solutions of the two parts can be combined. -/
theorem Splits.merge (h : Splits L P) (hx : P.Feasible x) (hy : P.Feasible y) :
    P.Feasible (fun v => if L v then x v else y v) := by
  have hr : ∀ v, v ∉ P.integers := by rw [h.integers]; simp
  refine ⟨?_, ?_, by rw [h.integers]; simp, by rw [h.binaries]; simp, ?_⟩
  · intro c hc
    obtain ⟨h0, h1⟩ := h.eq c hc
    rw [h0]
    have hx0 := zero_of_termSum h1 (fun t _ => (hx.range t.2 (hr _)).1) (by rw [← h0]; exact hx.eq c hc)
    have hy0 := zero_of_termSum h1 (fun t _ => (hy.range t.2 (hr _)).1) (by rw [← h0]; exact hy.eq c hc)
    apply termSum_zero
    intro t ht
    split_ifs
    · exact hx0 t ht
    · exact hy0 t ht
  · intro c hc
    rcases h.le c hc with hl | hl
    · rw [termSum_congr (y := x) (fun t ht => if_pos (hl t ht))]
      exact hx.le c hc
    · rw [termSum_congr (y := y) (fun t ht => if_neg (hl t ht))]
      exact hy.le c hc
  · intro v hv
    split_ifs
    · exact hx.range v hv
    · exact hy.range v hv

/-- An optimal solution is optimal in both parts. -/
theorem Splits.parts (h : Splits L P) (hx : P.Maximum x) {a b : Exp}
    (hobj : ∀ z, termSum z P.objective = termSum z a + termSum z b) (ha : ∀ t ∈ a, L t.2) (hb : ∀ t ∈ b, ¬ L t.2)
    (hy : P.Feasible y) : termSum y a ≤ termSum x a ∧ termSum y b ≤ termSum x b := by
  classical
  have h1 := hx.best _ (h.merge hx.feasible hy)
  have h2 := hx.best _ (h.merge hy hx.feasible)
  rw [hobj, hobj, termSum_congr (y := x) (fun t ht => if_pos (ha t ht)),
    termSum_congr (y := y) (fun t ht => if_neg (hb t ht))] at h1
  rw [hobj, hobj, termSum_congr (y := y) (fun t ht => if_pos (ha t ht)),
    termSum_congr (y := x) (fun t ht => if_neg (hb t ht))] at h2
  constructor <;> linarith

/-! ### Constraints of a program -/

theorem of_addInequality {e : Exp} {b : ℚ} (h : (addInequality P e b).Feasible x) (hb : 0 ≤ b) :
    P.Feasible x ∧ termSum x e ≤ b := by
  unfold addInequality at h
  by_cases he : e.isEmpty = true
  · rw [if_pos he] at h
    refine ⟨h, ?_⟩
    rw [List.isEmpty_iff.1 he]
    exact hb
  · rw [if_neg he] at h
    exact ⟨⟨h.eq, fun c hc => h.le c (List.mem_append_left _ hc), h.integer, h.binary, h.range⟩,
      h.le (e, b) (List.mem_append_right _ (List.mem_singleton.2 rfl))⟩

theorem of_addEquality {e : Exp} (h : (addEquality P e 0).Feasible x) : P.Feasible x ∧ termSum x e = 0 := by
  unfold addEquality at h
  by_cases he : e.isEmpty = true
  · rw [if_pos he] at h
    refine ⟨h, ?_⟩
    rw [List.isEmpty_iff.1 he]
    rfl
  · rw [if_neg he] at h
    exact ⟨⟨fun c hc => h.eq c (List.mem_append_left _ hc), h.le, h.integer, h.binary, h.range⟩,
      h.eq (e, 0) (List.mem_append_right _ (List.mem_singleton.2 rfl))⟩

theorem of_foldl {α : Type} {f : Program → α → Program} {l : List α} {Q : α → Prop}
    (hf : ∀ a ∈ l, ∀ P : Program, (f P a).Feasible x → P.Feasible x ∧ Q a) :
    ∀ {P : Program}, (l.foldl f P).Feasible x → P.Feasible x ∧ ∀ a ∈ l, Q a := by
  induction l with
  | nil => intro P h; exact ⟨h, by simp⟩
  | cons a l ih =>
    intro P h
    obtain ⟨h1, h2⟩ := ih (fun b hb => hf b (List.mem_cons_of_mem _ hb)) h
    obtain ⟨h3, h4⟩ := hf a (List.mem_cons_self ..) P h1
    refine ⟨h3, fun b hb => ?_⟩
    rcases List.mem_cons.1 hb with rfl | hb
    · exact h4
    · exact h2 b hb

/-! ### Choosing items -/

/-- If at most `A` items in total are taken, in parts if need be, the largest whole ones are best. -/
theorem best_items {α : Type} [DecidableEq α] (I : Finset α) (f : α → ℕ) (A : ℕ) :
    ∃ T ⊆ I, T.card ≤ A ∧ ∀ w : α → ℚ, (∀ i ∈ I, 0 ≤ w i ∧ w i ≤ 1) → ∑ i ∈ I, w i ≤ A →
      ∑ i ∈ I, w i * f i ≤ ((∑ i ∈ T, f i : ℕ) : ℚ) := by
  by_cases hA : I.card ≤ A
  · refine ⟨I, Subset.refl _, hA, ?_⟩
    intro w hw _
    rw [Nat.cast_sum]
    apply sum_le_sum
    intro i hi
    have := (hw i hi).2
    have h2 : (0 : ℚ) ≤ f i := Nat.cast_nonneg _
    nlinarith
  push Not at hA
  have hne : (I.powersetCard A).Nonempty := powersetCard_nonempty.2 hA.le
  obtain ⟨T, hT, hmax⟩ := exists_max_image (I.powersetCard A) (fun T => ∑ i ∈ T, f i) hne
  obtain ⟨hTI, hTc⟩ := mem_powersetCard.1 hT
  refine ⟨T, hTI, hTc.le, ?_⟩
  have hrest : (I \ T).Nonempty := by
    rw [← card_pos, card_sdiff_of_subset hTI]
    omega
  obtain ⟨j, hj, hjmax⟩ := exists_max_image (I \ T) f hrest
  obtain ⟨hjI, hjT⟩ := mem_sdiff.1 hj
  have hbig : ∀ i ∈ T, f j ≤ f i := by
    intro i hi
    have h1 : insert j (T.erase i) ∈ I.powersetCard A := by
      rw [mem_powersetCard]
      constructor
      · intro a ha
        rcases mem_insert.1 ha with rfl | ha
        · exact hjI
        · exact hTI (mem_of_mem_erase ha)
      · rw [card_insert_of_notMem (fun h => hjT (mem_of_mem_erase h)), card_erase_of_mem hi, hTc]
        have : 0 < T.card := card_pos.2 ⟨i, hi⟩
        omega
    have h2 := hmax _ h1
    rw [sum_insert (fun h => hjT (mem_of_mem_erase h))] at h2
    have h3 := add_sum_erase T f hi
    omega
  intro w hw hA'
  have hsplit : ∀ g : α → ℚ, ∑ i ∈ I, g i = ∑ i ∈ T, g i + ∑ i ∈ I \ T, g i := by
    intro g
    rw [add_comm, sum_sdiff hTI]
  have h1 : ∑ i ∈ T, w i * f i ≤ ∑ i ∈ T, ((f i : ℚ) - f j + w i * f j) := by
    apply sum_le_sum
    intro i hi
    have h3 := (hw i (hTI hi)).2
    have h4 : (f j : ℚ) ≤ f i := by exact_mod_cast hbig i hi
    nlinarith
  have h2 : ∑ i ∈ I \ T, w i * f i ≤ ∑ i ∈ I \ T, w i * f j := by
    apply sum_le_sum
    intro i hi
    have h3 := (hw i (mem_sdiff.1 hi).1).1
    have h4 : (f i : ℚ) ≤ f j := by exact_mod_cast hjmax i hi
    nlinarith
  have h3 : ∑ i ∈ T, ((f i : ℚ) - f j + w i * f j) = ∑ i ∈ T, (f i : ℚ) - A * f j + (∑ i ∈ T, w i) * f j := by
    rw [sum_add_distrib, sum_sub_distrib, sum_const, nsmul_eq_mul, hTc, sum_mul]
  have h4 : ∑ i ∈ I \ T, w i * (f j : ℚ) = (∑ i ∈ I \ T, w i) * f j := by rw [sum_mul]
  rw [hsplit w] at hA'
  rw [hsplit, Nat.cast_sum]
  have h5 : (0 : ℚ) ≤ f j := Nat.cast_nonneg _
  nlinarith

end Verif.SR.Lp
