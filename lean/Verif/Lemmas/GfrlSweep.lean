/-
The sweep of `gfrl.py` over the slope changes finds a zero of the function.
-/
import Verif.Lemmas.GfrlBigS
import Verif.Lemmas.GelSolve

namespace Verif.Gfrl
open Verif.Spec Verif.Gel Finset

variable {n m : ℕ} {ts : Fin n → GTask}

/-- The change of the slope of `s`. -/
def ds : Change n → ℚ
  | .littleS _ _ _ p q => q - p
  | _ => 0

/-- `G_i` from `s` and `S_i`. -/
def Gf (m : ℕ) (ts : Fin n → GTask) (σ : ℚ → ℚ) (Sf : Fin n → ℚ → ℚ) (i : Fin n) (L : ℚ) : ℚ :=
  (σ L - ((ts i).cost : ℚ) / m) * util ts i + (ts i).cost - Sf i L

/-- The tasks present. -/
def present (st : State n) : Finset (Fin n) := univ.filter (fun i => st.pres i = true)

theorem mem_present {st : State n} {i : Fin n} : i ∈ present st ↔ st.pres i = true := by simp [present]

/-- A zero of the function. -/
def IsZero (m : ℕ) (ts : Fin n → GTask) (σ : ℚ → ℚ) (Sf : Fin n → ℚ → ℚ) (k : ℕ) (z : ℚ) : Prop :=
  0 ≤ z ∧ ∃ Q, Largest (fun i => Gf m ts σ Sf i z) k Q ∧ ∑ i ∈ Q, Gf m ts σ Sf i z + ∑ i, Sf i z - m * σ z = 0

/-- The variables of the loop describe the function from the current location on; `R` are the remaining changes. -/
structure Core (m : ℕ) (ts : Fin n → GTask) (σ : ℚ → ℚ) (Sf : Fin n → ℚ → ℚ) (k : ℕ) (R : List (Change n))
    (s sp : ℚ) (S Sp : Fin n → ℚ) (st : State n) : Prop where
  start : 0 ≤ st.next.loc
  sorted : R.Pairwise (fun c d => c.loc ≤ d.loc)
  later : ∀ c ∈ R, st.next.loc ≤ c.loc
  kinds : ∀ c ∈ R, c.kind < 2
  s_eq : ∀ L, st.next.loc ≤ L → σ L = s + sp * (L - st.next.loc) + (R.map (fun c => ds c * max 0 (L - c.loc))).sum
  S_eq : ∀ i L, st.next.loc ≤ L →
    Sf i L = S i + Sp i * (L - st.next.loc) + (R.map (fun c => dS i c * max 0 (L - c.loc))).sum
  G_eq : ∀ i, st.G i = (s - ((ts i).cost : ℚ) / m) * util ts i + (ts i).cost - S i
  Gs_eq : ∀ i, st.Gs i = sp * util ts i - Sp i
  value_eq : st.value = ∑ i ∈ present st, st.G i + ∑ i, S i - m * s
  slope_eq : st.slope = ∑ i ∈ present st, st.Gs i + ∑ i, Sp i - m * sp
  value_nonneg : 0 ≤ st.value
  card : (present st).card = min k n
  top : ∀ i j, st.pres i = true → st.pres j = false → st.G j ≤ st.G i

section
variable {σ : ℚ → ℚ} {Sf : Fin n → ℚ → ℚ} {k : ℕ} {R : List (Change n)} {s sp : ℚ} {S Sp : Fin n → ℚ} {st : State n}

/-- The function up to the next change. -/
theorem Core.G_at (h : Core m ts σ Sf k R s sp S Sp st) {L : ℚ} (hL : st.next.loc ≤ L) (hR : ∀ c ∈ R, L ≤ c.loc) (i : Fin n) :
    Gf m ts σ Sf i L = st.G i + (L - st.next.loc) * st.Gs i := by
  unfold Gf
  rw [h.s_eq L hL, h.S_eq i L hL, sum_pos_zero (g := Change.loc) hR, sum_pos_zero (g := Change.loc) hR, h.G_eq, h.Gs_eq]
  ring

theorem sum_line (Q : Finset (Fin n)) (a b : Fin n → ℚ) (x : ℚ) :
    ∑ i ∈ Q, (a i + x * b i) = ∑ i ∈ Q, a i + x * ∑ i ∈ Q, b i := by
  rw [sum_add_distrib, mul_sum]

theorem Core.value_at (h : Core m ts σ Sf k R s sp S Sp st) {L : ℚ} (hL : st.next.loc ≤ L) (hR : ∀ c ∈ R, L ≤ c.loc) :
    ∑ i ∈ present st, Gf m ts σ Sf i L + ∑ i, Sf i L - m * σ L = st.value + (L - st.next.loc) * st.slope := by
  have e1 : ∑ i ∈ present st, Gf m ts σ Sf i L = ∑ i ∈ present st, (st.G i + (L - st.next.loc) * st.Gs i) :=
    sum_congr rfl fun i _ => h.G_at hL hR i
  have e2 : ∑ i, Sf i L = ∑ i, (S i + (L - st.next.loc) * Sp i) := by
    refine sum_congr rfl fun i _ => ?_
    rw [h.S_eq i L hL, sum_pos_zero (g := Change.loc) hR]
    ring
  rw [e1, e2, sum_line, sum_line, h.s_eq L hL, sum_pos_zero (g := Change.loc) hR, h.value_eq, h.slope_eq]
  ring

/-- A zero before the next change, if the tasks present stay the largest. -/
theorem Core.zero (h : Core m ts σ Sf k R s sp S Sp st) {L : ℚ} (hL : st.next.loc ≤ L) (hR : ∀ c ∈ R, L ≤ c.loc)
    (htop : ∀ i j, st.pres i = true → st.pres j = false →
      st.G j + (L - st.next.loc) * st.Gs j ≤ st.G i + (L - st.next.loc) * st.Gs i)
    (hz : st.value + (L - st.next.loc) * st.slope = 0) : IsZero m ts σ Sf k L := by
  refine ⟨h.start.trans hL, present st, ⟨h.card, fun i hi j hj => ?_⟩, ?_⟩
  · rw [mem_present] at hi hj
    beta_reduce
    rw [h.G_at hL hR, h.G_at hL hR]
    exact htop i j hi (by simpa using hj)
  · rw [h.value_at hL hR, hz]

/-- Moving on. -/
theorem Core.advance (h : Core m ts σ Sf k R s sp S Sp st) {c : Change n} (hL : st.next.loc ≤ c.loc)
    (hR : ∀ d ∈ R, c.loc ≤ d.loc) (hv : 0 ≤ st.value + (c.loc - st.next.loc) * st.slope)
    (htop : ∀ i j, st.pres i = true → st.pres j = false →
      st.G j + (c.loc - st.next.loc) * st.Gs j ≤ st.G i + (c.loc - st.next.loc) * st.Gs i) (ri : ℕ) (gs : List (Change n)) :
    Core m ts σ Sf k R (s + sp * (c.loc - st.next.loc)) sp (fun i => S i + Sp i * (c.loc - st.next.loc)) Sp
      { Gfrl.advance st c.loc with rindex := ri, gs := gs, next := c } := by
  refine ⟨h.start.trans hL, h.sorted, hR, h.kinds, ?_, ?_, ?_, h.Gs_eq, ?_, h.slope_eq, hv, h.card, htop⟩
  · intro L hl
    rw [h.s_eq L (hL.trans hl)]
    ring
  · intro i L hl
    rw [h.S_eq i L (hL.trans hl)]
    ring
  · intro i
    show st.G i + (c.loc - st.next.loc) * st.Gs i = _
    rw [h.G_eq, h.Gs_eq]
    ring
  · show st.value + (c.loc - st.next.loc) * st.slope = ∑ i ∈ present st, (st.G i + (c.loc - st.next.loc) * st.Gs i) +
      ∑ i, (S i + Sp i * (c.loc - st.next.loc)) - m * (s + sp * (c.loc - st.next.loc))
    have e2 : ∑ i, (S i + Sp i * (c.loc - st.next.loc)) = ∑ i, (S i + (c.loc - st.next.loc) * Sp i) :=
      sum_congr rfl fun i _ => by ring
    rw [e2, sum_line, sum_line, h.value_eq, h.slope_eq]
    ring

theorem ite_sum (Q : Finset (Fin n)) (i : Fin n) (x : ℚ) : ∑ k ∈ Q, (if k = i then x else 0) = if i ∈ Q then x else 0 :=
  Finset.sum_ite_eq' Q i (fun _ => x)

/-- What a change of a slope does. -/
theorem apply_slope (st : State n) {c : Change n} (hc : c.kind < 2) :
    (apply m ts st c).pres = st.pres ∧ (apply m ts st c).G = st.G ∧ (apply m ts st c).value = st.value ∧
    (apply m ts st c).rindex = st.rindex ∧ (apply m ts st c).gs = st.gs ∧ (apply m ts st c).next = st.next ∧
    (∀ i, (apply m ts st c).Gs i = st.Gs i + ds c * util ts i - dS i c) ∧
    (apply m ts st c).slope = st.slope + ∑ i, dS i c - m * ds c + ∑ i ∈ present st, (ds c * util ts i - dS i c) := by
  cases c with
  | bigS l i p q =>
    refine ⟨rfl, rfl, rfl, rfl, rfl, rfl, ?_, ?_⟩
    · intro k
      show (if k = i then st.Gs k - (q - p) else st.Gs k) = _
      simp only [ds, dS, eq_comm (a := i)]
      split_ifs <;> ring
    · show st.slope + (q - p) - (if st.pres i = true then q - p else 0) = _
      have e : ∀ Q : Finset (Fin n), ∑ k ∈ Q, dS k (.bigS l i p q) = if i ∈ Q then q - p else 0 := by
        intro Q
        rw [← ite_sum Q i (q - p)]
        refine sum_congr rfl fun k _ => ?_
        simp only [dS, eq_comm (a := i)]
      rw [sum_sub_distrib, e, e]
      simp only [ds, zero_mul, sum_const_zero, mem_univ, if_true, mem_present]
      ring
  | littleS l i j p q =>
    refine ⟨rfl, rfl, rfl, rfl, rfl, rfl, ?_, ?_⟩
    · intro k
      show st.Gs k + util ts k * (q - p) = _
      simp only [ds, dS]
      ring
    · show st.slope + -1 * m * (q - p) +
        ((List.finRange n).map (fun i => if st.pres i = true then util ts i * (q - p) else 0)).sum = _
      rw [← List.sum_toFinset _ (List.nodup_finRange n), List.toFinset_finRange, ← sum_filter]
      simp only [ds, dS, sum_const_zero, sub_zero]
      have : ∑ a ∈ univ.filter (fun a => st.pres a = true), util ts a * (q - p) =
          ∑ a ∈ present st, (q - p) * util ts a := sum_congr rfl fun a _ => by ring
      rw [this]
      ring
  | bigG l i j p q => simp [Change.kind] at hc
  | dummy l => simp [Change.kind] at hc

/-- Passing a change of a slope. -/
theorem Core.apply_slope {c : Change n} (h : Core m ts σ Sf k (c :: R) s sp S Sp st) (hl : st.next.loc = c.loc) :
    Core m ts σ Sf k R s (sp + ds c) S (fun i => Sp i + dS i c) (apply m ts st c) := by
  obtain ⟨e1, e2, e3, -, -, e6, e7, e8⟩ := Gfrl.apply_slope (m := m) (ts := ts) st (h.kinds c List.mem_cons_self)
  have ep : present (apply m ts st c) = present st := by unfold present; rw [e1]
  have hs := List.pairwise_cons.1 h.sorted
  refine ⟨by rw [e6]; exact h.start, hs.2, by rw [e6, hl]; exact hs.1,
    fun d hd => h.kinds d (List.mem_cons_of_mem _ hd), ?_, ?_, by rw [e2]; exact h.G_eq, ?_, ?_, ?_, by rw [e3]; exact h.value_nonneg,
    by rw [ep]; exact h.card, by rw [e1, e2]; exact h.top⟩
  · intro L hL
    rw [e6] at hL ⊢
    rw [h.s_eq L hL, List.map_cons, List.sum_cons, max_eq_right (show 0 ≤ L - c.loc by linarith), hl]
    ring
  · intro i L hL
    rw [e6] at hL ⊢
    rw [h.S_eq i L hL, List.map_cons, List.sum_cons, max_eq_right (show 0 ≤ L - c.loc by linarith), hl]
    ring
  · intro i
    rw [e7, h.Gs_eq]
    ring
  · rw [ep, e2, e3]; exact h.value_eq
  · rw [ep, e8, h.slope_eq, sum_congr rfl (fun i _ => e7 i), sum_add_distrib (f := fun i => Sp i)]
    have : ∑ i ∈ present st, (st.Gs i + ds c * util ts i - dS i c) =
        ∑ i ∈ present st, st.Gs i + ∑ i ∈ present st, (ds c * util ts i - dS i c) := by
      rw [← sum_add_distrib]
      exact sum_congr rfl fun i _ => by ring
    rw [this]
    ring

/-- Exchanging two tasks. -/
theorem Core.apply_swap (h : Core m ts σ Sf k R s sp S Sp st) {i j : Fin n} {l : ℚ} (hG : st.G j = st.G i) :
    Core m ts σ Sf k R s sp S Sp (apply m ts st (.bigG l i j (st.Gs i) (st.Gs j))) := by
  classical
  unfold apply
  simp only
  by_cases hsw : st.pres i = true ∧ st.pres j = false
  · rw [if_pos hsw]
    have hne : i ≠ j := by
      rintro rfl
      rw [hsw.1] at hsw
      simp at hsw
    generalize hst : ({ st with
        pres := fun k => if k = j then true else if k = i then false else st.pres k
        slope := st.slope - st.Gs i + st.Gs j } : State n) = st'
    have hpres : ∀ a, st'.pres a = if a = j then true else if a = i then false else st.pres a := by intro a; rw [← hst]
    have hG' : st'.G = st.G := by rw [← hst]
    have hGs' : st'.Gs = st.Gs := by rw [← hst]
    have hn' : st'.next = st.next := by rw [← hst]
    have hv' : st'.value = st.value := by rw [← hst]
    have hsl' : st'.slope = st.slope - st.Gs i + st.Gs j := by rw [← hst]
    have hset : present st' = insert j ((present st).erase i) := by
      ext a
      rw [mem_present, hpres, mem_insert, mem_erase, mem_present]
      by_cases h1 : a = j
      · simp [h1]
      · by_cases h2 : a = i
        · simp [h2, hne]
        · simp [h1, h2]
    have hnotin : j ∉ (present st).erase i := by
      rw [mem_erase, mem_present, hsw.2]; simp
    have hin : i ∈ present st := mem_present.2 hsw.1
    have hsum : ∀ g : Fin n → ℚ, ∑ a ∈ present st', g a = ∑ a ∈ present st, g a - g i + g j := by
      intro g
      rw [hset, sum_insert hnotin, sum_erase_eq_sub hin]
      ring
    refine ⟨by rw [hn']; exact h.start, h.sorted, by rw [hn']; exact h.later, h.kinds, by rw [hn']; exact h.s_eq,
      by rw [hn']; exact h.S_eq, by rw [hG']; exact h.G_eq, by rw [hGs']; exact h.Gs_eq, ?_, ?_,
      by rw [hv']; exact h.value_nonneg, ?_, ?_⟩
    · rw [hsum, hG', hv', hG, h.value_eq]; ring
    · rw [hsum, hGs', hsl', h.slope_eq]; ring
    · rw [hset, card_insert_of_notMem hnotin, card_erase_of_mem hin]
      have : 0 < (present st).card := card_pos.2 ⟨_, hin⟩
      rw [← h.card]
      omega
    · intro a b ha hb
      rw [hpres] at ha hb
      rw [hG']
      split_ifs at ha with h1 h2
      · subst h1
        split_ifs at hb with h3 h4
        · subst h4; exact hG.ge
        · rw [hG]; exact h.top _ _ hsw.1 hb
      · split_ifs at hb with h3 h4
        · subst h4; rw [← hG]; exact h.top _ _ ha hsw.2
        · exact h.top _ _ ha hb
  · rw [if_neg hsw]; exact h

/-! ### Changes of the order -/

/-- The remaining exchanges `pend` until `bound`: `Y` are the lines through the values. -/
structure Pend (Y : Fin n → ℚ) (l₀ : ℚ) (bound : Option ℚ) (all pend : List (Change n)) (st : State n) : Prop where
  line : ∀ i, st.G i = Y i + st.Gs i * st.next.loc
  base : l₀ ≤ st.next.loc
  sorted : all.Pairwise swapLe
  mem : ∀ i j, st.Gs i < st.Gs j → l₀ ≤ cross Y st.Gs i j → (∀ b, bound = some b → cross Y st.Gs i j < b) →
    Change.bigG (cross Y st.Gs i j) i j (st.Gs i) (st.Gs j) ∈ all
  only : ∀ c ∈ all, (∀ b, bound = some b → c.loc < b) ∧ ∃ i j, st.Gs i < st.Gs j ∧
    c = .bigG (cross Y st.Gs i j) i j (st.Gs i) (st.Gs j)
  suffix : pend <:+ all
  later : ∀ c ∈ pend, st.next.loc ≤ c.loc
  todo : ∀ i j, st.pres i = true → st.pres j = false → st.Gs i < st.Gs j →
    (∀ b, bound = some b → cross Y st.Gs i j < b) →
    Change.bigG (cross Y st.Gs i j) i j (st.Gs i) (st.Gs j) ∈ pend

variable {Y : Fin n → ℚ} {l₀ : ℚ} {bound : Option ℚ} {all pend : List (Change n)}

/-- The tasks present stay the largest until the next exchange. -/
theorem Pend.top_until (h : Pend Y l₀ bound all pend st)
    (htop : ∀ i j, st.pres i = true → st.pres j = false → st.G j ≤ st.G i) {t : ℚ} (ht : st.next.loc ≤ t)
    (hb : ∀ b, bound = some b → t ≤ b) (hp : ∀ c ∈ pend, t ≤ c.loc) (i j : Fin n) (hi : st.pres i = true)
    (hj : st.pres j = false) :
    st.G j + (t - st.next.loc) * st.Gs j ≤ st.G i + (t - st.next.loc) * st.Gs i := by
  have e : ∀ i, st.G i + (t - st.next.loc) * st.Gs i = Y i + st.Gs i * t := by intro i; rw [h.line]; ring
  rcases le_or_gt (st.Gs j) (st.Gs i) with hle | hlt
  · have h1 := htop i j hi hj
    have h2 := mul_le_mul_of_nonneg_left hle (show 0 ≤ t - st.next.loc by linarith)
    linarith
  · rw [e, e]
    apply below_cross hlt
    by_cases hc : ∀ b, bound = some b → cross Y st.Gs i j < b
    · exact hp _ (h.todo i j hi hj hlt hc)
    · push Not at hc
      obtain ⟨b, hb1, hb2⟩ := hc
      exact (hb b hb1).trans hb2

theorem later_of_swap {rest : List (Change n)} {r e : Change n} (hs : all.Pairwise swapLe)
    (hsuf : (r :: rest) <:+ all) (he : e ∈ all) (hk : ¬ swapLe e r) : e ∈ rest := by
  obtain ⟨pre, rfl⟩ := hsuf
  rw [List.pairwise_append] at hs
  rcases List.mem_append.1 he with h | h
  · exact absurd (hs.2.2 e h r List.mem_cons_self) hk
  · rcases List.mem_cons.1 h with h | h
    · subst h
      exact absurd (Or.inr ⟨rfl, le_rfl⟩) hk
    · exact h

/-- Passing an exchange. -/
theorem Pend.step (h : Pend Y l₀ bound all (g :: pend) st)
    (htop : ∀ i j, st.pres i = true → st.pres j = false → st.G j ≤ st.G i) (ri : ℕ) (gs : List (Change n)) :
    (∃ i j, g = .bigG g.loc i j (st.Gs i) (st.Gs j) ∧
      st.G j + (g.loc - st.next.loc) * st.Gs j = st.G i + (g.loc - st.next.loc) * st.Gs i) ∧
    Pend Y l₀ bound all pend (apply m ts { Gfrl.advance st g.loc with rindex := ri, gs := gs, next := g } g) := by
  classical
  obtain ⟨hgb, i, j, hij, hg⟩ := h.only g (h.suffix.subset List.mem_cons_self)
  have hgl : g.loc = cross Y st.Gs i j := by rw [hg]; rfl
  have hkey : ∀ e ∈ pend, swapLe g e := by
    have := h.sorted.sublist h.suffix.sublist
    exact (List.pairwise_cons.1 this).1
  have hloc : ∀ e ∈ pend, g.loc ≤ e.loc := by
    intro e he
    rcases hkey e he with h1 | h1
    · exact h1.le
    · exact h1.1.le
  have hlocs : ∀ e ∈ g :: pend, g.loc ≤ e.loc := by
    intro e he
    rcases List.mem_cons.1 he with rfl | he
    · exact le_rfl
    · exact hloc e he
  have hsr : st.next.loc ≤ g.loc := h.later g List.mem_cons_self
  have hsuf : pend <:+ all := (List.suffix_cons g pend).trans h.suffix
  have e : ∀ i, st.G i + (g.loc - st.next.loc) * st.Gs i = Y i + st.Gs i * g.loc := by intro i; rw [h.line]; ring
  have htop' : ∀ i j, st.pres i = true → st.pres j = false → Y j + st.Gs j * g.loc ≤ Y i + st.Gs i * g.loc := by
    intro i j hi hj
    have := h.top_until htop hsr (fun b hb => (hgb b hb).le) hlocs i j hi hj
    rw [e, e] at this
    exact this
  have heq : Y j + st.Gs j * g.loc = Y i + st.Gs i * g.loc := by rw [hgl]; exact at_cross hij
  refine ⟨⟨i, j, by rw [hgl]; exact hg, by rw [e, e]; exact heq⟩, ?_⟩
  have hl0 : l₀ ≤ g.loc := h.base.trans hsr
  have hs1 : g.slope1 = st.Gs i := by rw [hg]; rfl
  -- the new state
  generalize hst : apply m ts { Gfrl.advance st g.loc with rindex := ri, gs := gs, next := g } g = st'
  have hGs' : st'.Gs = st.Gs := by
    rw [← hst, hg]; unfold apply; simp only; split_ifs <;> rfl
  have hn' : st'.next = g := by
    rw [← hst, hg]; unfold apply; simp only; split_ifs <;> rfl
  have hG' : ∀ a, st'.G a = st.G a + (g.loc - st.next.loc) * st.Gs a := by
    rw [← hst, hg]; unfold apply; simp only; split_ifs <;> exact fun _ => rfl
  have hpres : ∀ a, st'.pres a = if st.pres i = true ∧ st.pres j = false then
      (if a = j then true else if a = i then false else st.pres a) else st.pres a := by
    intro a
    rw [← hst, hg]; unfold apply; simp only
    by_cases hsw : st.pres i = true ∧ st.pres j = false
    · rw [if_pos hsw, if_pos (show (advance st _).pres i = true ∧ (advance st _).pres j = false from hsw)]; rfl
    · rw [if_neg hsw, if_neg (show ¬ ((advance st _).pres i = true ∧ (advance st _).pres j = false) from hsw)]; rfl
  refine ⟨fun a => by rw [hG', hGs', hn', e], by rw [hn']; exact hl0, h.sorted, by rw [hGs']; exact h.mem, by rw [hGs']; exact h.only,
    hsuf, by rw [hn']; exact hloc, ?_⟩
  rw [hGs']
  intro a b ha hb hab hbd
  rw [hpres] at ha hb
  by_cases hsw : st.pres i = true ∧ st.pres j = false
  · rw [if_pos hsw] at ha hb
    split_ifs at hb with h3 h4
    · subst h4
      split_ifs at ha with h1
      · subst h1; exact absurd hab (not_lt.2 hij.le)
      · -- a present line against the one removed
        have hin2 : st.Gs a < st.Gs j := hab.trans hij
        have h4 : g.loc < cross Y st.Gs a b := by
          by_cases hbd' : ∀ c, bound = some c → cross Y st.Gs a j < c
          · have h1' := h.todo a j ha hsw.2 hin2 hbd'
            rcases List.mem_cons.1 h1' with h2' | h2'
            · rw [hg] at h2'
              injection h2' with _ h5
              exact absurd h5 (by assumption)
            · have h3' : g.loc < cross Y st.Gs a j := by
                rcases hkey _ h2' with h3' | ⟨_, h3'⟩
                · exact h3'
                · rw [hs1] at h3'
                  have : st.Gs b ≤ st.Gs a := h3'
                  linarith
              unfold cross at h3' ⊢
              rw [lt_div_iff₀ (by linarith)] at h3' ⊢
              linarith
          · push Not at hbd'
            obtain ⟨c, hc1, hc2⟩ := hbd'
            have h3' : g.loc < cross Y st.Gs a j := (hgb c hc1).trans_le hc2
            unfold cross at h3' ⊢
            rw [lt_div_iff₀ (by linarith)] at h3' ⊢
            linarith
        apply later_of_swap h.sorted h.suffix (h.mem a b hab (hl0.trans h4.le) hbd)
        rintro (h5 | ⟨h5, _⟩)
        · exact absurd h5 (not_lt.2 h4.le)
        · exact absurd h5 (ne_of_gt h4)
    · split_ifs at ha with h1 h2
      · -- the new line against an absent one
        subst h1
        have hle : g.loc ≤ cross Y st.Gs a b := le_cross hab (by rw [heq]; exact htop' _ _ hsw.1 hb)
        apply later_of_swap h.sorted h.suffix (h.mem a b hab (hl0.trans hle) hbd)
        rintro (h5 | ⟨_, h5⟩)
        · exact absurd h5 (not_lt.2 hle)
        · rw [hs1] at h5
          have : st.Gs a ≤ st.Gs i := h5
          linarith
      · rcases List.mem_cons.1 (h.todo a b ha hb hab hbd) with h2' | h2'
        · rw [hg] at h2'
          injection h2' with _ h5
          exact absurd h5 h2
        · exact h2'
  · rw [if_neg hsw] at ha hb
    rcases List.mem_cons.1 (h.todo a b ha hb hab hbd) with h2 | h2
    · rw [hg] at h2
      injection h2 with _ h5 h6
      subst h5 h6
      exact absurd ⟨ha, hb⟩ hsw
    · exact h2

theorem Pend.bounded (h : Pend Y l₀ bound all (g :: pend) st) : ∀ b, bound = some b → g.loc ≤ b :=
  fun b hb => ((h.only g (h.suffix.subset List.mem_cons_self)).1 b hb).le

instance swapLe_total : Std.Total (swapLe (n := n)) := ⟨fun a b => by
  unfold swapLe
  rcases lt_trichotomy a.loc b.loc with h | h | h
  · exact Or.inl (Or.inl h)
  · rcases le_total a.slope1 b.slope1 with h' | h'
    · exact Or.inl (Or.inr ⟨h, h'⟩)
    · exact Or.inr (Or.inr ⟨h.symm, h'⟩)
  · exact Or.inr (Or.inl h)⟩

instance swapLe_trans : IsTrans (Change n) swapLe := ⟨fun a b c h1 h2 => by
  unfold swapLe at *
  rcases h1 with h1 | ⟨h1, h1'⟩ <;> rcases h2 with h2 | ⟨h2, h2'⟩
  · exact Or.inl (h1.trans h2)
  · exact Or.inl (by rw [← h2]; exact h1)
  · exact Or.inl (by rw [h1]; exact h2)
  · exact Or.inr ⟨h1.trans h2, h1'.trans h2'⟩⟩

theorem swapOf_eq {G Gs : Fin n → ℚ} {l : ℚ} {i j : Fin n} (h : Gs i ≠ Gs j) :
    (G j - G i) / (Gs i - Gs j) + l = cross (fun i => G i - Gs i * l) Gs i j := by
  unfold cross
  have h1 : Gs i - Gs j ≠ 0 := sub_ne_zero.2 h
  have h2 : Gs j - Gs i ≠ 0 := sub_ne_zero.2 (Ne.symm h)
  have : Gs i - Gs j = -(Gs j - Gs i) := by ring
  rw [this, div_neg]
  field_simp
  ring

theorem cross_comm {Y u : Fin n → ℚ} (i j : Fin n) : cross Y u i j = cross Y u j i := by
  unfold cross
  rw [← neg_sub (Y j), ← neg_sub (u i), neg_div_neg_eq]

theorem all_iff {x : ℚ} : (bound.all (fun b => decide (x < b))) = true ↔ ∀ b, bound = some b → x < b := by
  cases bound <;> simp

/-- The exchanges that the code finds. -/
theorem pend_swaps (htop : ∀ i j, st.pres i = true → st.pres j = false → st.G j ≤ st.G i) :
    Pend (fun i => st.G i - st.Gs i * st.next.loc) st.next.loc bound (swaps st.G st.Gs st.next.loc bound)
      (swaps st.G st.Gs st.next.loc bound) st := by
  have hmem : ∀ c, c ∈ swaps st.G st.Gs st.next.loc bound ↔
      ∃ i j, i < j ∧ swapOf st.G st.Gs st.next.loc bound i j = some c := by
    intro c
    unfold swaps
    rw [List.mem_insertionSort, List.mem_flatMap]
    simp only [List.mem_finRange, true_and, List.mem_filterMap, List.mem_filter, decide_eq_true_eq]
  generalize hY : (fun i => st.G i - st.Gs i * st.next.loc) = Y
  have hcross : ∀ i j, st.Gs i ≠ st.Gs j → (st.G j - st.G i) / (st.Gs i - st.Gs j) + st.next.loc = cross Y st.Gs i j := by
    intro i j h
    rw [← hY]
    exact swapOf_eq h
  have hin : ∀ i j, st.Gs i < st.Gs j → st.next.loc ≤ cross Y st.Gs i j → (∀ b, bound = some b → cross Y st.Gs i j < b) →
      Change.bigG (cross Y st.Gs i j) i j (st.Gs i) (st.Gs j) ∈ swaps st.G st.Gs st.next.loc bound := by
    intro i j hij h1 h2
    rw [hmem]
    rcases lt_trichotomy i j with h | h | h
    · refine ⟨i, j, h, ?_⟩
      unfold swapOf
      rw [if_pos hij.ne]
      simp only
      rw [hcross i j hij.ne, if_pos ⟨h1, all_iff.2 h2⟩, if_pos hij]
    · subst h; exact absurd hij (lt_irrefl _)
    · refine ⟨j, i, h, ?_⟩
      unfold swapOf
      rw [if_pos hij.ne']
      simp only
      rw [hcross j i hij.ne', cross_comm, if_pos ⟨h1, all_iff.2 h2⟩, if_neg (not_lt.2 hij.le)]
  have honly : ∀ c ∈ swaps st.G st.Gs st.next.loc bound, st.next.loc ≤ c.loc ∧ (∀ b, bound = some b → c.loc < b) ∧
      ∃ i j, st.Gs i < st.Gs j ∧ c = .bigG (cross Y st.Gs i j) i j (st.Gs i) (st.Gs j) := by
    intro c hc
    obtain ⟨i, j, -, h⟩ := (hmem c).1 hc
    unfold swapOf at h
    simp only at h
    split_ifs at h with h1 h2 h3
    · rw [Option.some_inj] at h
      rw [hcross i j h1] at h h2
      subst h
      exact ⟨h2.1, all_iff.1 h2.2, i, j, h3, rfl⟩
    · rw [Option.some_inj] at h
      rw [hcross i j h1] at h h2
      subst h
      exact ⟨h2.1, all_iff.1 h2.2, j, i, lt_of_le_of_ne (not_lt.1 h3) (Ne.symm h1), by rw [cross_comm]⟩
  refine ⟨fun i => by rw [← hY]; ring, le_rfl, ?_, hin, fun c hc => (honly c hc).2, List.suffix_refl _,
    fun c hc => (honly c hc).1, ?_⟩
  · unfold swaps; exact List.pairwise_insertionSort _ _
  · intro i j hi hj hij hb
    refine hin i j hij (le_cross hij ?_) hb
    have := htop i j hi hj
    rw [← hY]
    linarith

end

end Verif.Gfrl
