/-
The loop of `gfrl.py` ends with a zero of the function.
-/
import Verif.Lemmas.GfrlSweep

namespace Verif.Gfrl
open Verif.Spec Verif.Gel Finset

variable {n m : ℕ} {ts : Fin n → GTask}
variable {σ : ℚ → ℚ} {Sf : Fin n → ℚ → ℚ} {k : ℕ} {R : List (Change n)} {s sp : ℚ} {S Sp : Fin n → ℚ} {st : State n}
variable {slopes : List (Change n)}

/-- The end of a segment. -/
theorem zeroOf_spec (hv : 0 ≤ st.value) {L : ℚ} (hL : st.next.loc ≤ L) :
    (∃ z, zeroOf st = some z ∧ ¬ z > L ∧ st.next.loc ≤ z ∧ st.value + (z - st.next.loc) * st.slope = 0) ∨
    ((∀ z, zeroOf st = some z → z > L) ∧ 0 ≤ st.value + (L - st.next.loc) * st.slope) := by
  unfold zeroOf
  by_cases hs : st.slope ≠ 0
  · rw [if_pos hs]
    simp only
    have e : st.value / st.slope * st.slope = st.value := div_mul_cancel₀ _ hs
    by_cases hz : st.next.loc - st.value / st.slope < st.next.loc
    · rw [if_pos hz]
      right
      refine ⟨by simp, ?_⟩
      have hpos : 0 < st.slope := by
        by_contra hc
        have := div_nonpos_of_nonneg_of_nonpos hv (not_lt.1 hc)
        linarith
      have := mul_nonneg (show 0 ≤ L - st.next.loc by linarith) hpos.le
      linarith
    · rw [if_neg hz]
      push Not at hz
      by_cases hzL : st.next.loc - st.value / st.slope > L
      · right
        refine ⟨fun z h => by cases h; exact hzL, ?_⟩
        have hneg : st.slope < 0 := by
          rcases lt_or_gt_of_ne hs with h | h
          · exact h
          · have := div_nonneg hv h.le
            linarith
        have := mul_le_mul_of_nonpos_right (show L - st.next.loc ≤ -(st.value / st.slope) by linarith) hneg.le
        linarith
      · exact Or.inl ⟨_, rfl, hzL, hz, by linarith⟩
  · rw [if_neg hs]
    push Not at hs
    right
    exact ⟨by simp, by rw [hs]; linarith⟩

/-- One round with a next change. -/
theorem loop_step {c : Change n} {ri : ℕ} {gs : List (Change n)} (hch : choose slopes st = .ok (some c, ri, gs))
    (hv : 0 ≤ st.value) (hL : st.next.loc ≤ c.loc) :
    (∃ z, st.next.loc ≤ z ∧ z ≤ c.loc ∧ st.value + (z - st.next.loc) * st.slope = 0 ∧
      ∀ fuel, traceLoop m ts slopes (fuel + 1) st = some (.ok z)) ∨
    (0 ≤ st.value + (c.loc - st.next.loc) * st.slope ∧ ∀ fuel, traceLoop m ts slopes (fuel + 1) st =
      traceLoop m ts slopes fuel (apply m ts { Gfrl.advance st c.loc with rindex := ri, gs := gs, next := c } c)) := by
  rcases zeroOf_spec hv hL with ⟨z, h1, h2, h3, h4⟩ | ⟨h1, h2⟩
  · refine Or.inl ⟨z, h3, not_lt.1 h2, h4, fun fuel => ?_⟩
    rw [traceLoop, hch]
    simp only [h1]
    rw [if_neg h2]
  · refine Or.inr ⟨h2, fun fuel => ?_⟩
    rw [traceLoop, hch]
    rcases hz : zeroOf st with _ | z
    · rfl
    · simp only
      rw [if_pos (h1 z hz)]

/-- The last round. -/
theorem loop_end {ri : ℕ} {gs : List (Change n)} (hch : choose slopes st = .ok (none, ri, gs)) (hv : 0 ≤ st.value)
    (hs : st.slope < 0) : ∃ z, st.next.loc ≤ z ∧ st.value + (z - st.next.loc) * st.slope = 0 ∧
      ∀ fuel, traceLoop m ts slopes (fuel + 1) st = some (.ok z) := by
  have hz : zeroOf st = some (st.next.loc - st.value / st.slope) := by
    unfold zeroOf
    rw [if_pos hs.ne]
    simp only
    rw [if_neg]
    have := div_nonpos_of_nonneg_of_nonpos hv hs.le
    linarith
  have h1 := div_nonpos_of_nonneg_of_nonpos hv hs.le
  have e : st.value / st.slope * st.slope = st.value := div_mul_cancel₀ _ hs.ne
  refine ⟨st.next.loc - st.value / st.slope, by linarith, by linarith, fun fuel => ?_⟩
  rw [traceLoop, hch]
  simp only [hz]

/-- The function decreases. -/
def Decreasing (m : ℕ) (ts : Fin n → GTask) (σ : ℚ → ℚ) (Sf : Fin n → ℚ → ℚ) (k : ℕ) : Prop :=
  ∀ L L' Q Q', 0 ≤ L → L < L' → Largest (fun i => Gf m ts σ Sf i L) k Q → Largest (fun i => Gf m ts σ Sf i L') k Q' →
    ∑ i ∈ Q', Gf m ts σ Sf i L' + ∑ i, Sf i L' - m * σ L' < ∑ i ∈ Q, Gf m ts σ Sf i L + ∑ i, Sf i L - m * σ L

theorem Core.slope_neg (hdec : Decreasing m ts σ Sf k) (h : Core m ts σ Sf k [] s sp S Sp st)
    (htop : ∀ t, st.next.loc ≤ t → ∀ i j, st.pres i = true → st.pres j = false →
      st.G j + (t - st.next.loc) * st.Gs j ≤ st.G i + (t - st.next.loc) * st.Gs i) : st.slope < 0 := by
  have hlarge : ∀ t, st.next.loc ≤ t → Largest (fun i => Gf m ts σ Sf i t) k (present st) := by
    intro t ht
    refine ⟨h.card, fun i hi j hj => ?_⟩
    rw [mem_present] at hi hj
    beta_reduce
    rw [h.G_at ht (by simp), h.G_at ht (by simp)]
    exact htop t ht i j hi (by simpa using hj)
  have := hdec st.next.loc (st.next.loc + 1) _ _ h.start (by linarith) (hlarge _ le_rfl) (hlarge _ (by linarith))
  rw [h.value_at (by linarith) (by simp), h.value_at le_rfl (by simp)] at this
  linarith

/-- The loop ends with a zero. -/
def Done (m : ℕ) (ts : Fin n → GTask) (σ : ℚ → ℚ) (Sf : Fin n → ℚ → ℚ) (k : ℕ) (slopes : List (Change n)) (st : State n) :
    Prop :=
  ∃ fuel z, traceLoop m ts slopes fuel st = some (.ok z) ∧ IsZero m ts σ Sf k z

/-- The next location at which a slope changes. -/
def nextLoc (R : List (Change n)) : Option ℚ := R.head?.map Change.loc

theorem drop_cons {c : Change n} {i : ℕ} (h : slopes.drop i = c :: R) : slopes[i]? = some c ∧ slopes.drop (i + 1) = R := by
  constructor
  · rw [← List.head?_drop, h]; rfl
  · rw [← List.tail_drop, h]; rfl

theorem drop_nil {i : ℕ} (h : slopes.drop i = []) : slopes[i]? = none := by
  rw [← List.head?_drop, h]; rfl

/-- The next change is a change of a slope. -/
theorem slope_round {c : Change n} (ih : ∀ s sp S Sp st, Core m ts σ Sf k R s sp S Sp st → slopes.drop st.rindex = R →
      st.gs = [] → st.next.kind ≠ 2 → Done m ts σ Sf k slopes st)
    (h : Core m ts σ Sf k (c :: R) s sp S Sp st) (hd : slopes.drop st.rindex = c :: R)
    (hch : choose slopes st = .ok (some c, st.rindex + 1, []))
    (htop : ∀ t, st.next.loc ≤ t → t ≤ c.loc → ∀ i j, st.pres i = true → st.pres j = false →
      st.G j + (t - st.next.loc) * st.Gs j ≤ st.G i + (t - st.next.loc) * st.Gs i) : Done m ts σ Sf k slopes st := by
  have hL : st.next.loc ≤ c.loc := h.later c List.mem_cons_self
  have hR : ∀ d ∈ c :: R, c.loc ≤ d.loc := by
    intro d hd
    rcases List.mem_cons.1 hd with rfl | hd
    · exact le_rfl
    · exact (List.pairwise_cons.1 h.sorted).1 d hd
  rcases loop_step (m := m) (ts := ts) hch h.value_nonneg hL with ⟨z, h1, h2, h3, h4⟩ | ⟨h1, h2⟩
  · exact ⟨1, z, h4 0, h.zero h1 (fun d hd => h2.trans (hR d hd)) (htop z h1 h2) h3⟩
  · have hk := h.kinds c List.mem_cons_self
    have hc := (h.advance hL hR h1 (htop c.loc hL le_rfl) (st.rindex + 1) []).apply_slope rfl
    obtain ⟨-, -, -, e4, e5, e6, -, -⟩ := Gfrl.apply_slope (m := m) (ts := ts)
      { Gfrl.advance st c.loc with rindex := st.rindex + 1, gs := [], next := c } hk
    obtain ⟨fuel, z, g1, g2⟩ := ih _ _ _ _ _ hc (by rw [e4]; exact (drop_cons hd).2) e5 (by rw [e6]; show c.kind ≠ 2; omega)
    exact ⟨fuel + 1, z, by rw [h2, g1], g2⟩

/-- The next change is an exchange. -/
theorem swap_round {Y : Fin n → ℚ} {l₀ : ℚ} {all : List (Change n)} {g : Change n} {pend : List (Change n)}
    (ih : ∀ s sp S Sp st, Core m ts σ Sf k R s sp S Sp st → slopes.drop st.rindex = R → st.gs = pend → st.next.kind = 2 →
      Pend Y l₀ (nextLoc R) all pend st → Done m ts σ Sf k slopes st)
    (h : Core m ts σ Sf k R s sp S Sp st) (hd : slopes.drop st.rindex = R)
    (hch : choose slopes st = .ok (some g, st.rindex, pend)) (hp : Pend Y l₀ (nextLoc R) all (g :: pend) st) :
    Done m ts σ Sf k slopes st := by
  have hL : st.next.loc ≤ g.loc := hp.later g List.mem_cons_self
  have hb := hp.bounded
  have hR : ∀ d ∈ R, g.loc ≤ d.loc := by
    intro d hd
    cases R with
    | nil => cases hd
    | cons c R =>
      have h1 : g.loc ≤ c.loc := hb c.loc rfl
      rcases List.mem_cons.1 hd with rfl | hd
      · exact h1
      · exact h1.trans ((List.pairwise_cons.1 h.sorted).1 d hd)
  have hkey : ∀ e ∈ g :: pend, g.loc ≤ e.loc := by
    intro e he
    rcases List.mem_cons.1 he with rfl | he
    · exact le_rfl
    · have := hp.sorted.sublist hp.suffix.sublist
      rcases (List.pairwise_cons.1 this).1 e he with h1 | h1
      · exact h1.le
      · exact h1.1.le
  have htop : ∀ t, st.next.loc ≤ t → t ≤ g.loc → ∀ i j, st.pres i = true → st.pres j = false →
      st.G j + (t - st.next.loc) * st.Gs j ≤ st.G i + (t - st.next.loc) * st.Gs i :=
    fun t h1 h2 => hp.top_until h.top h1 (fun b e => h2.trans (hb b e)) (fun e he => h2.trans (hkey e he))
  rcases loop_step (m := m) (ts := ts) hch h.value_nonneg hL with ⟨z, h1, h2, h3, h4⟩ | ⟨h1, h2⟩
  · exact ⟨1, z, h4 0, h.zero h1 (fun d hd => h2.trans (hR d hd)) (htop z h1 h2) h3⟩
  · obtain ⟨⟨i, j, hg, htie⟩, hp'⟩ := hp.step (m := m) (ts := ts) h.top st.rindex pend
    have hadv := h.advance hL hR h1 (htop g.loc hL le_rfl) st.rindex pend
    have hc := hadv.apply_swap (l := g.loc) (i := i) (j := j) htie
    have e : apply m ts { Gfrl.advance st g.loc with rindex := st.rindex, gs := pend, next := g }
        (.bigG g.loc i j (st.Gs i) (st.Gs j)) =
        apply m ts { Gfrl.advance st g.loc with rindex := st.rindex, gs := pend, next := g } g := congrArg _ hg.symm
    have hc' : Core m ts σ Sf k R (s + sp * (g.loc - st.next.loc)) sp (fun i => S i + Sp i * (g.loc - st.next.loc)) Sp
        (apply m ts { Gfrl.advance st g.loc with rindex := st.rindex, gs := pend, next := g } g) := by
      rw [← e]; exact hc
    have hfields : ∀ st' : State n, (apply m ts st' (.bigG g.loc i j (st.Gs i) (st.Gs j))).rindex = st'.rindex ∧
        (apply m ts st' (.bigG g.loc i j (st.Gs i) (st.Gs j))).gs = st'.gs ∧
        (apply m ts st' (.bigG g.loc i j (st.Gs i) (st.Gs j))).next = st'.next := by
      intro st'
      unfold apply
      simp only
      split_ifs <;> exact ⟨rfl, rfl, rfl⟩
    obtain ⟨f1, f2, f3⟩ := hfields { Gfrl.advance st g.loc with rindex := st.rindex, gs := pend, next := g }
    rw [e] at f1 f2 f3
    obtain ⟨fuel, z, g1, g2⟩ := ih _ _ _ _ _ hc' (by rw [f1]; exact hd) f2 (by rw [f3]; show g.kind = 2; rw [hg]; rfl) hp'
    exact ⟨fuel + 1, z, by rw [h2, g1], g2⟩

/-- The rest of the loop after an exchange. -/
theorem swap_done (hdec : Decreasing m ts σ Sf k) {Y : Fin n → ℚ} {l₀ : ℚ} {all : List (Change n)}
    (ih : ∀ c R', R = c :: R' → ∀ s sp S Sp st, Core m ts σ Sf k R' s sp S Sp st → slopes.drop st.rindex = R' →
      st.gs = [] → st.next.kind ≠ 2 → Done m ts σ Sf k slopes st) :
    ∀ (pend : List (Change n)) s sp S Sp st, Core m ts σ Sf k R s sp S Sp st → slopes.drop st.rindex = R → st.gs = pend →
      st.next.kind = 2 → Pend Y l₀ (nextLoc R) all pend st → Done m ts σ Sf k slopes st := by
  intro pend
  induction pend with
  | nil =>
    intro s sp S Sp st h hd hg hk hp
    cases R with
    | nil =>
      have hch : choose slopes st = .ok (none, st.rindex, []) := by
        unfold choose
        rw [hg]
        simp only [drop_nil hd]
        rw [if_neg (by rintro ⟨h1, _⟩; exact h1 hk)]
      have htop : ∀ t, st.next.loc ≤ t → ∀ i j, st.pres i = true → st.pres j = false →
          st.G j + (t - st.next.loc) * st.Gs j ≤ st.G i + (t - st.next.loc) * st.Gs i :=
        fun t ht => hp.top_until h.top ht (by simp [nextLoc]) (by simp)
      obtain ⟨z, h1, h2, h3⟩ := loop_end (m := m) (ts := ts) hch h.value_nonneg (h.slope_neg hdec htop)
      exact ⟨1, z, h3 0, h.zero h1 (by simp) (htop z h1) h2⟩
    | cons c R =>
      have hch : choose slopes st = .ok (some c, st.rindex + 1, []) := by
        unfold choose
        rw [hg]
        simp only [(drop_cons hd).1]
        rw [if_neg (by rintro ⟨h1, _⟩; exact h1 hk)]
      exact slope_round (ih c R rfl) h hd hch (fun t h1 h2 => hp.top_until h.top h1 (fun b e => by
        have : c.loc = b := by simpa [nextLoc] using e
        rw [← this]; exact h2) (by simp))
  | cons g pend ih2 =>
    intro s sp S Sp st h hd hg hk hp
    have hch : choose slopes st = .ok (some g, st.rindex, pend) := by
      unfold choose
      rw [hg]
      simp only
      rw [if_neg (by rintro ⟨h1, _⟩; exact h1 hk)]
    exact swap_round ih2 h hd hch hp

/-- The loop. -/
theorem loop_done (hdec : Decreasing m ts σ Sf k) : ∀ (R : List (Change n)) s sp S Sp st, Core m ts σ Sf k R s sp S Sp st →
    slopes.drop st.rindex = R → st.gs = [] → st.next.kind ≠ 2 → Done m ts σ Sf k slopes st := by
  intro R
  induction R with
  | nil =>
    intro s sp S Sp st h hd hg hk
    have hp := pend_swaps (bound := nextLoc ([] : List (Change n))) h.top
    have hch : choose slopes st = match swaps st.G st.Gs st.next.loc (nextLoc ([] : List (Change n))) with
        | [] => .ok (none, st.rindex, [])
        | g :: gs => .ok (some g, st.rindex, gs) := by
      unfold choose
      rw [hg]
      simp only [drop_nil hd]
      rw [if_pos ⟨hk, rfl⟩, if_neg (by simp)]
      rfl
    generalize hall : swaps st.G st.Gs st.next.loc (nextLoc ([] : List (Change n))) = all at hp hch
    cases all with
    | nil =>
      have htop : ∀ t, st.next.loc ≤ t → ∀ i j, st.pres i = true → st.pres j = false →
          st.G j + (t - st.next.loc) * st.Gs j ≤ st.G i + (t - st.next.loc) * st.Gs i :=
        fun t ht => hp.top_until h.top ht (by simp [nextLoc]) (by simp)
      obtain ⟨z, h1, h2, h3⟩ := loop_end (m := m) (ts := ts) hch h.value_nonneg (h.slope_neg hdec htop)
      exact ⟨1, z, h3 0, h.zero h1 (by simp) (htop z h1) h2⟩
    | cons g pend =>
      exact swap_round (swap_done hdec (by rintro c R' h; cases h) pend) h hd hch hp
  | cons c R ih =>
    intro s sp S Sp st h hd hg hk
    have ih' : ∀ c' R', c :: R = c' :: R' → ∀ s sp S Sp st, Core m ts σ Sf k R' s sp S Sp st → slopes.drop st.rindex = R' →
        st.gs = [] → st.next.kind ≠ 2 → Done m ts σ Sf k slopes st := by
      rintro c' R' h
      cases h
      exact ih
    by_cases hl : st.next.loc = c.loc
    · have hch : choose slopes st = .ok (some c, st.rindex + 1, []) := by
        unfold choose
        rw [hg]
        simp only [(drop_cons hd).1]
        rw [if_neg (by rintro ⟨_, h2⟩; simp [hl] at h2)]
      refine slope_round ih h hd hch (fun t h1 h2 i j hi hj => ?_)
      have : t = st.next.loc := le_antisymm (by rw [hl]; exact h2) h1
      rw [this]
      have := h.top i j hi hj
      linarith
    · have hp := pend_swaps (bound := nextLoc (c :: R)) h.top
      have hch : choose slopes st = match swaps st.G st.Gs st.next.loc (nextLoc (c :: R)) with
          | [] => .ok (some c, st.rindex + 1, [])
          | g :: gs => .ok (some g, st.rindex, gs) := by
        unfold choose
        rw [hg]
        simp only [(drop_cons hd).1]
        rw [if_pos ⟨hk, by simpa using hl⟩, if_neg (by simp)]
        rfl
      generalize hall : swaps st.G st.Gs st.next.loc (nextLoc (c :: R)) = all at hp hch
      cases all with
      | nil =>
        exact slope_round ih h hd hch (fun t h1 h2 => hp.top_until h.top h1 (fun b e => by
          have : c.loc = b := by simpa [nextLoc] using e
          rw [← this]; exact h2) (by simp))
      | cons g pend => exact swap_round (swap_done hdec ih' pend) h hd hch hp

end Verif.Gfrl
