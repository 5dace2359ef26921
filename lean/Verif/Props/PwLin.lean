/-
Overhead interpolation (C32).
-/
import Verif.Model.PwLin
import Mathlib.Data.List.GetD
import Mathlib.Tactic.Linarith
import Mathlib.Tactic.FieldSimp
import Mathlib.Tactic.Ring

namespace Verif.Oh

/-! ### Specification -/

/-- `M` is the largest of the first `i + 1` sample values. -/
def RunMax (pts : List (ℚ × ℚ)) (i : ℕ) (M : ℚ) : Prop :=
  (∃ (j : ℕ) (hj : j < pts.length), j ≤ i ∧ (pts[j]).2 = M) ∧
  ∀ (j : ℕ) (hj : j < pts.length), j ≤ i → (pts[j]).2 ≤ M

/-- Sample points with strictly increasing abscissas and non-negative values. -/
def GoodSamples (pts : List (ℚ × ℚ)) : Prop :=
  pts ≠ [] ∧ pts.Pairwise (fun p q => p.1 < q.1) ∧ ∀ p ∈ pts, 0 ≤ p.2

/-! ### Binary search -/

theorem bisectLeft_spec (a : List ℚ) (x : ℚ) (lo hi : ℕ) (hlo : lo ≤ hi)
    (hhi : hi ≤ a.length) (hs : a.Pairwise (· < ·)) :
    lo ≤ bisectLeft a x lo hi ∧ bisectLeft a x lo hi ≤ hi ∧
    (∀ j, lo ≤ j → j < bisectLeft a x lo hi → a.getD j 0 < x) ∧
    (∀ j, bisectLeft a x lo hi ≤ j → j < hi → x ≤ a.getD j 0) := by
  induction n : hi - lo using Nat.strong_induction_on generalizing lo hi with
  | _ n ih =>
    unfold bisectLeft
    by_cases h : lo < hi
    · rw [dif_pos h]
      simp only
      have hsort : ∀ i j, i ≤ j → j < a.length → a.getD i 0 ≤ a.getD j 0 := by
        intro i j hij hj
        rw [List.getD_eq_getElem _ _ (by omega), List.getD_eq_getElem _ _ hj]
        rcases Nat.lt_or_eq_of_le hij with h | h
        · exact (List.pairwise_iff_getElem.mp hs i j (by omega) hj h).le
        · subst h; exact le_refl _
      by_cases hm : a.getD ((lo + hi) / 2) 0 < x
      · rw [if_pos hm]
        obtain ⟨h1, h2, h3, h4⟩ := ih (hi - ((lo + hi) / 2 + 1)) (by omega)
          ((lo + hi) / 2 + 1) hi (by omega) hhi rfl
        refine ⟨by omega, h2, ?_, h4⟩
        intro j hj hj'
        by_cases hjm : (lo + hi) / 2 + 1 ≤ j
        · exact h3 j hjm hj'
        · exact lt_of_le_of_lt (hsort j ((lo + hi) / 2) (by omega) (by omega)) hm
      · rw [if_neg hm]
        obtain ⟨h1, h2, h3, h4⟩ := ih ((lo + hi) / 2 - lo) (by omega)
          lo ((lo + hi) / 2) (by omega) (by omega) rfl
        refine ⟨h1, by omega, h3, ?_⟩
        intro j hj hj'
        by_cases hjm : j < (lo + hi) / 2
        · exact h4 j hj hjm
        · exact le_trans (not_lt.mp hm) (hsort ((lo + hi) / 2) j (by omega) (by omega))
    · rw [dif_neg h]
      exact ⟨le_refl _, hlo, fun j h1 h2 => absurd h2 (by omega), fun j h1 h2 => by omega⟩

/-! ### Interpolation through a list of points -/

/-- The line through two points. -/
def lineAt (p q : ℚ × ℚ) (x : ℚ) : ℚ := p.2 + (q.2 - p.2) / (q.1 - p.1) * (x - p.1)

/-- Interpolation (and extrapolation) through a list of points. -/
def interp : List (ℚ × ℚ) → ℚ → ℚ
  | [], _ => 0
  | [p], _ => p.2
  | [p, q], x => lineAt p q x
  | p :: q :: r :: l, x => if x ≤ q.1 then lineAt p q x else interp (q :: r :: l) x

theorem segment_eval {p q : ℚ × ℚ} (h : p.1 < q.1) (x : ℚ) :
    (segment p q).eval x = lineAt p q x := by
  have hne : q.1 - p.1 ≠ 0 := by linarith
  unfold segment LinearEqu.eval slope lineAt
  simp only [if_pos hne]
  split_ifs with h0
  · rw [h0]; ring
  · ring

theorem lineAt_left (p q : ℚ × ℚ) : lineAt p q p.1 = p.2 := by
  unfold lineAt; ring

theorem lineAt_right {p q : ℚ × ℚ} (h : p.1 < q.1) : lineAt p q q.1 = q.2 := by
  have hne : q.1 - p.1 ≠ 0 := by linarith
  unfold lineAt
  field_simp
  ring

theorem lineAt_mono {p q : ℚ × ℚ} (h : p.1 < q.1) (hy : p.2 ≤ q.2) {x x' : ℚ} (hx : x ≤ x') :
    lineAt p q x ≤ lineAt p q x' := by
  unfold lineAt
  have : 0 ≤ (q.2 - p.2) / (q.1 - p.1) := div_nonneg (by linarith) (by linarith)
  have := mul_le_mul_of_nonneg_left (sub_le_sub_right hx p.1) this
  linarith

/-- Which line gives the value. -/
theorem interp_index (P : List (ℚ × ℚ)) (x : ℚ) (i : ℕ) (hi : i + 1 < P.length)
    (hlt : ∀ j, j < i → ∀ h : j + 1 < P.length, (P[j + 1]).1 < x)
    (hge : i + 2 = P.length ∨ x ≤ (P[i + 1]).1) :
    interp P x = lineAt P[i] P[i + 1] x := by
  induction P generalizing i with
  | nil => exact absurd hi (by simp)
  | cons p P ih =>
    match P, ih with
    | [], _ => exact absurd hi (by simp)
    | [q], _ =>
      have : i = 0 := by simp at hi; omega
      subst this
      rfl
    | q :: r :: l, ih =>
      cases i with
      | zero =>
        have : x ≤ q.1 := by
          rcases hge with h | h
          · simp at h
          · simpa using h
        simp [interp, this]
      | succ i =>
        have h0 := hlt 0 (by omega) (by simp)
        simp only [List.getElem_cons_succ, List.getElem_cons_zero, Nat.zero_add] at h0
        have := ih i (by simpa using hi) (fun j hj h => by
          have := hlt (j + 1) (by omega) (by simpa using h)
          simpa using this) (by
          rcases hge with h | h
          · left; simp at h ⊢; omega
          · right; simpa using h)
        simp only [interp, if_neg (not_le.mpr h0)]
        rw [this]
        simp

/-- The evaluation of the code is the interpolation, with negative values cut off. -/
theorem pw_eval {P : List (ℚ × ℚ)} (hs : P.Pairwise (fun p q => p.1 < q.1))
    {f : PieceWiseLinearEqu} (h : PieceWiseLinearEqu.ofPoints P = some f) (x : ℚ) :
    f.eval x = max 0 (interp P x) := by
  unfold PieceWiseLinearEqu.ofPoints at h
  by_cases hl : P.length ≥ 2
  swap
  · rw [if_neg hl] at h; exact absurd h (by simp)
  rw [if_pos hl] at h
  simp only [Option.some.injEq] at h
  subst h
  unfold PieceWiseLinearEqu.eval
  simp only
  have hsl : (P.tail.map Prod.fst).Pairwise (· < ·) := by
    rw [List.pairwise_map]
    exact hs.tail
  have hlen : (P.tail.map Prod.fst).length = P.length - 1 := by simp
  obtain ⟨-, h2, h3, h4⟩ := bisectLeft_spec (P.tail.map Prod.fst) x 0 (P.length - 2)
    (by omega) (by omega) hsl
  set i := bisectLeft (P.tail.map Prod.fst) x 0 (P.length - 2) with hidef
  have hget : ∀ j (hj : j + 1 < P.length), (P.tail.map Prod.fst).getD j 0 = (P[j + 1]).1 := by
    intro j hj
    rw [List.getD_eq_getElem _ _ (by omega)]
    simp
  have hi : i + 1 < P.length := by omega
  rw [interp_index P x i hi]
  · rw [List.getD_eq_getElem _ _ (by simp; omega)]
    rw [List.getElem_zipWith, segment_eval]
    · simp
    · simp only [List.getElem_tail]
      exact List.pairwise_iff_getElem.mp hs i (i + 1) (by omega) hi (by omega)
  · intro j hj h
    have := h3 j (by omega) hj
    rwa [hget j h] at this
  · by_cases hc : i < P.length - 2
    · right
      have := h4 i (le_refl _) hc
      rwa [hget i hi] at this
    · left; omega

/-! ### Removing useless points -/

theorem interp_remove (l r : List (ℚ × ℚ)) (xa xb xc c x : ℚ) (hab : xa < xb) (hbc : xb < xc) :
    interp (l ++ (xa, c) :: (xb, c) :: (xc, c) :: r) x
      = interp (l ++ (xa, c) :: (xc, c) :: r) x := by
  have hflat : ∀ a b : ℚ, lineAt (a, c) (b, c) x = c := by
    intro a b
    unfold lineAt
    simp
  induction l with
  | nil =>
    cases r with
    | nil => simp [interp, hflat]
    | cons d r =>
      simp only [List.nil_append, interp, hflat]
      by_cases h1 : x ≤ xb
      · rw [if_pos h1, if_pos (by linarith)]
      · rw [if_neg h1]
  | cons p l ih =>
    cases l with
    | nil =>
      simp only [List.nil_append, List.cons_append] at ih ⊢
      rw [interp, ih]
      cases r <;> simp [interp]
    | cons q l =>
      cases l with
      | nil =>
        simp only [List.nil_append, List.cons_append] at ih ⊢
        rw [interp, ih]
        simp only [interp]
      | cons q' l =>
        simp only [List.cons_append] at ih ⊢
        rw [interp, ih]
        simp only [interp]

/-- The running maximum of a list of points, from a previous maximum. -/
def envelope (prev : ℚ) : List (ℚ × ℚ) → List (ℚ × ℚ)
  | [] => []
  | (x, y) :: rest => (x, max prev y) :: envelope (max prev y) rest

theorem map_fst_envelope (prev : ℚ) (l : List (ℚ × ℚ)) :
    (envelope prev l).map Prod.fst = l.map Prod.fst := by
  induction l generalizing prev with
  | nil => rfl
  | cons p l ih => simp [envelope, ih]

theorem length_envelope (prev : ℚ) (l : List (ℚ × ℚ)) : (envelope prev l).length = l.length := by
  have := congrArg List.length (map_fst_envelope prev l)
  simpa using this

/-- Invariant of the loop: the last points kept carry the last two maxima. -/
structure LoopInv (acc : List (ℚ × ℚ)) (pp : Option ℚ) (prev : ℚ) : Prop where
  shape : (∃ x, acc = [(x, prev)] ∧ pp = none) ∨
    ∃ x x' p l, acc = (x, prev) :: (x', p) :: l ∧ pp = some p ∧ p ≤ prev

theorem loop_interp (acc : List (ℚ × ℚ)) (pp : Option ℚ) (prev : ℚ) (rest : List (ℚ × ℚ))
    (hinv : LoopInv acc pp prev)
    (hs : (acc.reverse ++ rest).Pairwise (fun p q => p.1 < q.1)) :
    (∀ x, interp (makeMonotonicLoop acc pp prev rest).reverse x
      = interp (acc.reverse ++ envelope prev rest) x) ∧
    (makeMonotonicLoop acc pp prev rest).reverse.Pairwise (fun p q => p.1 < q.1) ∧
    (makeMonotonicLoop acc pp prev rest) ≠ [] := by
  induction rest generalizing acc pp prev with
  | nil =>
    simp only [makeMonotonicLoop, envelope, List.append_nil]
    refine ⟨fun _ => trivial, by simpa using hs, ?_⟩
    rcases hinv.shape with ⟨x, rfl, _⟩ | ⟨x, x', p, l, rfl, _⟩ <;> simp
  | cons q rest ih =>
    obtain ⟨x, y⟩ := q
    simp only [makeMonotonicLoop, envelope]
    have hs' : ∀ z : ℚ, (acc.reverse ++ (x, z) :: rest).Pairwise (fun p q => p.1 < q.1) := by
      intro z
      have : ((acc.reverse ++ (x, z) :: rest).map Prod.fst).Pairwise (· < ·) := by
        have h0 := List.pairwise_map.mpr hs
        simpa using h0
      exact List.pairwise_map.mp this
    by_cases hpop : pp = some (max prev y)
    · rw [if_pos hpop]
      rcases hinv.shape with ⟨z, _, hn⟩ | ⟨z, z', p, l, rfl, hpp, hle⟩
      · rw [hn] at hpop; exact absurd hpop (by simp)
      · rw [hpp] at hpop
        simp only [Option.some.injEq] at hpop
        have hpe : prev = p := le_antisymm (by rw [hpop]; exact le_max_left _ _) hle
        have hme : max prev y = p := hpop.symm
        rw [hme]
        subst hpe
        simp only [List.tail_cons]
        have hsz := hs' prev
        simp only [List.reverse_cons, List.append_assoc, List.singleton_append,
          List.cons_append, List.nil_append] at hsz
        obtain ⟨h1, h2, h3⟩ := ih ((x, prev) :: (z', prev) :: l) (some prev) prev
          ⟨Or.inr ⟨x, z', prev, l, rfl, rfl, le_refl _⟩⟩ (by
            simp only [List.reverse_cons, List.append_assoc, List.singleton_append,
              List.cons_append, List.nil_append]
            refine hsz.sublist ?_
            apply List.Sublist.append_left
            exact List.Sublist.cons₂ _ (List.sublist_cons_self _ _))
        refine ⟨fun t => ?_, h2, h3⟩
        rw [h1 t]
        simp only [List.reverse_cons, List.append_assoc, List.singleton_append,
          List.cons_append, List.nil_append]
        have hp := (List.pairwise_append.mp hsz).2.1
        simp only [List.pairwise_cons] at hp
        exact (interp_remove l.reverse _ z' z x prev t (hp.1 (z, prev) (by simp))
          (hp.2.1 (x, prev) (by simp))).symm
    · rw [if_neg hpop]
      obtain ⟨h1, h2, h3⟩ := ih ((x, max prev y) :: acc) (some prev) (max prev y)
        ⟨by
          right
          rcases hinv.shape with ⟨z, rfl, _⟩ | ⟨z, z', p, l, rfl, _, _⟩
          · exact ⟨x, z, prev, [], rfl, rfl, le_max_left _ _⟩
          · exact ⟨x, z, prev, _, rfl, rfl, le_max_left _ _⟩⟩ (by
          simpa using hs' (max prev y))
      refine ⟨fun t => ?_, h2, h3⟩
      rw [h1 t]
      simp

/-- The running maxima of a list of samples. -/
def maxima : List (ℚ × ℚ) → List (ℚ × ℚ)
  | [] => []
  | p :: rest => p :: envelope p.2 rest

theorem map_fst_maxima (l : List (ℚ × ℚ)) : (maxima l).map Prod.fst = l.map Prod.fst := by
  cases l with
  | nil => rfl
  | cons p l => simp [maxima, map_fst_envelope]

theorem length_maxima (l : List (ℚ × ℚ)) : (maxima l).length = l.length := by
  have := congrArg List.length (map_fst_maxima l)
  simpa using this

theorem fst_maxima (l : List (ℚ × ℚ)) (i : ℕ) (h : i < l.length) (h' : i < (maxima l).length) :
    ((maxima l)[i]).1 = (l[i]).1 := by
  have h1 : (maxima l).map Prod.fst = l.map Prod.fst := map_fst_maxima l
  have := List.getElem_of_eq h1 (by simpa using h')
  simpa using this

/-- Values of the envelope. -/
theorem envelope_runMax (prev : ℚ) (l : List (ℚ × ℚ)) (i : ℕ) (h : i < (envelope prev l).length) :
    prev ≤ ((envelope prev l)[i]).2 ∧
    (∀ j (hj : j < l.length), j ≤ i → (l[j]).2 ≤ ((envelope prev l)[i]).2) ∧
    (((envelope prev l)[i]).2 = prev ∨
      ∃ (j : ℕ) (hj : j < l.length), j ≤ i ∧ (l[j]).2 = ((envelope prev l)[i]).2) := by
  induction l generalizing prev i with
  | nil => exact absurd h (by simp [envelope])
  | cons p l ih =>
    obtain ⟨x, y⟩ := p
    cases i with
    | zero =>
      simp only [envelope, List.getElem_cons_zero]
      refine ⟨le_max_left _ _, ?_, ?_⟩
      · intro j hj hj0
        have : j = 0 := by omega
        subst this
        exact le_max_right _ _
      · rcases max_choice prev y with hm | hm
        · exact Or.inl hm
        · exact Or.inr ⟨0, by simp, le_refl _, by simp [hm]⟩
    | succ i =>
      obtain ⟨h1, h2, h3⟩ := ih (max prev y) i (by simpa [envelope] using h)
      simp only [envelope, List.getElem_cons_succ]
      refine ⟨le_trans (le_max_left _ _) h1, ?_, ?_⟩
      · intro j hj hji
        cases j with
        | zero => exact le_trans (le_max_right prev y) h1
        | succ j =>
          simp only [List.getElem_cons_succ]
          exact h2 j (by simpa using hj) (by omega)
      · rcases h3 with h3 | ⟨j, hj, hji, hje⟩
        · rw [h3]
          rcases max_choice prev y with hm | hm
          · exact Or.inl hm
          · exact Or.inr ⟨0, by simp, by omega, by simp [hm]⟩
        · exact Or.inr ⟨j + 1, by simpa using hj, by omega, by simpa using hje⟩

theorem maxima_runMax (l : List (ℚ × ℚ)) (i : ℕ) (h : i < (maxima l).length) :
    RunMax l i ((maxima l)[i]).2 := by
  cases l with
  | nil => exact absurd h (by simp [maxima])
  | cons p l =>
    cases i with
    | zero =>
      refine ⟨⟨0, by simp, le_refl _, rfl⟩, ?_⟩
      intro j hj hj0
      have : j = 0 := by omega
      subst this
      exact le_refl _
    | succ i =>
      obtain ⟨h1, h2, h3⟩ := envelope_runMax p.2 l i (by simpa [maxima] using h)
      simp only [maxima, List.getElem_cons_succ]
      refine ⟨?_, ?_⟩
      · rcases h3 with h3 | ⟨j, hj, hji, hje⟩
        · exact ⟨0, by simp, by omega, by simp [h3]⟩
        · exact ⟨j + 1, by simpa using hj, by omega, by simpa using hje⟩
      · intro j hj hji
        cases j with
        | zero => exact h1
        | succ j =>
          simp only [List.getElem_cons_succ]
          exact h2 j (by simpa using hj) (by omega)

theorem RunMax.unique {l : List (ℚ × ℚ)} {i : ℕ} {M M' : ℚ} (h : RunMax l i M)
    (h' : RunMax l i M') : M = M' := by
  obtain ⟨⟨j, hj, hji, rfl⟩, h2⟩ := h
  obtain ⟨⟨k, hk, hki, rfl⟩, h4⟩ := h'
  exact le_antisymm (h4 j hj hji) (h2 k hk hki)

theorem RunMax.mono {l : List (ℚ × ℚ)} {i k : ℕ} {M M' : ℚ} (hik : i ≤ k) (h : RunMax l i M)
    (h' : RunMax l k M') : M ≤ M' := by
  obtain ⟨⟨j, hj, hji, rfl⟩, -⟩ := h
  exact h'.2 j hj (by omega)

theorem maxima_sorted {l : List (ℚ × ℚ)} (hs : l.Pairwise (fun p q => p.1 < q.1)) :
    (maxima l).Pairwise (fun p q => p.1 < q.1 ∧ p.2 ≤ q.2) := by
  rw [List.pairwise_iff_getElem]
  intro i j hi hj hij
  have hi' : i < l.length := by rwa [length_maxima] at hi
  have hj' : j < l.length := by rwa [length_maxima] at hj
  refine ⟨?_, ?_⟩
  · rw [fst_maxima l i hi' hi, fst_maxima l j hj' hj]
    exact List.pairwise_iff_getElem.mp hs i j hi' hj' hij
  · exact (maxima_runMax l i hi).mono (by omega) (maxima_runMax l j hj)

theorem interp_first {P : List (ℚ × ℚ)} {p : ℚ × ℚ}
    (hs : (p :: P).Pairwise (fun p q => p.1 < q.1 ∧ p.2 ≤ q.2)) :
    interp (p :: P) p.1 = p.2 := by
  match P, hs with
  | [], _ => rfl
  | [q], _ => exact lineAt_left p q
  | q :: r :: l, hs =>
    have := (List.pairwise_cons.mp hs).1 q (by simp)
    rw [interp, if_pos this.1.le, lineAt_left]

/-- From the first node on, values are at least that of the node. -/
theorem interp_ge_first (P : List (ℚ × ℚ)) (q : ℚ × ℚ)
    (hs : (q :: P).Pairwise (fun p q => p.1 < q.1 ∧ p.2 ≤ q.2)) {x : ℚ} (hx : q.1 ≤ x) :
    q.2 ≤ interp (q :: P) x := by
  induction P generalizing q with
  | nil => exact le_refl _
  | cons r P ih =>
    have hqr := (List.pairwise_cons.mp hs).1 r (by simp)
    have hline : q.2 ≤ lineAt q r x := by
      have := lineAt_mono hqr.1 hqr.2 hx
      rwa [lineAt_left] at this
    cases P with
    | nil => exact hline
    | cons d l =>
      rw [interp]
      split_ifs with h
      · exact hline
      · exact le_trans hqr.2 (ih r (List.pairwise_cons.mp hs).2 (not_le.mp h).le)

theorem interp_mono {P : List (ℚ × ℚ)} (hs : P.Pairwise (fun p q => p.1 < q.1 ∧ p.2 ≤ q.2))
    {x x' : ℚ} (hx : x ≤ x') : interp P x ≤ interp P x' := by
  induction P with
  | nil => exact le_refl _
  | cons p P ih =>
    match P, hs, ih with
    | [], _, _ => exact le_refl _
    | [q], hs, _ =>
      have := (List.pairwise_cons.mp hs).1 q (by simp)
      exact lineAt_mono this.1 this.2 hx
    | q :: r :: l, hs, ih =>
      have hpq := (List.pairwise_cons.mp hs).1 q (by simp)
      have hs' := (List.pairwise_cons.mp hs).2
      simp only [interp]
      by_cases h1 : x ≤ q.1
      · rw [if_pos h1]
        by_cases h2 : x' ≤ q.1
        · rw [if_pos h2]
          exact lineAt_mono hpq.1 hpq.2 hx
        · rw [if_neg h2]
          have ha := lineAt_mono hpq.1 hpq.2 h1
          rw [lineAt_right hpq.1] at ha
          have hb := interp_ge_first (r :: l) q hs' (not_le.mp h2).le
          exact le_trans ha hb
      · rw [if_neg h1, if_neg (by linarith)]
        exact ih hs'
/-! ### C32 -/

/-- `monotonic_pwlin` computes the interpolation of the running maxima. -/
theorem monotonicPwlin_eq {pts : List (ℚ × ℚ)} (h : GoodSamples pts) :
    ∃ f, monotonicPwlin pts = some f ∧ ∀ x, f.eval x = max 0 (interp (maxima pts) x) := by
  obtain ⟨hne, hs, hpos⟩ := h
  match pts, hne, hs, hpos with
  | p :: rest, _, hs, hpos =>
    obtain ⟨h1, h2, h3⟩ := loop_interp [p] none p.2 rest ⟨Or.inl ⟨p.1, rfl, rfl⟩⟩
      (by simpa using hs)
    unfold monotonicPwlin makeMonotonic
    have hmx : [p].reverse ++ envelope p.2 rest = maxima (p :: rest) := rfl
    rw [hmx] at h1
    have hpw : ∀ l : List (ℚ × ℚ), l = (makeMonotonicLoop [p] none p.2 rest).reverse →
        1 < l.length → ∃ f, (PieceWiseLinearEqu.ofPoints l).map OhFun.pw = some f ∧
          ∀ x, f.eval x = max 0 (interp (maxima (p :: rest)) x) := by
      intro l hl hlen
      have : ∃ g, PieceWiseLinearEqu.ofPoints l = some g := by
        unfold PieceWiseLinearEqu.ofPoints
        rw [if_pos (by omega)]
        exact ⟨_, rfl⟩
      obtain ⟨g, hg⟩ := this
      refine ⟨.pw g, by rw [hg]; rfl, fun x => ?_⟩
      have h2' : l.Pairwise (fun p q => p.1 < q.1) := by rw [hl]; exact h2
      have := pw_eval h2' hg x
      rw [hl, h1 x] at this
      exact this
    have hconst : ∀ c : ℚ, (∀ x, interp (maxima (p :: rest)) x = c) → 0 ≤ c ∧
        ∀ x, (OhFun.lin ⟨c, 0⟩).eval x = max 0 (interp (maxima (p :: rest)) x) := by
      intro c hc
      have hc0 : 0 ≤ c := by
        have hsm := maxima_sorted hs
        have := interp_first (p := p) (P := envelope p.2 rest) hsm
        change interp (maxima (p :: rest)) p.1 = p.2 at this
        rw [hc] at this
        rw [this]
        exact hpos p (by simp)
      refine ⟨hc0, fun x => ?_⟩
      rw [hc, max_eq_right hc0]
      simp [OhFun.eval, LinearEqu.eval]
    simp only
    generalize makeMonotonicLoop [p] none p.2 rest = L at *
    match L, h3, h1, h2, hpw with
    | [], h3, _, _, _ => exact absurd rfl h3
    | [q], _, h1, _, _ =>
      simp only [List.reverse_singleton, List.length_singleton, lt_irrefl, if_false,
        gt_iff_lt]
      refine ⟨_, rfl, ?_⟩
      exact (hconst q.2 (fun x => by rw [← h1 x]; rfl)).2
    | [q, r], _, h1, h2, hpw =>
      by_cases hqr : q.2 = r.2
      · simp only [if_pos hqr, List.length_singleton, lt_irrefl, if_false, gt_iff_lt]
        refine ⟨_, rfl, ?_⟩
        refine (hconst r.2 (fun x => ?_)).2
        rw [← h1 x]
        simp [interp, lineAt, hqr]
      · simp only [if_neg hqr]
        have := hpw [r, q] (by simp) (by simp)
        simpa using this
    | q :: r :: d :: l, _, h1, h2, hpw =>
      have := hpw (q :: r :: d :: l).reverse rfl (by simp)
      simp only [gt_iff_lt]
      rw [if_pos (by simp)]
      exact this

/-- C32: for samples with strictly increasing abscissas and non-negative values,
`monotonic_pwlin` returns a function that is non-negative, non-decreasing, dominates
every sample, passes through the running maximum of the samples at every sample
point, and is linear between neighbouring samples. -/
theorem C32_monotone_envelope {pts : List (ℚ × ℚ)} (h : GoodSamples pts) :
    ∃ f, monotonicPwlin pts = some f ∧
      (∀ x, 0 ≤ f.eval x) ∧
      (∀ x x', x ≤ x' → f.eval x ≤ f.eval x') ∧
      (∀ p ∈ pts, p.2 ≤ f.eval p.1) ∧
      (∀ (i : ℕ) (hi : i < pts.length), RunMax pts i (f.eval (pts[i]).1)) ∧
      (∀ (i : ℕ) (hi : i + 1 < pts.length) (x : ℚ), (pts[i]).1 ≤ x → x ≤ (pts[i + 1]).1 →
        f.eval x = f.eval (pts[i]).1 + (f.eval (pts[i + 1]).1 - f.eval (pts[i]).1) *
          ((x - (pts[i]).1) / ((pts[i + 1]).1 - (pts[i]).1))) := by
  obtain ⟨f, hf, he⟩ := monotonicPwlin_eq h
  obtain ⟨hne, hs, hpos⟩ := h
  have hsm := maxima_sorted hs
  have hlen := length_maxima pts
  have hx : ∀ i (hi : i < pts.length), ((maxima pts)[i]'(by omega)).1 = (pts[i]).1 :=
    fun i hi => fst_maxima pts i hi (by omega)
  have hnn : ∀ i (hi : i < pts.length), 0 ≤ ((maxima pts)[i]'(by omega)).2 := by
    intro i hi
    obtain ⟨⟨j, hj, -, hje⟩, -⟩ := maxima_runMax pts i (by omega)
    rw [← hje]
    exact hpos _ (List.getElem_mem hj)
  -- linear pieces
  have hxlt : ∀ i j (hi : i < pts.length) (hj : j < pts.length), i < j →
      (pts[i]).1 < (pts[j]).1 := fun i j hi hj hij =>
    List.pairwise_iff_getElem.mp hs i j hi hj hij
  have hpiece : ∀ (i : ℕ) (hi : i + 1 < pts.length) (x : ℚ), (pts[i]).1 ≤ x →
      x ≤ (pts[i + 1]).1 → interp (maxima pts) x
        = lineAt ((maxima pts)[i]'(by omega)) ((maxima pts)[i + 1]'(by omega)) x := by
    intro i hi x h1 h2
    rcases Nat.eq_zero_or_pos i with rfl | hi0
    · apply interp_index _ _ 0 (by omega)
      · intro j hj; omega
      · right; rw [hx 1 hi]; exact h2
    · rcases lt_or_eq_of_le h1 with h1 | h1
      · apply interp_index _ _ i (by omega)
        · intro j hj hj'
          rw [hx (j + 1) (by omega)]
          refine lt_of_le_of_lt ?_ h1
          rcases Nat.lt_or_eq_of_le (show j + 1 ≤ i by omega) with h | h
          · exact (hxlt _ _ _ _ h).le
          · simp only [h]; exact le_refl _
        · right; rw [hx (i + 1) hi]; exact h2
      · obtain ⟨k, rfl⟩ : ∃ k, i = k + 1 := ⟨i - 1, by omega⟩
        have hk : interp (maxima pts) x
            = lineAt ((maxima pts)[k]'(by omega)) ((maxima pts)[k + 1]'(by omega)) x := by
          apply interp_index _ _ k (by omega)
          · intro j hj hj'
            rw [hx (j + 1) (by omega), ← h1]
            exact hxlt _ _ _ _ (by omega)
          · right; rw [hx (k + 1) (by omega), h1]
        rw [hk, ← h1]
        have e := hx (k + 1) (by omega)
        rw [← e, lineAt_left, lineAt_right]
        rw [hx k (by omega), e]
        exact hxlt _ _ _ _ (by omega)
  have hnode : ∀ (i : ℕ) (hi : i < pts.length),
      interp (maxima pts) (pts[i]).1 = ((maxima pts)[i]'(by omega)).2 := by
    intro i hi
    rcases Nat.eq_zero_or_pos i with rfl | hi0
    · have hfirst : ∀ l : List (ℚ × ℚ), l.Pairwise (fun p q => p.1 < q.1 ∧ p.2 ≤ q.2) →
          ∀ h : 0 < l.length, interp l (l[0]).1 = (l[0]).2 := by
        intro l hl h
        cases l with
        | nil => exact absurd h (by simp)
        | cons p l => exact interp_first hl
      have := hfirst _ hsm (by omega)
      rwa [hx 0 hi] at this
    · obtain ⟨k, rfl⟩ : ∃ k, i = k + 1 := ⟨i - 1, by omega⟩
      rw [hpiece k hi _ (hxlt _ _ _ _ (by omega)).le (le_refl _)]
      have e := hx (k + 1) (by omega)
      rw [← e, lineAt_right]
      rw [hx k (by omega), e]
      exact hxlt _ _ _ _ (by omega)
  have hval : ∀ (i : ℕ) (hi : i < pts.length),
      f.eval (pts[i]).1 = ((maxima pts)[i]'(by omega)).2 := by
    intro i hi
    rw [he, hnode i hi, max_eq_right (hnn i hi)]
  refine ⟨f, hf, fun x => ?_, fun x x' hxx => ?_, ?_, ?_, ?_⟩
  · rw [he]; exact le_max_left _ _
  · rw [he, he]; exact max_le_max_left _ (interp_mono hsm hxx)
  · intro p hp
    obtain ⟨i, hi, rfl⟩ := List.getElem_of_mem hp
    rw [hval i hi]
    exact (maxima_runMax pts i (by omega)).2 i hi (le_refl _)
  · intro i hi
    rw [hval i hi]
    exact maxima_runMax pts i (by omega)
  · intro i hi x h1 h2
    have hlt := hxlt i (i + 1) (by omega) hi (by omega)
    have hl := hpiece i hi x h1 h2
    have hmono : interp (maxima pts) (pts[i]).1 ≤ interp (maxima pts) x := interp_mono hsm h1
    rw [he x, max_eq_right, hl, hval i (by omega), hval (i + 1) hi]
    · unfold lineAt
      rw [hx i (by omega), hx (i + 1) hi]
      ring
    · rw [hnode i (by omega)] at hmono
      exact le_trans (hnn i (by omega)) hmono

/-- Samples with a dip and a plateau. -/
example : GoodSamples [(1, 5), (2, 3), (4, 5), (10, 9), (20, 8)] := by
  refine ⟨by simp, ?_, ?_⟩
  · simp; norm_num
  · intro p hp
    simp only [List.mem_cons, List.not_mem_nil, or_false] at hp
    rcases hp with rfl | rfl | rfl | rfl | rfl <;> norm_num

example : makeMonotonic [(1, 5), (2, 3), (4, 5), (10, 9), (20, 8)]
    = some [(1, 5), (4, 5), (10, 9), (20, 9)] := by decide +kernel

/-- Negative samples are the caller's business: a constant negative sample stays
negative, only the piecewise function is cut off at zero. -/
theorem C32_negative_constant : ∃ f, monotonicPwlin [(0, -5), (1, -7)] = some f ∧
    ∀ x, f.eval x = -5 :=
  ⟨.lin ⟨-5, 0⟩, rfl, fun x => by simp [OhFun.eval, LinearEqu.eval]⟩

end Verif.Oh
