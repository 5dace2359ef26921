/-
C45: priority assignment and subset enumeration for CAN message sets.
-/
import Verif.Model.CanPrio
import Verif.Props.Can
import Mathlib.Data.List.Sublists
import Mathlib.Data.Fintype.Card
import Mathlib.Data.Finset.Max
import Mathlib.Tactic.Ring

namespace Verif.Can

open Finset

/-! ### Subsets -/

theorem flatMap_pair_perm {α : Type} (x : α) (l : List (List α)) :
    (l.flatMap (fun item => [item, x :: item])).Perm (l ++ l.map (x :: ·)) := by
  induction l with
  | nil => simp
  | cons a l ih =>
    simp only [List.flatMap_cons, List.map_cons, List.cons_append, List.nil_append]
    refine List.Perm.cons _ ?_
    refine (ih.cons (x :: a)).trans ?_
    exact List.perm_middle.symm

/-- **C45**, subsets: for a non-empty list of ids, `powerset` yields each sublist exactly
once (in the sense of positions).  Contrary to its documentation the empty set is
included, which its only caller relies on. -/
theorem C45_powerset {α : Type} (ids : List α) (hne : ids ≠ []) :
    ∃ r, powerset ids = some r ∧ r.Perm ids.sublists := by
  induction ids with
  | nil => exact absurd rfl hne
  | cons x l ih =>
    cases l with
    | nil => exact ⟨_, rfl, by simpa using List.Perm.swap _ _ _⟩
    | cons y l =>
      obtain ⟨r, hr, hp⟩ := ih (by simp)
      refine ⟨r.flatMap (fun item => [item, x :: item]), by unfold powerset; rw [hr]; rfl, ?_⟩
      refine (flatMap_pair_perm x r).trans ?_
      have h1 := (hp.trans (List.sublists_perm_sublists' _))
      refine (h1.append (h1.map _)).trans ?_
      rw [← List.sublists'_cons]
      exact (List.sublists_perm_sublists' _).symm

/-- **C45**, subsets of distinct ids: each set of ids is yielded exactly once. -/
theorem C45_powerset_nodup {α : Type} (ids : List α) (hne : ids ≠ []) (hnd : ids.Nodup) :
    ∃ r, powerset ids = some r ∧ r.Nodup ∧ r.length = 2 ^ ids.length ∧
      (∀ s ∈ r, s.Sublist ids) ∧ ∀ s : List α, s.Sublist ids → s ∈ r := by
  obtain ⟨r, hr, hp⟩ := C45_powerset ids hne
  refine ⟨r, hr, hp.nodup_iff.2 (List.nodup_sublists.2 hnd), ?_, ?_, ?_⟩
  · rw [hp.length_eq, List.length_sublists]
  · intro s hs; exact List.mem_sublists.1 (hp.mem_iff.1 hs)
  · intro s hs; exact hp.mem_iff.2 (List.mem_sublists.2 hs)

/-- C45 is violated for no ids at all: the recursion does not end. -/
theorem C45_powerset_violated : ¬ ∀ ids : List ℕ, ∃ r, powerset ids = some r := by
  intro h
  obtain ⟨r, hr⟩ := h []
  simp [powerset] at hr

example : powerset [1, 2, 3] = some [[3], [1, 3], [2, 3], [1, 2, 3], [], [1], [2], [1, 2]] := by
  decide

/-- **C45**, use in `get_prob_schedulable` (`prob_success.py:99-110`): the probabilities
of the sets of omitted replicas add up to one, whatever the omission probability. -/
theorem C45_weights (ids : List ℕ) (hne : ids ≠ []) (p : ℚ) :
    ∃ r, powerset ids = some r ∧
      (r.map (fun om => p ^ om.length * (1 - p) ^ (ids.length - om.length))).sum = 1 := by
  obtain ⟨r, hr, hp⟩ := C45_powerset ids hne
  refine ⟨r, hr, ?_⟩
  rw [((hp.trans (List.sublists_perm_sublists' _)).map _).sum_eq]
  clear hr hp hne r
  induction ids with
  | nil => simp
  | cons x l ih =>
    rw [List.sublists'_cons, List.map_append, List.sum_append, List.map_map]
    have h1 : ((List.sublists' l).map (fun om => p ^ om.length * (1 - p) ^ ((x :: l).length - om.length))).sum
        = (1 - p) * ((List.sublists' l).map (fun om => p ^ om.length * (1 - p) ^ (l.length - om.length))).sum := by
      rw [← List.sum_map_mul_left]
      congr 1
      apply List.map_congr_left
      intro s hs
      have hle := (List.mem_sublists'.1 hs).length_le
      have : (x :: l).length - s.length = (l.length - s.length) + 1 := by simp; omega
      rw [this]; ring
    have h2 : ((List.sublists' l).map ((fun om => p ^ om.length * (1 - p) ^ ((x :: l).length - om.length))
          ∘ List.cons x)).sum
        = p * ((List.sublists' l).map (fun om => p ^ om.length * (1 - p) ^ (l.length - om.length))).sum := by
      rw [← List.sum_map_mul_left]
      congr 1
      apply List.map_congr_left
      intro s hs
      have : (x :: l).length - (x :: s).length = l.length - s.length := by simp
      simp only [Function.comp]
      rw [this, List.length_cons]; ring
    rw [h1, h2, ih]; ring

/-! ### Priority assignment -/

variable {n : ℕ} {b : Bus n}

/-- The message `i` tolerates `f` faults with the given priorities: according to
`get_wctt` its response time is within the deadline. -/
def Tolerates (b : Bus n) (ids : Fin n → ℤ) (i : Fin n) (f : ℕ) : Prop :=
  ∃ fuel r, b.wctt ids fuel i f = some r ∧ r + (b.msg i).jitter ≤ (b.msg i).deadline

theorem tolerates_iff (h : b.Sane) {ids : Fin n → ℤ} {i : Fin n} {f : ℕ} :
    Tolerates b ids i f ↔ ∃ x, b.transferDelay i ≤ x ∧ b.step ids i f x ≤ x ∧
      x + (b.msg i).jitter ≤ (b.msg i).deadline := by
  constructor
  · rintro ⟨fuel, r, hr, hd⟩
    have hl := (C44_wctt h i f fuel r hr).1 hd
    exact ⟨r, hl.1.1, hl.1.2.symm.le, hd⟩
  · rintro ⟨x, hx, hs, hd⟩
    obtain ⟨N, r, hr⟩ := C44_terminates h ids i f
    refine ⟨N, r, hr N le_rfl, ?_⟩
    obtain ⟨_, h2, _⟩ := wcttLoop_spec h i f N _ (le_step h i f le_rfl) r (hr N le_rfl)
    have := h2 x hx hs
    linarith

theorem Tolerates.mono (h : b.Sane) {ids : Fin n → ℤ} {i : Fin n} {f f' : ℕ} (hf : f ≤ f')
    (ht : Tolerates b ids i f') : Tolerates b ids i f := by
  rw [tolerates_iff h] at ht ⊢
  obtain ⟨x, hx, hs, hd⟩ := ht
  refine ⟨x, hx, le_trans ?_ hs, hd⟩
  unfold Bus.step
  have : (f : ℚ) * b.retranDelay ids i ≤ f' * b.retranDelay ids i :=
    mul_le_mul_of_nonneg_right (by exact_mod_cast hf) (retranDelay_nonneg h i)
  linarith

theorem maxDelay_mono {p q : Fin n → Bool} (hpq : ∀ k, p k = true → q k = true) :
    b.maxDelay p ≤ b.maxDelay q := by
  rw [maxDelay_le_iff]
  exact ⟨maxDelay_nonneg q, fun k hk => le_maxDelay (hpq k hk)⟩

/-- The response time only depends on which messages have higher and lower priority. -/
theorem tolerates_congr {ids ids' : Fin n → ℤ} {i : Fin n} {f : ℕ} (h : b.Sane)
    (hhp : ∀ k, ids k < ids i ↔ ids' k < ids' i) (hlp : ∀ k, k ≠ i → (ids i < ids k ↔ ids' i < ids' k)) :
    Tolerates b ids i f ↔ Tolerates b ids' i f := by
  have hB : b.blockingDelay ids i = b.blockingDelay ids' i := by
    unfold Bus.blockingDelay
    congr 2
    funext k
    by_cases hk : k = i
    · simp [hk]
    · simp [hk, hlp k hk]
  have hE : b.retranDelay ids i = b.retranDelay ids' i := by
    unfold Bus.retranDelay
    congr 2
    funext k
    by_cases hk : k = i
    · simp [hk]
    · have := hlp k hk
      simp only [decide_eq_decide, ← not_lt, this]
  have hI : ∀ t, b.interDelay ids i t = b.interDelay ids' i t := by
    intro t
    unfold Bus.interDelay
    apply sum_congr rfl
    intro k _
    simp only [hhp k]
  have hs : ∀ t, b.step ids i f t = b.step ids' i f t := by
    intro t; unfold Bus.step; rw [hB, hE, hI]
  rw [tolerates_iff h, tolerates_iff h]
  simp only [hs]

theorem bsearch_spec (ok : ℕ → Bool) (hanti : ∀ f f', f ≤ f' → ok f' = true → ok f = true)
    (fuel lo hi : ℕ) (hfuel : hi - lo ≤ fuel) (hlo : ok lo = true) (hhi : ok hi = false) :
    ok (bsearch ok fuel lo hi) = true ∧ ∀ f, ok f = true → f ≤ bsearch ok fuel lo hi := by
  have hlt : lo < hi := by
    by_contra hc
    have := hanti hi lo (by omega) hlo
    rw [hhi] at this
    exact absurd this (by simp)
  have hend : ∀ lo hi : ℕ, ¬ hi - lo > 1 → lo < hi → ok hi = false → ∀ f, ok f = true → f ≤ lo := by
    intro lo hi h1 h2 h3 f hf
    by_contra hc
    have := hanti hi f (by omega) hf
    rw [h3] at this
    exact absurd this (by simp)
  induction fuel generalizing lo hi with
  | zero => omega
  | succ fuel ih =>
    unfold bsearch
    by_cases h1 : hi - lo > 1
    · rw [if_pos h1]
      simp only
      by_cases h2 : ok ((lo + hi) / 2) = true
      · rw [if_pos h2]
        exact ih _ _ (by omega) h2 hhi (by omega)
      · rw [if_neg h2]
        exact ih _ _ (by omega) hlo (by simpa using h2) (by omega)
    · rw [if_neg h1]
      exact ⟨hlo, hend lo hi h1 hlt hhi⟩

variable (test : (Fin n → ℤ) → Fin n → ℕ → Bool) (amax : Fin n → ℕ)

/-- The value of `alpha_min` after the search. -/
def alphaOf (ids : Fin n → ℤ) (m : Fin n) : ℕ :=
  bsearch (test (Function.update ids m 0) m) (amax m) 0 (amax m)

theorem tryFold (ids : Fin n → ℤ) (l : List (Fin n))
    (hna : ∀ m ∈ l, ids m ≤ 0 → test (Function.update ids m 0) m (amax m) = false) :
    ∀ best, ∃ res, l.foldlM (tryMsg test amax ids) best = some res ∧
      (res = none → best = none ∧
        ∀ m ∈ l, ids m ≤ 0 → test (Function.update ids m 0) m 0 = false) ∧
      ∀ g c, res = some (g, c) →
        (best = some (g, c) ∨ (ids c ≤ 0 ∧ test (Function.update ids c 0) c 0 = true ∧
          g = alphaOf test amax ids c)) ∧
        (∀ g0 c0, best = some (g0, c0) → g0 ≤ g) ∧
        ∀ m ∈ l, ids m ≤ 0 → test (Function.update ids m 0) m 0 = true →
          alphaOf test amax ids m ≤ g := by
  induction l with
  | nil =>
    intro best
    refine ⟨best, rfl, fun h => ⟨h, by simp⟩, fun g c h => ⟨Or.inl h, fun g0 c0 h0 => ?_, by simp⟩⟩
    rw [h] at h0
    simp only [Option.some.injEq, Prod.mk.injEq] at h0
    omega
  | cons m l ih =>
    intro best
    have ih := ih (fun x hx => hna x (by simp [hx]))
    rw [List.foldlM_cons]
    by_cases h1 : ids m > 0
    · have hstep : tryMsg test amax ids best m = some best := by unfold tryMsg; rw [if_pos h1]
      rw [hstep]
      obtain ⟨res, hr, hn, hs⟩ := ih best
      refine ⟨res, hr, fun h => ⟨(hn h).1, fun x hx hle => ?_⟩, fun g c h => ?_⟩
      · rcases List.mem_cons.1 hx with rfl | hx
        · omega
        · exact (hn h).2 x hx hle
      · obtain ⟨g1, g2, g3⟩ := hs g c h
        refine ⟨g1, g2, fun x hx hle ht => ?_⟩
        rcases List.mem_cons.1 hx with rfl | hx
        · omega
        · exact g3 x hx hle ht
    · have h1' : ids m ≤ 0 := by omega
      by_cases h2 : test (Function.update ids m 0) m 0 = false
      · have hstep : tryMsg test amax ids best m = some best := by
          unfold tryMsg; simp only; rw [if_neg h1, if_pos h2]
        rw [hstep]
        obtain ⟨res, hr, hn, hs⟩ := ih best
        refine ⟨res, hr, fun h => ⟨(hn h).1, fun x hx hle => ?_⟩, fun g c h => ?_⟩
        · rcases List.mem_cons.1 hx with rfl | hx
          · exact h2
          · exact (hn h).2 x hx hle
        · obtain ⟨g1, g2, g3⟩ := hs g c h
          refine ⟨g1, g2, fun x hx hle ht => ?_⟩
          rcases List.mem_cons.1 hx with rfl | hx
          · rw [h2] at ht; exact absurd ht (by simp)
          · exact g3 x hx hle ht
      · have h2' : test (Function.update ids m 0) m 0 = true := by simpa using h2
        have h3 := hna m (by simp) h1'
        have hbase : tryMsg test amax ids best m = match best with
            | none => some (some (alphaOf test amax ids m, m))
            | some (g, c) => if alphaOf test amax ids m > g then some (some (alphaOf test amax ids m, m))
                else some (some (g, c)) := by
          unfold tryMsg; simp only; rw [if_neg h1, if_neg h2, if_neg (by rw [h3]; simp)]; rfl
        have hcase : (∃ g0 c0, best = some (g0, c0) ∧ alphaOf test amax ids m ≤ g0 ∧
              tryMsg test amax ids best m = some best) ∨
            ((∀ g0 c0, best = some (g0, c0) → g0 ≤ alphaOf test amax ids m) ∧
              tryMsg test amax ids best m = some (some (alphaOf test amax ids m, m))) := by
          rw [hbase]
          cases best with
          | none => right; exact ⟨by simp, rfl⟩
          | some p =>
            obtain ⟨g0, c0⟩ := p
            simp only
            by_cases hg : alphaOf test amax ids m > g0
            · right
              rw [if_pos hg]
              refine ⟨fun g c h => ?_, rfl⟩
              simp only [Option.some.injEq, Prod.mk.injEq] at h
              omega
            · left
              rw [if_neg hg]
              exact ⟨g0, c0, rfl, by omega, rfl⟩
        rcases hcase with ⟨g0, c0, hb, hle0, hstep⟩ | ⟨hle0, hstep⟩
        · rw [hstep]
          obtain ⟨res, hr, hn, hs⟩ := ih best
          refine ⟨res, hr, fun h => ?_, fun g c h => ?_⟩
          · have := (hn h).1
            rw [hb] at this
            exact absurd this (by simp)
          · obtain ⟨g1, g2, g3⟩ := hs g c h
            refine ⟨g1, g2, fun x hx hle ht => ?_⟩
            rcases List.mem_cons.1 hx with rfl | hx
            · exact hle0.trans (g2 g0 c0 hb)
            · exact g3 x hx hle ht
        · rw [hstep]
          obtain ⟨res, hr, hn, hs⟩ := ih (some (alphaOf test amax ids m, m))
          refine ⟨res, hr, fun h => absurd (hn h).1 (by simp), fun g c h => ?_⟩
          obtain ⟨g1, g2, g3⟩ := hs g c h
          have hge := g2 _ _ rfl
          refine ⟨Or.inr ?_, fun g0 c0 h0 => (hle0 g0 c0 h0).trans hge, fun x hx hle ht => ?_⟩
          · rcases g1 with g1 | g1
            · simp only [Option.some.injEq, Prod.mk.injEq] at g1
              obtain ⟨rfl, rfl⟩ := g1
              exact ⟨h1', h2', rfl⟩
            · exact g1
          · rcases List.mem_cons.1 hx with rfl | hx
            · exact hge
            · exact g3 x hx hle ht

/-- State of the assignment when `L` levels remain. -/
structure PrioInv (L : ℕ) (ids : Fin n → ℤ) : Prop where
  values : ∀ k, ids k = -1 ∨ ((L : ℤ) < ids k ∧ ids k ≤ n)
  inj : ∀ k k', 0 < ids k → ids k = ids k' → k = k'
  card : (univ.filter (fun k => ids k = -1)).card = L

theorem PrioInv.assign {L : ℕ} {ids : Fin n → ℤ} (h : PrioInv (L + 1) ids) {c : Fin n}
    (hc : ids c ≤ 0) : PrioInv L (Function.update ids c (L + 1 : ℕ)) := by
  have hc1 : ids c = -1 := by
    rcases h.values c with h1 | h1
    · exact h1
    · push_cast at h1; omega
  have hLn : L + 1 ≤ n := by
    have := card_filter_le (univ : Finset (Fin n)) (fun k => ids k = -1)
    rw [h.card, card_univ, Fintype.card_fin] at this
    exact this
  constructor
  · intro k
    by_cases hk : k = c
    · subst hk; right; simp only [Function.update_self]; push_cast; omega
    · rw [Function.update_of_ne hk]
      rcases h.values k with h1 | h1
      · left; exact h1
      · right; push_cast at h1; omega
  · intro k k' hpos heq
    by_cases hk : k = c <;> by_cases hk' : k' = c
    · rw [hk, hk']
    · subst hk
      rw [Function.update_self, Function.update_of_ne hk'] at heq
      rcases h.values k' with h1 | h1 <;> push_cast at * <;> omega
    · subst hk'
      rw [Function.update_self, Function.update_of_ne hk] at heq
      rcases h.values k with h1 | h1 <;> push_cast at * <;> omega
    · rw [Function.update_of_ne hk] at hpos heq
      rw [Function.update_of_ne hk'] at heq
      exact h.inj k k' hpos heq
  · have : univ.filter (fun k => Function.update ids c ((L + 1 : ℕ) : ℤ) k = -1)
        = (univ.filter (fun k => ids k = -1)).erase c := by
      ext k
      simp only [mem_filter, mem_univ, true_and, mem_erase]
      by_cases hk : k = c
      · subst hk; simp; omega
      · rw [Function.update_of_ne hk]; simp [hk]
    rw [this, card_erase_of_mem (by simp [hc1]), h.card]
    rfl

/-- Assigned messages keep what they tolerate. -/
theorem tolerates_assign (hs : b.Sane) {L : ℕ} {ids : Fin n → ℤ} (h : PrioInv (L + 1) ids) {c : Fin n}
    (hc : ids c ≤ 0) {f : ℕ} (hold : ∀ k, 0 < ids k → Tolerates b ids k f)
    (hnew : Tolerates b (Function.update ids c 0) c f) :
    ∀ k, 0 < Function.update ids c ((L + 1 : ℕ) : ℤ) k →
      Tolerates b (Function.update ids c ((L + 1 : ℕ) : ℤ)) k f := by
  intro k hk
  by_cases hkc : k = c
  · subst hkc
    refine (tolerates_congr hs ?_ ?_).1 hnew
    · intro j
      by_cases hj : j = k
      · subst hj; simp
      · rw [Function.update_of_ne hj, Function.update_of_ne hj, Function.update_self,
          Function.update_self]
        rcases h.values j with h1 | h1 <;> push_cast at * <;> omega
    · intro j hj
      rw [Function.update_of_ne hj, Function.update_of_ne hj, Function.update_self,
        Function.update_self]
      rcases h.values j with h1 | h1 <;> push_cast at * <;> omega
  · rw [Function.update_of_ne hkc] at hk
    have hkv := h.values k
    have hcv := h.values c
    refine (tolerates_congr hs ?_ ?_).1 (hold k hk)
    · intro j
      rw [Function.update_of_ne hkc]
      by_cases hj : j = c
      · subst hj; rw [Function.update_self]; push_cast at *; omega
      · rw [Function.update_of_ne hj]
    · intro j _
      rw [Function.update_of_ne hkc]
      by_cases hj : j = c
      · subst hj; rw [Function.update_self]; push_cast at *; omega
      · rw [Function.update_of_ne hj]

/-- A message set for which the searches are well defined. -/
structure Bus.Positive (b : Bus n) : Prop extends b.Sane where
  tau_pos : 0 < b.tau
  err_pos : 0 < b.maxErrorFrameSize

theorem transferDelay_pos (h : b.Positive) (i : Fin n) : 0 < b.transferDelay i := by
  have := h.tau_pos
  have h2 : 0 < (b.msg i).framesize := by unfold Msg.framesize; omega
  unfold Bus.transferDelay; positivity

/-- The assertion of line 46 holds. -/
theorem not_tolerates_alphaMax (h : b.Positive) (ids : Fin n → ℤ) (i : Fin n) :
    ¬ Tolerates b ids i (b.alphaMax i) := by
  rw [tolerates_iff h.toSane]
  rintro ⟨x, hx, hs, hd⟩
  have hE := h.err_pos
  have h1 : (b.msg i).deadline ≤ b.alphaMax i * b.maxErrorFrameSize := by
    rw [← div_le_iff₀ hE]
    refine (Int.le_ceil _).trans ?_
    unfold Bus.alphaMax
    exact_mod_cast Int.self_le_toNat _
  have h2 : b.maxErrorFrameSize ≤ b.retranDelay ids i := by
    unfold Bus.retranDelay
    have := maxDelay_nonneg (b := b) (fun k => decide (ids k ≤ ids i))
    linarith
  have h3 : (b.alphaMax i : ℚ) * b.maxErrorFrameSize ≤ b.alphaMax i * b.retranDelay ids i :=
    mul_le_mul_of_nonneg_left h2 (by positivity)
  have h4 := transferDelay_pos h i
  have h5 := interDelay_nonneg (ids := ids) h.toSane i hx
  have h6 := blockingDelay_nonneg (ids := ids) h.toSane i
  have h7 := h.toSane.jitter i
  unfold Bus.step at hs
  linarith

/-- Moving all unassigned messages above `m` and all assigned ones below it does not
lengthen the response time of `m`, if all unassigned messages were above it before. -/
theorem tolerates_lowest (h : b.Positive) {ids pr : Fin n → ℤ} (hpr : Function.Injective pr)
    {m : Fin n} {f : ℕ} (hids : ∀ k, ids k = -1 ∨ 0 < ids k)
    (hlow : ∀ k, ids k = -1 → pr k ≤ pr m) (ht : Tolerates b pr m f) :
    Tolerates b (Function.update ids m 0) m f := by
  have hs := h.toSane
  rw [tolerates_iff hs] at ht ⊢
  obtain ⟨x, hx, hsx, hd⟩ := ht
  refine ⟨x, hx, le_trans ?_ hsx, hd⟩
  set tr := Function.update ids m 0 with htr
  have htrm : tr m = 0 := by simp [htr]
  have htrk : ∀ k, k ≠ m → tr k = ids k := fun k hk => by simp [htr, Function.update_of_ne hk]
  have hhp : ∀ k, tr k < tr m → pr k < pr m := by
    intro k hk
    by_cases hkm : k = m
    · subst hkm; omega
    · rw [htrk k hkm, htrm] at hk
      have := hlow k (by rcases hids k with h1 | h1 <;> omega)
      exact lt_of_le_of_ne this (fun he => hkm (hpr he))
  have hE : b.retranDelay tr m ≤ b.retranDelay pr m := by
    unfold Bus.retranDelay
    have : b.maxDelay (fun k => decide (tr k ≤ tr m)) ≤ b.maxDelay (fun k => decide (pr k ≤ pr m)) := by
      apply maxDelay_mono
      intro k hk
      simp only [decide_eq_true_eq] at hk ⊢
      by_cases hkm : k = m
      · rw [hkm]
      · rw [htrk k hkm, htrm] at hk
        exact hlow k (by rcases hids k with h1 | h1 <;> omega)
    linarith
  have hterm : ∀ k, 0 ≤ (⌈(x - b.transferDelay m + (b.msg k).jitter + b.tau) / (b.msg k).period⌉ : ℚ)
      * (b.transferDelay k + b.interFrameSpace) := fun k =>
    mul_nonneg (by exact_mod_cast frames_nonneg hs m k hx) (mul_nonneg' hs k)
  have hI : b.interDelay tr m x ≤ b.interDelay pr m x := by
    apply sum_le_sum
    intro k _
    by_cases hk : tr k < tr m
    · rw [if_pos hk, if_pos (hhp k hk)]
    · rw [if_neg hk]
      split_ifs
      · exact hterm k
      · exact le_rfl
  have hBI : b.blockingDelay tr m + b.interDelay tr m x ≤ b.blockingDelay pr m + b.interDelay pr m x := by
    have hbound : b.maxDelay (fun k => decide (k ≠ m) && decide (tr m < tr k))
        ≤ b.maxDelay (fun k => decide (k ≠ m) && decide (pr m < pr k))
          + (b.interDelay pr m x - b.interDelay tr m x) := by
      rw [maxDelay_le_iff]
      have h0 := maxDelay_nonneg (b := b) (fun k => decide (k ≠ m) && decide (pr m < pr k))
      refine ⟨by linarith, fun k hk => ?_⟩
      simp only [Bool.and_eq_true, decide_eq_true_eq] at hk
      obtain ⟨hkm, hk⟩ := hk
      by_cases hpk : pr m < pr k
      · have := le_maxDelay (b := b) (p := fun k => decide (k ≠ m) && decide (pr m < pr k)) (k := k)
          (by simp [hkm, hpk])
        linarith
      · have hpk' : pr k < pr m :=
          lt_of_le_of_ne (not_lt.1 hpk) (fun he => hkm (hpr he))
        have hone : (1 : ℤ) ≤ frames b m k x := by
          have : 0 < frames b m k x := by
            apply Int.ceil_pos.2
            have := h.tau_pos
            have := hs.jitter k
            exact div_pos (by linarith) (hs.period k)
          omega
        have hadd : b.interDelay tr m x + b.transferDelay k ≤ b.interDelay pr m x := by
          have e : b.interDelay tr m x + b.transferDelay k
              = ∑ j, ((if tr j < tr m then
                  (⌈(x - b.transferDelay m + (b.msg j).jitter + b.tau) / (b.msg j).period⌉ : ℚ)
                    * (b.transferDelay j + b.interFrameSpace) else 0)
                  + if j = k then b.transferDelay k else 0) := by
            rw [sum_add_distrib]
            simp only [sum_ite_eq', mem_univ, if_true]
            rfl
          rw [e]
          apply sum_le_sum
          intro j _
          by_cases hj : j = k
          · subst hj
            have hnot : ¬ tr j < tr m := by omega
            rw [if_neg hnot, if_pos rfl, if_pos hpk', zero_add]
            have h1q : (1 : ℚ) ≤ (⌈(x - b.transferDelay m + (b.msg j).jitter + b.tau)
                / (b.msg j).period⌉ : ℚ) := by exact_mod_cast hone
            have hmn := mul_nonneg' hs j
            have h2 := mul_le_mul_of_nonneg_right h1q hmn
            have := hs.ifs
            linarith
          · rw [if_neg hj, add_zero]
            by_cases hjt : tr j < tr m
            · rw [if_pos hjt, if_pos (hhp j hjt)]
            · rw [if_neg hjt]
              split_ifs
              · exact hterm j
              · exact le_rfl
        have h0 := maxDelay_nonneg (b := b) (fun k => decide (k ≠ m) && decide (pr m < pr k))
        linarith
    unfold Bus.blockingDelay
    linarith
  unfold Bus.step
  have hEf : (f : ℚ) * b.retranDelay tr m ≤ f * b.retranDelay pr m :=
    mul_le_mul_of_nonneg_left hE (by positivity)
  linarith

variable {test} {amax}

theorem tryAll_spec (h : b.Positive)
    (htest : ∀ ids i f, test ids i f = true ↔ Tolerates b ids i f) (ids : Fin n → ℤ) :
    ∃ res, tryAll test b.alphaMax ids = some res ∧
      (res = none → ∀ m, ids m ≤ 0 → ¬ Tolerates b (Function.update ids m 0) m 0) ∧
      ∀ g c, res = some (g, c) → ids c ≤ 0 ∧ Tolerates b (Function.update ids c 0) c 0 ∧
        ∀ m f, ids m ≤ 0 → Tolerates b (Function.update ids m 0) m f →
          Tolerates b (Function.update ids c 0) c f := by
  have hna : ∀ ids m, test ids m (b.alphaMax m) = false := by
    intro ids m
    by_contra hc
    exact not_tolerates_alphaMax h ids m ((htest _ _ _).1 (by simpa using hc))
  obtain ⟨res, hr, hn, hsome⟩ := tryFold test b.alphaMax ids (List.finRange n).reverse
    (fun m _ _ => hna _ m) none
  refine ⟨res, hr, fun h0 m hm hc => ?_, fun g c hres => ?_⟩
  · have := (hn h0).2 m (by simp) hm
    rw [(htest _ _ _).2 hc] at this
    exact absurd this (by simp)
  · obtain ⟨g1, _, g3⟩ := hsome g c hres
    rcases g1 with g1 | ⟨hc, ht, hg⟩
    · exact absurd g1 (by simp)
    have hanti : ∀ i f f', f ≤ f' → test (Function.update ids i 0) i f' = true →
        test (Function.update ids i 0) i f = true := fun i f f' hf ht' =>
      (htest _ _ _).2 (((htest _ _ _).1 ht').mono h.toSane hf)
    refine ⟨hc, (htest _ _ _).1 ht, fun m f hm hmt => ?_⟩
    have hm0 : test (Function.update ids m 0) m 0 = true :=
      (htest _ _ _).2 (hmt.mono h.toSane (Nat.zero_le f))
    have h1 := (bsearch_spec _ (hanti m) (b.alphaMax m) 0 (b.alphaMax m) (by omega) hm0 (hna _ m)).2 f
      ((htest _ _ _).2 hmt)
    have h2 := (bsearch_spec _ (hanti c) (b.alphaMax c) 0 (b.alphaMax c) (by omega) ht (hna _ c)).1
    have h3 := g3 m (by simp) hm hm0
    rw [hg] at h3
    exact ((htest _ _ _).1 h2).mono h.toSane (h1.trans h3)

theorem assignLevels_sound (h : b.Positive)
    (htest : ∀ ids i f, test ids i f = true ↔ Tolerates b ids i f) (L : ℕ) :
    ∀ ids, PrioInv L ids → (∀ k, 0 < ids k → Tolerates b ids k 0) →
      assignLevels test b.alphaMax L ids = .failed ∨
      ∃ ids', assignLevels test b.alphaMax L ids = .ok ids' ∧ PrioInv 0 ids' ∧
        ∀ k, 0 < ids' k → Tolerates b ids' k 0 := by
  induction L with
  | zero => intro ids hi hk; exact Or.inr ⟨ids, rfl, hi, hk⟩
  | succ L ih =>
    intro ids hi hk
    obtain ⟨res, hr, hn, hsome⟩ := tryAll_spec h htest ids
    unfold assignLevels
    rw [hr]
    cases res with
    | none => left; rfl
    | some p =>
      obtain ⟨g, c⟩ := p
      obtain ⟨hc, ht, _⟩ := hsome g c rfl
      exact ih _ (hi.assign hc) (tolerates_assign h.toSane hi hc hk ht)

theorem assignLevels_robust (h : b.Positive)
    (htest : ∀ ids i f, test ids i f = true ↔ Tolerates b ids i f)
    {pr : Fin n → ℤ} (hpr : Function.Injective pr) {f : ℕ} (hf : ∀ i, Tolerates b pr i f) (L : ℕ) :
    ∀ ids, PrioInv L ids → (∀ k, 0 < ids k → Tolerates b ids k f) →
      ∃ ids', assignLevels test b.alphaMax L ids = .ok ids' ∧ PrioInv 0 ids' ∧
        ∀ k, 0 < ids' k → Tolerates b ids' k f := by
  induction L with
  | zero => intro ids hi hk; exact ⟨ids, rfl, hi, hk⟩
  | succ L ih =>
    intro ids hi hk
    have hne : (univ.filter (fun k => ids k = -1)).Nonempty := by
      rw [← card_pos, hi.card]; omega
    obtain ⟨m, hm, hmax⟩ := exists_max_image _ pr hne
    simp only [mem_filter, mem_univ, true_and] at hm hmax
    have hmt := tolerates_lowest h hpr (fun k => by
      rcases hi.values k with h1 | h1
      · left; exact h1
      · right; push_cast at h1; omega) hmax (hf m)
    obtain ⟨res, hr, hn, hsome⟩ := tryAll_spec h htest ids
    unfold assignLevels
    rw [hr]
    cases res with
    | none =>
      exact absurd (hmt.mono h.toSane (Nat.zero_le f)) (hn rfl m (by omega))
    | some p =>
      obtain ⟨g, c⟩ := p
      obtain ⟨hc, _, hbest⟩ := hsome g c rfl
      exact ih _ (hi.assign hc) (tolerates_assign h.toSane hi hc hk (hbest m f (by omega) hmt))

theorem prioInv_init : PrioInv n (fun _ : Fin n => (-1 : ℤ)) := by
  refine ⟨fun k => Or.inl rfl, fun k k' h => by simp at h, ?_⟩
  simp

/-- The ids are exactly `1, …, n`. -/
theorem PrioInv.final {ids : Fin n → ℤ} (h : PrioInv 0 ids) :
    Function.Injective ids ∧ ∀ k, 1 ≤ ids k ∧ ids k ≤ n := by
  have hpos : ∀ k, 0 < ids k ∧ ids k ≤ n := by
    intro k
    rcases h.values k with h1 | h1
    · exact absurd (card_eq_zero.1 h.card) (ne_empty_of_mem (a := k) (by simp [h1]))
    · exact_mod_cast h1
  exact ⟨fun a c hac => h.inj a c (hpos a).1 hac, fun k => by have := hpos k; omega⟩

/-- **C45**, priority assignment, soundness: the assertion never fails, and if the
algorithm ends without an exception then the ids are a permutation of `1, …, n` and every
message meets its deadline with its final id.  `test` is the schedulability test the
algorithm calls. -/
theorem C45_assignment_sound (h : b.Positive)
    (htest : ∀ ids i f, test ids i f = true ↔ Tolerates b ids i f) :
    setPriorities test b.alphaMax = .failed ∨
    ∃ ids, setPriorities test b.alphaMax = .ok ids ∧
      Function.Injective ids ∧ (∀ k, 1 ≤ ids k ∧ ids k ≤ n) ∧ ∀ k, Tolerates b ids k 0 := by
  rcases assignLevels_sound h htest n _ prioInv_init (fun k hk => by simp at hk) with h1 | ⟨ids, h1, h2, h3⟩
  · left; exact h1
  · right
    obtain ⟨g1, g2⟩ := h2.final
    exact ⟨ids, h1, g1, g2, fun k => h3 k (by have := g2 k; omega)⟩

/-- **C45**, priority assignment, optimality and robustness: if under *any* assignment of
distinct priorities every message tolerates `f` faults, then the algorithm succeeds, and
every message tolerates `f` faults under the assignment it returns. -/
theorem C45_assignment_robust (h : b.Positive)
    (htest : ∀ ids i f, test ids i f = true ↔ Tolerates b ids i f)
    (pr : Fin n → ℤ) (hpr : Function.Injective pr) (f : ℕ) (hf : ∀ i, Tolerates b pr i f) :
    ∃ ids, setPriorities test b.alphaMax = .ok ids ∧ Function.Injective ids ∧
      (∀ k, 1 ≤ ids k ∧ ids k ≤ n) ∧ ∀ k, Tolerates b ids k f := by
  obtain ⟨ids, h1, h2, h3⟩ := assignLevels_robust h htest hpr hf n _ prioInv_init
    (fun k hk => by simp at hk)
  obtain ⟨g1, g2⟩ := h2.final
  exact ⟨ids, h1, g1, g2, fun k => h3 k (by have := g2 k; omega)⟩

/-- Whether a priority assignment succeeded, and with which ids. -/
def PrioResult.toList {n : ℕ} : PrioResult n → Option (List ℤ)
  | .ok ids => some (List.ofFn ids)
  | _ => none

/-- Three messages, the first of which is the least urgent. -/
def prioBus : Bus 3 where
  msg := ![⟨8, 2000, 1500, 0⟩, ⟨8, 800, 700, 5⟩, ⟨1, 1000, 500, 0⟩]
  tau := 1
  interFrameSpace := 3
  maxErrorFrameSize := 31

/-- Non-vacuity: on this bus the algorithm succeeds and reverses the order, and there is
an assignment under which all messages tolerate one fault. -/
example : prioBus.Positive := by
  refine ⟨⟨?_, ?_, ?_, ?_, ?_⟩, ?_, ?_⟩ <;> decide +kernel
example : (setPriorities (prioBus.tolerates 20) prioBus.alphaMax).toList = some [3, 2, 1] := by
  decide +kernel
example : ∀ i, Tolerates prioBus ![3, 1, 2] i 1 := by
  have h : ∀ i, prioBus.tolerates 20 ![3, 1, 2] i 1 = true := by decide +kernel
  intro i
  have hi := h i
  unfold Bus.tolerates at hi
  cases hw : prioBus.wctt ![3, 1, 2] 20 i 1 with
  | none => rw [hw] at hi; simp at hi
  | some w =>
    rw [hw] at hi
    exact ⟨20, w, hw, by simpa using hi⟩
example (b : Bus n) : ∃ test : (Fin n → ℤ) → Fin n → ℕ → Bool,
    ∀ ids i f, test ids i f = true ↔ Tolerates b ids i f := by
  classical
  exact ⟨fun ids i f => decide (Tolerates b ids i f), fun _ _ _ => by simp⟩

end Verif.Can
