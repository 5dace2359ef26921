/-
C124: the analysis for global schedulers with fair relative lateness finds priority points for every task set with bounded
tardiness (`schedcat/sched/gfrl.py`).
-/
import Verif.Props.Gfrl
import Verif.Lemmas.GfrlLoop

namespace Verif.Gfrl
open Verif.Spec Verif.Gel Finset

variable {n m : ℕ} {ts : Fin n → GTask}

/-! ### The function -/

theorem sVal_some (hn : 0 < n) (L : ℚ) : ∃ s, sVal m ts L = some s := by
  unfold sVal
  rcases h : ((List.finRange n).map (lineAt m ts L)).min? with _ | s
  · rw [List.min?_eq_none_iff, List.map_eq_nil_iff] at h
    have := List.mem_finRange (⟨0, hn⟩ : Fin n)
    rw [h] at this
    cases this
  · exact ⟨s, rfl⟩

/-- The value of `s`. -/
def sF (m : ℕ) (ts : Fin n → GTask) (L : ℚ) : ℚ := (sVal m ts L).getD 0

theorem sF_eq (hn : 0 < n) (L : ℚ) : sVal m ts L = some (sF m ts L) := by
  obtain ⟨s, h⟩ := sVal_some (m := m) (ts := ts) hn L
  unfold sF
  rw [h]
  rfl

/-- The value of `S_i`. -/
def SF (m : ℕ) (ts : Fin n → GTask) (i : Fin n) (L : ℚ) : ℚ := SiVal m ts (sF m ts L) L i

theorem Gf_eq (i : Fin n) (L : ℚ) : Gf m ts (sF m ts) (SF m ts) i L = GiVal m ts (sF m ts L) L i := rfl

theorem SF_eq (i : Fin n) (L : ℚ) : SF m ts i L = max 0 ((ts i).cost - util ts i * (lineAt m ts L i - sF m ts L)) := by
  unfold SF SiVal
  simp only
  split_ifs with h
  · rw [max_eq_left h.le]
  · rw [max_eq_right (not_lt.1 h)]

theorem decreasing (hm : 0 < m) (hn : 0 < n) (hT : ∀ i, 0 < (ts i).period) (hCT : ∀ i, (ts i).cost ≤ (ts i).period)
    (hD : ∀ i, 0 < (ts i).deadline) (hU : totalUtilization (costs ts) (periods ts) ≤ m) :
    Decreasing m ts (sF m ts) (SF m ts) (⌈utilSum ts⌉ - 1).toNat := by
  intro L L' Q Q' _ hlt hQ hQ'
  obtain ⟨h1, -⟩ := sVal_spec (sF_eq (m := m) (ts := ts) hn L)
  obtain ⟨-, j, hj⟩ := sVal_spec (sF_eq (m := m) (ts := ts) hn L')
  simp only [Gf_eq, GiVal_eq hT] at hQ hQ' ⊢
  simp only [SF, SiVal_eq hT]
  rw [utilSum_eq] at hQ hQ'
  refine fair_decr hm hT hCT hD hU hlt (fun i => ?_) ⟨j, ?_⟩ hQ' hQ
  · show 0 ≤ fairPoint m (costs ts i) (deadlines ts i) L (sF m ts L)
    rw [fairPoint_eq]; linarith [h1 i]
  · show fairPoint m (costs ts j) (deadlines ts j) L' (sF m ts L') = 0
    rw [fairPoint_eq]; linarith

theorem funcVal_zero (hn : 0 < n) {z : ℚ} (h : IsZero m ts (sF m ts) (SF m ts) (⌈utilSum ts⌉ - 1).toNat z) :
    funcVal m ts z = some 0 := by
  obtain ⟨-, Q, hQ, he⟩ := h
  unfold funcVal
  rw [sF_eq hn, Option.map_some, Option.some_inj]
  unfold GVal SVal
  rw [nlargest_sum, ← List.sum_toFinset _ (List.nodup_finRange n), List.toFinset_finRange]
  simp only [Gf_eq] at hQ he
  have := largest_sum_eq hQ (nlargestIdx_largest (⌈utilSum ts⌉ - 1) (GiVal m ts (sF m ts z) z))
  rw [this]
  exact he

/-! ### The start of the sweep -/

instance keyLe_total : Std.Total (keyLe (n := n)) := ⟨fun a b => by
  unfold keyLe
  rcases lt_trichotomy a.loc b.loc with h | h | h
  · exact Or.inl (Or.inl h)
  · rcases le_total a.kind b.kind with h' | h'
    · exact Or.inl (Or.inr ⟨h, h'⟩)
    · exact Or.inr (Or.inr ⟨h.symm, h'⟩)
  · exact Or.inr (Or.inl h)⟩

instance keyLe_trans : IsTrans (Change n) keyLe := ⟨fun a b c h1 h2 => by
  unfold keyLe at *
  rcases h1 with h1 | ⟨h1, h1'⟩ <;> rcases h2 with h2 | ⟨h2, h2'⟩
  · exact Or.inl (h1.trans h2)
  · exact Or.inl (by rw [← h2]; exact h1)
  · exact Or.inl (by rw [h1]; exact h2)
  · exact Or.inr ⟨h1.trans h2, h1'.trans h2'⟩⟩

theorem slopes_sum (zero : Fin n) (cs : List (Corner n)) (f : Change n → ℚ) :
    ((slopeChanges m ts zero cs).map f).sum =
      (cs.map (fun c => f (Change.littleS c.loc c.i c.j (ts c.i).deadline (ts c.j).deadline))).sum +
      ∑ i, ((bigSChanges ts i cs 0 (rawS m ts zero i) (rawSlope ts zero i)).map f).sum := by
  unfold slopeChanges
  rw [((List.perm_insertionSort _ _).map f).sum_eq, List.map_append, List.sum_append, List.map_map]
  congr 1
  rw [List.map_flatMap, ← List.toFinset_finRange, List.sum_toFinset _ (List.nodup_finRange n)]
  induction List.finRange n with
  | nil => rfl
  | cons a l ih => rw [List.flatMap_cons, List.sum_append, ih, List.map_cons, List.sum_cons]

theorem startS_eq (zero i : Fin n) : startS m ts zero i =
    (max 0 (rawS m ts zero i), eff (rawS m ts zero i) (rawSlope ts zero i)) := by
  unfold startS eff
  split_ifs with h
  · congr 1
    rcases h with h | h
    · rw [max_eq_left h.le]
    · rw [h.1, max_self]
  · congr 1
    push Not at h
    rw [max_eq_right h.1]

theorem start_core (hm : 0 < m) (hn : 0 < n) (hT : ∀ i, 0 < (ts i).period) (hCT : ∀ i, (ts i).cost ≤ (ts i).period)
    (hU : totalUtilization (costs ts) (periods ts) ≤ m) {first : Fin n} {l : List (Fin n)} (h : ordered ts = first :: l)
    {r : Fin n × List (Corner n)} (hr : r = corners m ts first first [] (keepFirst ts first l)) :
    Core m ts (sF m ts) (SF m ts) (⌈utilSum ts⌉ - 1).toNat (slopeChanges m ts r.1 r.2.reverse) (intercept m ts r.1)
      (ts r.1).deadline (fun i => (startS m ts r.1 i).1) (fun i => (startS m ts r.1 i).2) (startState m ts r.1) := by
  classical
  obtain ⟨hpos, hsort, henv⟩ := corners_spec hm h hr
  generalize hz : r.1 = zero at *
  have hsum : ∀ f : Corner n → ℚ, (r.2.reverse.map f).sum = (r.2.map f).sum := fun f =>
    ((List.reverse_perm r.2).map f).sum_eq
  generalize hcs : r.2.reverse = cs at *
  have hcpos : ∀ c ∈ cs, 0 < c.loc := fun c hc => hpos c (by rw [← hcs] at hc; exact List.mem_reverse.1 hc)
  have hcsort : cs.Pairwise (fun c d => c.loc < d.loc) := by rw [← hcs, List.pairwise_reverse]; exact hsort
  -- the envelope
  have hs : ∀ L, 0 ≤ L → sF m ts L = lineAt m ts L zero +
      (cs.map (fun c => (((ts c.j).deadline : ℚ) - (ts c.i).deadline) * max 0 (L - c.loc))).sum := by
    intro L hL
    obtain ⟨h1, i, h2⟩ := henv L hL
    obtain ⟨h3, j, h4⟩ := sVal_spec (sF_eq (m := m) (ts := ts) hn L)
    rw [hsum]
    apply le_antisymm
    · rw [h2]; exact h3 i
    · rw [← h4]; exact h1 j
  have hline : ∀ L i, sF m ts L ≤ lineAt m ts L i := fun L => (sVal_spec (sF_eq (m := m) (ts := ts) hn L)).1
  have hu0 : ∀ i, 0 ≤ util ts i := fun i => by unfold util; positivity
  -- the parts `S_i`
  have hraw : ∀ i L, 0 ≤ L → rawAt ts i cs 0 (rawS m ts zero i) (rawSlope ts zero i) L =
      (ts i).cost - util ts i * (lineAt m ts L i - sF m ts L) := by
    intro i L hL
    rw [hs L hL]
    unfold rawAt rawS rawSlope
    have : (cs.map (fun c => util ts i * (((ts c.j).deadline : ℚ) - (ts c.i).deadline) * max 0 (L - c.loc))).sum =
        util ts i * (cs.map (fun c => (((ts c.j).deadline : ℚ) - (ts c.i).deadline) * max 0 (L - c.loc))).sum := by
      rw [← List.sum_map_mul_left]
      congr 1
      apply List.map_congr_left
      intro c _
      ring
    rw [this, lineAt_eq, lineAt_eq]
    ring
  have hbig := fun i => bigS_spec (ts := ts) (i := i) (cs := cs) (L₀ := 0) (v := rawS m ts zero i) (p := rawSlope ts zero i)
    (B := (ts i).cost) hcsort (fun c hc => (hcpos c hc).le) (fun L hL => by
      rw [hraw i L hL]
      have := mul_nonneg (hu0 i) (show 0 ≤ lineAt m ts L i - sF m ts L by linarith [hline L i])
      linarith)
  have hmem : ∀ c ∈ slopeChanges m ts zero cs, 0 ≤ c.loc ∧ c.kind < 2 := by
    intro c hc
    unfold slopeChanges at hc
    rw [List.mem_insertionSort, List.mem_append, List.mem_map, List.mem_flatMap] at hc
    rcases hc with ⟨d, hd, rfl⟩ | ⟨i, _, hd⟩
    · exact ⟨(hcpos d hd).le, by simp [Change.kind]⟩
    · obtain ⟨h1, x, a, b, rfl⟩ := (hbig i).1 c hd
      exact ⟨h1, by simp [Change.kind]⟩
  -- the initial set
  have hlarge := nlargestIdx_largest (⌈utilSum ts⌉ - 1) (startG m ts zero)
  have hnd := nlargestIdx_nodup (⌈utilSum ts⌉ - 1) (startG m ts zero)
  have hpres : present (startState m ts zero) = (nlargestIdx (⌈utilSum ts⌉ - 1) (startG m ts zero)).toFinset := by
    ext i
    rw [mem_present, List.mem_toFinset]
    simp [startState]
  have hval : (startState m ts zero).value = ∑ i ∈ present (startState m ts zero), (startState m ts zero).G i +
      ∑ i, (startS m ts zero i).1 - m * intercept m ts zero := by
    show -1 * m * intercept m ts zero + ((List.finRange n).map (fun i => (startS m ts zero i).1)).sum +
      ((nlargestIdx (⌈utilSum ts⌉ - 1) (startG m ts zero)).map (startG m ts zero)).sum = _
    rw [hpres, List.sum_toFinset _ hnd, ← List.toFinset_finRange, List.sum_toFinset _ (List.nodup_finRange n)]
    show _ = ((nlargestIdx (⌈utilSum ts⌉ - 1) (startG m ts zero)).map (startG m ts zero)).sum + _ - _
    ring
  refine ⟨le_rfl, ?_, fun c hc => (hmem c hc).1, fun c hc => (hmem c hc).2, ?_, ?_, fun i => rfl, fun i => rfl, hval, ?_, ?_,
    ?_, ?_⟩
  · have : (slopeChanges m ts zero cs).Pairwise keyLe := by unfold slopeChanges; exact List.pairwise_insertionSort _ _
    refine this.imp ?_
    rintro c d (h | h)
    · exact h.le
    · exact h.1.le
  · intro L hL
    have hL : 0 ≤ L := hL
    show _ = intercept m ts zero + (ts zero).deadline * (L - 0) + _
    rw [hs L hL, slopes_sum, lineAt_eq]
    have e : ∀ i, ((bigSChanges ts i cs 0 (rawS m ts zero i) (rawSlope ts zero i)).map
        (fun c => ds c * max 0 (L - c.loc))).sum = 0 := by
      intro i
      apply List.sum_eq_zero
      intro x hx
      obtain ⟨d, hd, rfl⟩ := List.mem_map.1 hx
      obtain ⟨-, x, a, b, rfl⟩ := (hbig i).1 d hd
      simp [ds]
    rw [sum_congr rfl (fun i _ => e i), sum_const_zero]
    simp only [ds, Change.loc]
    ring
  · intro i L hL
    have hL : 0 ≤ L := hL
    show _ = (startS m ts zero i).1 + (startS m ts zero i).2 * (L - 0) + _
    rw [SF_eq, ← hraw i L hL, (hbig i).2 L hL, slopes_sum, startS_eq]
    have e1 : (cs.map (fun c => dS i (Change.littleS c.loc c.i c.j (ts c.i).deadline (ts c.j).deadline) *
        max 0 (L - (Change.littleS c.loc c.i c.j ((ts c.i).deadline : ℚ) (ts c.j).deadline).loc))).sum = 0 := by
      apply List.sum_eq_zero
      intro x hx
      obtain ⟨d, hd, rfl⟩ := List.mem_map.1 hx
      simp [dS]
    have e2 : ∑ k, ((bigSChanges ts k cs 0 (rawS m ts zero k) (rawSlope ts zero k)).map
        (fun c => dS i c * max 0 (L - c.loc))).sum =
        ((bigSChanges ts i cs 0 (rawS m ts zero i) (rawSlope ts zero i)).map (fun c => dS i c * max 0 (L - c.loc))).sum := by
      apply Finset.sum_eq_single i
      · intro k _ hk
        apply List.sum_eq_zero
        intro x hx
        obtain ⟨d, hd, rfl⟩ := List.mem_map.1 hx
        obtain ⟨-, x, a, b, rfl⟩ := (hbig k).1 d hd
        simp [dS, hk]
      · intro h; exact absurd (mem_univ i) h
    rw [e1, e2]
    ring
  · show -1 * m * (ts zero).deadline + ((List.finRange n).map (fun i => (startS m ts zero i).2)).sum +
      ((nlargestIdx (⌈utilSum ts⌉ - 1) (startG m ts zero)).map (startGSlope m ts zero)).sum = _
    rw [hpres, List.sum_toFinset _ hnd, ← List.toFinset_finRange, List.sum_toFinset _ (List.nodup_finRange n)]
    show _ = ((nlargestIdx (⌈utilSum ts⌉ - 1) (startG m ts zero)).map (startGSlope m ts zero)).sum + _ - _
    ring
  · rw [hval, hpres]
    show 0 ≤ ∑ i ∈ _, startG m ts zero i + _ - _
    generalize (nlargestIdx (⌈utilSum ts⌉ - 1) (startG m ts zero)).toFinset = Q at hlarge
    have hm1 : (1 : ℚ) ≤ m := by exact_mod_cast hm
    have hm0 : (m : ℚ) ≠ 0 := by linarith
    have hk := card_lt hm hU
    rw [← utilSum_eq] at hk
    have hQc : (Q.card : ℚ) ≤ m := by
      have : Q.card ≤ m := by rw [hlarge.card]; omega
      exact_mod_cast this
    have hi0 : intercept m ts zero ≤ 0 := by
      unfold intercept
      apply div_nonpos_of_nonpos_of_nonneg _ (by linarith)
      have := mul_nonneg (show 0 ≤ (m : ℚ) - 1 by linarith) (show (0 : ℚ) ≤ (ts zero).cost by positivity)
      linarith
    have h1 : ∑ i ∈ Q, (startS m ts zero i).1 ≤ ∑ i, (startS m ts zero i).1 :=
      sum_le_sum_of_subset_of_nonneg (subset_univ _) (fun i _ _ => by rw [startS_eq]; exact le_max_left _ _)
    have h2 : ∑ i ∈ Q, intercept m ts zero ≤ ∑ i ∈ Q, (startG m ts zero i + (startS m ts zero i).1) := by
      refine sum_le_sum fun i _ => ?_
      unfold startG
      have hT' : (0 : ℚ) < (ts i).period := by exact_mod_cast hT i
      have hu1 : util ts i ≤ 1 := by unfold util; rw [div_le_one hT']; exact_mod_cast hCT i
      have hC0 : (0 : ℚ) ≤ ((ts i).cost : ℚ) := by positivity
      have h3 : ((ts i).cost : ℚ) / m ≤ (ts i).cost := div_le_self hC0 hm1
      have h4 : (0 : ℚ) ≤ ((ts i).cost : ℚ) / m := by positivity
      have h5 := mul_le_mul_of_nonneg_left hu1 h4
      have h6 := mul_le_mul_of_nonpos_left hu1 hi0
      linarith
    rw [sum_add_distrib, sum_const, nsmul_eq_mul] at h2
    have h7 := mul_le_mul_of_nonpos_right hQc hi0
    linarith
  · rw [hpres, hlarge.card]
  · intro i j hi hj
    have hi' : i ∈ present (startState m ts zero) := mem_present.2 hi
    have hj' : j ∉ present (startState m ts zero) := by rw [mem_present, hj]; simp
    rw [hpres] at hi' hj'
    exact hlarge.top i hi' j hj'

/-! ### C124 -/

/-- **C124**: for a task set with bounded tardiness and positive deadlines the sweep ends, the check of its result passes
and the call assigns priority points. -/
theorem C124_gfrl_points_found (hm : 0 < m) (hn : 0 < n) (hT : ∀ i, 0 < (ts i).period) (hD : ∀ i, 0 < (ts i).deadline)
    (hCT : ∀ i, (ts i).cost ≤ (ts i).period) (hU : totalUtilization (costs ts) (periods ts) ≤ m) :
    ∃ fuel o pp, boundResponseTimes m ts fuel = some o ∧ o.points = some pp := by
  rcases ho : ordered ts with _ | ⟨first, l⟩
  · exfalso
    have : (⟨0, hn⟩ : Fin n) ∈ ordered ts := by
      unfold ordered
      rw [List.mem_insertionSort]
      exact List.mem_finRange _
    rw [ho] at this
    cases this
  · obtain ⟨fuel, z, h1, h2⟩ := loop_done (slopes := slopeChanges m ts (corners m ts first first [] (keepFirst ts first l)).1
      (corners m ts first first [] (keepFirst ts first l)).2.reverse) (decreasing hm hn hT hCT hD hU) _ _ _ _ _ _
      (start_core hm hn hT hCT hU ho rfl) rfl rfl (by simp [startState, Change.kind])
    refine ⟨fuel, ⟨some (pointsOf m ts z (sF m ts z)), .error .type⟩, pointsOf m ts z (sF m ts z), ?_, rfl⟩
    unfold boundResponseTimes
    rw [bounded_iff.2 ⟨hU, hCT⟩, if_neg (by simp)]
    have hf : findZero m ts fuel = some (.ok z) := by
      unfold findZero
      rw [ho]
      simp only
      rw [if_neg hm.ne', h1]
    rw [hf]
    simp only
    rw [sF_eq hn, funcVal_zero hn h2]
    simp

/-- **C124**: in particular the common ratio of response times and deadlines exists. -/
theorem C124_ratio_exists {C T D : Fin n → ℕ} (hm : 0 < m) (hn : 0 < n) (hT : ∀ i, 0 < T i) (hD : ∀ i, 0 < D i)
    (hCT : ∀ i, C i ≤ T i) (hU : totalUtilization C T ≤ m) : ∃ L s, FairRatio m C T D L s := by
  obtain ⟨fuel, o, pp, h1, h2⟩ := C124_gfrl_points_found (ts := fun i => ⟨C i, T i, D i⟩) hm hn hT hD hCT hU
  obtain ⟨L, s, h3, -⟩ := C123_gfrl_points hm hT h1 h2
  exact ⟨L, s, h3⟩

/-- Without the condition on the deadlines there may be no points. -/
theorem C124_zero_deadline : ∃ o, boundResponseTimes 1 (fun _ : Fin 1 => ⟨1, 4, 0⟩) 10 = some o ∧ o.points = none := by
  have h1 : (boundResponseTimes 1 (fun _ : Fin 1 => ⟨1, 4, 0⟩) 10).map (fun o => o.points.isSome) = some false := by
    decide +kernel
  rcases h : boundResponseTimes 1 (fun _ : Fin 1 => ⟨1, 4, 0⟩) 10 with _ | ⟨_ | pp, e⟩
  · rw [h] at h1; cases h1
  · exact ⟨_, rfl, rfl⟩
  · rw [h] at h1; simp at h1

/-- The hypotheses are met. -/
example : 0 < 2 ∧ 0 < 3 ∧ (∀ i, 0 < (exTasks i).period) ∧ (∀ i, 0 < (exTasks i).deadline) ∧
    (∀ i, (exTasks i).cost ≤ (exTasks i).period) ∧ totalUtilization (costs exTasks) (periods exTasks) ≤ 2 := by
  refine ⟨by norm_num, by norm_num, by decide, by decide, by decide, ?_⟩
  simp [totalUtilization, Fin.sum_univ_three, costs, periods, exTasks]
  norm_num

end Verif.Gfrl
