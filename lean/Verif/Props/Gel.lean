/-
Properties C48, C79 and C80: response-time bounds for global EDF-like schedulers
(`schedcat/sched/edf/gel_pl.py`, `native/src/edf/gel_pl.cpp`).
-/
import Mathlib.Algebra.BigOperators.Fin
import Verif.Lemmas.GelSolve
import Verif.Lemmas.GelSchedule
import Verif.Lemmas.Necessary
import Mathlib.Data.Fin.VecNotation

namespace Verif.Gel
open Verif.Spec Finset

variable {n : ℕ}

/-! ### The arguments the analysis computes -/

section
variable {m : ℕ} {ts : Fin n → GTask}

/-- Costs and periods of the tasks. -/
def costs (ts : Fin n → GTask) (i : Fin n) : ℕ := (ts i).cost
def periods (ts : Fin n → GTask) (i : Fin n) : ℕ := (ts i).period

theorem utilSum_eq : utilSum ts = totalUtilization (costs ts) (periods ts) := by
  unfold utilSum totalUtilization costs periods
  rw [← List.sum_toFinset _ (List.nodup_finRange n)]
  simp

theorem Si_eq (t : GTask) (p : ℤ) : Si t p = gelS t.cost t.period p := rfl

theorem line_eq (t : GTask) (p : ℤ) (s : ℚ) :
    Yint m t p + (t.cost : ℚ) / t.period * s = gelG m t.cost t.period p s := by
  unfold Yint gelG
  rw [Si_eq]
  ring

theorem sum_Si (p : Fin n → ℤ) : ((List.finRange n).map (fun i => Si (ts i) (p i))).sum =
    ∑ i, gelS (costs ts i) (periods ts i) (p i) := by
  rw [← List.sum_toFinset _ (List.nodup_finRange n)]
  simp [Si_eq, costs, periods]

theorem Si_nonneg (t : GTask) (p : ℤ) : 0 ≤ Si t p := le_max_left _ _

theorem util_le_one (hT : ∀ i, 0 < (ts i).period) (hCT : ∀ i, (ts i).cost ≤ (ts i).period) (i : Fin n) :
    ((ts i).cost : ℚ) / (ts i).period ≤ 1 := by
  rw [div_le_one (by exact_mod_cast hT i)]
  exact_mod_cast hCT i

theorem Yint_Si_nonneg (hm : 0 < m) {t : GTask} (p : ℤ) (hu : (t.cost : ℚ) / t.period ≤ 1) :
    0 ≤ Yint m t p + Si t p := by
  unfold Yint
  have hm' : (1 : ℚ) ≤ m := by exact_mod_cast hm
  have h0 : (0 : ℚ) ≤ (t.cost : ℚ) := by positivity
  have h1 : (t.cost : ℚ) / m ≤ t.cost := div_le_self h0 hm'
  have h2 : (0 : ℚ) ≤ (t.cost : ℚ) / m := by positivity
  have h3 := mul_le_mul_of_nonneg_left hu h2
  linarith

/-- The number of contributions. -/
theorem k_lt (hm : 0 < m) (hU : totalUtilization (costs ts) (periods ts) ≤ m) :
    (⌈utilSum ts⌉ - 1).toNat + 1 ≤ m := by
  rw [utilSum_eq]
  have : ⌈totalUtilization (costs ts) (periods ts)⌉ ≤ (m : ℤ) := Int.ceil_le.2 (by exact_mod_cast hU)
  omega

theorem k_le (hT : ∀ i, 0 < (ts i).period) (hCT : ∀ i, (ts i).cost ≤ (ts i).period) :
    (⌈utilSum ts⌉ - 1).toNat ≤ n := by
  have h : utilSum ts ≤ n := by
    rw [utilSum_eq]
    unfold totalUtilization
    have : ∑ i, ((costs ts i : ℚ) / periods ts i) ≤ (univ : Finset (Fin n)).card • (1 : ℚ) :=
      sum_le_card_nsmul _ _ _ (fun i _ => util_le_one hT hCT i)
    simpa using this
  have : ⌈utilSum ts⌉ ≤ (n : ℤ) := Int.ceil_le.2 (by exact_mod_cast h)
  omega

/-- The smallest priority point. -/
theorem min_spec {f : Fin n → ℤ} {lo : ℤ} (h : ((List.finRange n).map f).min? = some lo) :
    (∀ i, lo ≤ f i) ∧ ∃ i, f i = lo := by
  rw [List.min?_eq_some_iff] at h
  obtain ⟨h1, h2⟩ := h
  refine ⟨fun i => h2 _ (List.mem_map.2 ⟨i, List.mem_finRange i, rfl⟩), ?_⟩
  obtain ⟨i, _, hi⟩ := List.mem_map.1 h1
  exact ⟨i, hi⟩

theorem min_some (hn : 0 < n) (f : Fin n → ℤ) : ∃ lo, ((List.finRange n).map f).min? = some lo := by
  cases h : ((List.finRange n).map f).min? with
  | some lo => exact ⟨lo, rfl⟩
  | none =>
    rw [List.min?_eq_none_iff] at h
    have := congrArg List.length h
    simp at this
    omega

end

/-! ### Roots -/

/-- **C48**: there is at most one root. -/
theorem C48_unique {m : ℕ} {C T : Fin n → ℕ} {p : Fin n → ℤ} (hm : 0 < m) (hT : ∀ i, 0 < T i)
    (hCT : ∀ i, C i ≤ T i) (hU : totalUtilization C T ≤ m) {s t : ℚ} (hs : GelRoot m C T p s)
    (ht : GelRoot m C T p t) : s = t := by
  let ts : Fin n → GTask := fun i => ⟨C i, T i, 0⟩
  have key : ∀ {s t : ℚ}, GelRoot m C T p s → GelRoot m C T p t → s ≤ t → t ≤ s := by
    rintro s t ⟨Q, hQ, hQe⟩ ⟨R, hR, hRe⟩ hst
    have hkt := k_lt (ts := ts) hm hU
    rw [utilSum_eq] at hkt
    have hM := M_decr (m := m) (k := ⌈totalUtilization C T⌉ - 1) (S := ∑ i, gelS (C i) (T i) (p i))
      (Y := fun i => Yint m (ts i) (p i)) (u := fun i => (C i : ℚ) / T i)
      (fun i => util_le_one (ts := ts) hT hCT i) hkt hst
    have e : ∀ x, (fun i => Yint m (ts i) (p i) + (C i : ℚ) / T i * x) =
        fun i => gelG m (C i) (T i) (p i) x := fun x => funext fun i => line_eq (ts i) (p i) x
    have h1 := M_eq (m := m) (k := ⌈totalUtilization C T⌉ - 1) (S := ∑ i, gelS (C i) (T i) (p i))
      (Y := fun i => Yint m (ts i) (p i)) (u := fun i => (C i : ℚ) / T i) (s := s) (Q := Q) (by rw [e]; exact hQ)
    have h2 := M_eq (m := m) (k := ⌈totalUtilization C T⌉ - 1) (S := ∑ i, gelS (C i) (T i) (p i))
      (Y := fun i => Yint m (ts i) (p i)) (u := fun i => (C i : ℚ) / T i) (s := t) (Q := R) (by rw [e]; exact hR)
    have e1 : ∑ i ∈ Q, (Yint m (ts i) (p i) + (C i : ℚ) / T i * s) = ∑ i ∈ Q, gelG m (C i) (T i) (p i) s :=
      sum_congr rfl (fun i _ => line_eq (ts i) (p i) s)
    have e2 : ∑ i ∈ R, (Yint m (ts i) (p i) + (C i : ℚ) / T i * t) = ∑ i ∈ R, gelG m (C i) (T i) (p i) t :=
      sum_congr rfl (fun i _ => line_eq (ts i) (p i) t)
    rw [e1] at h1
    rw [e2] at h2
    rw [h1, h2] at hM
    linarith
  rcases le_total s t with h | h
  · exact le_antisymm h (key hs ht h)
  · exact le_antisymm (key ht hs h) h

section
variable {m : ℕ} {ts : Fin n → GTask} {pp : Fin n → ℤ}

/-- The implementation uses library functions that do what they promise. -/
def Impl.Legal : Impl n → Prop
  | .python => True
  | .native o => o.Legal

/-- The exact value, for both implementations. -/
theorem sValue_exact (impl : Impl n) (hi : impl.Legal) (fuel : ℕ) (hn : 0 < n) (hm : 0 < m)
    (hT : ∀ i, 0 < (ts i).period) (hCT : ∀ i, (ts i).cost ≤ (ts i).period)
    (hU : totalUtilization (costs ts) (periods ts) ≤ m) :
    ∃ lo s, sValue impl fuel m ts pp 0 = some (lo, s) ∧ (∀ i, lo ≤ pp i) ∧ (∃ i, pp i = lo) ∧ 0 ≤ s ∧
      GelRoot m (costs ts) (periods ts) (fun i => pp i - lo) s := by
  obtain ⟨lo, hlo⟩ := min_some hn pp
  obtain ⟨h1, h2⟩ := min_spec hlo
  set k := ⌈utilSum ts⌉ - 1 with hk
  set Y : Fin n → ℚ := fun i => Yint m (ts i) (pp i - lo) with hY
  set u : Fin n → ℚ := fun i => ((ts i).cost : ℚ) / (ts i).period with hu
  set S := ((List.finRange n).map (fun i => Si (ts i) (pp i - lo))).sum with hS
  have hSv : S = ∑ i, Si (ts i) (pp i - lo) := by
    rw [hS, sum_Si]; rfl
  have hgen : ∀ init l, init.Nodup → Largest Y k.toNat init.toFinset → GoodRepl Y u l →
      ∃ z, traceFrom m S Y u init l = some z ∧ 0 ≤ z ∧
        GelRoot m (costs ts) (periods ts) (fun i => pp i - lo) z := by
    intro init l hnd hinit hl
    obtain ⟨z, hz, hz0, Q, hQ, hQe⟩ := traceFrom_spec (fun i => util_le_one hT hCT i) (k_lt hm hU) (k_le hT hCT)
      hSv (fun i => Si_nonneg _ _) (fun i => Yint_Si_nonneg hm _ (util_le_one hT hCT i)) hnd hinit hl
    have e : (fun i => Y i + u i * z) = fun i => gelG m (costs ts i) (periods ts i) (pp i - lo) z :=
      funext fun i => line_eq (ts i) (pp i - lo) z
    refine ⟨z, hz, hz0, Q, ?_, ?_⟩
    · rw [e, utilSum_eq] at hQ; exact hQ
    · rw [sum_congr rfl (fun i _ => line_eq (ts i) (pp i - lo) z), hS, sum_Si] at hQe
      exact hQe
  have hm0 : m ≠ 0 := by omega
  cases impl with
  | python =>
    obtain ⟨z, hz, hz0, hroot⟩ := hgen _ _ (nlargestIdx_nodup k Y) (nlargestIdx_largest k Y) goodRepl_sort
    refine ⟨lo, z, ?_, h1, h2, hz0, hroot⟩
    unfold sValue
    rw [hlo]
    simp only [if_neg hm0]
    change (exactS m k S Y u).map _ = _
    unfold exactS
    rw [hz]; rfl
  | native o =>
    have ho : o.Legal := hi
    have hL : Largest Y k.toNat (o.init k Y).toFinset := by
      refine ⟨?_, fun i hi j hj => ?_⟩
      · rw [List.toFinset_card_of_nodup (ho.init_nodup k Y), ho.init_length]
      · rw [List.mem_toFinset] at hi hj
        exact ho.init_top k Y i hi j hj
    obtain ⟨z, hz, hz0, hroot⟩ := hgen _ _ (ho.init_nodup k Y) hL
      (goodRepl_of_perm (ho.sorted_perm u _) (ho.sorted_sorted u _))
    refine ⟨lo, z, ?_, h1, h2, hz0, hroot⟩
    unfold sValue
    rw [hlo]
    simp only [if_neg hm0]
    change (exactSNative o m k S Y u).map _ = _
    unfold exactSNative
    rw [hz]; rfl

/-- The value of the binary search. -/
theorem sValue_binsearch (impl : Impl n) {fuel : ℕ} {lo : ℤ} {s : ℚ} {r : ℕ} (hm : 0 < m)
    (hT : ∀ i, 0 < (ts i).period) (hCT : ∀ i, (ts i).cost ≤ (ts i).period)
    (hU : totalUtilization (costs ts) (periods ts) ≤ m)
    (h : sValue impl fuel m ts pp (r + 1) = some (lo, s)) :
    (∀ i, lo ≤ pp i) ∧ (∃ i, pp i = lo) ∧ 0 ≤ s ∧
      GelLegal m (costs ts) (periods ts) (fun i => pp i - lo) s ∧
      ∀ z, GelRoot m (costs ts) (periods ts) (fun i => pp i - lo) z →
        z ≤ s ∧ s ≤ z + max 1 z / 2 ^ (r + 1) := by
  unfold sValue at h
  cases hlo : ((List.finRange n).map pp).min? with
  | none => rw [hlo] at h; cases h
  | some lo' =>
  rw [hlo] at h
  have hm0 : m ≠ 0 := by omega
  simp only [if_neg hm0] at h
  obtain ⟨h1, h2⟩ := min_spec hlo
  set k := ⌈utilSum ts⌉ - 1 with hk
  set Y : Fin n → ℚ := fun i => Yint m (ts i) (pp i - lo') with hY
  set u : Fin n → ℚ := fun i => ((ts i).cost : ℚ) / (ts i).period with hu
  set S := ((List.finRange n).map (fun i => Si (ts i) (pp i - lo'))).sum with hS
  have hSv : S = ∑ i, Si (ts i) (pp i - lo') := by rw [hS, sum_Si]; rfl
  obtain ⟨strict, hb⟩ : ∃ strict, (binsearchS strict fuel m k S Y u (r + 1)).map (fun s => (lo', s)) = some (lo, s) := by
    cases impl with
    | python => exact ⟨false, h⟩
    | native o => exact ⟨true, h⟩
  unfold binsearchS at hb
  cases hd : doubling (M m k S Y u) strict fuel 0 1 with
  | none => rw [hd] at hb; simp at hb
  | some ab =>
  rw [hd] at hb
  simp only [Option.map_some, Option.some.injEq, Prod.mk.injEq] at hb
  obtain ⟨rfl, rfl⟩ := hb
  have h0 : 0 ≤ M m k S Y u 0 := M_zero hSv (fun i => Si_nonneg _ _)
    (fun i => Yint_Si_nonneg hm _ (util_le_one hT hCT i))
  obtain ⟨d1, d2, d3, d4, d5⟩ := doubling_spec strict fuel 0 1 ab.1 ab.2 hd h0 ⟨le_rfl, by norm_num⟩ (by norm_num)
  obtain ⟨b1, b2, b3, b4, b5, b6⟩ := bisect_spec (f := M m k S Y u) (r + 1) ab.1 ab.2 d1 d2 d4.le
  set s := (bisect (M m k S Y u) (r + 1) ab.1 ab.2).2 with hs
  set a := (bisect (M m k S Y u) (r + 1) ab.1 ab.2).1 with ha
  have hkt : k.toNat + 1 ≤ m := k_lt hm hU
  have hdecr := fun {x y : ℚ} (hxy : x ≤ y) => M_decr (S := S) (Y := Y) (fun i => util_le_one hT hCT i) hkt hxy
  refine ⟨h1, h2, d3.trans (b3.trans b5), ?_, ?_⟩
  · have hQ := nlargestIdx_largest k (fun i => Y i + u i * s)
    have e : (fun i => Y i + u i * s) = fun i => gelG m (costs ts i) (periods ts i) (pp i - lo') s :=
      funext fun i => line_eq (ts i) (pp i - lo') s
    refine ⟨(nlargestIdx k (fun i => Y i + u i * s)).toFinset, ?_, ?_⟩
    · have hQ' := hQ
      rw [← e, ← utilSum_eq]
      exact hQ'
    · have h3 := M_eq (m := m) (S := S) hQ
      rw [h3] at b2
      rw [sum_congr rfl (fun i _ => line_eq (m := m) (ts i) (pp i - lo') s), hS, sum_Si] at b2
      change ∑ i ∈ _, gelG m (costs ts i) (periods ts i) (pp i - lo') s +
        ∑ i, gelS (costs ts i) (periods ts i) (pp i - lo') ≤ m * s
      have : ∀ Q : Finset (Fin n), ∑ i ∈ Q, gelG m (costs ts i) (periods ts i) (pp i - lo') s =
        ∑ i ∈ Q, gelG m (ts i).cost (ts i).period (pp i - lo') s := fun Q => rfl
      rw [this]
      linarith
  · rintro z ⟨Q, hQ, hQe⟩
    have hz : M m k S Y u z = 0 := by
      have e : (fun i => Y i + u i * z) = fun i => gelG m (costs ts i) (periods ts i) (pp i - lo') z :=
        funext fun i => line_eq (ts i) (pp i - lo') z
      have h3 := M_eq (m := m) (k := k) (S := S) (Y := Y) (u := u) (s := z) (Q := Q)
        (by rw [e, hk, utilSum_eq]; exact hQ)
      rw [h3, sum_congr rfl (fun i _ => line_eq (m := m) (ts i) (pp i - lo') z), hS, sum_Si]
      have : ∑ i ∈ Q, gelG m (ts i).cost (ts i).period (pp i - lo') z =
        ∑ i ∈ Q, gelG m (costs ts i) (periods ts i) (pp i - lo') z := rfl
      rw [this]
      linarith
    have haz : a ≤ z := by
      by_contra hc
      push Not at hc
      have := hdecr hc.le
      rw [hz] at this
      linarith
    have hzs : z ≤ s := by
      by_contra hc
      push Not at hc
      have := hdecr hc.le
      rw [hz] at this
      linarith
    refine ⟨hzs, ?_⟩
    have h3 : (ab.2 - ab.1) / 2 ^ (r + 1) ≤ max 1 z / 2 ^ (r + 1) := by
      apply div_le_div_of_nonneg_right _ (by positivity)
      exact d5.trans (max_le_max le_rfl (b3.trans haz))
    linarith

theorem sValue_ends (impl : Impl n) (r : ℕ) (hn : 0 < n) (hm : 0 < m)
    (hT : ∀ i, 0 < (ts i).period) (hCT : ∀ i, (ts i).cost ≤ (ts i).period)
    (hU : totalUtilization (costs ts) (periods ts) ≤ m) :
    ∃ N, ∀ fuel ≥ N, ∃ x, sValue impl fuel m ts pp (r + 1) = some x := by
  obtain ⟨lo, hlo⟩ := min_some hn pp
  set k := ⌈utilSum ts⌉ - 1 with hk
  set Y : Fin n → ℚ := fun i => Yint m (ts i) (pp i - lo) with hY
  set u : Fin n → ℚ := fun i => ((ts i).cost : ℚ) / (ts i).period with hu
  set S := ((List.finRange n).map (fun i => Si (ts i) (pp i - lo))).sum with hS
  obtain ⟨N, hN⟩ := exists_nat_gt (M m k S Y u 1)
  refine ⟨N + 1, fun fuel hf => ?_⟩
  have hd : ∀ strict, ∃ x, doubling (M m k S Y u) strict fuel 0 1 = some x := fun strict =>
    doubling_ends strict (fun x y hxy => M_decr (fun i => util_le_one hT hCT i) (k_lt hm hU) hxy) N 0 1 le_rfl hN
      fuel (by omega)
  have hm0 : m ≠ 0 := by omega
  unfold sValue
  rw [hlo]
  simp only [if_neg hm0]
  cases impl with
  | python =>
    obtain ⟨x, hx⟩ := hd false
    refine ⟨(lo, (bisect (M m k S Y u) (r + 1) x.1 x.2).2), ?_⟩
    change (binsearchS false fuel m k S Y u (r + 1)).map _ = _
    unfold binsearchS
    rw [hx]; rfl
  | native o =>
    obtain ⟨x, hx⟩ := hd true
    refine ⟨(lo, (bisect (M m k S Y u) (r + 1) x.1 x.2).2), ?_⟩
    change (binsearchS true fuel m k S Y u (r + 1)).map _ = _
    unfold binsearchS
    rw [hx]; rfl

end

/-! ### From legal values to response times -/

theorem gelS_eq {C T : ℕ} (hT : 0 < T) (p : ℕ) : gelS C T p = (C : ℚ) - (C : ℚ) / T * (min p T : ℕ) := by
  unfold gelS
  have hT' : (0 : ℚ) < T := by exact_mod_cast hT
  have hC : (0 : ℚ) ≤ C := by positivity
  push_cast
  rcases le_total p T with h | h
  · rw [min_eq_left (by exact_mod_cast h), max_eq_right]
    · field_simp
    · apply mul_nonneg hC
      have : (p : ℚ) / T ≤ 1 := by rw [div_le_one hT']; exact_mod_cast h
      linarith
  · rw [min_eq_right (by exact_mod_cast h), max_eq_left]
    · field_simp
      ring
    · apply mul_nonpos_of_nonneg_of_nonpos hC
      have : 1 ≤ (p : ℚ) / T := by rw [one_le_div hT']; exact_mod_cast h
      linarith

/-- A legal value gives compliant offsets. -/
theorem compliant_of_legal {m : ℕ} {C T P : Fin n → ℕ} {s : ℚ} (hm : 0 < m) (hT : ∀ i, 0 < T i)
    (hCT : ∀ i, C i ≤ T i) (hU : totalUtilization C T ≤ m) (hs : 0 ≤ s)
    (hl : GelLegal m C T (fun i => (P i : ℤ)) s) :
    ∃ K G, K ≤ m ∧ totalUtilization C T ≤ K ∧ Compliant m K C T P (fun i => s - (C i : ℚ) / m) G := by
  classical
  obtain ⟨Q, hQ, hle⟩ := hl
  set k := (⌈totalUtilization C T⌉ - 1).toNat with hk
  have hceil : ⌈totalUtilization C T⌉ ≤ (m : ℤ) := Int.ceil_le.2 (by exact_mod_cast hU)
  have hKm : k + 1 ≤ m := by omega
  have hUK : totalUtilization C T ≤ ((k + 1 : ℕ) : ℚ) := by
    have h1 := Int.le_ceil (totalUtilization C T)
    have h2 : ⌈totalUtilization C T⌉ ≤ ((k + 1 : ℕ) : ℤ) := by push_cast; omega
    have h3 : ((⌈totalUtilization C T⌉ : ℤ) : ℚ) ≤ (((k + 1 : ℕ) : ℤ) : ℚ) := by exact_mod_cast h2
    exact h1.trans (by simpa using h3)
  have hmq : (0 : ℚ) < m := by exact_mod_cast hm
  have hm1 : (1 : ℚ) ≤ m := by exact_mod_cast hm
  have hg : ∀ i, gelG m (C i) (T i) (P i) s =
      utilOf C T i * ((s - (C i : ℚ) / m) + (min (P i) (T i) : ℕ)) := by
    intro i
    unfold gelG utilOf
    rw [gelS_eq (hT i)]
    ring
  have hS0 : ∀ i, 0 ≤ gelS (C i) (T i) (P i) := fun i => le_max_left _ _
  -- large enough offsets
  have hpos : 1 < k + 1 → ∀ i, 0 ≤ s - (C i : ℚ) / m := by
    intro hk1 i
    have hn : 0 < n := Fin.pos i
    have hQc : 0 < Q.card := by rw [hQ.card]; omega
    obtain ⟨R, hR1, hR2⟩ := exists_superset_card_eq (s := {i}) (n := Q.card) (by simpa using hQc)
      (by simpa using Q.card_le_univ)
    have h1 := largest_sum_ge hQ hR2
    have hi : i ∈ R := hR1 (mem_singleton_self i)
    have h2 : ∀ j, 0 ≤ gelG m (C j) (T j) (P j) s + gelS (C j) (T j) (P j) := by
      intro j
      unfold gelG
      have hu1 := utilOf_le_one (hT j) (hCT j)
      have hu0 := utilOf_nonneg (C := C) (T := T) j
      unfold utilOf at hu1 hu0
      have hC0 : (0 : ℚ) ≤ (C j : ℚ) := by positivity
      have h3 : (C j : ℚ) / m ≤ C j := div_le_self hC0 hm1
      have h4 := mul_le_mul_of_nonneg_left hu1 (show (0 : ℚ) ≤ (C j : ℚ) / m by positivity)
      have h5 := mul_nonneg hs hu0
      nlinarith
    have h3 : gelG m (C i) (T i) (P i) s + gelS (C i) (T i) (P i) ≤
        ∑ j ∈ R, (gelG m (C j) (T j) (P j) s + gelS (C j) (T j) (P j)) :=
      single_le_sum (f := fun j => gelG m (C j) (T j) (P j) s + gelS (C j) (T j) (P j)) (fun j _ => h2 j) hi
    have h4 : ∑ j ∈ R, gelS (C j) (T j) (P j) ≤ ∑ j, gelS (C j) (T j) (P j) :=
      sum_le_sum_of_subset_of_nonneg (subset_univ _) (fun j _ _ => hS0 j)
    rw [sum_add_distrib] at h3
    have h5 : gelG m (C i) (T i) (P i) s + gelS (C i) (T i) (P i) ≤ m * s := by linarith
    unfold gelG at h5
    have hu1 := utilOf_le_one (hT i) (hCT i)
    have hu0 := utilOf_nonneg (C := C) (T := T) i
    unfold utilOf at hu1 hu0
    set v := (C i : ℚ) / T i
    have hmv : 0 < (m : ℚ) - v := by
      have : (2 : ℚ) ≤ m := by exact_mod_cast (by omega : 2 ≤ m)
      linarith
    have h6 : (C i : ℚ) = m * ((C i : ℚ) / m) := by field_simp
    have h7 : (m - v) * ((C i : ℚ) / m) ≤ (m - v) * s := by nlinarith
    have := le_of_mul_le_mul_left h7 hmv
    linarith
  refine ⟨k + 1, ∑ i ∈ Q, gelG m (C i) (T i) (P i) s, hKm, hUK, ⟨?_, ?_, ?_, hpos⟩⟩
  · apply sum_nonneg
    intro i hi
    have hk1 : 1 < k + 1 := by
      have : 0 < Q.card := card_pos.2 ⟨i, hi⟩
      rw [hQ.card] at this
      omega
    rw [hg i]
    have h1 := hpos hk1 i
    have h2 : (0 : ℚ) ≤ (min (P i) (T i) : ℕ) := by positivity
    exact mul_nonneg (utilOf_nonneg i) (by linarith)
  · intro R hR
    have hRn : R.card ≤ n := by simpa using R.card_le_univ
    have hRQ : R.card ≤ Q.card := by rw [hQ.card]; omega
    obtain ⟨R', hR1, hR2⟩ := exists_superset_card_eq hRQ (by simpa using Q.card_le_univ)
    refine le_trans ?_ (largest_sum_ge hQ hR2)
    have hnn : ∀ i ∈ R', i ∉ R → 0 ≤ gelG m (C i) (T i) (P i) s := by
      intro i hi _
      have hk1 : 1 < k + 1 := by
        have : 0 < R'.card := card_pos.2 ⟨i, hi⟩
        rw [hR2, hQ.card] at this
        omega
      rw [hg i]
      have h1 := hpos hk1 i
      have h2 : (0 : ℚ) ≤ (min (P i) (T i) : ℕ) := by positivity
      exact mul_nonneg (utilOf_nonneg i) (by linarith)
    have h1 := sum_le_sum_of_subset_of_nonneg hR1 hnn
    simp only [hg] at h1 ⊢
    exact h1
  · intro i
    have h1 : ∑ j, ((C j : ℚ) - utilOf C T j * (min (P j) (T j) : ℕ)) = ∑ j, gelS (C j) (T j) (P j) :=
      sum_congr rfl (fun j _ => by rw [gelS_eq (hT j)]; rfl)
    rw [h1]
    have h6 : (m : ℚ) * ((C i : ℚ) / m) = C i := by field_simp
    have : (m : ℚ) * (s - (C i : ℚ) / m) + C i = m * s := by rw [mul_sub, h6]; ring
    rw [this]
    exact hle

/-- Shifting all priority points does not change the scheduler. -/
theorem edf_of_gel {m : ℕ} {w : Workload n} {σ : Schedule n} {Y : Fin n → ℤ} {lo : ℤ} (hlo : ∀ i, lo ≤ Y i)
    (h : GEL m w Y σ) : EDF m w (fun i => (Y i - lo).toNat) σ := by
  intro t j hr hn
  obtain ⟨h1, h2⟩ := h t j hr hn
  refine ⟨h1, fun j' hj' => ?_⟩
  have h3 := h2 j' hj'
  have h4 := hlo j.1
  have h5 := hlo j'.1
  unfold Workload.deadline
  simp only
  omega

/-- Legal values bound response times. -/
theorem legal_safe {m : ℕ} {C T : Fin n → ℕ} {Y B : Fin n → ℤ} {lo : ℤ} {s : ℚ} (hm : 0 < m) (hT : ∀ i, 0 < T i)
    (hCT : ∀ i, C i ≤ T i) (hU : totalUtilization C T ≤ m) (hs : 0 ≤ s) (hlo : ∀ i, lo ≤ Y i)
    (hl : GelLegal m C T (fun i => Y i - lo) s)
    (hB : ∀ i, (Y i - lo) + C i + ⌊s - (C i : ℚ) / m⌋ ≤ B i) : ResponseTimesBounded m C T Y B := by
  intro w σ hsp hv hg j t ht
  have hP : (fun i => Y i - lo) = fun i => (((fun i => (Y i - lo).toNat) i : ℕ) : ℤ) := by
    funext i
    have := hlo i
    simp only
    omega
  rw [hP] at hl
  obtain ⟨K, G, hKm, hUK, hc⟩ := compliant_of_legal hm hT hCT hU hs hl
  have h1 := gel_bound hsp hT hCT hm hv (edf_of_gel hlo hg) hKm (by exact hUK) hc j t
  apply h1
  have h2 := hB j.1
  have h3 := hlo j.1
  have h4 : (((Y j.1 - lo).toNat : ℕ) : ℤ) = Y j.1 - lo := by omega
  rw [h4]
  linarith

/-! ### C48: the bounds are computed from the root -/

section
variable {m : ℕ} {ts : Fin n → GTask}

theorem bounded_iff : hasBoundedTardiness m ts = true ↔
    totalUtilization (costs ts) (periods ts) ≤ m ∧ ∀ i, (ts i).cost ≤ (ts i).period := by
  unfold hasBoundedTardiness
  rw [Bool.and_eq_true, decide_eq_true_eq, utilSum_eq, List.all_eq_true]
  simp

/-- **C48**, exact algorithm: `compute_response_bounds` with `rounds = 0` finds the
root `s` of the function, for the priority points reduced by the smallest one, and
the bound of task `i` is `s - C_i / m + C_i` plus its priority point, rounded up. -/
theorem C48_exact (fuel : ℕ) (pp : Fin n → ℤ) (hn : 0 < n) (hm : 0 < m) (hT : ∀ i, 0 < (ts i).period)
    (hCT : ∀ i, (ts i).cost ≤ (ts i).period)
    (hU : totalUtilization (fun i => (ts i).cost) (fun i => (ts i).period) ≤ m) :
    ∃ lo s, (∀ i, lo ≤ pp i) ∧ (∃ i, pp i = lo) ∧ 0 ≤ s ∧
      GelRoot m (fun i => (ts i).cost) (fun i => (ts i).period) (fun i => pp i - lo) s ∧
      responseBounds fuel m ts pp 0 =
        some (some fun i => ⌈s - ((ts i).cost : ℚ) / m + (ts i).cost + ((pp i - lo : ℤ) : ℚ)⌉) := by
  obtain ⟨lo, s, h1, h2, h3, h4, h5⟩ := sValue_exact .python trivial fuel hn hm hT hCT hU (pp := pp)
  refine ⟨lo, s, h2, h3, h4, h5, ?_⟩
  unfold responseBounds
  rw [if_neg (by rw [bounded_iff.2 ⟨hU, hCT⟩]; simp), h1]
  rfl

/-- **C48**, exact algorithm of the native implementation: the same root, for every
legal behaviour of the library's sorting functions. -/
theorem C48_exact_native {o : NativeOrder n} (ho : o.Legal) (fuel : ℕ) (pp : Fin n → ℤ) (hn : 0 < n) (hm : 0 < m)
    (hT : ∀ i, 0 < (ts i).period) (hCT : ∀ i, (ts i).cost ≤ (ts i).period)
    (hU : totalUtilization (fun i => (ts i).cost) (fun i => (ts i).period) ≤ m) :
    ∃ lo s, (∀ i, lo ≤ pp i) ∧ (∃ i, pp i = lo) ∧ 0 ≤ s ∧
      GelRoot m (fun i => (ts i).cost) (fun i => (ts i).period) (fun i => pp i - lo) s ∧
      nativeBounds o fuel m ts pp 0 =
        some (some fun i => (pp i - lo) + (ts i).cost + |⌈s - ((ts i).cost : ℚ) / m⌉|) := by
  obtain ⟨lo, s, h1, h2, h3, h4, h5⟩ := sValue_exact (.native o) ho fuel hn hm hT hCT hU (pp := pp)
  refine ⟨lo, s, h2, h3, h4, h5, ?_⟩
  unfold nativeBounds
  rw [h1]
  simp

/-- **C48**, binary search: it ends, and the value `s` it uses is legal and exceeds
the root by at most `max 1 root / 2 ^ rounds`. -/
theorem C48_binsearch (pp : Fin n → ℤ) (hn : 0 < n) (hm : 0 < m) (hT : ∀ i, 0 < (ts i).period)
    (hCT : ∀ i, (ts i).cost ≤ (ts i).period)
    (hU : totalUtilization (fun i => (ts i).cost) (fun i => (ts i).period) ≤ m) (rounds : ℕ) (hr : 0 < rounds) :
    ∃ N, ∀ fuel ≥ N, ∃ lo s, (∀ i, lo ≤ pp i) ∧ (∃ i, pp i = lo) ∧ 0 ≤ s ∧
      GelLegal m (fun i => (ts i).cost) (fun i => (ts i).period) (fun i => pp i - lo) s ∧
      (∃ root, GelRoot m (fun i => (ts i).cost) (fun i => (ts i).period) (fun i => pp i - lo) root ∧
        root ≤ s ∧ s ≤ root + max 1 root / 2 ^ rounds) ∧
      responseBounds fuel m ts pp rounds =
        some (some fun i => ⌈s - ((ts i).cost : ℚ) / m + (ts i).cost + ((pp i - lo : ℤ) : ℚ)⌉) := by
  obtain ⟨r, rfl⟩ : ∃ r, rounds = r + 1 := ⟨rounds - 1, by omega⟩
  obtain ⟨N, hN⟩ := sValue_ends .python r hn hm hT hCT hU (pp := pp)
  refine ⟨N, fun fuel hf => ?_⟩
  obtain ⟨⟨lo, s⟩, hx⟩ := hN fuel hf
  obtain ⟨h1, h2, h3, h4, h5⟩ := sValue_binsearch .python hm hT hCT hU hx
  obtain ⟨lo', z, _, k2, ⟨i, k3⟩, _, k5⟩ := sValue_exact .python trivial fuel hn hm hT hCT hU (pp := pp)
  have hlo : lo' = lo := by
    obtain ⟨j, hj⟩ := h2
    have := k2 j
    have := h1 i
    omega
  subst hlo
  refine ⟨lo', s, h1, h2, h3, h4, ⟨z, k5, h5 z k5⟩, ?_⟩
  unfold responseBounds
  rw [if_neg (by rw [bounded_iff.2 ⟨hU, hCT⟩]; simp), hx]
  rfl

/-- **C48**, binary search of the native implementation. -/
theorem C48_binsearch_native (o : NativeOrder n) (pp : Fin n → ℤ) (hn : 0 < n) (hm : 0 < m) (hT : ∀ i, 0 < (ts i).period)
    (hCT : ∀ i, (ts i).cost ≤ (ts i).period)
    (hU : totalUtilization (fun i => (ts i).cost) (fun i => (ts i).period) ≤ m) (rounds : ℕ) (hr : 0 < rounds) :
    ∃ N, ∀ fuel ≥ N, ∃ lo s, (∀ i, lo ≤ pp i) ∧ (∃ i, pp i = lo) ∧ 0 ≤ s ∧
      GelLegal m (fun i => (ts i).cost) (fun i => (ts i).period) (fun i => pp i - lo) s ∧
      (∃ root, GelRoot m (fun i => (ts i).cost) (fun i => (ts i).period) (fun i => pp i - lo) root ∧
        root ≤ s ∧ s ≤ root + max 1 root / 2 ^ rounds) ∧
      nativeBounds o fuel m ts pp rounds =
        some (some fun i => (pp i - lo) + (ts i).cost + |⌈s - ((ts i).cost : ℚ) / m⌉|) := by
  obtain ⟨r, rfl⟩ : ∃ r, rounds = r + 1 := ⟨rounds - 1, by omega⟩
  obtain ⟨N, hN⟩ := sValue_ends (.native o) r hn hm hT hCT hU (pp := pp)
  refine ⟨N, fun fuel hf => ?_⟩
  obtain ⟨⟨lo, s⟩, hx⟩ := hN fuel hf
  obtain ⟨h1, h2, h3, h4, h5⟩ := sValue_binsearch (.native o) hm hT hCT hU hx
  obtain ⟨lo', z, _, k2, ⟨i, k3⟩, _, k5⟩ := sValue_exact .python trivial fuel hn hm hT hCT hU (pp := pp)
  have hlo : lo' = lo := by
    obtain ⟨j, hj⟩ := h2
    have := k2 j
    have := h1 i
    omega
  subst hlo
  refine ⟨lo', s, h1, h2, h3, h4, ⟨z, k5, h5 z k5⟩, ?_⟩
  unfold nativeBounds
  rw [hx]
  simp

/-! ### C79: the bounds are safe -/

theorem root_legal {C T : Fin n → ℕ} {p : Fin n → ℤ} {s : ℚ} (h : GelRoot m C T p s) : GelLegal m C T p s := by
  obtain ⟨Q, h1, h2⟩ := h
  exact ⟨Q, h1, h2.le⟩

theorem sValue_legal (impl : Impl n) (hi : impl.Legal) {fuel rounds : ℕ} {pp : Fin n → ℤ} {lo : ℤ} {s : ℚ} (hm : 0 < m)
    (hT : ∀ i, 0 < (ts i).period) (hCT : ∀ i, (ts i).cost ≤ (ts i).period)
    (hU : totalUtilization (costs ts) (periods ts) ≤ m)
    (h : sValue impl fuel m ts pp rounds = some (lo, s)) :
    (∀ i, lo ≤ pp i) ∧ 0 ≤ s ∧ GelLegal m (costs ts) (periods ts) (fun i => pp i - lo) s := by
  cases rounds with
  | succ r =>
    obtain ⟨h1, _, h3, h4, _⟩ := sValue_binsearch impl hm hT hCT hU h
    exact ⟨h1, h3, h4⟩
  | zero =>
    have hn : 0 < n := by
      rcases Nat.eq_zero_or_pos n with h0 | h0
      · subst h0
        unfold sValue at h
        simp at h
      · exact h0
    obtain ⟨lo', s', h1, h2, h3, h4, h5⟩ := sValue_exact impl hi fuel hn hm hT hCT hU (pp := pp)
    rw [h1] at h
    simp only [Option.some.injEq, Prod.mk.injEq] at h
    obtain ⟨rfl, rfl⟩ := h
    exact ⟨h2, h4, root_legal h5⟩

/-- **C79**: if the processors are not overloaded, the bounds reported for a
scheduler with the given priority points hold in all its schedules, for the exact
algorithm, any number of rounds of the binary search and both implementations. -/
theorem C79_response_details (impl : Impl n) (hi : impl.Legal) {fuel rounds : ℕ} {pp B : Fin n → ℤ} (hm : 0 < m)
    (hT : ∀ i, 0 < (ts i).period) (hCT : ∀ i, (ts i).cost ≤ (ts i).period)
    (hU : totalUtilization (fun i => (ts i).cost) (fun i => (ts i).period) ≤ m)
    (h : responseDetails impl fuel m ts pp rounds = some (some B)) :
    ResponseTimesBounded m (fun i => (ts i).cost) (fun i => (ts i).period) pp B := by
  unfold responseDetails at h
  split_ifs at h with h1
  · -- one processor, implicit deadlines
    obtain ⟨rfl, h2⟩ := h1
    simp only [List.all_eq_true, List.mem_finRange, decide_eq_true_eq, true_implies] at h2
    simp only [Option.some.injEq] at h
    subst h
    intro w σ hs hv hg j t ht
    have hD : EDF 1 w (fun i => (ts i).period) σ := by
      intro t j hr hn
      obtain ⟨h3, h4⟩ := hg t j hr hn
      refine ⟨h3, fun j' hj' => ?_⟩
      have h5 := h4 j' hj'
      rw [h2, h2] at h5
      unfold Workload.deadline
      simp only
      omega
    have hsch := gfb_sound (m := 1) (C := fun i => (ts i).cost) (T := fun i => (ts i).period) (D := fun i => (ts i).period)
      hT hT (by norm_num) (by
        intro k
        unfold densityOf totalUtilization at *
        simp only [min_self]
        simpa using hU)
    have := hsch w σ hs hv hD j
    apply this.mono
    unfold Workload.deadline
    simp only at ht ⊢
    omega
  · cases impl with
    | python =>
      simp only at h
      unfold responseBounds at h
      split_ifs at h with h2
      · simp at h
      · rw [Option.map_eq_some_iff] at h
        obtain ⟨⟨lo, s⟩, hx, hB⟩ := h
        simp only [Option.some.injEq] at hB
        subst hB
        obtain ⟨h3, h4, h5⟩ := sValue_legal .python trivial hm hT hCT hU hx
        apply legal_safe hm hT hCT hU h4 h3 h5
        intro i
        rw [Int.le_ceil_iff]
        have := Int.floor_le (s - ((ts i).cost : ℚ) / m)
        push_cast
        linarith
    | native o =>
      simp only at h
      unfold nativeBounds at h
      rw [Option.map_eq_some_iff] at h
      obtain ⟨⟨lo, s⟩, hx, hB⟩ := h
      simp only [Option.some.injEq] at hB
      subst hB
      obtain ⟨h3, h4, h5⟩ := sValue_legal (.native o) hi hm hT hCT hU hx
      apply legal_safe hm hT hCT hU h4 h3 h5
      intro i
      have h6 := Int.floor_le_ceil (s - ((ts i).cost : ℚ) / m)
      omega

/-- **C79**, G-EDF: every job finishes within the response time that
`bound_gedf_response_times` sets. -/
theorem C79_gedf (impl : Impl n) (hi : impl.Legal) {fuel rounds : ℕ} {B : Fin n → ℤ} (hm : 0 < m)
    (hT : ∀ i, 0 < (ts i).period) (hCT : ∀ i, (ts i).cost ≤ (ts i).period)
    (hU : totalUtilization (fun i => (ts i).cost) (fun i => (ts i).period) ≤ m)
    (h : boundGedf impl fuel m ts rounds = some (some B))
    {w : Workload n} {σ : Schedule n} (hs : w.Sporadic (fun i => (ts i).cost) (fun i => (ts i).period))
    (hv : ValidSchedule m w σ) (he : EDF m w (fun i => (ts i).deadline) σ)
    (j : Job n) (t : ℕ) (ht : (w.release j : ℤ) + B j.1 ≤ t) : Completed w σ j t := by
  refine C79_response_details impl hi hm hT hCT hU h w σ hs hv ?_ j t ht
  intro t j hr hn
  obtain ⟨h1, h2⟩ := he t j hr hn
  refine ⟨h1, fun j' hj' => ?_⟩
  have := h2 j' hj'
  unfold Workload.deadline at this
  simp only at this ⊢
  exact_mod_cast this

/-- **C79**, G-FL: every job finishes within the response time that
`bound_gfl_response_times` sets. -/
theorem C79_gfl (impl : Impl n) (hi : impl.Legal) {fuel rounds : ℕ} {B : Fin n → ℤ} (hm : 0 < m)
    (hT : ∀ i, 0 < (ts i).period) (hCT : ∀ i, (ts i).cost ≤ (ts i).period)
    (hU : totalUtilization (fun i => (ts i).cost) (fun i => (ts i).period) ≤ m)
    (h : boundGfl impl fuel m ts rounds = some (some B)) :
    ResponseTimesBounded m (fun i => (ts i).cost) (fun i => (ts i).period)
      (fun i => ((ts i).deadline : ℤ) - ⌊((m : ℚ) - 1) / m * (ts i).cost⌋) B := by
  unfold boundGfl at h
  rw [if_neg (by omega)] at h
  exact C79_response_details impl hi hm hT hCT hU h

theorem util_of_python {fuel rounds : ℕ} {pp B : Fin n → ℤ}
    (h : responseDetails .python fuel m ts pp rounds = some (some B))
    (h1 : ¬ (m = 1 ∧ ∀ i, pp i = (ts i).period)) :
    totalUtilization (fun i => (ts i).cost) (fun i => (ts i).period) ≤ m ∧ ∀ i, (ts i).cost ≤ (ts i).period := by
  unfold responseDetails at h
  rw [if_neg (by simpa using h1)] at h
  simp only at h
  unfold responseBounds at h
  split_ifs at h with h2
  · simp at h
  · exact bounded_iff.1 (by simpa using h2)

/-- **C79**, the Python implementation checks for overload itself, except for
implicit deadlines on one processor. -/
theorem C79_python {fuel rounds : ℕ} {pp B : Fin n → ℤ} (hm : 0 < m)
    (hT : ∀ i, 0 < (ts i).period)
    (h1 : m = 1 → totalUtilization (fun i => (ts i).cost) (fun i => (ts i).period) ≤ 1)
    (h : responseDetails .python fuel m ts pp rounds = some (some B)) :
    ResponseTimesBounded m (fun i => (ts i).cost) (fun i => (ts i).period) pp B := by
  by_cases hm1 : m = 1
  · have hU := h1 hm1
    have hCT : ∀ i, (ts i).cost ≤ (ts i).period := by
      intro i
      have h2 : ((ts i).cost : ℚ) / (ts i).period ≤ 1 := by
        refine le_trans ?_ hU
        exact single_le_sum (f := fun i => ((ts i).cost : ℚ) / (ts i).period) (fun j _ => by positivity) (mem_univ i)
      rw [div_le_one (by exact_mod_cast hT i)] at h2
      exact_mod_cast h2
    exact C79_response_details .python trivial hm hT hCT (by rw [hm1]; exact_mod_cast hU) h
  · obtain ⟨hU, hCT⟩ := util_of_python h (fun hc => hm1 hc.1)
    exact C79_response_details .python trivial hm hT hCT hU h

/-! ### C80: overload -/

/-- Overloaded processors: no bounds hold. -/
theorem overload_unbounded {C T : Fin n → ℕ} (hT : ∀ i, 0 < T i) (hU : (m : ℚ) < totalUtilization C T)
    (Y B : Fin n → ℤ) : ¬ ResponseTimesBounded m C T Y B := by
  intro hb
  have hn : 0 < n := by
    rcases Nat.eq_zero_or_pos n with h0 | h0
    · subst h0
      unfold totalUtilization at hU
      simp at hU
      have : (0 : ℚ) ≤ m := by positivity
      linarith
    · exact h0
  obtain ⟨lo, hlo⟩ := min_some hn Y
  obtain ⟨hlo, _⟩ := min_spec hlo
  obtain ⟨σ, hv, he⟩ := exists_edf m (periodic_sporadic C T) hT (fun i => (Y i - lo).toNat)
  have hg : GEL m (periodic C T) Y σ := by
    intro t j hr hnot
    obtain ⟨h1, h2⟩ := he t j hr hnot
    refine ⟨h1, fun j' hj' => ?_⟩
    have h3 := h2 j' hj'
    have h4 := hlo j.1
    have h5 := hlo j'.1
    unfold Workload.deadline at h3
    simp only at h3
    omega
  have hmeet : MeetsDeadlines (periodic C T) (fun i => (B i).toNat) σ := by
    intro j
    apply hb _ σ (periodic_sporadic C T) hv hg j
    unfold Workload.deadline
    simp only
    omega
  obtain ⟨t, ht⟩ := exists_nat_gt ((∑ i, (C i : ℚ) / T i * (B i).toNat) / (totalUtilization C T - m))
  have h1 := demand_ge (C := C) (D := fun i => (B i).toNat) hT t
  rw [div_lt_iff₀ (by linarith)] at ht
  have h2 : (m : ℚ) * t < demand C T (fun i => (B i).toNat) t := by nlinarith
  exact multi_necessary (by exact_mod_cast h2) hv hmeet

/-- **C80** where it holds: the Python implementation reports overloaded systems as
unbounded, except for implicit deadlines on one processor. -/
theorem C80_python_partial (fuel rounds : ℕ) (pp : Fin n → ℤ)
    (hU : (m : ℚ) < totalUtilization (fun i => (ts i).cost) (fun i => (ts i).period))
    (h1 : ¬ (m = 1 ∧ ∀ i, pp i = (ts i).period)) :
    responseDetails .python fuel m ts pp rounds = some none := by
  unfold responseDetails
  rw [if_neg (by simpa using h1)]
  simp only
  unfold responseBounds
  rw [if_pos]
  by_contra hc
  have := (bounded_iff.1 (by simpa using hc)).1
  exact absurd hU (not_lt.2 this)

end

/-- **C80** is violated on one processor: two tasks of utilization 1 with implicit
deadlines are reported to have response times of one period, by both
implementations, although no bounds hold. -/
theorem C80_uniprocessor_violated :
    ∃ ts : Fin 2 → GTask, (∀ i, 0 < (ts i).period) ∧
      (∀ impl fuel rounds, boundGedf impl fuel 1 ts rounds = some (some fun i => ((ts i).period : ℤ))) ∧
      ∀ Y B, ¬ ResponseTimesBounded 1 (fun i => (ts i).cost) (fun i => (ts i).period) Y B := by
  refine ⟨fun _ => ⟨2, 2, 2⟩, fun _ => Nat.succ_pos 1, fun impl fuel rounds => ?_, fun Y B => ?_⟩
  · unfold boundGedf responseDetails
    rw [if_pos]
    exact ⟨rfl, by decide⟩
  · apply overload_unbounded (fun _ => Nat.succ_pos 1)
    unfold totalUtilization
    simp

/-- **C80** is violated by the native implementation: for four tasks of utilization
3/4 on two processors it reports response times of 21, although no bounds hold. -/
theorem C80_native_violated :
    ∃ ts : Fin 4 → GTask, (∀ i, 0 < (ts i).period) ∧ (∀ i, (ts i).cost ≤ (ts i).period) ∧
      (∀ o : NativeOrder 4, o.Legal → ∀ fuel, boundGedf (.native o) fuel 2 ts 0 = some (some fun _ => 21)) ∧
      ∀ Y B, ¬ ResponseTimesBounded 2 (fun i => (ts i).cost) (fun i => (ts i).period) Y B := by
  refine ⟨fun _ => ⟨3, 4, 4⟩, fun _ => Nat.succ_pos 3, fun _ => Nat.le_succ 3, fun o ho fuel => ?_, fun Y B => ?_⟩
  · have hk : ⌈utilSum (fun _ : Fin 4 => (⟨3, 4, 4⟩ : GTask))⌉ - 1 = 2 := by decide +kernel
    have hlo : ((List.finRange 4).map (fun _ : Fin 4 => (4 : ℤ))).min? = some 4 := by decide
    have hS : ((List.finRange 4).map (fun _ : Fin 4 => Si ⟨3, 4, 4⟩ (4 - 4))).sum = 12 := by decide +kernel
    have hY : Yint 2 ⟨3, 4, 4⟩ (4 - 4) = -9 / 8 := by decide +kernel
    have hsv : sValue (.native o) fuel 2 (fun _ : Fin 4 => (⟨3, 4, 4⟩ : GTask)) (fun _ => (4 : ℤ)) 0 = some (4, 39 / 2) := by
      unfold sValue
      rw [hlo]
      simp only [hk, hS, hY]
      unfold exactSNative traceFrom
      have hall : allRepl (fun _ : Fin 4 => (-9 / 8 : ℚ)) (fun _ => ((3 : ℕ) : ℚ) / (4 : ℕ)) = [] := by
        unfold allRepl replOf; simp
      rw [hall]
      have hnil : o.sorted (fun _ => ((3 : ℕ) : ℚ) / (4 : ℕ)) [] = [] :=
        List.Perm.eq_nil (ho.sorted_perm _ _)
      rw [hnil]
      unfold trace
      have hlen : (o.init 2 (fun _ : Fin 4 => (-9 / 8 : ℚ))).length = 2 := by
        rw [ho.init_length]; rfl
      simp only [List.map_const', List.sum_replicate, hlen]
      norm_num
    unfold boundGedf responseDetails
    rw [if_neg (by simp)]
    simp only
    unfold nativeBounds
    have hpp : (fun i : Fin 4 => (((fun _ : Fin 4 => (⟨3, 4, 4⟩ : GTask)) i).deadline : ℤ)) = fun _ => (4 : ℤ) := rfl
    rw [hpp, hsv]
    simp only [Option.map_some]
    congr 2
    funext i
    decide +kernel
  · apply overload_unbounded (fun _ => Nat.succ_pos 3)
    unfold totalUtilization
    simp
    norm_num

/-- **C79**: if the response times are bounded by `bounds`, then no job finishes
later than the maximum lateness after its deadline, and the bound of some task is
this late. -/
theorem C79_max_lateness {ts : Fin n → GTask} {Y bounds : Fin n → ℤ} {L : ℤ}
    (hL : maxLateness ts bounds = some L) :
    (∃ i, bounds i = (ts i).deadline + L) ∧
    (ResponseTimesBounded m (fun i => (ts i).cost) (fun i => (ts i).period) Y bounds →
      ResponseTimesBounded m (fun i => (ts i).cost) (fun i => (ts i).period) Y fun i => (ts i).deadline + L) := by
  unfold maxLateness at hL
  rw [List.max?_eq_some_iff] at hL
  obtain ⟨h1, h2⟩ := hL
  refine ⟨?_, fun hb w σ hs hv hg j t ht => hb w σ hs hv hg j t ?_⟩
  · obtain ⟨i, _, hi⟩ := List.mem_map.1 h1
    exact ⟨i, by omega⟩
  · have := h2 _ (List.mem_map.2 ⟨j.1, List.mem_finRange j.1, rfl⟩)
    simp only at ht
    omega

/-! ### Non-vacuity -/

/-- Three tasks on two processors, `s = 59 / 8`. -/
def exTasks : Fin 3 → GTask := ![⟨3, 5, 5⟩, ⟨4, 10, 10⟩, ⟨6, 7, 7⟩]

example : totalUtilization (fun i => (exTasks i).cost) (fun i => (exTasks i).period) ≤ (2 : ℕ) := by
  unfold totalUtilization exTasks
  simp [Fin.sum_univ_three]
  norm_num

example : (∀ i, 0 < (exTasks i).period) ∧ (∀ i, (exTasks i).cost ≤ (exTasks i).period) := by decide

example : sValue .python 0 2 exTasks (fun i => (exTasks i).deadline) 0 = some (5, 59 / 8) := by decide +kernel

example : ((boundGedf .python 0 2 exTasks 0).bind id).map (fun b => (b 0, b 1, b 2)) = some (9, 15, 13) := by
  decide +kernel

example : ((boundGfl .python 20 2 exTasks 5).bind id).map (fun b => (b 0, b 1, b 2)) = some (10, 14, 11) := by
  decide +kernel

/-- One legal behaviour of the native library functions. -/
def stableOrder (n : ℕ) : NativeOrder n where
  init := nlargestIdx
  sorted := fun u l => l.insertionSort (keyLe u)

theorem stableOrder_legal (n : ℕ) : (stableOrder n).Legal where
  init_nodup := nlargestIdx_nodup
  init_length := fun k Y => by
    have := (nlargestIdx_largest k Y).card
    rwa [List.toFinset_card_of_nodup (nlargestIdx_nodup k Y)] at this
  init_top := fun k Y i hi j hj =>
    (nlargestIdx_largest k Y).top i (List.mem_toFinset.2 hi) j (fun h => hj (List.mem_toFinset.1 h))
  sorted_perm := fun _ _ => List.perm_insertionSort _ _
  sorted_sorted := fun u l => keyLe_sorted u l

example : ((boundGedf (.native (stableOrder 3)) 0 2 exTasks 0).bind id).map (fun b => (b 0, b 1, b 2)) =
    some (9, 15, 13) := by
  decide +kernel

/-- The native implementation takes the absolute value of a negative `x`, and then
its bound is larger than the one of the Python implementation. -/
example : ((responseDetails .python 0 1 (![⟨1, 10, 10⟩, ⟨5, 20, 20⟩]) (![10, 30]) 0).bind id).map (fun b => (b 0, b 1)) =
      some (1, 21) ∧
    ((responseDetails (.native (stableOrder 2)) 0 1 (![⟨1, 10, 10⟩, ⟨5, 20, 20⟩]) (![10, 30]) 0).bind id).map
      (fun b => (b 0, b 1)) = some (1, 29) := by
  decide +kernel

end Verif.Gel
