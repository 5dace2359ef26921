import Verif.Model.GyRta
import Verif.Props.Points
import Mathlib.Order.Bounds.Basic
import Mathlib.Tactic.Linarith
import Mathlib.Tactic.Positivity
import Mathlib.Tactic.Push

/-! The loops of `gy_rta.py`. -/

namespace Verif.GyRta

/-! ### Fixed-point iterations -/

theorem gammaLoop_mono {f : ℚ → ℚ} {fuel fuel' : ℕ} {a b g : ℚ} (h : gammaLoop f fuel a b = some g)
    (hf : fuel ≤ fuel') : gammaLoop f fuel' a b = some g := by
  induction fuel generalizing fuel' a b with
  | zero => simp [gammaLoop] at h
  | succ k ih =>
    obtain ⟨k', rfl⟩ : ∃ k', fuel' = k' + 1 := ⟨fuel' - 1, by omega⟩
    unfold gammaLoop at h ⊢
    split_ifs at h ⊢ with h1
    · exact ih h (by omega)
    · exact h

theorem gammaLoop_least {f : ℚ → ℚ} (hmono : ∀ x y, 0 ≤ x → x ≤ y → f x ≤ f y) {fuel : ℕ} {x g : ℚ} (hx : 0 ≤ x)
    (hxf : x ≤ f x) (h : gammaLoop f fuel x (f x) = some g) :
    x ≤ g ∧ f g = g ∧ ∀ y, x ≤ y → f y ≤ y → g ≤ y := by
  induction fuel generalizing x with
  | zero => simp [gammaLoop] at h
  | succ k ih =>
    unfold gammaLoop at h
    split_ifs at h with h1
    · obtain ⟨h2, h3, h4⟩ := ih (x := f x) (hx.trans hxf) (hmono _ _ hx hxf) h
      exact ⟨hxf.trans h2, h3, fun y hy hfy => h4 y ((hmono _ _ hx hy).trans hfy) hfy⟩
    · rw [ne_eq, not_not] at h1
      rw [h1, Option.some.injEq] at h
      subst h
      exact ⟨le_rfl, h1, fun y hy _ => hy⟩

theorem gammaLoop_ends {f : ℚ → ℚ} {cnt : ℚ → ℕ} {B : ℚ} (hmono : ∀ x y, 0 ≤ x → x ≤ y → f x ≤ f y)
    (hcnt : ∀ x y, 0 ≤ x → x ≤ y → cnt x = cnt y → f x = f y) (hcm : ∀ x y, x ≤ y → cnt x ≤ cnt y)
    (hB : ∀ x, 0 ≤ x → x ≤ B → f x ≤ B) (d : ℕ) (x : ℚ) (hx : 0 ≤ x) (hxf : x ≤ f x) (hxB : x ≤ B)
    (hd : cnt B ≤ cnt x + d) : ∃ g, gammaLoop f (d + 2) x (f x) = some g := by
  induction d generalizing x with
  | zero =>
    have h1 : f (f x) = f x := by
      have h2 := hcm _ _ hxf
      have h3 := hcm _ _ (hB x hx hxB)
      exact (hcnt x (f x) hx hxf (by omega)).symm
    unfold gammaLoop
    split_ifs with h
    · rw [h1]
      unfold gammaLoop
      simp
    · exact ⟨_, rfl⟩
  | succ d ih =>
    unfold gammaLoop
    split_ifs with h
    · have h2 := hcm _ _ hxf
      by_cases h3 : cnt (f x) = cnt x
      · have h1 : f (f x) = f x := (hcnt x (f x) hx hxf h3.symm).symm
        rw [h1]
        unfold gammaLoop
        simp
      · exact ih (f x) (hx.trans hxf) (hmono _ _ hx hxf) (hB x hx hxB) (by omega)
    · exact ⟨_, rfl⟩

theorem findLPrime_eq {f : ℚ → ℚ} (hmono : ∀ x y, 0 ≤ x → x ≤ y → f x ≤ f y) (fuel : ℕ) {x : ℚ} (hx : 0 ≤ x)
    (hxf : x ≤ f x) : findLPrime f uniprocessor fuel x = gammaLoop f fuel x (f x) := by
  induction fuel generalizing x with
  | zero => rfl
  | succ k ih =>
    unfold findLPrime gammaLoop uniprocessor
    by_cases h : f x = x
    · rw [if_pos h.le, if_neg (by rw [h]; simp), h]
    · rw [if_neg (fun hc => h (le_antisymm hc hxf)), if_pos h]
      have : x + (f x - x) = f x := by ring
      rw [this]
      exact ih (hx.trans hxf) (hmono _ _ hx hxf)

/-- Number of jobs released in `[0, x]`. -/
def cnt (ts : TaskSystem) (x : ℚ) : ℕ := (ts.map fun t => (⌊x / t.period⌋ + 1).toNat).sum

theorem floor_mono {T x y : ℚ} (hT : 0 < T) (h : x ≤ y) : ⌊x / T⌋ ≤ ⌊y / T⌋ :=
  Int.floor_le_floor (by gcongr)

theorem cnt_mono {ts : TaskSystem} (hT : ∀ t ∈ ts, 0 < t.period) {x y : ℚ} (h : x ≤ y) : cnt ts x ≤ cnt ts y := by
  unfold cnt
  apply List.sum_le_sum
  intro t ht
  have := floor_mono (hT t ht) h
  omega

theorem floor_eq_of_cnt {ts : TaskSystem} (hT : ∀ t ∈ ts, 0 < t.period) {x y : ℚ} (hx : 0 ≤ x) (h : x ≤ y)
    (hc : cnt ts x = cnt ts y) : ∀ t ∈ ts, ⌊x / t.period⌋ = ⌊y / t.period⌋ := by
  induction ts with
  | nil => intro t ht; simp at ht
  | cons a l ih =>
    have e : ∀ z, cnt (a :: l) z = (⌊z / a.period⌋ + 1).toNat + cnt l z := fun z => by simp [cnt]
    rw [e, e] at hc
    have h1 := cnt_mono (fun t ht => hT t (List.mem_cons_of_mem a ht)) h
    have h2 := floor_mono (hT a (by simp)) h
    have h3 : 0 ≤ ⌊x / a.period⌋ := Int.floor_nonneg.2 (div_nonneg hx (hT a (by simp)).le)
    intro t ht
    rcases List.mem_cons.1 ht with rfl | ht
    · omega
    · exact ih (fun t ht => hT t (List.mem_cons_of_mem a ht)) (by omega) t ht

theorem rbf_eq_of_floor {t : SporadicTask} {x y : ℚ} (hx : 0 ≤ x) (hy : 0 ≤ y)
    (h : ⌊x / t.period⌋ = ⌊y / t.period⌋) : t.rbf x = t.rbf y := by
  unfold SporadicTask.rbf
  rw [if_neg (not_lt.2 hx), if_neg (not_lt.2 hy), h]

variable {ts : TaskSystem}

theorem sys_rbf_mono (h : ∀ t ∈ ts, t.Ok) {x y : ℚ} (hxy : x ≤ y) : TaskSystem.rbf ts x ≤ TaskSystem.rbf ts y := by
  unfold TaskSystem.rbf
  apply List.sum_le_sum
  intro t ht
  exact rbf_mono t (h t ht).2.1 (h t ht).1.le hxy

theorem sys_rbf_nonneg (h : ∀ t ∈ ts, t.Ok) (x : ℚ) : 0 ≤ TaskSystem.rbf ts x := by
  unfold TaskSystem.rbf
  apply List.sum_nonneg
  intro y hy
  obtain ⟨t, ht, rfl⟩ := List.mem_map.1 hy
  exact rbf_nonneg t (h t ht).2.1 (h t ht).1.le x

theorem mbf_mono (h : ∀ t ∈ ts, t.Ok) (d : ℚ) {x y : ℚ} (hxy : x ≤ y) : mbf ts d x ≤ mbf ts d y := by
  unfold mbf
  apply List.sum_le_sum
  intro t ht
  exact min_le_min le_rfl (rbf_mono t (h t ht).2.1 (h t ht).1.le hxy)

theorem mbf_nonneg (h : ∀ t ∈ ts, t.Ok) (d x : ℚ) : 0 ≤ mbf ts d x := by
  unfold mbf
  apply List.sum_nonneg
  intro y hy
  obtain ⟨t, ht, rfl⟩ := List.mem_map.1 hy
  exact le_min (dbf_nonneg t d) (rbf_nonneg t (h t ht).2.1 (h t ht).1.le x)

theorem mbf_le_dbf (d x : ℚ) : mbf ts d x ≤ TaskSystem.dbf ts d := by
  unfold mbf TaskSystem.dbf
  apply List.sum_le_sum
  intro t _
  exact min_le_left _ _

theorem mbf_le_rbf (d x : ℚ) : mbf ts d x ≤ TaskSystem.rbf ts x := by
  unfold mbf TaskSystem.rbf
  apply List.sum_le_sum
  intro t _
  exact min_le_right _ _

theorem sys_dbf_nonneg (d : ℚ) : 0 ≤ TaskSystem.dbf ts d := by
  unfold TaskSystem.dbf
  apply List.sum_nonneg
  intro y hy
  obtain ⟨t, _, rfl⟩ := List.mem_map.1 hy
  exact dbf_nonneg t d

/-- The inner loop ends with the least solution. -/
theorem gamma_ends (h : ∀ t ∈ ts, t.Ok) (d : ℚ) :
    ∃ N g, (∀ fuel ≥ N, gammaLoop (mbf ts d) fuel 0 (mbf ts d 0) = some g) ∧ 0 ≤ g ∧ mbf ts d g = g ∧
      ∀ y, 0 ≤ y → mbf ts d y ≤ y → g ≤ y := by
  have hp : ∀ t ∈ ts, 0 < t.period := fun t ht => (h t ht).2.1
  obtain ⟨g, hg⟩ := gammaLoop_ends (f := mbf ts d) (cnt := cnt ts) (B := TaskSystem.dbf ts d)
    (fun x y _ hxy => mbf_mono h d hxy)
    (fun x y hx hxy hc => by
      unfold mbf
      congr 1
      apply List.map_congr_left
      intro t ht
      rw [rbf_eq_of_floor hx (hx.trans hxy) (floor_eq_of_cnt hp hx hxy hc t ht)])
    (fun x y hxy => cnt_mono hp hxy) (fun x _ _ => mbf_le_dbf d x) (cnt ts (TaskSystem.dbf ts d)) 0 le_rfl
    (mbf_nonneg h d 0) (sys_dbf_nonneg d) (by omega)
  obtain ⟨h1, h2, h3⟩ := gammaLoop_least (fun x y _ hxy => mbf_mono h d hxy) le_rfl (mbf_nonneg h d 0) hg
  exact ⟨_, g, fun fuel hf => gammaLoop_mono hg hf, h1, h2, h3⟩

theorem rbf_le (h : ∀ t ∈ ts, t.Ok) {x : ℚ} (hx : 0 ≤ x) :
    TaskSystem.rbf ts x ≤ (ts.map (·.utilization)).sum * x + (ts.map (·.cost)).sum := by
  induction ts with
  | nil => simp [TaskSystem.rbf]
  | cons a l ih =>
    have := ih (fun t ht => h t (List.mem_cons_of_mem a ht))
    have ha := h a (by simp)
    have h1 : a.rbf x ≤ a.utilization * x + a.cost := by
      unfold SporadicTask.rbf SporadicTask.utilization
      rw [if_neg (not_lt.2 hx)]
      have h2 := Int.floor_le (x / a.period)
      have h3 : a.cost / a.period * x = x / a.period * a.cost := by ring
      rw [h3]
      nlinarith [ha.1]
    unfold TaskSystem.rbf at this ⊢
    simp only [List.map_cons, List.sum_cons]
    linarith

theorem lprime_ends (h : ∀ t ∈ ts, t.Ok) (hU : TaskSystem.utilization ts < 1) :
    ∃ N l, ∀ fuel ≥ N, findLPrime (TaskSystem.rbf ts) uniprocessor fuel 0 = some l := by
  have hp : ∀ t ∈ ts, 0 < t.period := fun t ht => (h t ht).2.1
  have hU' : (ts.map (·.utilization)).sum < 1 := hU
  set U := (ts.map (·.utilization)).sum
  have hc : 0 ≤ (ts.map (·.cost)).sum := by
    apply List.sum_nonneg
    intro y hy
    obtain ⟨t, ht, rfl⟩ := List.mem_map.1 hy
    exact (h t ht).1.le
  have hU0 : 0 ≤ U := by
    apply List.sum_nonneg
    intro y hy
    obtain ⟨t, ht, rfl⟩ := List.mem_map.1 hy
    exact div_nonneg (h t ht).1.le (h t ht).2.1.le
  set B := (ts.map (·.cost)).sum / (1 - U) with hB
  have hBe : U * B + (ts.map (·.cost)).sum = B := by
    rw [hB]
    have : (1 - U) ≠ 0 := by linarith
    field_simp
    ring
  have hB0 : 0 ≤ B := div_nonneg hc (by linarith)
  obtain ⟨g, hg⟩ := gammaLoop_ends (f := TaskSystem.rbf ts) (cnt := cnt ts) (B := B)
    (fun x y _ hxy => sys_rbf_mono h hxy)
    (fun x y hx hxy hcc => by
      unfold TaskSystem.rbf
      congr 1
      apply List.map_congr_left
      intro t ht
      rw [rbf_eq_of_floor hx (hx.trans hxy) (floor_eq_of_cnt hp hx hxy hcc t ht)])
    (fun x y hxy => cnt_mono hp hxy)
    (fun x hx hxB => by
      have h1 := rbf_le h hx
      have h2 : U * x ≤ U * B := mul_le_mul_of_nonneg_left hxB hU0
      linarith) (cnt ts B) 0 le_rfl (sys_rbf_nonneg h 0) hB0 (by omega)
  refine ⟨cnt ts B + 2, g, fun fuel hf => ?_⟩
  rw [findLPrime_eq (fun x y _ hxy => sys_rbf_mono h hxy) fuel le_rfl (sys_rbf_nonneg h 0)]
  exact gammaLoop_mono hg hf

theorem lprime_spec (h : ∀ t ∈ ts, t.Ok) {fuel : ℕ} {l : ℚ}
    (hl : findLPrime (TaskSystem.rbf ts) uniprocessor fuel 0 = some l) : 0 ≤ l ∧ TaskSystem.rbf ts l = l := by
  rw [findLPrime_eq (fun x y _ hxy => sys_rbf_mono h hxy) fuel le_rfl (sys_rbf_nonneg h 0)] at hl
  obtain ⟨h1, h2, _⟩ := gammaLoop_least (fun x y _ hxy => sys_rbf_mono h hxy) le_rfl (sys_rbf_nonneg h 0) hl
  exact ⟨h1, h2⟩

theorem lprime_unique (h : ∀ t ∈ ts, t.Ok) {fuel fuel' : ℕ} {l l' : ℚ}
    (hl : findLPrime (TaskSystem.rbf ts) uniprocessor fuel 0 = some l)
    (hl' : findLPrime (TaskSystem.rbf ts) uniprocessor fuel' 0 = some l') : l = l' := by
  rw [findLPrime_eq (fun x y _ hxy => sys_rbf_mono h hxy) _ le_rfl (sys_rbf_nonneg h 0)] at hl hl'
  rcases le_total fuel fuel' with hf | hf
  · have := gammaLoop_mono hl hf
    rw [hl'] at this
    exact (Option.some.inj this).symm
  · have := gammaLoop_mono hl' hf
    rw [hl] at this
    exact Option.some.inj this

/-! ### The sweep -/

/-- The slack `o` is the minimum of `S`, infinite if `S` is empty. -/
def IsMin : Option ℚ → Set ℚ → Prop
  | none, S => S = ∅
  | some x, S => IsLeast S x

theorem minInf_isMin {o : Option ℚ} {S : Set ℚ} (h : IsMin o S) (x : ℚ) : IsMin (minInf o x) (insert x S) := by
  cases o with
  | none =>
    have h : S = ∅ := h
    subst h
    simp [minInf, IsMin, isLeast_singleton]
  | some a =>
    have h : IsLeast S a := h
    show IsLeast (insert x S) (min a x)
    rw [min_comm]
    exact h.insert x

/-- Minimum of the elements from position `k` on. -/
def sufAt (s : List (Option ℚ)) (k : ℕ) : Option ℚ := (s.drop k).foldr (fun a acc => minSlack acc a) none

theorem sufAt_cons_zero (a : Option ℚ) (s : List (Option ℚ)) : sufAt (a :: s) 0 = minSlack (sufAt s 0) a := by
  simp [sufAt]

theorem sufAt_cons_succ (a : Option ℚ) (s : List (Option ℚ)) (k : ℕ) : sufAt (a :: s) (k + 1) = sufAt s k := by
  simp [sufAt]

theorem suffixMin_cons (a : Option ℚ) (s : List (Option ℚ)) :
    suffixMin (a :: s) = sufAt (a :: s) 0 :: suffixMin s := by
  induction s generalizing a with
  | nil => simp [suffixMin, sufAt, minSlack]
  | cons b s ih =>
    rw [suffixMin, ih b, sufAt_cons_zero a]

theorem suffixMin_length (s : List (Option ℚ)) : (suffixMin s).length = s.length := by
  induction s with
  | nil => rfl
  | cons a s ih => rw [suffixMin_cons]; simp [ih]

theorem suffixMin_get (s : List (Option ℚ)) (k : ℕ) (hk : k < s.length) :
    (suffixMin s)[k]'(by rw [suffixMin_length]; exact hk) = sufAt s k := by
  induction s generalizing k with
  | nil => simp at hk
  | cons a s ih =>
    simp only [suffixMin_cons]
    cases k with
    | zero => rfl
    | succ k =>
      rw [sufAt_cons_succ]
      simp only [List.getElem_cons_succ]
      exact ih k (by simpa using hk)

theorem minSlack_minInf_right (b a : Option ℚ) (x : ℚ) : minSlack b (minInf a x) = minInf (minSlack b a) x := by
  cases a <;> cases b <;> simp [minSlack, minInf, min_assoc]

theorem minSlack_minInf_left (b a : Option ℚ) (x : ℚ) : minSlack (minInf b x) a = minInf (minSlack b a) x := by
  cases a <;> cases b <;> simp [minSlack, minInf, min_comm, min_left_comm]

theorem sufAt_set (s : List (Option ℚ)) (i k : ℕ) (x : ℚ) (hi : i < s.length) :
    sufAt (s.set i (minInf (s.getD i none) x)) k = if k ≤ i then minInf (sufAt s k) x else sufAt s k := by
  induction s generalizing i k with
  | nil => simp at hi
  | cons a s ih =>
    cases i with
    | zero =>
      simp only [List.set_cons_zero, List.getD_cons_zero]
      cases k with
      | zero => simp [sufAt_cons_zero, minSlack_minInf_right]
      | succ k => simp [sufAt_cons_succ]
    | succ i =>
      simp only [List.set_cons_succ, List.getD_cons_succ]
      have hi' : i < s.length := by simpa using hi
      cases k with
      | zero => rw [sufAt_cons_zero, sufAt_cons_zero, ih i 0 hi', if_pos (Nat.zero_le _), minSlack_minInf_left]; simp
      | succ k => rw [sufAt_cons_succ, sufAt_cons_succ, ih i k hi']; simp

theorem sweep_spec {upd : Option ℚ → ℚ → Option (Option ℚ)} {v : ℚ → ℚ}
    (hts : ts.Pairwise (fun a b => a.deadline < b.deadline))
    (rem : List ℚ) (hupd : ∀ p ∈ rem, ∀ s r, upd s p = some r → r = minInf s (v p)) (i : ℕ) (s f : List (Option ℚ))
    (hrem : rem.Pairwise (· < ·)) (hi : i < ts.length) (hlen : s.length = ts.length)
    (hlo : ∀ p ∈ rem, ts[i].deadline ≤ p)
    (hin : ∀ k (hk : k < ts.length), i < k → ts[k].deadline ∈ rem)
    (h : sweep ts upd rem i s = some f) :
    f.length = ts.length ∧ ∀ k (hk : k < ts.length) (B : Set ℚ), IsMin (sufAt s k) B →
      IsMin (sufAt f k) (B ∪ {x | ∃ p ∈ rem, ts[k].deadline ≤ p ∧ x = v p}) := by
  have hsort : ∀ a b (ha : a < ts.length) (hb : b < ts.length), a < b → ts[a].deadline < ts[b].deadline :=
    fun a b ha hb hab => List.pairwise_iff_getElem.1 hts a b ha hb hab
  induction rem generalizing i s with
  | nil =>
    simp only [sweep, Option.some.injEq] at h
    subst h
    refine ⟨hlen, fun k hk B hB => ?_⟩
    simpa using hB
  | cons p rest ih =>
    simp only [sweep] at h
    set i' := advance ts i p with hi'
    cases hu : upd (s.getD i' none) p with
    | none => rw [hu] at h; simp at h
    | some r =>
      rw [hu] at h
      simp only [Option.bind_some] at h
      have hr := hupd p (by simp) _ _ hu
      subst hr
      rw [List.pairwise_cons] at hrem
      -- the new position
      have hadv : i' < ts.length ∧ ts[i']?.map (·.deadline) ≤ some p ∧
          ∀ k (hk : k < ts.length), i' < k → ts[k].deadline ∈ rest := by
        by_cases hn : i + 1 < ts.length
        · have hg : ts[i + 1]? = some ts[i + 1] := List.getElem?_eq_getElem hn
          have hmem := hin (i + 1) hn (by omega)
          by_cases hc : p ≥ ts[i + 1].deadline
          · have e : i' = i + 1 := by rw [hi']; unfold advance; rw [hg]; simp [hc]
            have hpe : ts[i + 1].deadline = p := by
              rcases List.mem_cons.1 hmem with h1 | h1
              · exact h1
              · exact absurd (hrem.1 _ h1) (not_lt.2 hc)
            refine ⟨by omega, by rw [e, hg]; simpa using hc, fun k hk hik => ?_⟩
            rcases List.mem_cons.1 (hin k hk (by omega)) with h1 | h1
            · have := hsort (i + 1) k hn hk (by omega)
              linarith
            · exact h1
          · have e : i' = i := by rw [hi']; unfold advance; rw [hg]; simp [hc]
            refine ⟨by omega, by rw [e, List.getElem?_eq_getElem hi]; simpa using hlo p (by simp), fun k hk hik => ?_⟩
            rcases List.mem_cons.1 (hin k hk (by omega)) with h1 | h1
            · rcases eq_or_lt_of_le (show i + 1 ≤ k by omega) with h2 | h2
              · subst h2
                push Not at hc
                linarith
              · have := hsort (i + 1) k hn hk h2
                push Not at hc
                linarith
            · exact h1
        · have hg : ts[i + 1]? = none := List.getElem?_eq_none (by omega)
          have e : i' = i := by rw [hi']; unfold advance; rw [hg]
          exact ⟨by omega, by rw [e, List.getElem?_eq_getElem hi]; simpa using hlo p (by simp),
            fun k hk hik => by omega⟩
      obtain ⟨hi'n, hlo', hin'⟩ := hadv
      have hlop : ts[i'].deadline ≤ p := by
        rw [List.getElem?_eq_getElem hi'n] at hlo'
        simpa using hlo'
      obtain ⟨h1, h2⟩ := ih (fun q hq => hupd q (List.mem_cons_of_mem p hq)) i' _ hrem.2 hi'n (by simpa using hlen)
        (fun q hq => hlop.trans (hrem.1 q hq).le) hin' h
      refine ⟨h1, fun k hk B hB => ?_⟩
      have hset := sufAt_set s i' k (v p) (by omega)
      have hiff : k ≤ i' ↔ ts[k].deadline ≤ p := by
        constructor
        · intro hki
          rcases eq_or_lt_of_le hki with h3 | h3
          · subst h3; exact hlop
          · exact (hsort k i' hk hi'n h3).le.trans hlop
        · intro hkp
          by_contra hc
          have := hrem.1 _ (hin' k hk (by omega))
          linarith
      by_cases hki : k ≤ i'
      · rw [if_pos hki] at hset
        have h3 := h2 k hk (insert (v p) B) (by rw [hset]; exact minInf_isMin hB _)
        have e : insert (v p) B ∪ {x | ∃ p ∈ rest, ts[k].deadline ≤ p ∧ x = v p} =
            B ∪ {x | ∃ q ∈ p :: rest, ts[k].deadline ≤ q ∧ x = v q} := by
          ext y
          simp only [Set.mem_union, Set.mem_insert_iff, Set.mem_setOf_eq, List.mem_cons]
          constructor
          · rintro ((h4 | h4) | ⟨q, hq, h4⟩)
            · exact Or.inr ⟨p, Or.inl rfl, hiff.1 hki, h4⟩
            · exact Or.inl h4
            · exact Or.inr ⟨q, Or.inr hq, h4⟩
          · rintro (h4 | ⟨q, (rfl | hq), h4, h5⟩)
            · exact Or.inl (Or.inr h4)
            · exact Or.inl (Or.inl h5)
            · exact Or.inr ⟨q, hq, h4, h5⟩
        rwa [e] at h3
      · rw [if_neg hki] at hset
        have h3 := h2 k hk B (by rw [hset]; exact hB)
        have e : B ∪ {x | ∃ p ∈ rest, ts[k].deadline ≤ p ∧ x = v p} =
            B ∪ {x | ∃ q ∈ p :: rest, ts[k].deadline ≤ q ∧ x = v q} := by
          ext y
          simp only [Set.mem_union, Set.mem_setOf_eq, List.mem_cons]
          constructor
          · rintro (h4 | ⟨q, hq, h4⟩)
            · exact Or.inl h4
            · exact Or.inr ⟨q, Or.inr hq, h4⟩
          · rintro (h4 | ⟨q, (rfl | hq), h4, h5⟩)
            · exact Or.inl h4
            · exact absurd (hiff.2 h4) hki
            · exact Or.inr ⟨q, hq, h4, h5⟩
        rwa [e] at h3

theorem sweep_ends {upd : Option ℚ → ℚ → Option (Option ℚ)} (rem : List ℚ)
    (hupd : ∀ p ∈ rem, ∀ s, ∃ r, upd s p = some r) (i : ℕ) (s : List (Option ℚ)) :
    ∃ f, sweep ts upd rem i s = some f := by
  induction rem generalizing i s with
  | nil => exact ⟨s, rfl⟩
  | cons p rest ih =>
    simp only [sweep]
    obtain ⟨r, hr⟩ := hupd p (by simp) (s.getD (advance ts i p) none)
    rw [hr]
    exact ih (fun q hq => hupd q (List.mem_cons_of_mem p hq)) _ _

end Verif.GyRta
