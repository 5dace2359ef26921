/-
C38: preemption levels; C41: round-robin placement of resources.
-/
import Verif.Model.LockBounds
import Mathlib.Tactic.Linarith
import Mathlib.Algebra.Order.Floor.Ring

namespace Verif.Lock

theorem pyInt_mono {a b : ℚ} (h : a ≤ b) : pyInt a ≤ pyInt b := by
  unfold pyInt
  by_cases ha : 0 ≤ a
  · rw [if_pos ha, if_pos (ha.trans h)]; exact Int.floor_mono h
  · rw [if_neg ha]
    by_cases hb : 0 ≤ b
    · rw [if_pos hb]
      have h1 : ⌈a⌉ ≤ 0 := Int.ceil_le.2 (by push_cast; linarith)
      have h2 : 0 ≤ ⌊b⌋ := Int.floor_nonneg.2 hb
      omega
    · rw [if_neg hb]; exact Int.ceil_mono h

theorem mem_sortedSet {keys : List ℚ} {x : ℚ} : x ∈ sortedSet keys ↔ x ∈ keys := by
  unfold sortedSet
  rw [(List.perm_insertionSort _ _).mem_iff, List.mem_dedup]

theorem sortedSet_lt (keys : List ℚ) : (sortedSet keys).Pairwise (· < ·) := by
  have h1 : (sortedSet keys).Pairwise (· ≤ ·) := List.pairwise_insertionSort _ _
  have h2 : (sortedSet keys).Nodup :=
    (List.perm_insertionSort _ _).nodup_iff.2 (List.nodup_dedup keys)
  exact h1.imp₂ (fun _ _ hle hne => lt_of_le_of_ne hle hne) h2

theorem foldl_cons_eq {α β : Type} (f : α → β) (l : List α) (acc : List β) :
    l.foldl (fun d p => f p :: d) acc = (l.map f).reverse ++ acc := by
  induction l generalizing acc with
  | nil => rfl
  | cons a l ih => simp [ih]

/-- Lookup in the table: the position of the last key with the given integer part. -/
theorem dictGet_prioTable (keys : List ℚ) {k : ℚ} (hk : k ∈ keys) :
    ∃ i, ∃ h : i < (sortedSet keys).length,
      dictGet (prioTable keys) (pyInt k) = some i ∧ pyInt (sortedSet keys)[i] = pyInt k ∧
      ∀ j (hj : j < (sortedSet keys).length), pyInt (sortedSet keys)[j] = pyInt k → j ≤ i := by
  set l := sortedSet keys with hl
  have htab : prioTable keys = ((l.zipIdx).map (fun p => (pyInt p.1, p.2))).reverse := by
    unfold prioTable
    rw [foldl_cons_eq (fun p : ℚ × ℕ => (pyInt p.1, p.2)), List.append_nil]
  unfold dictGet
  rw [htab]
  have hex : ∃ e ∈ ((l.zipIdx).map (fun p => (pyInt p.1, p.2))).reverse, (e.1 == pyInt k) = true := by
    obtain ⟨n, hn, hnk⟩ := List.getElem_of_mem (mem_sortedSet.2 hk)
    refine ⟨(pyInt k, n), ?_, by simp⟩
    rw [List.mem_reverse, List.mem_map]
    exact ⟨(k, n), by rw [List.mem_zipIdx_iff_getElem?]; simp [hl, ← hnk, hn], rfl⟩
  obtain ⟨e, he⟩ : ∃ e, (((l.zipIdx).map (fun p => (pyInt p.1, p.2))).reverse).find?
      (fun e => e.1 == pyInt k) = some e := by
    rw [← Option.isSome_iff_exists, List.find?_isSome]
    exact hex
  rw [he]
  rw [List.find?_eq_some_iff_getElem] at he
  obtain ⟨hek, n, hn, hne, hbefore⟩ := he
  have hlen : (((l.zipIdx).map (fun p => (pyInt p.1, p.2))).reverse).length = l.length := by simp
  rw [hlen] at hn
  have hget : ∀ j (hj : j < l.length), (((l.zipIdx).map (fun p => (pyInt p.1, p.2))).reverse)[j]'(by
      rw [hlen]; exact hj) = (pyInt (l[l.length - 1 - j]'(by omega)), l.length - 1 - j) := by
    intro j hj
    rw [List.getElem_reverse]
    simp
  rw [hget n hn] at hne
  refine ⟨l.length - 1 - n, by omega, ?_, ?_, ?_⟩
  · rw [← hne]; rfl
  · rw [← hne] at hek; simpa using hek
  · intro j hj hjk
    by_contra hc
    have hb := hbefore (l.length - 1 - j) (by omega)
    rw [hget _ (by omega)] at hb
    have hidx : l.length - 1 - (l.length - 1 - j) = j := by omega
    simp only [hidx, hjk] at hb
    simp at hb

/-- The levels as a function. -/
theorem preemptionLevels_getElem (keys : List ℚ) (i : ℕ) (h : i < keys.length) :
    (preemptionLevels keys)[i]'(by simpa [preemptionLevels] using h)
      = dictGet (prioTable keys) (pyInt keys[i]) := by
  simp [preemptionLevels]

/-- **C38**, for all deadlines (or priority points): no `KeyError` occurs, an earlier
deadline never gets a larger level, so a level that is strictly smaller (the task can
preempt) means a strictly earlier deadline.  Partial: strictly earlier deadlines need not
get strictly smaller levels, see `C38_violated`. -/
theorem C38_levels_partial (keys : List ℚ) (a b : ℕ) (ha : a < keys.length) (hb : b < keys.length) :
    ∃ la lb, (preemptionLevels keys)[a]? = some (some la) ∧
      (preemptionLevels keys)[b]? = some (some lb) ∧
      (keys[a] ≤ keys[b] → la ≤ lb) ∧ (la < lb → keys[a] < keys[b]) := by
  obtain ⟨i, hi, hi1, hi2, hi3⟩ := dictGet_prioTable keys (List.getElem_mem ha)
  obtain ⟨j, hj, hj1, hj2, hj3⟩ := dictGet_prioTable keys (List.getElem_mem hb)
  have key : ∀ (x y : ℚ) (i j : ℕ) (hi : i < (sortedSet keys).length)
      (hj : j < (sortedSet keys).length), pyInt (sortedSet keys)[i] = pyInt x →
      pyInt (sortedSet keys)[j] = pyInt y →
      (∀ k (hk : k < (sortedSet keys).length), pyInt (sortedSet keys)[k] = pyInt y → k ≤ j) →
      x ≤ y → i ≤ j := by
    intro x y i j hi hj h1 h2 h3 hxy
    by_contra hc
    have hlt := List.pairwise_iff_getElem.1 (sortedSet_lt keys) j i hj hi (by omega)
    have := pyInt_mono hlt.le
    have hm := pyInt_mono hxy
    exact absurd (h3 i hi (by omega)) (by omega)
  refine ⟨i, j, ?_, ?_, fun h => key _ _ i j hi hj hi2 hj2 hj3 h, fun h => ?_⟩
  · rw [List.getElem?_eq_getElem (by simpa [preemptionLevels] using ha),
      preemptionLevels_getElem keys a ha, hi1]
  · rw [List.getElem?_eq_getElem (by simpa [preemptionLevels] using hb),
      preemptionLevels_getElem keys b hb, hj1]
  · by_contra hc
    push Not at hc
    have := key _ _ j i hj hi hj2 hi2 hi3 hc
    omega

theorem pyInt_intCast (z : ℤ) : pyInt (z : ℚ) = z := by
  unfold pyInt; split_ifs <;> simp

/-- **C38**, for integral deadlines (or priority points) the levels reflect the policy
exactly: the level is strictly smaller iff the deadline is strictly earlier. -/
theorem C38_levels_integral (keys : List ℚ) (hint : ∀ k ∈ keys, ∃ z : ℤ, k = z)
    (a b : ℕ) (ha : a < keys.length) (hb : b < keys.length) :
    ∃ la lb, (preemptionLevels keys)[a]? = some (some la) ∧
      (preemptionLevels keys)[b]? = some (some lb) ∧ (la < lb ↔ keys[a] < keys[b]) := by
  obtain ⟨la, lb, h1, h2, _, h4⟩ := C38_levels_partial keys a b ha hb
  refine ⟨la, lb, h1, h2, h4, fun hlt => ?_⟩
  obtain ⟨i, hi, hi1, hi2, hi3⟩ := dictGet_prioTable keys (List.getElem_mem ha)
  obtain ⟨j, hj, hj1, hj2, hj3⟩ := dictGet_prioTable keys (List.getElem_mem hb)
  rw [List.getElem?_eq_getElem (by simpa [preemptionLevels] using ha),
    preemptionLevels_getElem keys a ha, hi1] at h1
  rw [List.getElem?_eq_getElem (by simpa [preemptionLevels] using hb),
    preemptionLevels_getElem keys b hb, hj1] at h2
  simp only [Option.some.injEq] at h1 h2
  subst h1; subst h2
  have hexact : ∀ (n : ℕ) (hn : n < (sortedSet keys).length) (x : ℚ), x ∈ keys →
      pyInt (sortedSet keys)[n] = pyInt x → (sortedSet keys)[n] = x := by
    intro n hn x hx h
    obtain ⟨z, hz⟩ := hint _ hx
    obtain ⟨w, hw⟩ := hint _ (mem_sortedSet.1 (List.getElem_mem hn))
    rw [hz, hw, pyInt_intCast, pyInt_intCast] at h
    rw [hw, hz, h]
  have ei := hexact i hi _ (List.getElem_mem ha) hi2
  have ej := hexact j hj _ (List.getElem_mem hb) hj2
  by_contra hc
  rcases Nat.lt_or_ge j i with h | h
  · have := List.pairwise_iff_getElem.1 (sortedSet_lt keys) j i hj hi h
    rw [ei, ej] at this
    linarith
  · have hij : i = j := by omega
    subst hij
    rw [ei] at ej
    linarith

/-- C38 is violated for fractional deadlines: `int()` makes the deadlines 1.25 and 1.5
share a level, although the first task can preempt the second under EDF. -/
theorem C38_violated :
    ¬ ∀ (keys : List ℚ) (a b : ℕ) (ha : a < keys.length) (hb : b < keys.length),
      (∀ k ∈ keys, 0 < k) → keys[a] < keys[b] →
      ∃ la lb, (preemptionLevels keys)[a]? = some (some la) ∧
        (preemptionLevels keys)[b]? = some (some lb) ∧ la < lb := by
  intro h
  obtain ⟨la, lb, h1, h2, h3⟩ := h [5 / 4, 3 / 2] 0 1 (by decide) (by decide) (by decide +kernel)
    (by decide +kernel)
  have e1 : (preemptionLevels [5 / 4, 3 / 2])[0]? = some (some 1) := by decide +kernel
  have e2 : (preemptionLevels [5 / 4, 3 / 2])[1]? = some (some 1) := by decide +kernel
  rw [e1] at h1
  rw [e2] at h2
  simp only [Option.some.injEq] at h1 h2
  omega

/-- Non-vacuity: integral deadlines in arbitrary order with a repetition. -/
example : preemptionLevels [30, 10, 20, 10] = [some 2, some 0, some 1, some 0] ∧
    ∀ k ∈ ([30, 10, 20, 10] : List ℚ), ∃ z : ℤ, k = z := by
  refine ⟨by decide +kernel, ?_⟩
  intro k hk
  simp only [List.mem_cons, List.not_mem_nil, or_false] at hk
  rcases hk with rfl | rfl | rfl | rfl
  exacts [⟨30, rfl⟩, ⟨10, rfl⟩, ⟨20, rfl⟩, ⟨10, rfl⟩]

/-- **C38**, fixed priorities: levels are the list positions. -/
theorem C38_fp {α : Type} (tasks : List α) (i : ℕ) (h : i < tasks.length) :
    (fpPreemptionLevels tasks)[i]? = some (tasks[i], i) := by
  simp [fpPreemptionLevels, h]

theorem adjacentOrdered_iff (l : List ℚ) : adjacentOrdered l = true ↔ l.Pairwise (· ≤ ·) := by
  rw [← List.isChain_iff_pairwise]
  induction l with
  | nil => simp [adjacentOrdered]
  | cons a l ih =>
    cases l with
    | nil => simp [adjacentOrdered]
    | cons b l =>
      unfold adjacentOrdered
      rw [List.isChain_cons_cons, ← ih]
      by_cases h : b < a
      · simp [h]
      · simp [h, not_lt.1 h]

/-- **C38**, reasonable priority assignments: the check on neighbours holds iff all
pairs of tasks after the first `num_cpus` have non-decreasing deadlines. -/
theorem C38_reasonable (m : ℕ) (deadlines : List ℚ) :
    isReasonable m deadlines = true ↔
      ∀ i j (_ : m ≤ i) (hij : i < j) (hj : j < deadlines.length), deadlines[i] ≤ deadlines[j] := by
  unfold isReasonable
  rw [adjacentOrdered_iff, List.pairwise_iff_getElem]
  constructor
  · intro h i j hm hij hj
    have := h (i - m) (j - m) (by simp; omega) (by simp; omega) (by omega)
    simp only [List.getElem_drop] at this
    have e1 : m + (i - m) = i := by omega
    have e2 : m + (j - m) = j := by omega
    simpa only [e1, e2] using this
  · intro h i j hi hj hij
    simp only [List.getElem_drop]
    simp only [List.length_drop] at hi hj
    exact h (m + i) (m + j) (by omega) (by omega) (by omega)

example : isReasonable 2 [9, 1, 3, 5, 8] = true ∧ isReasonable 2 [9, 1, 3, 8, 5] = false := by
  decide +kernel

theorem mapM_eq_some {α β : Type} (f : α → Option β) (g : α → β) (l : List α)
    (h : ∀ a ∈ l, f a = some (g a)) : l.mapM f = some (l.map g) := by
  induction l with
  | nil => rfl
  | cons a l ih =>
    rw [List.mapM_cons, h a (by simp), ih (fun x hx => h x (by simp [hx]))]
    rfl

/-- **C41**: with at least two processors, every resource is assigned to exactly one
processor, which exists and is not the one dedicated to interrupts. -/
theorem C41_round_robin_partial (numResources m : ℕ) (irq : ℤ) (hm : 2 ≤ m) :
    ∃ loc, roundRobin numResources m irq = some loc ∧ loc.length = numResources ∧
      ∀ cpu ∈ loc, cpu < m ∧ (cpu : ℤ) ≠ irq := by
  refine ⟨_, mapM_eq_some _ (fun r => if ((r % m : ℕ) : ℤ) = irq then (r % m + 1) % m else r % m) _
    (fun r _ => by unfold rrCpu; rw [if_neg (by omega)]), by simp, ?_⟩
  intro cpu hcpu
  obtain ⟨r, _, rfl⟩ := List.mem_map.1 hcpu
  have h1 := Nat.mod_lt r (by omega : 0 < m)
  by_cases hr : ((r % m : ℕ) : ℤ) = irq
  · simp only [hr, if_true]
    refine ⟨Nat.mod_lt _ (by omega), ?_⟩
    by_cases h2 : r % m + 1 = m
    · rw [h2, Nat.mod_self]; omega
    · rw [Nat.mod_eq_of_lt (by omega)]; omega
  · simp only [hr, if_false]
    exact ⟨h1, hr⟩

/-- **C41**, without a dedicated processor: index order, for any positive number of
processors. -/
theorem C41_index_order (numResources m : ℕ) (hm : 0 < m) :
    roundRobin numResources m = some ((List.range numResources).map (· % m)) := by
  apply mapM_eq_some
  intro r _
  unfold rrCpu
  have : ¬ (((r % m : ℕ) : ℤ) = -1) := by omega
  simp only [this, if_false]
  rw [if_neg (by omega)]

/-- C41 is violated for a single processor that is dedicated to interrupts: resources
are placed there without an error. -/
theorem C41_violated :
    ¬ ∀ (numResources m : ℕ) (irq : ℤ) (loc : List ℕ), 0 < m →
      roundRobin numResources m irq = some loc → ∀ cpu ∈ loc, (cpu : ℤ) ≠ irq := by
  intro h
  exact h 1 1 0 [0] (by decide) (by decide) 0 (by simp) rfl

example : roundRobin 5 3 1 = some [0, 2, 2, 0, 2] := by decide

end Verif.Lock
