/-
Properties C21-C25: `schedcat/mapping/binpack.py`.
-/
import Verif.Lemmas.Binpack
import Mathlib.Tactic.Positivity
import Mathlib.Algebra.Order.BigOperators.Group.List

namespace Verif.Binpack
open Verif Verif.Spec

variable {α : Type}

/-! ### Lemmas on `next_fit` -/

theorem nextFitAdvance_some {capacity c : ℚ} : ∀ {left cur : ℕ} {sum : ℚ} {cur' : ℕ} {sum' : ℚ},
    nextFitAdvance capacity c left cur sum = some (cur', sum') →
    cur ≤ cur' ∧ cur' ≤ cur + left ∧ sum' + c ≤ capacity ∧
      ((cur' = cur ∧ sum' = sum) ∨ (cur < cur' ∧ sum' = 0)) := by
  intro left
  induction left with
  | zero =>
    intro cur sum cur' sum' h
    rw [nextFitAdvance] at h
    split_ifs at h with hc
    simp only [Option.some.injEq, Prod.mk.injEq] at h
    obtain ⟨rfl, rfl⟩ := h
    exact ⟨le_rfl, le_rfl, not_lt.1 hc, Or.inl ⟨rfl, rfl⟩⟩
  | succ left ih =>
    intro cur sum cur' sum' h
    rw [nextFitAdvance] at h
    split_ifs at h with hc
    · obtain ⟨h1, h2, h3, h4⟩ := ih h
      refine ⟨by omega, by omega, h3, Or.inr ⟨by omega, ?_⟩⟩
      rcases h4 with h4 | h4
      · exact h4.2
      · exact h4.2
    · simp only [Option.some.injEq, Prod.mk.injEq] at h
      obtain ⟨rfl, rfl⟩ := h
      exact ⟨le_rfl, by omega, not_lt.1 hc, Or.inl ⟨rfl, rfl⟩⟩

theorem nextFitLoop_spec (bins : ℕ) {capacity : ℚ} (weight : α → ℚ) (items : List α) :
    ∀ (cur : ℕ) (sum : ℚ) (sets : List (List α)),
      (hcur : cur < bins) → (hlen : sets.length = bins) →
      WithinCapacity weight capacity sets →
      (sum = load weight (sets[cur]'(hlen ▸ hcur))) →
      (∀ j (hj : j < sets.length), cur < j → sets[j] = []) →
      let r := nextFitLoop bins capacity weight items cur sum sets
      r.sets.length = bins ∧ WithinCapacity weight capacity r.sets ∧
      ((r.misfits = [] ∧ r.sets.flatten.Perm (sets.flatten ++ items)) ∨
       (∃ pre x post, items = pre ++ x :: post ∧ r.misfits = [x] ∧
         r.sets.flatten.Perm (sets.flatten ++ pre))) := by
  induction items with
  | nil =>
    intro cur sum sets hcur hlen hcap hsum hempty
    exact ⟨hlen, hcap, Or.inl ⟨rfl, by simp [nextFitLoop]⟩⟩
  | cons x xs ih =>
    intro cur sum sets hcur hlen hcap hsum hempty
    cases hadv : nextFitAdvance capacity (weight x) (bins - 1 - cur) cur sum with
    | none =>
      have e : nextFitLoop bins capacity weight (x :: xs) cur sum sets = ⟨sets, [x]⟩ := by
        rw [nextFitLoop, hadv]
      rw [e]
      exact ⟨hlen, hcap, Or.inr ⟨[], x, xs, rfl, rfl, by simp⟩⟩
    | some p =>
      obtain ⟨cur', sum'⟩ := p
      have e : nextFitLoop bins capacity weight (x :: xs) cur sum sets
          = nextFitLoop bins capacity weight xs cur' (sum' + weight x)
            (sets.modify cur' (· ++ [x])) := by
        rw [nextFitLoop, hadv]
      rw [e]
      obtain ⟨h1, h2, h3, h4⟩ := nextFitAdvance_some hadv
      have hcur' : cur' < bins := by omega
      have hsum' : sum' = load weight (sets[cur']'(hlen ▸ hcur')) := by
        rcases h4 with ⟨rfl, rfl⟩ | ⟨h4, rfl⟩
        · exact hsum
        · rw [hempty cur' (hlen ▸ hcur') h4]; rfl
      have := ih cur' (sum' + weight x) (sets.modify cur' (· ++ [x])) hcur' (by simpa using hlen)
        (by
          intro b hb
          rcases mem_modify _ _ _ _ hb with hb | ⟨hi, rfl⟩
          · exact hcap b hb
          · rw [load_append, ← hsum']; exact h3)
        (by rw [List.getElem_modify]; simp only [if_true]; rw [load_append, ← hsum'])
        (by
          intro j hj hjc
          have hj' : j < sets.length := by simpa using hj
          rw [List.getElem_modify, if_neg (by omega)]
          exact hempty j hj' (by omega))
      obtain ⟨g1, g2, g3⟩ := this
      have hperm := flatten_modify_perm sets cur' (hlen ▸ hcur') x
      refine ⟨g1, g2, ?_⟩
      rcases g3 with ⟨g3, g4⟩ | ⟨pre, y, post, g3, g4, g5⟩
      · left
        exact ⟨g3, g4.trans ((hperm.append_right xs).trans List.perm_middle.symm)⟩
      · right
        refine ⟨x :: pre, y, post, by rw [g3]; rfl, g4, ?_⟩
        exact g5.trans ((hperm.append_right pre).trans List.perm_middle.symm)

theorem nextFit_spec (items : List α) (bins : ℕ) (capacity : ℚ) (h0 : 0 ≤ capacity)
    (weight : α → ℚ) (r : Result α) (h : nextFit items bins capacity weight = some r) :
    r.sets.length = bins ∧ WithinCapacity weight capacity r.sets ∧
      ((r.misfits = [] ∧ r.sets.flatten.Perm items) ∨
       (∃ pre x post, items = pre ++ x :: post ∧ r.misfits = [x] ∧ r.sets.flatten.Perm pre)) := by
  unfold nextFit at h
  split_ifs at h with hb
  rw [Option.some.injEq] at h
  rcases Nat.eq_zero_or_pos bins with rfl | hpos
  · have : items = [] := by
      by_contra hne; exact hb ⟨rfl, hne⟩
    subst this
    subst h
    exact ⟨by simp [nextFitLoop], by intro b hb; simp [nextFitLoop] at hb,
      Or.inl ⟨rfl, by simp [nextFitLoop]⟩⟩
  · have := nextFitLoop_spec bins (capacity := capacity) weight items 0 0 (List.replicate bins [])
      hpos (by simp)
      (by intro b hb; rw [List.eq_of_mem_replicate hb]; simpa [load] using h0)
      (by simp [load]) (by intro j hj _; simp)
    rw [h] at this
    have hf : (List.replicate bins ([] : List α)).flatten = [] := by simp
    simpa [hf] using this

/-! ### C21: capacity -/

/-- C21: none of `first_fit`, `worst_fit`, `almost_worst_fit` and `best_fit`
(with a fixed number of bins) overfills a bin, and each returns exactly the
requested number of bins. -/
theorem C21_within_capacity (items : List α) (bins : ℕ) (capacity : ℚ) (h0 : 0 ≤ capacity)
    (weight : α → ℚ) :
    (WithinCapacity weight capacity (firstFit items bins capacity weight).sets ∧
      (firstFit items bins capacity weight).sets.length = bins) ∧
    (WithinCapacity weight capacity (worstFit items bins capacity weight).sets ∧
      (worstFit items bins capacity weight).sets.length = bins) ∧
    (WithinCapacity weight capacity (almostWorstFit items bins capacity weight).sets ∧
      (almostWorstFit items bins capacity weight).sets.length = bins) ∧
    (bins ≠ 0 → WithinCapacity weight capacity (bestFit items bins capacity weight).sets ∧
      (bestFit items bins capacity weight).sets.length = bins) := by
  refine ⟨⟨pack_within h0 (firstFitSel_ok _) _ _ _, ?_⟩,
    ⟨pack_within h0 (worstFitSel_ok _) _ _ _, ?_⟩,
    ⟨pack_within h0 (almostWorstFitSel_ok _) _ _ _, ?_⟩, fun hb => ?_⟩
  · simp [firstFit, State.result, packLoop_length, State.init]
  · simp [worstFit, State.result, packLoop_length, State.init]
  · simp [almostWorstFit, State.result, packLoop_length, State.init]
  · have e : bestFit items bins capacity weight
        = (packLoop (bestFitSel capacity) weight items (State.init bins)).result := by
      rw [bestFit, if_pos hb]
    rw [e]
    refine ⟨pack_within h0 (bestFitSel_ok _) _ _ _, ?_⟩
    simp [State.result, packLoop_length, State.init]

/-- C21 for `next_fit` (whenever it returns). -/
theorem C21_next_fit (items : List α) (bins : ℕ) (capacity : ℚ) (h0 : 0 ≤ capacity)
    (weight : α → ℚ) (r : Result α) (h : nextFit items bins capacity weight = some r) :
    WithinCapacity weight capacity r.sets ∧ r.sets.length = bins :=
  let ⟨h1, h2, _⟩ := nextFit_spec items bins capacity h0 weight r h
  ⟨h2, h1⟩

/-- C21 for `any_fit` with at least one bin. -/
theorem C21_any_fit (items : List α) (bins : ℕ) (hb : bins ≠ 0) (capacity : ℚ) (h0 : 0 ≤ capacity)
    (weight : α → ℚ) (r : Result α) (h : anyFit items bins capacity weight = some r) :
    WithinCapacity weight capacity r.sets ∧ r.sets.length = bins := by
  unfold anyFit at h
  cases hnf : nextFit items bins capacity weight with
  | none => rw [hnf] at h; simp at h
  | some nf =>
    have hn := C21_next_fit items bins capacity h0 weight nf hnf
    obtain ⟨h1, h2, h3, h4⟩ := C21_within_capacity items bins capacity h0 weight
    rw [hnf] at h
    simp only at h
    split at h
    · rename_i r' hr'
      rw [Option.some.injEq] at h
      subst h
      have := List.mem_of_find?_eq_some hr'
      simp only [List.mem_cons, List.not_mem_nil, or_false] at this
      rcases this with rfl | rfl | rfl | rfl | rfl
      · exact hn
      · exact h1
      · exact h2
      · exact h3
      · exact h4 hb
    · rw [Option.some.injEq] at h
      subst h
      exact hn

/-- `any_fit` and `next_fit` return for every input with at least one bin. -/
theorem C21_next_any_fit_total (items : List α) (bins : ℕ) (hb : bins ≠ 0) (capacity : ℚ)
    (weight : α → ℚ) :
    (nextFit items bins capacity weight).isSome ∧ (anyFit items bins capacity weight).isSome := by
  have h1 : (nextFit items bins capacity weight).isSome := by simp [nextFit, hb]
  refine ⟨h1, ?_⟩
  obtain ⟨nf, hnf⟩ := Option.isSome_iff_exists.1 h1
  unfold anyFit
  rw [hnf]
  simp only
  split <;> simp

/-- C21 fails for `best_fit` with bins on demand and an oversized item. -/
theorem C21_best_fit_on_demand_violated :
    ∃ (items : List ℚ) (capacity : ℚ), 0 ≤ capacity ∧
      ¬ WithinCapacity (fun x : ℚ => x) capacity (bestFit items 0 capacity (fun x => x)).sets := by
  refine ⟨[2], 1, by norm_num, fun h => ?_⟩
  have h2 : [2] ∈ (bestFit [(2 : ℚ)] 0 1 (fun x => x)).sets := by decide +kernel
  have := h [2] h2
  norm_num [load] at this

/-! ### C22: conservation -/

/-- C22 for `first_fit`, `worst_fit`, `almost_worst_fit` and `best_fit`. -/
theorem C22_conserves (items : List α) (bins : ℕ) (capacity : ℚ) (weight : α → ℚ) :
    Conserves items (firstFit items bins capacity weight).sets
      (firstFit items bins capacity weight).misfits ∧
    Conserves items (worstFit items bins capacity weight).sets
      (worstFit items bins capacity weight).misfits ∧
    Conserves items (almostWorstFit items bins capacity weight).sets
      (almostWorstFit items bins capacity weight).misfits ∧
    (bins ≠ 0 → Conserves items (bestFit items bins capacity weight).sets
      (bestFit items bins capacity weight).misfits) := by
  refine ⟨pack_conserves (firstFitSel_ok capacity) _ _ _,
    pack_conserves (worstFitSel_ok capacity) _ _ _,
    pack_conserves (almostWorstFitSel_ok capacity) _ _ _, fun hb => ?_⟩
  rw [bestFit, if_pos hb]
  exact pack_conserves (bestFitSel_ok capacity) _ _ _

/-- C22 is violated by `next_fit`: items after the first misfit are neither
packed nor reported. -/
theorem C22_next_fit_violated :
    ∃ (items : List ℚ) (bins : ℕ) (capacity : ℚ) (r : Result ℚ),
      nextFit items bins capacity (fun x => x) = some r ∧ ¬ Conserves items r.sets r.misfits := by
  refine ⟨[2, 1], 1, 1, ⟨[[]], [2]⟩, by decide +kernel, fun h => ?_⟩
  have := h.length_eq
  simp at this

/-- What remains of C22 for `next_fit`: the packed items and the single
reported item are a prefix of the input, and when nothing is reported
everything is packed. -/
theorem C22_next_fit_partial (items : List α) (bins : ℕ) (capacity : ℚ) (h0 : 0 ≤ capacity)
    (weight : α → ℚ) (r : Result α) (h : nextFit items bins capacity weight = some r) :
    (r.misfits = [] → Conserves items r.sets r.misfits) ∧
    (∃ dropped, (r.sets.flatten ++ r.misfits ++ dropped).Perm items) := by
  obtain ⟨_, _, h3⟩ := nextFit_spec items bins capacity h0 weight r h
  constructor
  · intro hm
    rcases h3 with ⟨_, h3⟩ | ⟨_, x, _, _, h3, _⟩
    · unfold Conserves; rw [hm]; simpa using h3
    · rw [hm] at h3; simp at h3
  · rcases h3 with ⟨hm, h3⟩ | ⟨pre, x, post, rfl, h3, h4⟩
    · exact ⟨[], by rw [hm]; simpa using h3⟩
    · refine ⟨post, ?_⟩
      rw [h3]
      have := (h4.append_right [x]).append_right post
      simpa using this

/-- C22 is violated by `any_fit`: the same item is reported twice. -/
theorem C22_any_fit_violated :
    ∃ (items : List ℚ) (bins : ℕ) (capacity : ℚ) (r : Result ℚ),
      anyFit items bins capacity (fun x => x) = some r ∧ ¬ Conserves items r.sets r.misfits := by
  refine ⟨[2], 1, 1, ⟨[[]], [2, 2]⟩, by decide +kernel, fun h => ?_⟩
  have := h.length_eq
  simp at this

/-- What remains of C22 for `any_fit`: when nothing is reported, every item is
packed exactly once; and something is reported only if every one of the five
heuristics fails. -/
theorem C22_any_fit_partial (items : List α) (bins : ℕ) (hb : bins ≠ 0) (capacity : ℚ)
    (h0 : 0 ≤ capacity)
    (weight : α → ℚ) (r : Result α) (h : anyFit items bins capacity weight = some r) :
    (r.misfits = [] → Conserves items r.sets r.misfits) ∧
    (r.misfits ≠ [] → (∀ nf, nextFit items bins capacity weight = some nf → nf.misfits ≠ []) ∧
      (firstFit items bins capacity weight).misfits ≠ [] ∧
      (worstFit items bins capacity weight).misfits ≠ [] ∧
      (almostWorstFit items bins capacity weight).misfits ≠ [] ∧
      (bestFit items bins capacity weight).misfits ≠ []) := by
  unfold anyFit at h
  cases hnf : nextFit items bins capacity weight with
  | none => rw [hnf] at h; simp at h
  | some nf =>
    have hn := (C22_next_fit_partial items bins capacity h0 weight nf hnf).1
    obtain ⟨h1, h2, h3, h4⟩ := C22_conserves items bins capacity weight
    rw [hnf] at h
    simp only at h
    split at h
    · rename_i r' hr'
      rw [Option.some.injEq] at h
      subst h
      have hm : r'.misfits = [] := by
        have := List.find?_some hr'
        simpa using this
      refine ⟨fun _ => ?_, fun hc => absurd hm hc⟩
      have := List.mem_of_find?_eq_some hr'
      simp only [List.mem_cons, List.not_mem_nil, or_false] at this
      rcases this with rfl | rfl | rfl | rfl | rfl
      · exact hn hm
      · exact h1
      · exact h2
      · exact h3
      · exact h4 hb
    · rename_i hnone
      rw [List.find?_eq_none] at hnone
      simp only [List.mem_cons, List.not_mem_nil, or_false, List.isEmpty_iff, forall_eq_or_imp,
        forall_eq] at hnone
      obtain ⟨g1, g2, g3, g4, g5⟩ := hnone
      rw [Option.some.injEq] at h
      subst h
      refine ⟨fun hc => ?_, fun _ => ⟨?_, g2, g3, g4, g5⟩⟩
      · simp only [List.append_eq_nil_iff] at hc
        exact absurd hc.2 g1
      · intro nf' h'
        rw [Option.some.injEq] at h'
        subst h'; exact g1

/-! ### C23: selection rules

Each theorem compares the packing of `items` with the packing of
`items ++ [x]`; as `items` is arbitrary this covers every reachable state. -/

/-- C23, `first_fit`: `x` goes to the lowest-numbered bin with room, and is a
misfit only if no bin has room. -/
theorem C23_first_fit (items : List α) (bins : ℕ) (capacity : ℚ) (weight : α → ℚ) (x : α) :
    let r := firstFit items bins capacity weight
    let r' := firstFit (items ++ [x]) bins capacity weight
    (∃ i, ∃ h : i < r.sets.length, load weight r.sets[i] + weight x ≤ capacity ∧
      (∀ j (_ : j < i), capacity < load weight (r.sets[j]) + weight x) ∧
      r' = ⟨r.sets.modify i (· ++ [x]), r.misfits⟩) ∨
    ((∀ b ∈ r.sets, capacity < load weight b + weight x) ∧ r' = ⟨r.sets, r.misfits ++ [x]⟩) := by
  intro r r'
  have hs : r' = _ := pack_snoc (firstFitSel capacity) weight items bins x
  change r' = match firstFitSel capacity (r.sets.map (load weight)) (weight x) with
      | some i => ⟨r.sets.modify i (· ++ [x]), r.misfits⟩
      | none => ⟨r.sets, r.misfits ++ [x]⟩ at hs
  cases hsel : firstFitSel capacity (r.sets.map (load weight)) (weight x) with
  | none =>
    right
    rw [hsel] at hs
    refine ⟨fun b hb => firstFitSel_none hsel _ (List.mem_map.2 ⟨b, hb, rfl⟩), hs⟩
  | some i =>
    left
    rw [hsel] at hs
    obtain ⟨h1, h2, h3⟩ := firstFitSel_some hsel
    have h1' : i < r.sets.length := by simpa using h1
    refine ⟨i, h1', by simpa using h2, fun j hj => ?_, hs⟩
    have := h3 j hj
    simpa using this

/-- C23, `worst_fit`: `x` goes to a least-loaded bin (the first such), and is a
misfit only if no bin has room. -/
theorem C23_worst_fit (items : List α) (bins : ℕ) (capacity : ℚ) (weight : α → ℚ) (x : α) :
    let r := worstFit items bins capacity weight
    let r' := worstFit (items ++ [x]) bins capacity weight
    (∃ i, ∃ h : i < r.sets.length, load weight r.sets[i] + weight x ≤ capacity ∧
      (∀ b ∈ r.sets, load weight r.sets[i] ≤ load weight b) ∧
      (∀ j (_ : j < i), load weight r.sets[i] < load weight (r.sets[j])) ∧
      r' = ⟨r.sets.modify i (· ++ [x]), r.misfits⟩) ∨
    ((∀ b ∈ r.sets, capacity < load weight b + weight x) ∧ r' = ⟨r.sets, r.misfits ++ [x]⟩) := by
  intro r r'
  have hs : r' = _ := pack_snoc (worstFitSel capacity) weight items bins x
  change r' = match worstFitSel capacity (r.sets.map (load weight)) (weight x) with
      | some i => ⟨r.sets.modify i (· ++ [x]), r.misfits⟩
      | none => ⟨r.sets, r.misfits ++ [x]⟩ at hs
  cases hsel : worstFitSel capacity (r.sets.map (load weight)) (weight x) with
  | none =>
    right
    rw [hsel] at hs
    refine ⟨fun b hb => worstFitSel_none hsel _ (List.mem_map.2 ⟨b, hb, rfl⟩), hs⟩
  | some i =>
    left
    rw [hsel] at hs
    obtain ⟨h1, h2, h3, h4⟩ := worstFitSel_some hsel
    have h1' : i < r.sets.length := by simpa using h1
    refine ⟨i, h1', by simpa using h2, fun b hb => ?_, fun j hj => ?_, hs⟩
    · have := h3 _ (List.mem_map.2 ⟨b, hb, rfl⟩)
      simpa using this
    · have := h4 j hj
      simpa using this

/-- C23, `almost_worst_fit`: `x` goes to the least-loaded bin with room but one
(to the least-loaded one if it is the only bin with room). -/
theorem C23_almost_worst_fit (items : List α) (bins : ℕ) (capacity : ℚ) (weight : α → ℚ) (x : α) :
    let r := almostWorstFit items bins capacity weight
    let r' := almostWorstFit (items ++ [x]) bins capacity weight
    (∃ i, ∃ h : i < r.sets.length, load weight r.sets[i] + weight x ≤ capacity ∧
      (∃ least others,
        ((r.sets.map (load weight)).filter (fun s => s + weight x ≤ capacity)).Perm
          (least :: others) ∧ (∀ s ∈ others, least ≤ s) ∧
        ((others = [] ∧ load weight r.sets[i] = least) ∨
         (load weight r.sets[i] ∈ others ∧ ∀ s ∈ others, load weight r.sets[i] ≤ s))) ∧
      r' = ⟨r.sets.modify i (· ++ [x]), r.misfits⟩) ∨
    ((∀ b ∈ r.sets, capacity < load weight b + weight x) ∧ r' = ⟨r.sets, r.misfits ++ [x]⟩) := by
  intro r r'
  have hs : r' = _ := pack_snoc (almostWorstFitSel capacity) weight items bins x
  change r' = match almostWorstFitSel capacity (r.sets.map (load weight)) (weight x) with
      | some i => ⟨r.sets.modify i (· ++ [x]), r.misfits⟩
      | none => ⟨r.sets, r.misfits ++ [x]⟩ at hs
  cases hsel : almostWorstFitSel capacity (r.sets.map (load weight)) (weight x) with
  | none =>
    right
    rw [hsel] at hs
    refine ⟨fun b hb => almostWorstFitSel_none hsel _ (List.mem_map.2 ⟨b, hb, rfl⟩), hs⟩
  | some i =>
    left
    rw [hsel] at hs
    obtain ⟨h1, h2, v, rest, h3, h4, h5⟩ := almostWorstFitSel_some hsel
    have h1' : i < r.sets.length := by simpa using h1
    refine ⟨i, h1', by simpa using h2, ⟨v, rest, h3, h4, ?_⟩, hs⟩
    simpa using h5

/-- C23, `best_fit` with a fixed number of bins: `x` goes to a most-loaded bin
with room (the first such). -/
theorem C23_best_fit (items : List α) (bins : ℕ) (hb : bins ≠ 0) (capacity : ℚ) (weight : α → ℚ)
    (x : α) :
    let r := bestFit items bins capacity weight
    let r' := bestFit (items ++ [x]) bins capacity weight
    (∃ i, ∃ h : i < r.sets.length, load weight r.sets[i] + weight x ≤ capacity ∧
      (∀ j (_ : j < r.sets.length), load weight r.sets[j] + weight x ≤ capacity →
        load weight r.sets[j] < load weight r.sets[i] ∨
        (load weight r.sets[j] = load weight r.sets[i] ∧ i ≤ j)) ∧
      r' = ⟨r.sets.modify i (· ++ [x]), r.misfits⟩) ∨
    ((∀ b ∈ r.sets, capacity < load weight b + weight x) ∧ r' = ⟨r.sets, r.misfits ++ [x]⟩) := by
  intro r r'
  have er : r = (packLoop (bestFitSel capacity) weight items (State.init bins)).result := by
    simp only [r, bestFit, if_pos hb]
  have er' : r' = (packLoop (bestFitSel capacity) weight (items ++ [x]) (State.init bins)).result := by
    simp only [r', bestFit, if_pos hb]
  have hs : r' = match bestFitSel capacity (r.sets.map (load weight)) (weight x) with
      | some i => ⟨r.sets.modify i (· ++ [x]), r.misfits⟩
      | none => ⟨r.sets, r.misfits ++ [x]⟩ := by
    rw [er', er]; exact pack_snoc (bestFitSel capacity) weight items bins x
  cases hsel : bestFitSel capacity (r.sets.map (load weight)) (weight x) with
  | none =>
    right
    rw [hsel] at hs
    refine ⟨fun b hb => bestFitSel_none hsel _ (List.mem_map.2 ⟨b, hb, rfl⟩), hs⟩
  | some i =>
    left
    rw [hsel] at hs
    obtain ⟨h1, h2, h3⟩ := bestFitSel_some hsel
    have h1' : i < r.sets.length := by simpa using h1
    refine ⟨i, h1', by simpa using h2, fun j hj hjc => ?_, hs⟩
    have := h3 j (by simpa using hj) (by simpa using hjc)
    simpa using this

/-! ### C24: best fit on demand -/

/-- Any two bins together exceed the capacity. -/
def PairsExceed (capacity : ℚ) (sums : List ℚ) : Prop :=
  sums.Pairwise (fun a b => capacity < a + b)

theorem pairs_modify {capacity : ℚ} {sums : List ℚ} (h : PairsExceed capacity sums) (i : ℕ)
    {c : ℚ} (hc : 0 ≤ c) : PairsExceed capacity (sums.modify i (· + c)) := by
  unfold PairsExceed at *
  induction sums generalizing i with
  | nil => simp
  | cons a as ih =>
    rw [List.pairwise_cons] at h
    cases i with
    | zero =>
      rw [List.modify_zero_cons, List.pairwise_cons]
      exact ⟨fun b hb => by have := h.1 b hb; linarith, h.2⟩
    | succ i =>
      rw [List.modify_succ_cons, List.pairwise_cons]
      refine ⟨fun b hb => ?_, ih h.2 i⟩
      rcases mem_modify _ _ _ _ hb with hb | ⟨hi, rfl⟩
      · exact h.1 b hb
      · have := h.1 _ (List.getElem_mem hi); linarith

theorem demand_spec {capacity : ℚ} (weight : α → ℚ) (items : List α)
    (hw : ∀ x ∈ items, 0 ≤ weight x ∧ weight x ≤ capacity) :
    ∀ s : State α, Inv weight s → (∀ v ∈ s.sums, v ≤ capacity) → PairsExceed capacity s.sums →
      let s' := bestFitDemandLoop capacity weight items s
      Inv weight s' ∧ (∀ v ∈ s'.sums, v ≤ capacity) ∧ PairsExceed capacity s'.sums ∧
      s'.misfits = s.misfits ∧ s'.sets.flatten.Perm (s.sets.flatten ++ items) ∧
      s.sets.length ≤ s'.sets.length := by
  induction items with
  | nil => intro s h1 h2 h3; exact ⟨h1, h2, h3, rfl, by simp [bestFitDemandLoop], le_rfl⟩
  | cons x xs ih =>
    intro s h1 h2 h3
    have hx := hw x (by simp)
    have ih := ih (fun y hy => hw y (by simp [hy]))
    rw [bestFitDemandLoop]
    cases hsel : bestFitSel capacity s.sums (weight x) with
    | none =>
      have hn := bestFitSel_none hsel
      obtain ⟨g1, g2, g3, g4, g5, g6⟩ := ih
        { s with sets := s.sets ++ [[x]], sums := s.sums ++ [weight x] }
        (by unfold Inv at *; simp [h1, load])
        (by
          intro v hv
          rcases List.mem_append.1 hv with hv | hv
          · exact h2 v hv
          · rw [List.mem_singleton.1 hv]; exact hx.2)
        (by
          unfold PairsExceed at *
          rw [List.pairwise_append]
          refine ⟨h3, by simp, fun a ha b hb => ?_⟩
          rw [List.mem_singleton.1 hb]; exact hn a ha)
      refine ⟨g1, g2, g3, g4, ?_, ?_⟩
      · refine g5.trans ?_; simp
      · refine le_trans ?_ g6; simp
    | some i =>
      obtain ⟨hi, hic, _⟩ := bestFitSel_some hsel
      have hl : i < s.sets.length := by rw [h1] at hi; simpa using hi
      obtain ⟨g1, g2, g3, g4, g5, g6⟩ := ih (s.place i x (weight x)) (h1.place i x)
        (by
          intro v hv
          rcases mem_modify _ _ _ _ hv with hv | ⟨_, rfl⟩
          · exact h2 v hv
          · exact hic)
        (pairs_modify h3 i hx.1)
      refine ⟨g1, g2, g3, g4, ?_, ?_⟩
      · have := flatten_modify_perm s.sets i hl x
        exact g5.trans ((this.append_right xs).trans List.perm_middle.symm)
      · simpa [State.place] using g6

/-- Bound on the number of bins from pairwise excess. -/
theorem pairs_bound {capacity : ℚ} : ∀ (sums : List ℚ), PairsExceed capacity sums →
    2 ≤ sums.length → (sums.length : ℚ) * capacity < 2 * sums.sum := by
  intro sums h hlen
  -- each load occurs in `n - 1` pairs
  have key : ∀ l : List ℚ, PairsExceed capacity l → ∀ a : ℚ, (∀ b ∈ l, capacity < a + b) →
      (l.length : ℚ) * capacity ≤ l.length * a + l.sum ∧
      ((l.length : ℚ) * (l.length - 1)) * capacity ≤ 2 * ((l.length - 1) * l.sum) := by
    intro l
    induction l with
    | nil => intro _ a _; simp
    | cons b bs ih =>
      intro hp a ha
      have hp' := List.pairwise_cons.1 hp
      obtain ⟨i1, i2⟩ := ih hp'.2 a (fun c hc => ha c (by simp [hc]))
      obtain ⟨j1, _⟩ := ih hp'.2 b hp'.1
      have hab := ha b (by simp)
      simp only [List.length_cons, List.sum_cons]
      push_cast
      constructor
      · nlinarith
      · nlinarith
  match sums, h, hlen with
  | a :: b :: rest, h, _ =>
    have hp := List.pairwise_cons.1 h
    have hp2 := List.pairwise_cons.1 hp.2
    -- strict version from the first pair
    obtain ⟨i1, _⟩ := key rest hp2.2 a (fun c hc => hp.1 c (by simp [hc]))
    obtain ⟨j1, j2⟩ := key rest hp2.2 b hp2.1
    have hab := hp.1 b (by simp)
    simp only [List.length_cons, List.sum_cons]
    push_cast
    rcases rest with _ | ⟨c, rest⟩
    · simp; linarith
    · simp only [List.length_cons] at *
      push_cast at *
      set n : ℚ := (rest.length : ℚ)
      have hn : 0 ≤ n := by positivity
      -- (n+3)(n+2) cap < 2 (n+2) total
      have h2 : ((n + 3) * (n + 2)) * capacity < (n + 2) * (2 * (a + (b + (c :: rest).sum))) := by
        nlinarith
      have h3 : 0 < n + 2 := by linarith
      have : (n + 2) * ((n + 1 + 1 + 1) * capacity) < (n + 2) * (2 * (a + (b + (c :: rest).sum))) := by
        nlinarith
      exact lt_of_mul_lt_mul_left this h3.le

/-- C24: `best_fit` with bins on demand, for items of weight between 0 and the
capacity: all items are packed, nothing is reported, no bin is overfull, any
two bins together exceed the capacity, and with at least two bins
`n * capacity < 2 * total weight`. -/
theorem C24_best_fit_on_demand (items : List α) (capacity : ℚ) (h0 : 0 ≤ capacity)
    (weight : α → ℚ) (hw : ∀ x ∈ items, 0 ≤ weight x ∧ weight x ≤ capacity) :
    let r := bestFit items 0 capacity weight
    r.misfits = [] ∧ r.sets.flatten.Perm items ∧ WithinCapacity weight capacity r.sets ∧
    (r.sets.map (load weight)).Pairwise (fun a b => capacity < a + b) ∧
    (2 ≤ r.sets.length → (r.sets.length : ℚ) * capacity < 2 * load weight items) := by
  intro r
  have h := demand_spec (capacity := capacity) weight items hw (State.init 1)
    (Inv.init weight 1)
    (by intro v hv; rw [State.init] at hv; rw [List.eq_of_mem_replicate hv]; exact h0)
    (by simp [PairsExceed, State.init])
  obtain ⟨g1, g2, g3, g4, g5, _⟩ := h
  have e : r = (bestFitDemandLoop capacity weight items (State.init 1)).result := by
    simp [r, bestFit]
  have hperm : r.sets.flatten.Perm items := by
    rw [e]; refine g5.trans ?_; simp [State.init]
  have hsums : (bestFitDemandLoop capacity weight items (State.init 1)).sums
      = r.sets.map (load weight) := by rw [e]; exact g1
  refine ⟨by rw [e]; exact g4, hperm, ?_, ?_, ?_⟩
  · intro b hb
    apply g2; rw [hsums]; exact List.mem_map.2 ⟨b, hb, rfl⟩
  · rw [← hsums]; exact g3
  · intro h2
    have h3 := pairs_bound _ g3 (by rw [hsums]; simpa using h2)
    rw [hsums, List.length_map] at h3
    have h4 : (r.sets.map (load weight)).sum = load weight items := by
      have : load weight r.sets.flatten = load weight items := by
        unfold load; exact (hperm.map weight).sum_eq
      rw [← this]
      unfold load
      rw [List.map_flatten, List.sum_flatten, List.map_map]; rfl
    rw [h4] at h3; exact h3

/-- C24: fewer than twice as many bins as *any* packing of the same items
within the capacity uses. -/
theorem C24_two_approximation (items : List α) (capacity : ℚ) (h0 : 0 < capacity)
    (weight : α → ℚ) (hw : ∀ x ∈ items, 0 ≤ weight x ∧ weight x ≤ capacity)
    (other : List (List α)) (hother : other.flatten.Perm items)
    (hcap : WithinCapacity weight capacity other)
    (hn : 2 ≤ (bestFit items 0 capacity weight).sets.length) :
    (bestFit items 0 capacity weight).sets.length < 2 * other.length := by
  obtain ⟨_, _, _, _, h⟩ := C24_best_fit_on_demand items capacity h0.le weight hw
  have h1 := h hn
  have h2 : load weight items ≤ other.length * capacity := by
    have e : load weight items = (other.map (load weight)).sum := by
      have : load weight other.flatten = load weight items := by
        unfold load; exact (hother.map weight).sum_eq
      rw [← this]
      unfold load
      rw [List.map_flatten, List.sum_flatten, List.map_map]; rfl
    rw [e]
    have := List.sum_le_card_nsmul (other.map (load weight)) capacity (by
      intro v hv; obtain ⟨b, hb, rfl⟩ := List.mem_map.1 hv; exact hcap b hb)
    simpa using this
  have h3 : (((bestFit items 0 capacity weight).sets.length : ℕ) : ℚ) * capacity
      < ((2 * other.length : ℕ) : ℚ) * capacity := by push_cast; linarith
  have h4 := lt_of_mul_lt_mul_right h3 h0.le
  exact_mod_cast h4

/-! ### C25: decreasing variants -/

/-- C25: the decreasing variant of an algorithm is the algorithm applied to a
permutation of the items that is sorted by decreasing weight and keeps the
order of items with equal weight. -/
theorem C25_decreasing {β : Type} (algorithm : List α → ℕ → ℚ → (α → ℚ) → β)
    (items : List α) (bins : ℕ) (capacity : ℚ) (weight : α → ℚ) :
    ∃ sorted : List α, sorted.Perm items ∧ sorted.Pairwise (fun a b => weight b ≤ weight a) ∧
      (∀ w, sorted.filter (fun x => weight x = w) = items.filter (fun x => weight x = w)) ∧
      decreasing algorithm items bins capacity weight = algorithm sorted bins capacity weight := by
  refine ⟨sortItemsDesc weight items, List.perm_insertionSort _ _,
    insertionSort_desc_sorted weight items, fun w => ?_, rfl⟩
  have := sortByKey_stable (fun x => - weight x) items (-w)
  have e : sortByKey (fun x => - weight x) items = sortItemsDesc weight items := by
    simp [sortByKey, sortItemsDesc]
  rw [e] at this
  simpa using this

/-- C25: the decreasing variants inherit capacity and conservation. -/
theorem C25_decreasing_variants (items : List α) (bins : ℕ) (capacity : ℚ) (h0 : 0 ≤ capacity)
    (weight : α → ℚ) :
    (∀ r ∈ [firstFitDecreasing items bins capacity weight,
        worstFitDecreasing items bins capacity weight,
        almostWorstFitDecreasing items bins capacity weight],
      WithinCapacity weight capacity r.sets ∧ Conserves items r.sets r.misfits) ∧
    (bins ≠ 0 →
      WithinCapacity weight capacity (bestFitDecreasing items bins capacity weight).sets ∧
      Conserves items (bestFitDecreasing items bins capacity weight).sets
        (bestFitDecreasing items bins capacity weight).misfits) := by
  have hp : (sortItemsDesc weight items).Perm items := List.perm_insertionSort _ _
  obtain ⟨h1, h2, h3, h4⟩ := C21_within_capacity (sortItemsDesc weight items) bins capacity h0 weight
  obtain ⟨g1, g2, g3, g4⟩ := C22_conserves (sortItemsDesc weight items) bins capacity weight
  constructor
  · intro r hr
    simp only [List.mem_cons, List.not_mem_nil, or_false] at hr
    rcases hr with rfl | rfl | rfl
    · exact ⟨h1.1, g1.trans hp⟩
    · exact ⟨h2.1, g2.trans hp⟩
    · exact ⟨h3.1, g3.trans hp⟩
  · intro hb
    exact ⟨(h4 hb).1, (g4 hb).trans hp⟩

/-! ### Non-vacuity -/

example : firstFit [6, 5, 5, 4] 2 10 (fun x : ℚ => x) = ⟨[[6, 4], [5, 5]], []⟩ := by decide +kernel
example : worstFit [6, 5, 5, 4] 2 10 (fun x : ℚ => x) = ⟨[[6, 4], [5, 5]], []⟩ := by decide +kernel
example : bestFit [6, 5, 5, 4] 0 10 (fun x : ℚ => x) = ⟨[[6, 4], [5, 5]], []⟩ := by decide +kernel
example : almostWorstFit [6, 5, 3] 3 10 (fun x : ℚ => x) = ⟨[[6], [5, 3], []], []⟩ := by
  decide +kernel
example : nextFit [6, 5, 4, 4] 2 10 (fun x : ℚ => x) = some ⟨[[6], [5, 4]], [4]⟩ := by
  decide +kernel
example : ∀ x ∈ [(6 : ℚ), 5, 5, 4], 0 ≤ x ∧ x ≤ 10 := by decide +kernel

end Verif.Binpack
