/-
Lemmas for bin packing: state invariants and the selection functions.
-/
import Verif.Spec.Packing
import Verif.Model.Binpack
import Verif.Lemmas.Sort
import Mathlib.Tactic.Linarith
import Mathlib.Data.List.Flatten

namespace Verif.Binpack
open Verif Verif.Spec

variable {α : Type}

/-- Appending to one bin adds the item to the flattened bins. -/
theorem flatten_modify_perm (sets : List (List α)) (i : ℕ) (h : i < sets.length) (x : α) :
    ((sets.modify i (· ++ [x])).flatten).Perm (x :: sets.flatten) := by
  induction sets generalizing i with
  | nil => simp at h
  | cons s ss ih =>
    cases i with
    | zero =>
      simp only [List.modify_zero_cons, List.flatten_cons]
      rw [List.append_assoc]
      exact List.perm_middle
    | succ i =>
      simp only [List.modify_succ_cons, List.flatten_cons]
      have := ih i (by simpa using h)
      exact (this.append_left s).trans List.perm_middle

/-- The invariant of all packing loops: sums mirror the bins. -/
def Inv (weight : α → ℚ) (s : State α) : Prop := s.sums = s.sets.map (load weight)

theorem load_append (weight : α → ℚ) (b : List α) (x : α) :
    load weight (b ++ [x]) = load weight b + weight x := by
  simp [load]

theorem map_modify_comm {β γ : Type} (g : β → γ) (f : β → β) (f' : γ → γ) (l : List β) (i : ℕ)
    (h : ∀ a, g (f a) = f' (g a)) : (l.modify i f).map g = (l.map g).modify i f' := by
  induction l generalizing i with
  | nil => simp
  | cons a as ih =>
    cases i with
    | zero => simp [h]
    | succ i => simp [ih]

theorem Inv.place {weight : α → ℚ} {s : State α} (h : Inv weight s) (i : ℕ) (x : α) :
    Inv weight (s.place i x (weight x)) := by
  unfold Inv at *
  simp only [State.place, h]
  exact (map_modify_comm _ _ _ _ _ (fun a => load_append weight a x)).symm

theorem Inv.misfit {weight : α → ℚ} {s : State α} (h : Inv weight s) (x : α) :
    Inv weight (s.misfit x) := h

theorem Inv.init (weight : α → ℚ) (bins : ℕ) : Inv weight (State.init (α := α) bins) := by
  simp [Inv, State.init, load]

/-- What a selection function must guarantee. -/
def SelOk (capacity : ℚ) (sel : List ℚ → ℚ → Option ℕ) : Prop :=
  ∀ sums c i, sel sums c = some i → ∃ h : i < sums.length, sums[i] + c ≤ capacity

/-- A selection function that only gives up if there is no room. -/
def SelComplete (capacity : ℚ) (sel : List ℚ → ℚ → Option ℕ) : Prop :=
  ∀ sums c, sel sums c = none → ∀ s ∈ sums, capacity < s + c

theorem packLoop_inv (sel : List ℚ → ℚ → Option ℕ) (weight : α → ℚ) (items : List α) :
    ∀ s : State α, Inv weight s → Inv weight (packLoop sel weight items s) := by
  induction items with
  | nil => exact fun s h => h
  | cons x xs ih =>
    intro s h
    rw [packLoop]
    cases sel s.sums (weight x) with
    | none => exact ih _ h
    | some i => exact ih _ (h.place i x)

theorem packLoop_length (sel : List ℚ → ℚ → Option ℕ) (weight : α → ℚ) (items : List α) :
    ∀ s : State α, (packLoop sel weight items s).sets.length = s.sets.length := by
  induction items with
  | nil => exact fun s => rfl
  | cons x xs ih =>
    intro s
    rw [packLoop]
    cases sel s.sums (weight x) with
    | none => exact ih _
    | some i => rw [ih]; simp [State.place]

theorem packLoop_append (sel : List ℚ → ℚ → Option ℕ) (weight : α → ℚ) (xs ys : List α) :
    ∀ s : State α, packLoop sel weight (xs ++ ys) s
      = packLoop sel weight ys (packLoop sel weight xs s) := by
  induction xs with
  | nil => exact fun s => rfl
  | cons x xs ih =>
    intro s
    simp only [List.cons_append, packLoop]
    cases sel s.sums (weight x) with
    | none => exact ih _
    | some i => exact ih _

theorem mem_modify {β : Type} (l : List β) (i : ℕ) (f : β → β) (y : β) (h : y ∈ l.modify i f) :
    y ∈ l ∨ ∃ h : i < l.length, y = f l[i] := by
  induction l generalizing i with
  | nil => simp at h
  | cons a as ih =>
    cases i with
    | zero =>
      simp only [List.modify_zero_cons, List.mem_cons] at h
      rcases h with rfl | h
      · right; exact ⟨by simp, rfl⟩
      · left; simp [h]
    | succ i =>
      simp only [List.modify_succ_cons, List.mem_cons] at h
      rcases h with rfl | h
      · left; simp
      · rcases ih i h with h | ⟨h', rfl⟩
        · left; simp [h]
        · right; exact ⟨by simpa using h', rfl⟩

theorem packLoop_capacity {capacity : ℚ} {sel : List ℚ → ℚ → Option ℕ} (hsel : SelOk capacity sel)
    (weight : α → ℚ) (items : List α) :
    ∀ s : State α, (∀ v ∈ s.sums, v ≤ capacity) →
      ∀ v ∈ (packLoop sel weight items s).sums, v ≤ capacity := by
  induction items with
  | nil => exact fun s h => h
  | cons x xs ih =>
    intro s h
    rw [packLoop]
    cases hs : sel s.sums (weight x) with
    | none => exact ih _ h
    | some i =>
      apply ih
      intro v hv
      rcases mem_modify _ _ _ _ hv with hv | ⟨hi, rfl⟩
      · exact h v hv
      · obtain ⟨_, h2⟩ := hsel _ _ _ hs
        exact h2

theorem packLoop_conserves {capacity : ℚ} {sel : List ℚ → ℚ → Option ℕ}
    (hsel : SelOk capacity sel) (weight : α → ℚ) (items : List α) :
    ∀ s : State α, Inv weight s →
      ((packLoop sel weight items s).sets.flatten ++ (packLoop sel weight items s).misfits).Perm
        (s.sets.flatten ++ s.misfits ++ items) := by
  induction items with
  | nil => intro s _; simp [packLoop]
  | cons x xs ih =>
    intro s h
    rw [packLoop]
    cases hs : sel s.sums (weight x) with
    | none =>
      refine (ih (s.misfit x) h).trans ?_
      simp [State.misfit]
    | some i =>
      refine (ih _ (h.place i x)).trans ?_
      obtain ⟨h1, _⟩ := hsel _ _ _ hs
      have hl : i < s.sets.length := by rw [h] at h1; simpa using h1
      have := flatten_modify_perm s.sets i hl x
      simp only [State.place]
      refine ((this.append_right _).append_right _).trans ?_
      simp only [List.cons_append]
      exact List.perm_middle.symm

/-! ### The selection functions -/

theorem firstFitSel_some {capacity : ℚ} {sums : List ℚ} {c : ℚ} {i : ℕ}
    (h : firstFitSel capacity sums c = some i) :
    ∃ hi : i < sums.length, sums[i] + c ≤ capacity ∧
      ∀ j (hj : j < i), capacity < sums[j] + c := by
  unfold firstFitSel at h
  rw [List.findIdx?_eq_some_iff_getElem] at h
  obtain ⟨h1, h2, h3⟩ := h
  refine ⟨h1, by simpa using h2, fun j hj => ?_⟩
  have := h3 j hj
  simpa using this

theorem firstFitSel_none {capacity : ℚ} {sums : List ℚ} {c : ℚ}
    (h : firstFitSel capacity sums c = none) : ∀ s ∈ sums, capacity < s + c := by
  unfold firstFitSel at h
  rw [List.findIdx?_eq_none_iff] at h
  intro s hs
  simpa using h s hs

theorem min?_spec (l : List ℚ) :
    (l.min? = none ∧ l = []) ∨ ∃ v, l.min? = some v ∧ v ∈ l ∧ ∀ a ∈ l, v ≤ a := by
  rcases hl : l.min? with _ | v
  · left; exact ⟨rfl, List.min?_eq_none_iff.1 hl⟩
  · right
    have := List.min?_eq_some_iff.1 hl
    exact ⟨v, rfl, this.1, this.2⟩

/-- The index found by `sums.index(v)` for a candidate value `v`. -/
theorem idxOf_candidate {capacity : ℚ} {sums : List ℚ} {c v : ℚ}
    (hv : v ∈ sums.filter (fun s => s + c ≤ capacity)) :
    ∃ hi : sums.idxOf v < sums.length, sums[sums.idxOf v] = v ∧ v + c ≤ capacity ∧
      ∀ j (hj : j < sums.idxOf v), sums[j] ≠ v := by
  rw [List.mem_filter] at hv
  have hi := List.idxOf_lt_length_of_mem hv.1
  refine ⟨hi, List.getElem_idxOf hi, by simpa using hv.2, ?_⟩
  intro j hj hjv
  have := List.not_of_lt_findIdx (p := (· == v)) (xs := sums) (i := j) hj
  simp at this
  exact this hjv

theorem worstFitSel_some {capacity : ℚ} {sums : List ℚ} {c : ℚ} {i : ℕ}
    (h : worstFitSel capacity sums c = some i) :
    ∃ hi : i < sums.length, sums[i] + c ≤ capacity ∧ (∀ s ∈ sums, sums[i] ≤ s) ∧
      ∀ j (hj : j < i), sums[i] < sums[j] := by
  unfold worstFitSel at h
  rcases min?_spec (sums.filter (fun s => s + c ≤ capacity)) with ⟨h1, _⟩ | ⟨v, h1, h2, h3⟩
  · simp only [h1] at h; exact absurd h (by simp)
  · simp only [h1, Option.some.injEq] at h
    subst h
    obtain ⟨a1, a2, a3, a4⟩ := idxOf_candidate h2
    have hmin : ∀ s ∈ sums, v ≤ s := by
      intro s hs
      by_cases hc : s + c ≤ capacity
      · exact h3 s (List.mem_filter.2 ⟨hs, by simpa using hc⟩)
      · linarith
    refine ⟨a1, by rw [a2]; exact a3, by rw [a2]; exact hmin, ?_⟩
    intro j hj
    rw [a2]
    exact lt_of_le_of_ne (hmin _ (List.getElem_mem _)) (Ne.symm (a4 j hj))

theorem worstFitSel_none {capacity : ℚ} {sums : List ℚ} {c : ℚ}
    (h : worstFitSel capacity sums c = none) : ∀ s ∈ sums, capacity < s + c := by
  unfold worstFitSel at h
  rcases min?_spec (sums.filter (fun s => s + c ≤ capacity)) with ⟨_, h1⟩ | ⟨v, h1, _⟩
  · intro s hs
    rw [List.filter_eq_nil_iff] at h1
    simpa using h1 s hs
  · simp [h1] at h

theorem almostWorstFitSel_some {capacity : ℚ} {sums : List ℚ} {c : ℚ} {i : ℕ}
    (h : almostWorstFitSel capacity sums c = some i) :
    ∃ hi : i < sums.length, sums[i] + c ≤ capacity ∧
      ∃ v rest, (sums.filter (fun s => s + c ≤ capacity)).Perm (v :: rest) ∧
        (∀ s ∈ rest, v ≤ s) ∧
        ((rest = [] ∧ sums[i] = v) ∨ (sums[i] ∈ rest ∧ ∀ s ∈ rest, sums[i] ≤ s)) := by
  unfold almostWorstFitSel at h
  have hp := sortByKey_perm (fun s : ℚ => s) (sums.filter (fun s => s + c ≤ capacity))
  have hs := sortByKey_sorted (fun s : ℚ => s) (sums.filter (fun s => s + c ≤ capacity))
  generalize sortByKey (fun s : ℚ => s) (sums.filter (fun s => s + c ≤ capacity)) = cs at *
  match cs, h with
  | a :: b :: rest, h =>
    simp only [Option.some.injEq] at h
    subst h
    obtain ⟨a1, a2, a3, _⟩ := idxOf_candidate (hp.subset (by simp : b ∈ a :: b :: rest))
    rw [List.pairwise_cons, List.pairwise_cons] at hs
    refine ⟨a1, by rw [a2]; exact a3, a, b :: rest, hp.symm, hs.1, Or.inr ?_⟩
    rw [a2]
    refine ⟨by simp, fun s h => ?_⟩
    rcases List.mem_cons.1 h with rfl | h
    · exact le_rfl
    · exact hs.2.1 s h
  | [a], h =>
    simp only [Option.some.injEq] at h
    subst h
    obtain ⟨a1, a2, a3, _⟩ := idxOf_candidate (hp.subset (by simp : a ∈ [a]))
    exact ⟨a1, by rw [a2]; exact a3, a, [], hp.symm, by simp, Or.inl ⟨rfl, a2⟩⟩

theorem almostWorstFitSel_none {capacity : ℚ} {sums : List ℚ} {c : ℚ}
    (h : almostWorstFitSel capacity sums c = none) : ∀ s ∈ sums, capacity < s + c := by
  unfold almostWorstFitSel at h
  have hp := sortByKey_perm (fun s : ℚ => s) (sums.filter (fun s => s + c ≤ capacity))
  generalize sortByKey (fun s : ℚ => s) (sums.filter (fun s => s + c ≤ capacity)) = cs at *
  match cs, h with
  | [], h =>
    have h1 := hp.symm.eq_nil
    intro s hs
    rw [List.filter_eq_nil_iff] at h1
    simpa using h1 s hs
  | a :: b :: rest, h => simp at h
  | [a], h => simp at h

theorem bestFitOrder_perm (sums : List ℚ) : (bestFitOrder sums).Perm sums.zipIdx :=
  List.perm_insertionSort _ _

theorem bestFitOrder_sorted (sums : List ℚ) :
    (bestFitOrder sums).Pairwise (fun a b => b.1 ≤ a.1) :=
  insertionSort_desc_sorted (fun p : ℚ × ℕ => p.1) _

/-- The order is by decreasing sum, ties by increasing index. -/
theorem bestFitOrder_lex (sums : List ℚ) :
    (bestFitOrder sums).Pairwise (fun a b => b.1 < a.1 ∨ (b.1 = a.1 ∧ a.2 < b.2)) := by
  unfold bestFitOrder
  have key : ∀ l : List (ℚ × ℕ), l.Pairwise (fun a b => a.2 < b.2) →
      (l.insertionSort (fun a b => b.1 ≤ a.1)).Pairwise
        (fun a b => b.1 < a.1 ∨ (b.1 = a.1 ∧ a.2 < b.2)) := by
    intro l
    induction l with
    | nil => simp
    | cons p ps ih =>
      intro h
      rw [List.pairwise_cons] at h
      replace ih := ih h.2
      have hmem : ∀ q ∈ ps.insertionSort (fun a b => b.1 ≤ a.1), p.2 < q.2 := by
        intro q hq
        exact h.1 q ((List.perm_insertionSort _ ps).subset hq)
      rw [List.insertionSort_cons]
      generalize ps.insertionSort (fun a b => b.1 ≤ a.1) = l at *
      clear h
      induction l with
      | nil => simp
      | cons q qs ihq =>
        rw [List.orderedInsert_cons]
        rw [List.pairwise_cons] at ih
        split_ifs with hle
        · rw [List.pairwise_cons]
          refine ⟨fun r hr => ?_, List.pairwise_cons.2 ih⟩
          have h2 := hmem r hr
          have h1 : r.1 ≤ p.1 := by
            rcases List.mem_cons.1 hr with rfl | hr
            · exact hle
            · rcases ih.1 r hr with h | h
              · linarith
              · linarith [h.1]
          rcases h1.lt_or_eq with h | h
          · exact Or.inl h
          · exact Or.inr ⟨h, h2⟩
        · rw [List.pairwise_cons]
          refine ⟨fun r hr => ?_, ihq ih.2 (fun x hx => hmem x (by simp [hx]))⟩
          rw [List.mem_orderedInsert] at hr
          rcases hr with rfl | hr
          · left; exact not_le.1 hle
          · exact ih.1 r hr
  apply key
  rw [← List.pairwise_map (f := Prod.snd) (R := fun a b => a < b), List.zipIdx_map_snd]
  exact List.pairwise_lt_range' ..

theorem bestFitSel_some {capacity : ℚ} {sums : List ℚ} {c : ℚ} {i : ℕ}
    (h : bestFitSel capacity sums c = some i) :
    ∃ hi : i < sums.length, sums[i] + c ≤ capacity ∧
      (∀ j (hj : j < sums.length), sums[j] + c ≤ capacity →
        sums[j] < sums[i] ∨ (sums[j] = sums[i] ∧ i ≤ j)) := by
  unfold bestFitSel at h
  rw [Option.map_eq_some_iff] at h
  obtain ⟨p, hp, rfl⟩ := h
  rw [List.find?_eq_some_iff_append] at hp
  obtain ⟨h1, as, bs, h2, h3⟩ := hp
  have hpm : p ∈ sums.zipIdx := (bestFitOrder_perm sums).subset (by rw [h2]; simp)
  obtain ⟨v, k⟩ := p
  have hk := List.mk_mem_zipIdx_iff_getElem?.1 hpm
  obtain ⟨hk1, hk2⟩ := List.getElem?_eq_some_iff.1 hk
  refine ⟨hk1, ?_, ?_⟩
  · simp only; rw [hk2]; simpa using h1
  · intro j hj hjc
    have hjm : (sums[j], j) ∈ bestFitOrder sums :=
      (bestFitOrder_perm sums).mem_iff.2 (List.mk_mem_zipIdx_iff_getElem?.2 (by simp [hj]))
    rw [h2, List.mem_append, List.mem_cons] at hjm
    rcases hjm with hjm | hjm | hjm
    · have := h3 _ hjm
      simp at this
      linarith
    · rw [Prod.mk.injEq] at hjm
      right
      simp only [hjm.2, hk2, le_refl, and_self, hjm.1]
    · have hlex := bestFitOrder_lex sums
      rw [h2, List.pairwise_append, List.pairwise_cons] at hlex
      rcases hlex.2.1.1 _ hjm with h | h
      · left; simp only [hk2]; exact h
      · right; simp only [hk2]; exact ⟨h.1, h.2.le⟩

theorem bestFitSel_none {capacity : ℚ} {sums : List ℚ} {c : ℚ}
    (h : bestFitSel capacity sums c = none) : ∀ s ∈ sums, capacity < s + c := by
  unfold bestFitSel at h
  rw [Option.map_eq_none_iff, List.find?_eq_none] at h
  intro s hs
  obtain ⟨j, hj, rfl⟩ := List.getElem_of_mem hs
  have := h (sums[j], j) ((bestFitOrder_perm sums).mem_iff.2
    (List.mk_mem_zipIdx_iff_getElem?.2 (by simp [hj])))
  simpa using this

theorem firstFitSel_ok (capacity : ℚ) : SelOk capacity (firstFitSel capacity) :=
  fun _ _ _ h => let ⟨h1, h2, _⟩ := firstFitSel_some h; ⟨h1, h2⟩
theorem worstFitSel_ok (capacity : ℚ) : SelOk capacity (worstFitSel capacity) :=
  fun _ _ _ h => let ⟨h1, h2, _⟩ := worstFitSel_some h; ⟨h1, h2⟩
theorem almostWorstFitSel_ok (capacity : ℚ) : SelOk capacity (almostWorstFitSel capacity) :=
  fun _ _ _ h => let ⟨h1, h2, _⟩ := almostWorstFitSel_some h; ⟨h1, h2⟩
theorem bestFitSel_ok (capacity : ℚ) : SelOk capacity (bestFitSel capacity) :=
  fun _ _ _ h => let ⟨h1, h2, _⟩ := bestFitSel_some h; ⟨h1, h2⟩

/-- Generic capacity result for a fixed number of bins. -/
theorem pack_within {capacity : ℚ} (h0 : 0 ≤ capacity) {sel : List ℚ → ℚ → Option ℕ}
    (hsel : SelOk capacity sel) (weight : α → ℚ) (items : List α) (bins : ℕ) :
    WithinCapacity weight capacity (packLoop sel weight items (State.init bins)).result.sets := by
  intro b hb
  have h1 := packLoop_inv sel weight items _ (Inv.init weight bins)
  have h2 := packLoop_capacity hsel weight items (State.init bins)
    (by intro v hv; rw [State.init] at hv; rw [List.eq_of_mem_replicate hv]; exact h0)
  apply h2
  rw [h1]
  exact List.mem_map.2 ⟨b, hb, rfl⟩

theorem pack_conserves {capacity : ℚ} {sel : List ℚ → ℚ → Option ℕ}
    (hsel : SelOk capacity sel) (weight : α → ℚ) (items : List α) (bins : ℕ) :
    Conserves items (packLoop sel weight items (State.init bins)).result.sets
      (packLoop sel weight items (State.init bins)).result.misfits := by
  have := packLoop_conserves hsel weight items (State.init bins) (Inv.init weight bins)
  unfold Conserves State.result
  refine this.trans ?_
  simp [State.init]

/-- One more item: what the loop does with it. -/
theorem pack_snoc (sel : List ℚ → ℚ → Option ℕ) (weight : α → ℚ) (items : List α) (bins : ℕ)
    (x : α) :
    let r := (packLoop sel weight items (State.init bins)).result
    (packLoop sel weight (items ++ [x]) (State.init bins)).result =
      match sel (r.sets.map (load weight)) (weight x) with
      | some i => ⟨r.sets.modify i (· ++ [x]), r.misfits⟩
      | none => ⟨r.sets, r.misfits ++ [x]⟩ := by
  intro r
  have h1 := packLoop_inv sel weight items _ (Inv.init weight bins)
  rw [packLoop_append]
  simp only [packLoop]
  have e : (packLoop sel weight items (State.init bins)).sums = r.sets.map (load weight) := h1
  rw [e]
  cases sel (r.sets.map (load weight)) (weight x) <;> rfl

end Verif.Binpack
