/-
Lemmas on the stable sorts of the model.
-/
import Verif.Model.Tasks
import Mathlib.Data.List.Perm.Subperm

namespace Verif

theorem insertionSort_key_sorted {α : Type} (key : α → ℚ) (l : List α) :
    (l.insertionSort (fun a b => key a ≤ key b)).Pairwise (fun a b => key a ≤ key b) :=
  haveI : Std.Total (fun a b : α => key a ≤ key b) := ⟨fun _ _ => le_total _ _⟩
  haveI : IsTrans α (fun a b : α => key a ≤ key b) := ⟨fun _ _ _ => le_trans⟩
  List.pairwise_insertionSort _ _

theorem insertionSort_desc_sorted {α : Type} (key : α → ℚ) (l : List α) :
    (l.insertionSort (fun a b => key b ≤ key a)).Pairwise (fun a b => key b ≤ key a) :=
  haveI : Std.Total (fun a b : α => key b ≤ key a) := ⟨fun _ _ => le_total _ _⟩
  haveI : IsTrans α (fun a b : α => key b ≤ key a) := ⟨fun _ _ _ h1 h2 => le_trans h2 h1⟩
  List.pairwise_insertionSort _ _

theorem sortDesc_sorted (u : List ℚ) : (TaskSystem.sortDesc u).Pairwise (fun a b => b ≤ a) :=
  insertionSort_desc_sorted (fun x => x) u

theorem sortDesc_perm (u : List ℚ) : (TaskSystem.sortDesc u).Perm u := List.perm_insertionSort _ _

theorem sortByKey_perm {α : Type} (key : α → ℚ) (l : List α) : (sortByKey key l).Perm l :=
  List.perm_insertionSort _ _

theorem sortByKey_sorted {α : Type} (key : α → ℚ) (l : List α) :
    (sortByKey key l).Pairwise (fun a b => key a ≤ key b) :=
  insertionSort_key_sorted key l

theorem sublist_sortByKey {α : Type} (key : α → ℚ) {l c : List α}
    (hr : c.Pairwise (fun a b => key a ≤ key b)) (hc : c.Sublist l) :
    c.Sublist (sortByKey key l) :=
  haveI : Std.Total (fun a b : α => key a ≤ key b) := ⟨fun _ _ => le_total _ _⟩
  haveI : IsTrans α (fun a b : α => key a ≤ key b) := ⟨fun _ _ _ => le_trans⟩
  List.sublist_insertionSort hr hc

theorem sortByKey_stable {α : Type} (key : α → ℚ) (l : List α) (d : ℚ) :
    (sortByKey key l).filter (fun t => key t = d) = l.filter (fun t => key t = d) := by
  have hsub : (l.filter (fun t => key t = d)).Sublist (sortByKey key l) := by
    apply sublist_sortByKey
    · rw [List.pairwise_filter]
      refine List.pairwise_of_forall fun a b ha hb => ?_
      simp at *; rw [ha, hb]
    · exact List.filter_sublist
  have h2 := hsub.filter (fun t => decide (key t = d))
  rw [List.filter_filter] at h2
  simp only [Bool.and_self] at h2
  symm
  apply h2.eq_of_length
  exact ((sortByKey_perm key l).filter _).length_eq.symm

theorem subperm_map {α β : Type} (f : α → β) {v u : List α} (h : v.Subperm u) :
    (v.map f).Subperm (u.map f) := by
  obtain ⟨w, h1, h2⟩ := h
  exact ⟨w.map f, h1.map f, h2.map f⟩

/-- Insertion sort by a key keeps the original relation between elements with
equal keys. -/
theorem insertionSort_key_lex {α : Type} (key : α → ℚ) (R : α → α → Prop) (l : List α)
    (h : l.Pairwise R) :
    (l.insertionSort (fun a b => key a ≤ key b)).Pairwise
      (fun a b => key a < key b ∨ (key a = key b ∧ R a b)) := by
  induction l with
  | nil => simp
  | cons p ps ih =>
    rw [List.pairwise_cons] at h
    replace ih := ih h.2
    have hmem : ∀ q ∈ ps.insertionSort (fun a b => key a ≤ key b), R p q := by
      intro q hq
      exact h.1 q ((List.perm_insertionSort _ ps).subset hq)
    rw [List.insertionSort_cons]
    generalize ps.insertionSort (fun a b => key a ≤ key b) = l at *
    clear h
    induction l with
    | nil => simp
    | cons q qs ihq =>
      rw [List.orderedInsert_cons]
      rw [List.pairwise_cons] at ih
      split_ifs with hle
      · rw [List.pairwise_cons]
        refine ⟨fun r hr => ?_, List.pairwise_cons.2 ih⟩
        have h2 := hmem r hr
        have h3 : key q ≤ key r := by
          rcases List.mem_cons.1 hr with rfl | hr
          · exact le_rfl
          · rcases ih.1 r hr with h | h
            · exact h.le
            · exact h.1.le
        rcases lt_or_eq_of_le (hle.trans h3) with h4 | h4
        · exact Or.inl h4
        · exact Or.inr ⟨h4, h2⟩
      · rw [List.pairwise_cons]
        refine ⟨fun r hr => ?_, ihq ih.2 (fun q hq => hmem q (List.mem_cons_of_mem _ hq))⟩
        rcases (List.mem_orderedInsert _).1 hr with rfl | hr
        · exact Or.inl (not_le.1 hle)
        · exact ih.1 r hr

theorem insertionSort_desc_lex {α : Type} (key : α → ℚ) (R : α → α → Prop) (l : List α)
    (h : l.Pairwise R) :
    (l.insertionSort (fun a b => key b ≤ key a)).Pairwise
      (fun a b => key b < key a ∨ (key a = key b ∧ R a b)) := by
  have := insertionSort_key_lex (fun x => - key x) R l h
  simpa using this

end Verif
