import Verif.Model.Rollback
import Verif.Lemmas.Sort
import Verif.Lemmas.Binpack
import Mathlib.Data.List.GetD

namespace Verif.Rollback
open Verif

variable {α : Type}

theorem allocated_append (size : α → ℚ) (l : List α) (x : α) :
    allocated size (l ++ [x]) = allocated size l + size x := by simp [allocated]

@[simp] theorem assign_length (bins : List (List α)) (i : ℕ) (x : α) :
    (assign bins i x).length = bins.length := by simp [assign]

@[simp] theorem undo_length (bins : List (List α)) (i : ℕ) :
    (undo bins i).length = bins.length := by simp [undo]

theorem undo_assign (bins : List (List α)) (i : ℕ) (x : α) : undo (assign bins i x) i = bins := by
  apply List.ext_getElem
  · simp
  · intro j h1 h2
    simp only [undo, assign, List.getElem_modify]
    split_ifs <;> simp

theorem assign_getElem_self (bins : List (List α)) (i : ℕ) (x : α) (h : i < bins.length) :
    (assign bins i x)[i]'(by simpa using h) = bins[i] ++ [x] := by
  simp [assign]

theorem assign_getElem_ne (bins : List (List α)) (i j : ℕ) (x : α) (h : j < bins.length)
    (hne : j ≠ i) : (assign bins i x)[j]'(by simpa using h) = bins[j] := by
  simp [assign, List.getElem_modify, hne.symm]

theorem tryAdd_true {ops : BinOps α} {bins bins' : List (List α)} {i : ℕ} {x : α}
    (h : tryAdd ops bins i x = (true, bins')) :
    bins' = assign bins i x ∧ ops.validate (assign bins i x) i = true := by
  simp only [tryAdd] at h
  split_ifs at h with hv
  · simp only [Prod.mk.injEq, true_and] at h
    exact ⟨h.symm, hv⟩
  · simp at h

theorem tryAdd_false {ops : BinOps α} {bins bins' : List (List α)} {i : ℕ} {x : α}
    (h : tryAdd ops bins i x = (false, bins')) :
    bins' = bins ∧ ops.validate (assign bins i x) i = false := by
  simp only [tryAdd] at h
  split_ifs at h with hv
  · simp at h
  · simp only [Prod.mk.injEq, true_and] at h
    rw [undo_assign] at h
    exact ⟨h.symm, by simpa using hv⟩

/-- A bin accepts the item. -/
def Accepts (ops : BinOps α) (bins : List (List α)) (x : α) (i : ℕ) : Prop :=
  ops.infeasible i (bins.getD i []) x = false ∧ ops.validate (assign bins i x) i = true

theorem tryBins_true {ops : BinOps α} {x : α} {l : List ℕ} {bins bins' : List (List α)}
    (h : tryBins ops x l bins = (true, bins')) :
    ∃ pre i post, l = pre ++ i :: post ∧ Accepts ops bins x i ∧ (∀ j ∈ pre, ¬ Accepts ops bins x j) ∧
      bins' = assign bins i x := by
  induction l with
  | nil => simp [tryBins] at h
  | cons i rest ih =>
    rw [tryBins] at h
    split_ifs at h with hinf
    · obtain ⟨pre, k, post, h1, h2, h3, h4⟩ := ih h
      refine ⟨i :: pre, k, post, by rw [h1]; rfl, h2, ?_, h4⟩
      intro j hj
      rcases List.mem_cons.1 hj with rfl | hj
      · intro hacc; rw [hacc.1] at hinf; exact absurd hinf (by simp)
      · exact h3 j hj
    · rcases ht : tryAdd ops bins i x with ⟨ok, b⟩
      rw [ht] at h
      cases ok with
      | true =>
        obtain ⟨e, hv⟩ := tryAdd_true ht
        simp only [Prod.mk.injEq, true_and] at h
        exact ⟨[], i, rest, rfl, ⟨by simpa using hinf, hv⟩, by simp, by rw [← h, e]⟩
      | false =>
        obtain ⟨e, hv⟩ := tryAdd_false ht
        subst e
        obtain ⟨pre, k, post, h1, h2, h3, h4⟩ := ih h
        refine ⟨i :: pre, k, post, by rw [h1]; rfl, h2, ?_, h4⟩
        intro j hj
        rcases List.mem_cons.1 hj with rfl | hj
        · intro hacc; rw [hacc.2] at hv; exact absurd hv (by simp)
        · exact h3 j hj

theorem tryBins_false {ops : BinOps α} {x : α} {l : List ℕ} {bins bins' : List (List α)}
    (h : tryBins ops x l bins = (false, bins')) :
    (∀ j ∈ l, ¬ Accepts ops bins x j) ∧ bins' = bins := by
  induction l with
  | nil => simp [tryBins] at h; simp [h]
  | cons i rest ih =>
    rw [tryBins] at h
    split_ifs at h with hinf
    · obtain ⟨h1, h2⟩ := ih h
      refine ⟨?_, h2⟩
      intro j hj
      rcases List.mem_cons.1 hj with rfl | hj
      · intro hacc; rw [hacc.1] at hinf; exact absurd hinf (by simp)
      · exact h1 j hj
    · rcases ht : tryAdd ops bins i x with ⟨ok, b⟩
      rw [ht] at h
      cases ok with
      | true => simp at h
      | false =>
        obtain ⟨e, hv⟩ := tryAdd_false ht
        subst e
        obtain ⟨h1, h2⟩ := ih h
        refine ⟨?_, h2⟩
        intro j hj
        rcases List.mem_cons.1 hj with rfl | hj
        · intro hacc; rw [hacc.2] at hv; exact absurd hv (by simp)
        · exact h1 j hj

theorem nextFitPlaceFrom_spec {ops : BinOps α} {x : α} (fuel : ℕ) :
    ∀ (bins : List (List α)) (cur : ℕ), cur + fuel ≤ bins.length ∨ fuel = 0 →
    match nextFitPlaceFrom ops x fuel bins cur with
    | (true, bins', cur') => cur ≤ cur' ∧ cur' < bins.length ∧ Accepts ops bins x cur' ∧
        (∀ j, cur ≤ j → j < cur' → ¬ Accepts ops bins x j) ∧ bins' = assign bins cur' x
    | (false, bins', cur') => cur' = cur + fuel ∧
        (∀ j, cur ≤ j → j < cur' → ¬ Accepts ops bins x j) ∧ bins' = bins := by
  induction fuel with
  | zero => intro bins cur _; simp [nextFitPlaceFrom]; omega
  | succ fuel ih =>
    intro bins cur hle
    replace hle : cur + (fuel + 1) ≤ bins.length := by omega
    have step : ∀ b, b = bins → ¬ Accepts ops bins x cur →
        match nextFitPlaceFrom ops x fuel b (cur + 1) with
        | (true, bins', cur') => cur ≤ cur' ∧ cur' < bins.length ∧ Accepts ops bins x cur' ∧
            (∀ j, cur ≤ j → j < cur' → ¬ Accepts ops bins x j) ∧ bins' = assign bins cur' x
        | (false, bins', cur') => cur' = cur + (fuel + 1) ∧
            (∀ j, cur ≤ j → j < cur' → ¬ Accepts ops bins x j) ∧ bins' = bins := by
      intro b hb hna
      subst hb
      have h := ih b (cur + 1) (by omega)
      rcases hn : nextFitPlaceFrom ops x fuel b (cur + 1) with ⟨ok, b', c'⟩
      rw [hn] at h
      cases ok with
      | true =>
        obtain ⟨h1, h2, h3, h4, h5⟩ := h
        refine ⟨by omega, h2, h3, fun j hj1 hj2 => ?_, h5⟩
        rcases Nat.eq_or_lt_of_le hj1 with rfl | hj1
        · exact hna
        · exact h4 j hj1 hj2
      | false =>
        obtain ⟨h1, h4, h5⟩ := h
        refine ⟨by omega, fun j hj1 hj2 => ?_, h5⟩
        rcases Nat.eq_or_lt_of_le hj1 with rfl | hj1
        · exact hna
        · exact h4 j hj1 hj2
    rw [nextFitPlaceFrom]
    split_ifs with hinf
    · exact step bins rfl (fun hacc => by rw [hacc.1] at hinf; exact absurd hinf (by simp))
    · rcases ht : tryAdd ops bins cur x with ⟨ok, b⟩
      cases ok with
      | true =>
        obtain ⟨e, hv⟩ := tryAdd_true ht
        exact ⟨le_rfl, by omega, ⟨by simpa using hinf, hv⟩, by intros; omega, e⟩
      | false =>
        obtain ⟨e, hv⟩ := tryAdd_false ht
        exact step b e (fun hacc => by rw [hacc.2] at hv; exact absurd hv (by simp))

/-! ### `FitBased` -/

/-- All bins with index in `S` extended by `x`. -/
def assignAll (bins : List (List α)) (S : List ℕ) (x : α) : List (List α) :=
  bins.mapIdx (fun i b => if i ∈ S then b ++ [x] else b)

@[simp] theorem assignAll_length (bins : List (List α)) (S : List ℕ) (x : α) :
    (assignAll bins S x).length = bins.length := by simp [assignAll]

theorem assignAll_getElem (bins : List (List α)) (S : List ℕ) (x : α) (j : ℕ)
    (h : j < bins.length) : (assignAll bins S x)[j]'(by simpa using h)
      = if j ∈ S then bins[j] ++ [x] else bins[j] := by simp [assignAll]

theorem assign_assignAll (bins : List (List α)) (S : List ℕ) (x : α) (i : ℕ) (h : i ∉ S) :
    assign (assignAll bins S x) i x = assignAll bins (S ++ [i]) x := by
  apply List.ext_getElem
  · simp
  · intro j h1 h2
    have hj : j < bins.length := by simpa using h1
    rw [assignAll_getElem _ _ _ _ hj]
    simp only [assign, List.getElem_modify, assignAll_getElem _ _ _ _ hj]
    by_cases hji : i = j
    · subst hji; simp [h]
    · simp [hji, Ne.symm hji]

theorem foldl_undo_assignAll (bins : List (List α)) (x : α) (L : List ℕ) :
    ∀ S : List ℕ, L.Nodup → (∀ i ∈ L, i ∈ S) →
    L.foldl undo (assignAll bins S x) = assignAll bins (S.filter (fun i => i ∉ L)) x := by
  induction L with
  | nil => intro S _ _; simp
  | cons i rest ih =>
    intro S hnd hS
    rw [List.nodup_cons] at hnd
    rw [List.foldl_cons]
    have e : undo (assignAll bins S x) i = assignAll bins (S.filter (fun j => j ≠ i)) x := by
      apply List.ext_getElem
      · simp
      · intro j h1 h2
        have hj : j < bins.length := by simpa using h1
        rw [assignAll_getElem _ _ _ _ hj]
        simp only [undo, List.getElem_modify, assignAll_getElem _ _ _ _ hj]
        by_cases hji : i = j
        · subst hji; simp [hS]
        · simp [hji, Ne.symm hji]
    rw [e, ih _ hnd.2 (fun k hk => by
      simp only [List.mem_filter]
      refine ⟨hS k (by simp [hk]), ?_⟩
      simp; rintro rfl; exact hnd.1 hk)]
    congr 1
    rw [List.filter_filter]
    apply List.filter_congr
    intro k _
    simp [Bool.and_comm]

theorem fitLoop_spec {ops : BinOps α} {x : α} {bins0 : List (List α)} (l : List ℕ) :
    ∀ (packed : List ℕ), (packed ++ l).Nodup →
    ∃ S, fitLoop ops x l (assignAll bins0 packed x) packed = (assignAll bins0 (packed ++ S) x, packed ++ S) ∧
      S.Sublist l ∧
      (∀ i ∈ S, ∃ W, ops.validate W i = true ∧ W.length = bins0.length ∧
        ∀ h : i < bins0.length, ∀ h' : i < W.length, W[i] = bins0[i] ++ [x]) ∧
      (∀ i ∈ l, i ∉ S → ∃ W, ops.validate W i = false ∧ W.length = bins0.length ∧
        ∀ h : i < bins0.length, ∀ h' : i < W.length, W[i] = bins0[i] ++ [x]) := by
  induction l with
  | nil => intro packed _; exact ⟨[], by simp [fitLoop], by simp, by simp, by simp⟩
  | cons i rest ih =>
    intro packed hnd
    have hni : i ∉ packed := by
      intro h
      rw [List.nodup_append] at hnd
      exact hnd.2.2 i h i (by simp) rfl
    have hnr : i ∉ rest := by
      rw [List.nodup_append] at hnd
      exact (List.nodup_cons.1 hnd.2.1).1
    have hW : ∀ h : i < bins0.length, ∀ h' : i < (assignAll bins0 (packed ++ [i]) x).length,
        (assignAll bins0 (packed ++ [i]) x)[i] = bins0[i] ++ [x] := by
      intro h h'; rw [assignAll_getElem _ _ _ _ h]; simp
    rw [fitLoop]
    simp only [undo_assign]
    rw [assign_assignAll _ _ _ _ hni]
    split_ifs with hv
    · obtain ⟨S, h1, h2, h3, h4⟩ := ih (packed ++ [i]) (by simpa using hnd)
      refine ⟨i :: S, by rw [h1]; simp, h2.cons_cons i, ?_, ?_⟩
      · intro j hj
        rcases List.mem_cons.1 hj with rfl | hj
        · exact ⟨_, hv, by simp, hW⟩
        · exact h3 j hj
      · intro j hj hjS
        rcases List.mem_cons.1 hj with rfl | hj
        · exact absurd (by simp) hjS
        · exact h4 j hj (fun h => hjS (by simp [h]))
    · obtain ⟨S, h1, h2, h3, h4⟩ := ih packed (by
        rw [List.nodup_append] at hnd ⊢
        exact ⟨hnd.1, (List.nodup_cons.1 hnd.2.1).2, fun a ha b hb => hnd.2.2 a ha b (by simp [hb])⟩)
      refine ⟨S, h1, h2.cons i, h3, ?_⟩
      intro j hj hjS
      rcases List.mem_cons.1 hj with rfl | hj
      · exact ⟨_, by simpa using hv, by simp, hW⟩
      · exact h4 j hj hjS

theorem assignAll_nil (bins : List (List α)) (x : α) : assignAll bins [] x = bins := by
  apply List.ext_getElem <;> simp [assignAll]

theorem assignAll_singleton (bins : List (List α)) (i : ℕ) (x : α) :
    assignAll bins [i] x = assign bins i x := by
  have := assign_assignAll bins [] x i (by simp)
  rw [assignAll_nil] at this
  exact this.symm

/-- A way of choosing one of the remainders. -/
def Selects (sel : List ℚ → Option ℚ) : Prop :=
  (∀ l, sel l = none ↔ l = []) ∧ ∀ l r, sel l = some r → r ∈ l

theorem selects_max : Selects (fun l => l.max?) := by
  refine ⟨fun l => by simp [List.max?_eq_none_iff], fun l r h => ?_⟩
  exact List.max?_mem h

theorem selects_min : Selects (fun l => l.min?) := by
  refine ⟨fun l => by simp [List.min?_eq_none_iff], fun l r h => ?_⟩
  exact List.min?_mem h

theorem fitBasedPlace_spec {sel : List ℚ → Option ℚ} (hsel : Selects sel) (ops : BinOps α)
    (bins : List (List α)) (cur : ℕ) (x : α) :
    ∃ S : List ℕ,
      S.Sublist ((List.range bins.length).filter (fun i => ! ops.infeasible i (bins.getD i []) x)) ∧
      (∀ i ∈ S, ∃ W, ops.validate W i = true ∧ W.length = bins.length ∧
        ∀ h : i < bins.length, ∀ h' : i < W.length, W[i] = bins[i] ++ [x]) ∧
      (∀ i < bins.length, ops.infeasible i (bins.getD i []) x = false → i ∉ S →
        ∃ W, ops.validate W i = false ∧ W.length = bins.length ∧
        ∀ h : i < bins.length, ∀ h' : i < W.length, W[i] = bins[i] ++ [x]) ∧
      ((S = [] ∧ fitBasedPlace sel ops bins cur x = (false, bins, cur)) ∨
       ∃ k, ∃ hk : k < S.length,
        let rem := S.map (fun i => ops.spare i (bins.getD i [] ++ [x]))
        (∃ r, sel rem = some r ∧ rem[k]? = some r ∧ ∀ j < k, rem[j]? ≠ some r) ∧
        fitBasedPlace sel ops bins cur x = (true, assign bins S[k] x, cur)) := by
  set cand := (List.range bins.length).filter (fun i => ! ops.infeasible i (bins.getD i []) x)
    with hcand
  have hnd : cand.Nodup := List.nodup_range.filter _
  obtain ⟨S, h1, h2, h3, h4⟩ := fitLoop_spec (ops := ops) (x := x) (bins0 := bins) cand [] (by simpa using hnd)
  rw [assignAll_nil] at h1
  simp only [List.nil_append] at h1
  refine ⟨S, h2, h3, fun i hi hinf hS => h4 i (by
    rw [hcand, List.mem_filter]; exact ⟨List.mem_range.2 hi, by rw [hinf]; rfl⟩) hS, ?_⟩
  have hSlt : ∀ i ∈ S, i < bins.length := fun i hi => by
    have := h2.subset hi
    rw [hcand, List.mem_filter] at this
    exact List.mem_range.1 this.1
  have hrem : S.map (fun i => ops.spare i ((assignAll bins S x).getD i []))
      = S.map (fun i => ops.spare i (bins.getD i [] ++ [x])) := by
    apply List.map_congr_left
    intro i hi
    have := hSlt i hi
    rw [List.getD_eq_getElem _ _ (by simpa using this), assignAll_getElem _ _ _ _ this, if_pos hi,
      List.getD_eq_getElem _ _ this]
  have hun : fitBasedPlace sel ops bins cur x =
      match sel (S.map (fun i => ops.spare i (bins.getD i [] ++ [x]))) with
      | none => (false, assignAll bins S x, cur)
      | some r =>
        let best := S.getD ((S.map (fun i => ops.spare i (bins.getD i [] ++ [x]))).idxOf r) 0
        (true, (S.filter (fun i => i ≠ best)).foldl undo (assignAll bins S x), cur) := by
    rw [← hrem]
    unfold fitBasedPlace
    rw [← hcand]
    simp only [h1]
    rfl
  set rem := S.map (fun i => ops.spare i (bins.getD i [] ++ [x])) with hremdef
  cases hs : sel rem with
  | none =>
    left
    have hnil := (hsel.1 _).1 hs
    have hSnil : S = [] := by rw [hremdef, List.map_eq_nil_iff] at hnil; exact hnil
    refine ⟨hSnil, ?_⟩
    rw [hun, hs, hSnil, assignAll_nil]
  | some r =>
    right
    have hr := hsel.2 _ _ hs
    have hk : rem.idxOf r < rem.length := List.idxOf_lt_length_iff.2 hr
    have hk' : rem.idxOf r < S.length := by rw [hremdef, List.length_map] at hk; rw [hremdef]; exact hk
    refine ⟨rem.idxOf r, hk', ⟨r, hs, ?_, ?_⟩, ?_⟩
    · rw [List.getElem?_eq_getElem hk, List.getElem_idxOf]
    · intro j hj hc
      have hjl : j < rem.length := by omega
      rw [List.getElem?_eq_getElem hjl, Option.some.injEq] at hc
      have := List.not_of_lt_findIdx (p := (· == r)) (xs := rem) (i := j) hj
      simp [hc] at this
    · rw [hun, hs]
      simp only
      rw [List.getD_eq_getElem _ _ hk']
      have hSnd : S.Nodup := hnd.sublist h2
      rw [foldl_undo_assignAll _ _ _ _ (hSnd.filter _) (fun i hi => (List.mem_filter.1 hi).1)]
      have : S.filter (fun i => i ∉ S.filter (fun i => i ≠ S[rem.idxOf r])) = [S[rem.idxOf r]] := by
        have e : S.filter (fun i => i ∉ S.filter (fun i => i ≠ S[rem.idxOf r]))
            = S.filter (fun i => i = S[rem.idxOf r]) := by
          apply List.filter_congr
          intro k hk
          simp [hk]
        rw [e]
        have hm : S[rem.idxOf r] ∈ S := List.getElem_mem hk'
        have := List.filter_eq (l := S) S[rem.idxOf r]
        rw [this, List.count_eq_one_of_mem hSnd hm]; rfl
      rw [this, assignAll_singleton]

end Verif.Rollback
