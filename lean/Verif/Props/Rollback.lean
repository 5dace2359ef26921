/-
Properties C26-C28: `schedcat/mapping/rollback.py`.
-/
import Verif.Lemmas.Rollback
import Verif.Spec.Packing

namespace Verif.Rollback
open Verif Verif.Spec

variable {α : Type}

/-! ### C26: atomic tentative assignment -/

/-- C26: `BasicBin.try_to_add` always succeeds and appends the item. -/
theorem C26_basic_bin (items : List α) (x : α) :
    (basicBin α).tryToAdd items x = (true, items ++ [x], x) := rfl

/-- C26: `Bin.try_to_add` appends the item if the total size stays within the
capacity, and otherwise reports failure and leaves the items as they were. -/
theorem C26_bin (size : α → ℚ) (capacity : ℚ) (items : List α) (x : α) :
    ((items.map size).sum + size x ≤ capacity →
      (bin size capacity).tryToAdd items x = (true, items ++ [x], x)) ∧
    (capacity < (items.map size).sum + size x →
      (bin size capacity).tryToAdd items x = (false, items, x)) := by
  constructor <;> intro h
  · simp [BinClass.tryToAdd, bin, allocated, h]
  · simp [BinClass.tryToAdd, bin, allocated, h]

/-- C26: `GlobalConstraintBin.try_to_add`. -/
theorem C26_global_constraint_bin (size : α → ℚ) (capacity : ℚ) (g : List α → Bool)
    (items : List α) (x : α) :
    ((items.map size).sum + size x ≤ capacity ∧ g (items ++ [x]) = true →
      (globalConstraintBin size capacity g).tryToAdd items x = (true, items ++ [x], x)) ∧
    (¬ ((items.map size).sum + size x ≤ capacity ∧ g (items ++ [x]) = true) →
      (globalConstraintBin size capacity g).tryToAdd items x = (false, items, x)) := by
  constructor <;> intro h
  · simp [BinClass.tryToAdd, globalConstraintBin, allocated, h]
  · rw [not_and_or] at h
    rcases h with h | h <;> simp [BinClass.tryToAdd, globalConstraintBin, allocated, h]

theorem updateLoop_length {ι : Type} (D : Ductile ι) (x : ι) (rest : List ι) :
    ∀ done, (updateLoop D x done rest).length = done.length + rest.length := by
  induction rest with
  | nil => intro done; simp [updateLoop]
  | cons o r ih => intro done; rw [updateLoop, ih]; simp; omega

/-- C26: `DuctileBin.try_to_add`: on failure the items are exactly as before, on
success the bin holds one more item, the new one is last and the total size is
within the capacity. -/
theorem C26_ductile_bin {ι : Type} (D : Ductile ι) (capacity : ℚ) (s : DuctileState ι) (x : ι) :
    let r := (ductileBin D capacity).tryToAdd s x
    (r.1 = false → r.2.1.items = s.items) ∧
    (r.1 = true → ∃ others, r.2.1.items = others ++ [r.2.2] ∧ others.length = s.items.length ∧
      (r.2.1.items.map D.size).sum ≤ capacity) := by
  intro r
  by_cases h : (((ductileBin D capacity).temporaryAssign ((ductileBin D capacity).prepare s) x).1.items.map
      D.size).sum ≤ capacity
  · have e : r = (true, ((ductileBin D capacity).temporaryAssign
        ((ductileBin D capacity).prepare s) x).1, ((ductileBin D capacity).temporaryAssign
        ((ductileBin D capacity).prepare s) x).2) := by
      simp only [r, BinClass.tryToAdd]
      rw [if_pos (by simpa [ductileBin] using h)]
      rfl
    rw [e]
    refine ⟨by simp, fun _ => ⟨updateLoop D x [] s.items, rfl, by simp [updateLoop_length], h⟩⟩
  · have e : r = (false, ⟨s.items, none⟩, ((ductileBin D capacity).temporaryAssign
        ((ductileBin D capacity).prepare s) x).2) := by
      simp only [r, BinClass.tryToAdd]
      rw [if_neg (by simpa [ductileBin] using h)]
      rfl
    rw [e]
    exact ⟨fun _ => rfl, by simp⟩

/-- C26: over any sequence of attempts the bin ends up with its old items
followed by exactly the accepted items, in order. -/
theorem C26_sequence (size : α → ℚ) (capacity : ℚ) (g : List α → Bool) (xs : List α) :
    ∀ items : List α,
      let run := xs.foldl (fun (acc : List α × List α) x =>
        let r := (globalConstraintBin size capacity g).tryToAdd acc.1 x
        (r.2.1, if r.1 then acc.2 ++ [x] else acc.2)) (items, [])
      run.1 = items ++ run.2 ∧ run.2.Sublist xs := by
  suffices h : ∀ (xs items acc : List α),
      let run := xs.foldl (fun (acc : List α × List α) x =>
        let r := (globalConstraintBin size capacity g).tryToAdd acc.1 x
        (r.2.1, if r.1 then acc.2 ++ [x] else acc.2)) (items ++ acc, acc)
      run.1 = items ++ run.2 ∧ ∃ t, run.2 = acc ++ t ∧ t.Sublist xs by
    intro items
    have := h xs items []
    simp only [List.append_nil, List.nil_append] at this
    obtain ⟨h1, t, h2, h3⟩ := this
    exact ⟨h1, h2 ▸ h3⟩
  intro xs
  induction xs with
  | nil => intro items acc; exact ⟨rfl, [], by simp, by simp⟩
  | cons x xs ih =>
    intro items acc
    simp only [List.foldl_cons]
    obtain ⟨h1, h2⟩ := C26_global_constraint_bin size capacity g (items ++ acc) x
    by_cases hc : ((items ++ acc).map size).sum + size x ≤ capacity ∧ g ((items ++ acc) ++ [x]) = true
    · rw [h1 hc]
      simp only [if_true]
      have := ih items (acc ++ [x])
      rw [← List.append_assoc] at this
      obtain ⟨i1, t, i2, i3⟩ := this
      exact ⟨i1, x :: t, by rw [i2]; simp, i3.cons_cons x⟩
    · rw [h2 hc]
      simp only [Bool.false_eq_true, if_false]
      obtain ⟨i1, t, i2, i3⟩ := ih items acc
      exact ⟨i1, t, i2, i3.cons x⟩

/-- C26: `try_to_add_no_commit` followed by `rollback` (when it succeeded)
restores the items. -/
theorem C26_no_commit_rollback (size : α → ℚ) (capacity : ℚ) (g : List α → Bool)
    (items : List α) (x : α) :
    let r := (globalConstraintBin size capacity g).tryToAddNoCommit items x
    (if r.1 then (globalConstraintBin size capacity g).rollback r.2.1 else r.2.1) = items ∧
    (r.1 = true → r.2.1 = items ++ [x]) := by
  intro r
  by_cases h : (decide (allocated size (items ++ [x]) ≤ capacity) && g (items ++ [x])) = true
  · have e : r = (true, items ++ [x], x) := by
      exact if_pos h
    rw [e]; simp [globalConstraintBin]
  · have e : r = (false, items, x) := by
      refine (if_neg h).trans ?_; simp [globalConstraintBin]
    rw [e]; simp

/-- C26: wrapping a bin of any class in a `CheckedBin` never fails an assertion
under `try_to_add`, returns the same result and ends in the stable state. -/
theorem C26_checked_bin {σ ι : Type} (C : BinClass σ ι) (s : σ) (x : ι) :
    checkedTryToAdd C (.stable, s) x
      = some ((C.tryToAdd s x).1, (.stable, (C.tryToAdd s x).2.1), (C.tryToAdd s x).2.2) := by
  simp only [checkedTryToAdd, checkedPrepare, checkedAssign, checkedValidate, BinClass.tryToAdd,
    Option.bind_eq_bind, Option.bind_some, if_true, checkedCommit, checkedRollback]
  split_ifs with h <;> simp

/-- C26: the assertions do detect calls out of order, e.g. a `commit` without
`validate`. -/
theorem C26_checked_bin_detects {σ ι : Type} (C : BinClass σ ι) (p : Phase) (s : σ) (x : ι) :
    (p ≠ .validated → checkedCommit C (p, s) = none ∧ checkedRollback C (p, s) = none) ∧
    (p ≠ .stable → checkedPrepare C (p, s) = none) ∧
    (p ≠ .prepped → checkedAssign C (p, s) x = none) ∧
    (p ≠ .assigned → checkedValidate C (p, s) = none) := by
  simp +contextual [checkedCommit, checkedRollback, checkedPrepare, checkedAssign, checkedValidate]

example : (bin (fun x : ℚ => x) 10).tryToAdd [6, 3] 2 = (false, [6, 3], 2) := by decide +kernel
example : (bin (fun x : ℚ => x) 10).tryToAdd [6, 3] 1 = (true, [6, 3, 1], 1) := by decide +kernel

/-! ### C27: conservation and capacity -/

/-- What every placement routine guarantees: it either puts the item at the end
of one bin, which then satisfies `P`, or changes nothing. -/
def PlaceOk (P : ℕ → List α → Prop)
    (place : List (List α) → ℕ → α → Bool × List (List α) × ℕ) : Prop :=
  ∀ bins cur x bins' cur',
    (place bins cur x = (true, bins', cur') →
      ∃ i, ∃ h : i < bins.length, P i (bins[i] ++ [x]) ∧ bins' = assign bins i x) ∧
    (place bins cur x = (false, bins', cur') → bins' = bins)

/-- The validity test of a bin implies `P` for its content. -/
def LocalOk (ops : BinOps α) (P : ℕ → List α → Prop) : Prop :=
  ∀ bins i, ∀ h : i < bins.length, ops.validate bins i = true → P i bins[i]

theorem fixed_localOk (size : α → ℚ) (capacity : ℕ → ℚ) (g : List (List α) → Bool) :
    LocalOk (fixedOps size capacity g) (fun i items => (items.map size).sum ≤ capacity i) := by
  intro bins i h hv
  simp only [fixedOps, Bool.and_eq_true, decide_eq_true_eq] at hv
  rw [List.getD_eq_getElem _ _ h] at hv
  exact hv.1

section
variable {ops : BinOps α} {P : ℕ → List α → Prop} (hP : LocalOk ops P)
include hP

theorem tryAdd_P {bins bins' : List (List α)} {i : ℕ} {x : α} (hi : i < bins.length)
    (hv : ops.validate (assign bins i x) i = true) : P i (bins[i] ++ [x]) := by
  have := hP (assign bins i x) i (by simpa using hi) hv
  rwa [assign_getElem_self _ _ _ hi] at this

theorem tryBins_placeOk (order : List (List α) → α → List ℕ)
    (horder : ∀ bins x i, i ∈ order bins x → i < bins.length) :
    PlaceOk P (fun bins cur x =>
      ((tryBins ops x (order bins x) bins).1, (tryBins ops x (order bins x) bins).2, cur)) := by
  intro bins cur x bins' cur'
  constructor
  · intro h
    simp only [Prod.mk.injEq] at h
    obtain ⟨h1, h2, _⟩ := h
    obtain ⟨pre, i, post, g1, g2, _, g4⟩ := tryBins_true (ops := ops) (x := x)
      (l := order bins x) (bins := bins) (bins' := bins') (by rw [← h1, ← h2])
    have hi := horder bins x i (by rw [g1]; simp)
    exact ⟨i, hi, tryAdd_P hP (bins' := bins) hi g2.2, g4⟩
  · intro h
    simp only [Prod.mk.injEq] at h
    obtain ⟨h1, h2, _⟩ := h
    exact (tryBins_false (ops := ops) (x := x)
      (l := order bins x) (bins := bins) (bins' := bins') (by rw [← h1, ← h2])).2

theorem firstFit_placeOk : PlaceOk P (firstFitPlace ops) :=
  tryBins_placeOk hP (fun bins _ => List.range bins.length) (fun _ _ _ h => List.mem_range.1 h)

theorem maxSpare_placeOk : PlaceOk P (maxSparePlace ops) :=
  tryBins_placeOk hP (fun bins _ => (List.range bins.length).insertionSort
    (fun i j => ops.spare j (bins.getD j []) ≤ ops.spare i (bins.getD i [])))
    (fun _ _ _ h => List.mem_range.1 ((List.perm_insertionSort _ _).subset h))

theorem minSpare_placeOk : PlaceOk P (minSparePlace ops) :=
  tryBins_placeOk hP (fun bins _ => (List.range bins.length).insertionSort
    (fun i j => ops.spare i (bins.getD i []) ≤ ops.spare j (bins.getD j [])))
    (fun _ _ _ h => List.mem_range.1 ((List.perm_insertionSort _ _).subset h))

theorem nextFit_placeOk : PlaceOk P (nextFitPlace ops) := by
  intro bins cur x bins' cur'
  have h := nextFitPlaceFrom_spec (ops := ops) (x := x) (bins.length - cur) bins cur (by omega)
  constructor
  · intro e
    change nextFitPlaceFrom ops x (bins.length - cur) bins cur = _ at e
    rw [e] at h
    obtain ⟨_, h2, h3, _, h5⟩ := h
    exact ⟨cur', h2, tryAdd_P hP (bins' := bins) h2 h3.2, h5⟩
  · intro e
    change nextFitPlaceFrom ops x (bins.length - cur) bins cur = _ at e
    rw [e] at h
    exact h.2.2

theorem fitBased_placeOk {sel : List ℚ → Option ℚ} (hsel : Selects sel) :
    PlaceOk P (fitBasedPlace sel ops) := by
  intro bins cur x bins' cur'
  obtain ⟨S, h1, h2, _, h4⟩ := fitBasedPlace_spec hsel ops bins cur x
  constructor
  · intro e
    rcases h4 with ⟨_, h4⟩ | ⟨k, hk, _, h4⟩
    · rw [h4] at e; simp at e
    · rw [h4] at e
      simp only [Prod.mk.injEq, true_and] at e
      have hm : S[k] ∈ S := List.getElem_mem hk
      have hlt : S[k] < bins.length := by
        have := h1.subset hm
        rw [List.mem_filter] at this
        exact List.mem_range.1 this.1
      obtain ⟨W, w1, w2, w3⟩ := h2 _ hm
      have hp := hP W S[k] (w2 ▸ hlt) w1
      rw [w3 hlt] at hp
      exact ⟨S[k], hlt, hp, e.1.symm⟩
  · intro e
    rcases h4 with ⟨_, h4⟩ | ⟨k, hk, _, h4⟩
    · rw [h4] at e
      simp only [Prod.mk.injEq, true_and] at e
      exact e.1.symm
    · rw [h4] at e; simp at e

end

/-- The invariant kept by the loop of `binpack`. -/
theorem binpack_spec {ops : BinOps α} {P : ℕ → List α → Prop} (hP : LocalOk ops P)
    {place : List (List α) → ℕ → α → Bool × List (List α) × ℕ} (hplace : PlaceOk P place)
    (canMake : Bool) (hmake : canMake = true → ∀ i, P i []) (items : List α) :
    ∀ o : Outcome α, (∀ i, ∀ h : i < o.state.bins.length, P i o.state.bins[i]) →
      let o' := items.foldl (step place ops canMake) o
      (∀ i, ∀ h : i < o'.state.bins.length, P i o'.state.bins[i]) ∧
      ∃ rep, o'.reported = o.reported ++ rep ∧ o'.state.misfits = o.state.misfits ++ rep ∧
        o'.count + rep.length = o.count + items.length ∧
        (o'.state.bins.flatten ++ rep).Perm (o.state.bins.flatten ++ items) ∧
        o.state.bins.length ≤ o'.state.bins.length ∧
        (canMake = false → o'.state.bins.length = o.state.bins.length) := by
  induction items with
  | nil => intro o h; exact ⟨h, [], by simp, by simp, by simp, by simp, le_rfl, fun _ => rfl⟩
  | cons x xs ih =>
    intro o h
    rw [List.foldl_cons]
    -- the effect of one step
    have hstep : (∀ i, ∀ h : i < (step place ops canMake o x).state.bins.length,
          P i (step place ops canMake o x).state.bins[i]) ∧
        o.state.bins.length ≤ (step place ops canMake o x).state.bins.length ∧
        (canMake = false → (step place ops canMake o x).state.bins.length = o.state.bins.length) ∧
        (((step place ops canMake o x).reported = o.reported ∧
          (step place ops canMake o x).state.misfits = o.state.misfits ∧
          (step place ops canMake o x).count = o.count + 1 ∧
          (step place ops canMake o x).state.bins.flatten.Perm (x :: o.state.bins.flatten)) ∨
         ((step place ops canMake o x).reported = o.reported ++ [x] ∧
          (step place ops canMake o x).state.misfits = o.state.misfits ++ [x] ∧
          (step place ops canMake o x).count = o.count ∧
          (step place ops canMake o x).state.bins.flatten = o.state.bins.flatten)) := by
      have hassign : ∀ (bins : List (List α)) i (hi : i < bins.length),
          (∀ j, ∀ hj : j < bins.length, P j bins[j]) → P i (bins[i] ++ [x]) →
          ∀ j, ∀ hj : j < (assign bins i x).length, P j (assign bins i x)[j] := by
        intro bins i hi hall hp j hj
        have hj' : j < bins.length := by simpa using hj
        by_cases hji : j = i
        · subst hji; rw [assign_getElem_self _ _ _ hj']; exact hp
        · rw [assign_getElem_ne _ _ _ _ hj' hji]; exact hall j hj'
      rcases hpl : place o.state.bins o.state.cur x with ⟨ok, bins', cur'⟩
      cases ok with
      | true =>
        have e : step place ops canMake o x = { o with
            state := { o.state with bins := bins', cur := cur' }, count := o.count + 1 } := by
          rw [step, hpl]
        rw [e]
        obtain ⟨i, hi, hp, hb⟩ := (hplace _ _ _ _ _).1 hpl
        subst hb
        refine ⟨hassign _ i hi h hp, by simp, by simp, Or.inl ⟨rfl, rfl, rfl, ?_⟩⟩
        exact Binpack.flatten_modify_perm _ i hi x
      | false =>
        have hb := (hplace _ _ _ _ _).2 hpl
        subst hb
        cases hcm : canMake with
        | false =>
          have e : step place ops false o x = 
              ⟨⟨o.state.bins, o.state.misfits ++ [x], cur'⟩, o.count, o.reported ++ [x]⟩ := by
            rw [step, hpl]; simp
          rw [e]
          exact ⟨h, le_rfl, fun _ => rfl, Or.inr ⟨rfl, rfl, rfl, rfl⟩⟩
        | true =>
          have hnew : ∀ j, ∀ hj : j < (o.state.bins ++ [[]]).length,
              P j (o.state.bins ++ [[]])[j] := by
            intro j hj
            rw [List.getElem_append]
            split_ifs with hjl
            · exact h j hjl
            · simp only [List.getElem_singleton]; exact hmake hcm j
          rcases hta : tryAdd ops (o.state.bins ++ [[]]) o.state.bins.length x with ⟨made, b⟩
          cases made with
          | true =>
            have e : step place ops true o x = { o with
                state := { o.state with bins := b, cur := cur' }, count := o.count + 1 } := by
              rw [step, hpl]; simp [hta]
            rw [e]
            obtain ⟨hb, hv⟩ := tryAdd_true hta
            subst hb
            have hi : o.state.bins.length < (o.state.bins ++ [[]]).length := by simp
            refine ⟨hassign _ _ hi hnew (tryAdd_P hP (bins' := []) hi hv), by simp, by simp,
              Or.inl ⟨rfl, rfl, rfl, ?_⟩⟩
            have := Binpack.flatten_modify_perm (o.state.bins ++ [[]]) _ hi x
            simpa [assign] using this
          | false =>
            have e : step place ops true o x = 
                ⟨⟨b, o.state.misfits ++ [x], cur'⟩, o.count, o.reported ++ [x]⟩ := by
              rw [step, hpl]; simp [hta]
            rw [e]
            obtain ⟨hb, hv⟩ := tryAdd_false hta
            subst hb
            exact ⟨hnew, by simp, by simp, Or.inr ⟨rfl, rfl, rfl, by simp⟩⟩
    obtain ⟨s1, s2, s3, s4⟩ := hstep
    obtain ⟨i1, rep, i2, i3, i4, i5, i6, i7⟩ := ih (step place ops canMake o x) s1
    refine ⟨i1, ?_⟩
    rcases s4 with ⟨t1, t2, t3, t4⟩ | ⟨t1, t2, t3, t4⟩
    · refine ⟨rep, by rw [i2, t1], by rw [i3, t2], ?_, ?_, by omega, fun hc => (i7 hc).trans (s3 hc)⟩
      · rw [i4, t3, List.length_cons]; omega
      · exact i5.trans ((t4.append_right xs).trans List.perm_middle.symm)
    · refine ⟨x :: rep, by rw [i2, t1]; simp, by rw [i3, t2]; simp, ?_, ?_, by omega,
        fun hc => (i7 hc).trans (s3 hc)⟩
      · rw [List.length_cons, List.length_cons, ← add_assoc, i4, t3]; omega
      · rw [t4] at i5
        exact List.perm_middle.trans ((i5.cons x).trans List.perm_middle.symm)

/-- The placement routines of the six heuristics. -/
def placements (ops : BinOps α) : List (List (List α) → ℕ → α → Bool × List (List α) × ℕ) :=
  [nextFitPlace ops, firstFitPlace ops, worstFitPlace ops, bestFitPlace ops, maxSparePlace ops,
   minSparePlace ops]

theorem placements_ok {ops : BinOps α} {P : ℕ → List α → Prop} (hP : LocalOk ops P) :
    ∀ place ∈ placements ops, PlaceOk P place := by
  intro place h
  simp only [placements, List.mem_cons, List.not_mem_nil, or_false] at h
  rcases h with rfl | rfl | rfl | rfl | rfl | rfl
  · exact nextFit_placeOk hP
  · exact firstFit_placeOk hP
  · exact fitBased_placeOk hP selects_max
  · exact fitBased_placeOk hP selects_min
  · exact maxSpare_placeOk hP
  · exact minSpare_placeOk hP

/-- C27, conservation, for bins of any class with immutable items (arbitrary
`validate`, `infeasible_to_fit` and `spare_capacity`) and each of the six
heuristics: one `binpack` call distributes exactly the submitted items over the
bins and the reported misfits, and counts the placed ones. -/
theorem C27_conserves (ops : BinOps α) :
    ∀ place ∈ placements ops, ∀ (canMake : Bool) (s : HState α) (items : List α),
    let o := binpack place ops canMake s items
    (o.state.bins.flatten ++ o.reported).Perm (s.bins.flatten ++ items) ∧
    o.state.misfits = s.misfits ++ o.reported ∧
    o.count + o.reported.length = items.length ∧
    (canMake = false → o.state.bins.length = s.bins.length) := by
  intro place hpl canMake s items o
  have hP : LocalOk ops (fun _ _ => True) := fun _ _ _ _ => trivial
  obtain ⟨_, rep, h2, h3, h4, h5, _, h7⟩ := binpack_spec hP (placements_ok hP place hpl) canMake
    (fun _ _ => trivial) items { state := s, count := 0, reported := [] } (fun _ _ => trivial)
  have hr : o.reported = rep := h2
  refine ⟨by rw [hr]; exact h5, by rw [hr]; exact h3, ?_, h7⟩
  rw [hr]
  have : o.count + rep.length = 0 + items.length := h4
  omega

/-- C27 over a sequence of `binpack` calls on the same heuristic object. -/
theorem C27_conserves_history (ops : BinOps α) :
    ∀ place ∈ placements ops, ∀ (canMake : Bool) (calls : List (List α)) (s : HState α),
    let s' := calls.foldl (fun s items => (binpack place ops canMake s items).state) s
    (s'.bins.flatten ++ s'.misfits).Perm (s.bins.flatten ++ s.misfits ++ calls.flatten) := by
  intro place hpl canMake calls
  induction calls with
  | nil => intro s; simp
  | cons items rest ih =>
    intro s
    simp only [List.foldl_cons]
    obtain ⟨h1, h2, _, _⟩ := C27_conserves ops place hpl canMake s items
    refine (ih _).trans ?_
    rw [h2, List.flatten_cons]
    set o := binpack place ops canMake s items
    have e1 : (o.state.bins.flatten ++ (s.misfits ++ o.reported)).Perm
        ((o.state.bins.flatten ++ o.reported) ++ s.misfits) := by
      rw [List.append_assoc]
      exact (List.perm_append_comm).append_left _
    have e2 : ((o.state.bins.flatten ++ o.reported) ++ s.misfits).Perm
        ((s.bins.flatten ++ items) ++ s.misfits) := h1.append_right _
    have e3 : ((s.bins.flatten ++ items) ++ s.misfits).Perm ((s.bins.flatten ++ s.misfits) ++ items) := by
      rw [List.append_assoc, List.append_assoc]
      exact (List.perm_append_comm).append_left _
    have := ((e1.trans e2).trans e3).append_right rest.flatten
    simpa [List.append_assoc] using this

/-- C27, capacity, for `Bin` and `GlobalConstraintBin` objects: if every bin is
within its capacity at first (and an empty new bin is), so is every bin after
any sequence of `binpack` calls. -/
theorem C27_capacity (size : α → ℚ) (capacity : ℕ → ℚ) (g : List (List α) → Bool) :
    ∀ place ∈ placements (fixedOps size capacity g), ∀ (canMake : Bool),
    (canMake = true → ∀ i, 0 ≤ capacity i) → ∀ (calls : List (List α)) (s : HState α),
    (∀ i, ∀ h : i < s.bins.length, (s.bins[i].map size).sum ≤ capacity i) →
    let s' := calls.foldl
      (fun s items => (binpack place (fixedOps size capacity g) canMake s items).state) s
    ∀ i, ∀ h : i < s'.bins.length, (s'.bins[i].map size).sum ≤ capacity i := by
  intro place hpl canMake hmake calls
  have hP := fixed_localOk size capacity g
  induction calls with
  | nil => intro s h; exact h
  | cons items rest ih =>
    intro s h
    simp only [List.foldl_cons]
    apply ih
    exact (binpack_spec hP (placements_ok hP place hpl) canMake
      (fun hc i => by simpa using hmake hc i) items { state := s, count := 0, reported := [] } h).1

/-- C27 fails for `BestFit` on ductile bins: the new item is one shared object
during the trial placements, so its size in the chosen bin is the one determined
for the last bin tried, and the chosen bin can end up over its capacity.  Here an
item's size is one plus the number of other items in the bin. -/
theorem C27_ductile_best_fit_violated :
    ∃ (D : Ductile ℚ) (capacity : ℚ) (bins : List (List ℚ)) (x : ℚ),
      (∀ b ∈ bins, (b.map D.size).sum ≤ capacity) ∧
      (ductileFitPlace (fun l => l.min?) D capacity bins x).1 = true ∧
      ∃ b ∈ (ductileFitPlace (fun l => l.min?) D capacity bins x).2,
        capacity < (b.map D.size).sum := by
  refine ⟨⟨fun s => s, fun s _ _ => s, fun _ items => 1 + items.length⟩, 10, [[8], [1, 1, 1]], 1,
    by decide +kernel, by decide +kernel, [8, 4], by decide +kernel, by decide +kernel⟩

/-! ### C27: misfits -/

theorem fixed_accepts (size : α → ℚ) (capacity : ℕ → ℚ) (bins : List (List α)) (x : α) (i : ℕ)
    (hi : i < bins.length) :
    Accepts (fixedOps size capacity (fun _ => true)) bins x i ↔
      (bins[i].map size).sum + size x ≤ capacity i := by
  unfold Accepts
  simp only [fixedOps, decide_eq_false_iff_not, not_lt, Bool.and_true, decide_eq_true_eq]
  rw [List.getD_eq_getElem _ _ hi, List.getD_eq_getElem _ _ (by simpa using hi),
    assign_getElem_self _ _ _ hi, allocated_append]
  unfold allocated
  constructor
  · exact fun h => h.2
  · exact fun h => ⟨by linarith, h⟩

/-! ### C28 -/

/-- Bin `i` is the first among the bins with room whose key is best. -/
def Chosen (key : ℕ → ℚ) (room : ℕ → Prop) (n i : ℕ) : Prop :=
  i < n ∧ room i ∧ ∀ j < n, room j → key j < key i ∨ (key j = key i ∧ i ≤ j)

theorem Chosen.unique {key : ℕ → ℚ} {room : ℕ → Prop} {n i j : ℕ} (hi : Chosen key room n i)
    (hj : Chosen key room n j) : i = j := by
  have h1 := hi.2.2 j hj.1 hj.2.1
  have h2 := hj.2.2 i hi.1 hi.2.1
  rcases h1 with h1 | h1 <;> rcases h2 with h2 | h2
  · linarith
  · linarith [h2.1]
  · linarith [h1.1]
  · omega

/-- The effect of placing `x` by a selection key. -/
def PlacesBy (key : ℕ → ℚ) (room : ℕ → Prop) (bins : List (List α)) (cur : ℕ) (x : α)
    (r : Bool × List (List α) × ℕ) : Prop :=
  (∃ i, Chosen key room bins.length i ∧ r = (true, assign bins i x, cur)) ∨
  ((∀ i < bins.length, ¬ room i) ∧ r = (false, bins, cur))

theorem PlacesBy.unique {key : ℕ → ℚ} {room : ℕ → Prop} {bins : List (List α)} {cur : ℕ} {x : α}
    {r r' : Bool × List (List α) × ℕ} (h : PlacesBy key room bins cur x r)
    (h' : PlacesBy key room bins cur x r') : r = r' := by
  rcases h with ⟨i, hi, rfl⟩ | ⟨hn, rfl⟩ <;> rcases h' with ⟨j, hj, rfl⟩ | ⟨hn', rfl⟩
  · rw [hi.unique hj]
  · exact absurd hi.2.1 (hn' i hi.1)
  · exact absurd hj.2.1 (hn j hj.1)
  · rfl

/-- Free capacity of bin `i`. -/
def free (size : α → ℚ) (capacity : ℕ → ℚ) (bins : List (List α)) (i : ℕ) : ℚ :=
  capacity i - allocated size (bins.getD i [])

/-- Bin `i` has room for `x`. -/
def HasRoom (size : α → ℚ) (capacity : ℕ → ℚ) (bins : List (List α)) (x : α) (i : ℕ) : Prop :=
  size x ≤ free size capacity bins i

theorem fixed_accepts' (size : α → ℚ) (capacity : ℕ → ℚ) (bins : List (List α)) (x : α) (i : ℕ)
    (hi : i < bins.length) :
    Accepts (fixedOps size capacity (fun _ => true)) bins x i ↔ HasRoom size capacity bins x i := by
  rw [fixed_accepts _ _ _ _ _ hi, HasRoom, free, List.getD_eq_getElem _ _ hi, allocated]
  constructor <;> intro h <;> linarith

theorem tryOrder_placesBy (size : α → ℚ) (capacity : ℕ → ℚ) (bins : List (List α)) (cur : ℕ) (x : α)
    (key : ℕ → ℚ) (order : List ℕ) (hperm : order.Perm (List.range bins.length))
    (hlex : order.Pairwise (fun i j => key j < key i ∨ (key i = key j ∧ i < j))) :
    PlacesBy key (HasRoom size capacity bins x) bins cur x
      ((tryBins (fixedOps size capacity (fun _ => true)) x order bins).1,
       (tryBins (fixedOps size capacity (fun _ => true)) x order bins).2, cur) := by
  have hmem : ∀ i, i ∈ order ↔ i < bins.length := fun i => by
    rw [hperm.mem_iff, List.mem_range]
  rcases ht : tryBins (fixedOps size capacity (fun _ => true)) x order bins with ⟨ok, b⟩
  cases ok with
  | true =>
    obtain ⟨pre, i, post, h1, h2, h3, h4⟩ := tryBins_true ht
    left
    have hi : i < bins.length := (hmem i).1 (by rw [h1]; simp)
    refine ⟨i, ⟨hi, (fixed_accepts' _ _ _ _ _ hi).1 h2, fun j hj hr => ?_⟩, by rw [h4]⟩
    have hjo := (hmem j).2 hj
    rw [h1, List.mem_append, List.mem_cons] at hjo
    rcases hjo with hjo | rfl | hjo
    · exact absurd ((fixed_accepts' _ _ _ _ _ hj).2 hr) (h3 j hjo)
    · exact Or.inr ⟨rfl, le_rfl⟩
    · rw [h1, List.pairwise_append, List.pairwise_cons] at hlex
      rcases hlex.2.1.1 j hjo with h | h
      · exact Or.inl h
      · exact Or.inr ⟨h.1.symm, h.2.le⟩
  | false =>
    obtain ⟨h1, h2⟩ := tryBins_false ht
    right
    refine ⟨fun i hi hr => h1 i ((hmem i).2 hi) ((fixed_accepts' _ _ _ _ _ hi).2 hr), by rw [h2]⟩

theorem fitBased_placesBy {sel : List ℚ → Option ℚ} (hsel : Selects sel) (sgn : ℚ)
    (hbest : ∀ l r, sel l = some r → ∀ v ∈ l, sgn * v ≤ sgn * r) (hsgn : sgn ≠ 0)
    (size : α → ℚ) (capacity : ℕ → ℚ) (bins : List (List α)) (cur : ℕ) (x : α) :
    PlacesBy (fun i => sgn * free size capacity bins i) (HasRoom size capacity bins x) bins cur x
      (fitBasedPlace sel (fixedOps size capacity (fun _ => true)) bins cur x) := by
  obtain ⟨S, h1, h2, h3, h4⟩ :=
    fitBasedPlace_spec hsel (fixedOps size capacity (fun _ => true)) bins cur x
  have hSlt : ∀ i ∈ S, i < bins.length := fun i hi => by
    have := h1.subset hi
    rw [List.mem_filter] at this
    exact List.mem_range.1 this.1
  have hval : ∀ W i, W.length = bins.length →
      (∀ h : i < bins.length, ∀ h' : i < W.length, W[i] = bins[i] ++ [x]) → i < bins.length →
      ((fixedOps size capacity (fun _ => true)).validate W i = true ↔ HasRoom size capacity bins x i) := by
    intro W i hl hW hi
    simp only [fixedOps, Bool.and_true, decide_eq_true_eq]
    rw [List.getD_eq_getElem _ _ (hl ▸ hi), hW hi, allocated_append, HasRoom, free,
      List.getD_eq_getElem _ _ hi]
    constructor <;> intro h <;> linarith
  have hSroom : ∀ i, i < bins.length → (i ∈ S ↔ HasRoom size capacity bins x i) := by
    intro i hi
    constructor
    · intro hS
      obtain ⟨W, w1, w2, w3⟩ := h2 i hS
      exact (hval W i w2 w3 hi).1 w1
    · intro hr
      by_contra hS
      obtain ⟨W, w1, w2, w3⟩ := h3 i hi (by
        simp only [fixedOps, decide_eq_false_iff_not, not_lt]
        exact hr) hS
      rw [(hval W i w2 w3 hi).2 hr] at w1
      simp at w1
  have hSsorted : S.Pairwise (· < ·) :=
    List.Pairwise.sublist h1 (List.pairwise_lt_range.filter _)
  rcases h4 with ⟨hS, h4⟩ | ⟨k, hk, ⟨r, r1, r2, r3⟩, h4⟩
  · right
    refine ⟨fun i hi hr => ?_, h4⟩
    have := (hSroom i hi).2 hr
    rw [hS] at this; simp at this
  · left
    have hm : S[k] ∈ S := List.getElem_mem hk
    have hspare : ∀ i, i < bins.length → (fixedOps size capacity (fun _ => true)).spare i
        (bins.getD i [] ++ [x]) = free size capacity bins i - size x := by
      intro i _
      simp only [fixedOps, allocated_append, free]; ring
    refine ⟨S[k], ⟨hSlt _ hm, (hSroom _ (hSlt _ hm)).1 hm, fun j hj hr => ?_⟩, h4⟩
    have hjS := (hSroom j hj).2 hr
    obtain ⟨l, hl, rfl⟩ := List.getElem_of_mem hjS
    have hrk : r = free size capacity bins S[k] - size x := by
      rw [List.getElem?_map, List.getElem?_eq_getElem hk, Option.map_some, Option.some.injEq] at r2
      rw [← r2, hspare _ (hSlt _ hm)]
    have hb := hbest _ _ r1 _ (List.mem_map.2 ⟨S[l], hjS, rfl⟩)
    rw [hspare _ hj, hrk] at hb
    have hle : sgn * free size capacity bins S[l] ≤ sgn * free size capacity bins S[k] := by
      nlinarith
    rcases lt_or_eq_of_le hle with h | h
    · exact Or.inl h
    · right
      refine ⟨h, ?_⟩
      by_contra hlt
      push Not at hlt
      have hlk : l < k := by
        by_contra hkl
        push Not at hkl
        rcases Nat.lt_or_eq_of_le hkl with h' | h'
        · have := List.pairwise_iff_getElem.1 hSsorted k l hk hl h'
          omega
        · subst h'; omega
      apply r3 l hlk
      rw [List.getElem?_map, List.getElem?_eq_getElem hl, Option.map_some, Option.some.injEq,
        hspare _ hj, hrk, mul_left_cancel₀ hsgn h]

/-- C28: for items of fixed size, `MaxSpareCapacity` produces the same packing,
count and misfits as `WorstFit`, whatever the capacities of the bins. -/
theorem C28_max_spare_eq_worst_fit (size : α → ℚ) (capacity : ℕ → ℚ) (canMake : Bool)
    (s : HState α) (items : List α) :
    let ops := fixedOps size capacity (fun _ => true)
    binpack (maxSparePlace ops) ops canMake s items
      = binpack (worstFitPlace ops) ops canMake s items := by
  intro ops
  have : maxSparePlace ops = worstFitPlace ops := by
    funext bins cur x
    have h1 : PlacesBy (fun i => (1 : ℚ) * free size capacity bins i)
        (HasRoom size capacity bins x) bins cur x (maxSparePlace ops bins cur x) := by
      refine tryOrder_placesBy size capacity bins cur x _ _ (List.perm_insertionSort _ _) ?_
      have := insertionSort_desc_lex (fun i => free size capacity bins i) (· < ·)
        (List.range bins.length) List.pairwise_lt_range
      refine this.imp ?_
      intro a b hab
      rcases hab with h | h
      · left; linarith
      · right; exact ⟨by rw [h.1], h.2⟩
    refine h1.unique (fitBased_placesBy selects_max 1 ?_ one_ne_zero size capacity bins cur x)
    intro l r hr v hv
    rw [one_mul, one_mul]
    exact (List.max?_eq_some_iff.1 hr).2 v hv
  rw [this]

/-- C28: for items of fixed size, `MinSpareCapacity` produces the same packing,
count and misfits as `BestFit`. -/
theorem C28_min_spare_eq_best_fit (size : α → ℚ) (capacity : ℕ → ℚ) (canMake : Bool)
    (s : HState α) (items : List α) :
    let ops := fixedOps size capacity (fun _ => true)
    binpack (minSparePlace ops) ops canMake s items
      = binpack (bestFitPlace ops) ops canMake s items := by
  intro ops
  have : minSparePlace ops = bestFitPlace ops := by
    funext bins cur x
    have h1 : PlacesBy (fun i => (-1 : ℚ) * free size capacity bins i)
        (HasRoom size capacity bins x) bins cur x (minSparePlace ops bins cur x) := by
      refine tryOrder_placesBy size capacity bins cur x _ _ (List.perm_insertionSort _ _) ?_
      have := insertionSort_key_lex (fun i => free size capacity bins i) (· < ·)
        (List.range bins.length) List.pairwise_lt_range
      refine this.imp ?_
      intro a b hab
      rcases hab with h | h
      · left; linarith
      · right; exact ⟨by rw [h.1], h.2⟩
    refine h1.unique (fitBased_placesBy selects_min (-1) ?_ (by norm_num) size capacity bins cur x)
    intro l r hr v hv
    have := (List.min?_eq_some_iff.1 hr).2 v hv
    linarith
  rw [this]

/-- C27: with `FirstFit`, `WorstFit` or `BestFit` on plain bins and no `make_bin`, an
item is reported as a misfit exactly if no bin has room for it at that time. -/
theorem C27_misfit_iff (size : α → ℚ) (capacity : ℕ → ℚ) (s : HState α) (items : List α) (x : α) :
    let ops := fixedOps size capacity (fun _ => true)
    ∀ place ∈ [firstFitPlace ops, worstFitPlace ops, bestFitPlace ops, maxSparePlace ops,
      minSparePlace ops],
    let o := binpack place ops false s items
    let o' := binpack place ops false s (items ++ [x])
    (o'.reported = o.reported ++ [x] ↔
      ∀ i, ∀ h : i < o.state.bins.length, capacity i < (o.state.bins[i].map size).sum + size x) := by
  intro ops place hpl o o'
  have hstep : o' = step place ops false o x := by
    simp only [o', o, binpack, List.foldl_append, List.foldl_cons, List.foldl_nil]
  have hroom : ∀ (bins : List (List α)) i (h : i < bins.length), (¬ HasRoom size capacity bins x i ↔
      capacity i < (bins[i].map size).sum + size x) := by
    intro bins i h
    rw [HasRoom, free, List.getD_eq_getElem _ _ h, allocated, not_le]
    constructor <;> intro h <;> linarith
  have hby : ∃ key, PlacesBy key (HasRoom size capacity o.state.bins x) o.state.bins o.state.cur x
      (place o.state.bins o.state.cur x) := by
    simp only [List.mem_cons, List.not_mem_nil, or_false] at hpl
    rcases hpl with rfl | rfl | rfl | rfl | rfl
    · refine ⟨fun i => -(i : ℚ), tryOrder_placesBy size capacity _ _ x _ _ (List.Perm.refl _) ?_⟩
      refine List.pairwise_lt_range.imp ?_
      intro a b hab
      left
      have : (a : ℚ) < b := by exact_mod_cast hab
      linarith
    · refine ⟨_, fitBased_placesBy selects_max 1 ?_ one_ne_zero size capacity _ _ x⟩
      intro l r hr v hv
      rw [one_mul, one_mul]
      exact (List.max?_eq_some_iff.1 hr).2 v hv
    · refine ⟨_, fitBased_placesBy selects_min (-1) ?_ (by norm_num) size capacity _ _ x⟩
      intro l r hr v hv
      have := (List.min?_eq_some_iff.1 hr).2 v hv
      linarith
    · refine ⟨fun i => free size capacity o.state.bins i,
        tryOrder_placesBy size capacity _ _ x _ _ (List.perm_insertionSort _ _) ?_⟩
      exact insertionSort_desc_lex (fun i => free size capacity o.state.bins i) (· < ·)
        (List.range _) List.pairwise_lt_range
    · refine ⟨fun i => - free size capacity o.state.bins i,
        tryOrder_placesBy size capacity _ _ x _ _ (List.perm_insertionSort _ _) ?_⟩
      have := insertionSort_key_lex (fun i => free size capacity o.state.bins i) (· < ·)
        (List.range o.state.bins.length) List.pairwise_lt_range
      refine this.imp ?_
      intro a b hab
      rcases hab with h | h
      · left; linarith
      · right; exact ⟨by rw [h.1], h.2⟩
  obtain ⟨key, hby⟩ := hby
  rcases hby with ⟨i, hi, e⟩ | ⟨hn, e⟩
  · have : o'.reported = o.reported := by rw [hstep, step, e]
    rw [this]
    constructor
    · intro hc; exact absurd hc (by simp)
    · intro hc; exact absurd (hi.2.1) ((hroom _ i hi.1).2 (hc i hi.1))
  · have : o'.reported = o.reported ++ [x] := by rw [hstep, step, e]; simp
    rw [this]
    simp only [true_iff]
    intro i h
    exact (hroom _ i h).1 (hn i h)

/-! ### Non-vacuity -/

example : (binpack (worstFitPlace (fixedOps (fun x : ℚ => x) (fun _ => 10) (fun _ => true)))
    (fixedOps (fun x : ℚ => x) (fun _ => 10) (fun _ => true)) false ⟨[[], []], [], 0⟩ [6, 5, 5, 4, 3])
    = ⟨⟨[[6, 4], [5, 5]], [3], 0⟩, 4, [3]⟩ := by decide +kernel

example : (binpack (nextFitPlace (fixedOps (fun x : ℚ => x) (fun _ => 10) (fun _ => true)))
    (fixedOps (fun x : ℚ => x) (fun _ => 10) (fun _ => true)) true ⟨[[]], [], 0⟩ [6, 5, 4, 11])
    = ⟨⟨[[6], [5, 4], []], [11], 2⟩, 3, [11]⟩ := by decide +kernel

end Verif.Rollback
