/-
C148: how linear programs are handed over to the solvers GLPK and CPLEX (`native/src/linprog/glpk.cpp` and
`native/src/linprog/cpx.cpp`, chosen by `linprog_solve` when the library is built).
-/
import Verif.Model.LpBackend
import Mathlib.Data.List.Induction
import Mathlib.Algebra.BigOperators.Ring.Finset
import Mathlib.Data.Finset.Card
import Mathlib.Tactic.Linarith
import Mathlib.Tactic.NormNum
import Mathlib.Tactic.Ring

namespace Verif.LpBackend
open Verif.Spec

/-! ### Updates -/

section
variable {A B : Type}

theorem foldl_update_notMem (key : A → ℕ) (val : A → B) (f : ℕ → B) {v : ℕ} :
    ∀ l : List A, (∀ a ∈ l, key a ≠ v) → (l.foldl (fun f a => Function.update f (key a) (val a)) f) v = f v := by
  intro l
  induction l generalizing f with
  | nil => intro _; rfl
  | cons a l ih =>
    intro h
    rw [List.foldl_cons, ih _ (fun b hb => h b (List.mem_cons_of_mem _ hb)),
      Function.update_of_ne (fun e => h a List.mem_cons_self e.symm)]

theorem foldl_update_mem (key : A → ℕ) (val : A → B) (f : ℕ → B) :
    ∀ l : List A, (l.map key).Nodup → ∀ a ∈ l,
      (l.foldl (fun f a => Function.update f (key a) (val a)) f) (key a) = val a := by
  intro l
  induction l generalizing f with
  | nil => intro _ a ha; cases ha
  | cons b l ih =>
    intro hn a ha
    rw [List.map_cons, List.nodup_cons] at hn
    rcases List.mem_cons.1 ha with rfl | ha
    · rw [List.foldl_cons, foldl_update_notMem key val _ l
        (fun c hc e => hn.1 (List.mem_map.2 ⟨c, hc, e⟩)), Function.update_self]
    · exact ih _ hn.2 a ha

theorem foldl_change (g : B → B) (hg : ∀ b, g (g b) = g b) (v : ℕ) :
    ∀ (l : List ℕ) (f : ℕ → B),
      (l.foldl (fun f a => Function.update f a (g (f a))) f) v = if v ∈ l then g (f v) else f v := by
  intro l
  induction l with
  | nil => intro f; simp
  | cons a l ih =>
    intro f
    rw [List.foldl_cons, ih]
    by_cases hv : v = a
    · subst hv
      simp [hg]
    · simp [Function.update_of_ne hv, hv]

end

theorem rowValue_setCoeffs {n : ℕ} (x : ℕ → ℚ) (e : List (ℚ × ℕ)) (hlt : ∀ t ∈ e, t.2 < n)
    (hn : (e.map (·.2)).Nodup) : rowValue n (setCoeffs e) x = termSum x e := by
  induction e using List.reverseRecOn with
  | nil => simp [rowValue, setCoeffs, termSum]
  | append_singleton e t ih =>
    rw [List.map_append, List.nodup_append] at hn
    obtain ⟨h1, _, h2⟩ := hn
    have h3 : setCoeffs (e ++ [t]) = Function.update (setCoeffs e) t.2 t.1 := by
      unfold setCoeffs
      rw [List.foldl_append]
      rfl
    have h4 : setCoeffs e t.2 = 0 := foldl_update_notMem _ _ _ e
      (fun a ha hc => h2 _ (List.mem_map.2 ⟨a, ha, rfl⟩) t.2 (by simp) hc)
    have ht : t.2 ∈ Finset.range n := Finset.mem_range.2 (hlt t (by simp))
    have h5 : rowValue n (Function.update (setCoeffs e) t.2 t.1) x = rowValue n (setCoeffs e) x + t.1 * x t.2 := by
      unfold rowValue
      rw [← Finset.add_sum_erase _ _ ht, ← Finset.add_sum_erase (Finset.range n) (fun c => setCoeffs e c * x c) ht,
        Function.update_self, h4]
      have : ∑ c ∈ (Finset.range n).erase t.2, Function.update (setCoeffs e) t.2 t.1 c * x c =
          ∑ c ∈ (Finset.range n).erase t.2, setCoeffs e c * x c := by
        apply Finset.sum_congr rfl
        intro c hc
        rw [Function.update_of_ne (Finset.mem_erase.1 hc).1]
      rw [this]
      ring
    rw [h3, h5, ih (fun a ha => hlt a (List.mem_append_left _ ha)) h1]
    simp [termSum]

theorem setRanges_mem {l : List (ℕ × Option ℚ × Option ℚ)} (hn : (l.map (·.1)).Nodup)
    {r : ℕ × Option ℚ × Option ℚ} (hr : r ∈ l) : setRanges l r.1 = ⟨r.2.1, r.2.2, .continuous⟩ :=
  foldl_update_mem (fun r : ℕ × Option ℚ × Option ℚ => r.1) _ _ l hn r hr

theorem setRanges_notMem {l : List (ℕ × Option ℚ × Option ℚ)} {v : ℕ} (h : ∀ r ∈ l, r.1 ≠ v) :
    setRanges l v = ⟨some 0, some 1, .continuous⟩ :=
  foldl_update_notMem (fun r : ℕ × Option ℚ × Option ℚ => r.1) _ _ l h

theorem setRanges_kind (l : List (ℕ × Option ℚ × Option ℚ)) (v : ℕ) : (setRanges l v).kind = .continuous := by
  induction l using List.reverseRecOn with
  | nil => rfl
  | append_singleton l r ih =>
    unfold setRanges at *
    rw [List.foldl_append, List.foldl_cons, List.foldl_nil]
    by_cases h : v = r.1
    · subst h; rw [Function.update_self]
    · rw [Function.update_of_ne h, ih]

theorem glpkTypes_eq (I B : List ℕ) (f : ℕ → Column) (v : ℕ) : glpkTypes I B f v =
    if v ∈ B then ⟨some 0, some 1, .binary⟩ else if v ∈ I then ⟨some 0, none, .integer⟩ else f v := by
  unfold glpkTypes
  rw [foldl_change (fun _ => (⟨some 0, some 1, .binary⟩ : Column)) (fun _ => rfl),
    foldl_change (fun _ => (⟨some 0, none, .integer⟩ : Column)) (fun _ => rfl)]

theorem cpxTypes_eq (I B : List ℕ) (f : ℕ → Column) (v : ℕ) : cpxTypes I B f v =
    if v ∈ B then { f v with kind := .binary } else if v ∈ I then { f v with kind := .integer } else f v := by
  unfold cpxTypes
  rw [foldl_change (fun c : Column => { c with kind := .binary }) (fun _ => rfl),
    foldl_change (fun c : Column => { c with kind := .integer }) (fun _ => rfl)]
  by_cases h1 : v ∈ B <;> by_cases h2 : v ∈ I <;> simp [h1, h2]

/-! ### The property -/

/-- A program as the analyses build it: all variables are among the first `n`, constraints have terms, and each variable
has at most one declared range. -/
structure Built (P : RangedMilp) (n : ℕ) : Prop where
  objective : ∀ t ∈ P.objective, t.2 < n
  equalities : ∀ c ∈ P.equalities, c.1 ≠ [] ∧ ∀ t ∈ c.1, t.2 < n
  inequalities : ∀ c ∈ P.inequalities, c.1 ≠ [] ∧ ∀ t ∈ c.1, t.2 < n
  integers : ∀ v ∈ P.integers, v < n
  binaries : ∀ v ∈ P.binaries, v < n
  ranges : ∀ r ∈ P.ranges, r.1 < n
  once : (P.ranges.map (·.1)).Nodup

/-- The problem of the solver is the program: it has the same feasible assignments and the same objective. -/
def Faithful (P : RangedMilp) (n : ℕ) (Q : SolverProblem) : Prop :=
  ∀ x, (Q.Feasible x ↔ P.Feasible n x) ∧ rowValue Q.cols Q.objective x = termSum x P.objective

/-- **C148**: every program is handed over faithfully to the solver, whichever it is. -/
def HandedOver (backend : RangedMilp → ℕ → Option SolverProblem) : Prop :=
  ∀ P n, Built P n → ∃ Q, backend P n = some Q ∧ Faithful P n Q

theorem empty_faithful {P : RangedMilp} (h : Built P 0) :
    Faithful P 0 ⟨0, fun _ => 0, fun _ => ⟨none, none, .continuous⟩, []⟩ := by
  have h1 : P.objective = [] := List.eq_nil_iff_forall_not_mem.2 (fun t ht => absurd (h.objective t ht) (by omega))
  have h2 : P.equalities = [] := by
    refine List.eq_nil_iff_forall_not_mem.2 (fun c hc => ?_)
    obtain ⟨hne, hlt⟩ := h.equalities c hc
    obtain ⟨t, ht⟩ := List.exists_mem_of_ne_nil _ hne
    exact absurd (hlt t ht) (by omega)
  have h3 : P.inequalities = [] := by
    refine List.eq_nil_iff_forall_not_mem.2 (fun c hc => ?_)
    obtain ⟨hne, hlt⟩ := h.inequalities c hc
    obtain ⟨t, ht⟩ := List.exists_mem_of_ne_nil _ hne
    exact absurd (hlt t ht) (by omega)
  have h4 : P.integers = [] := List.eq_nil_iff_forall_not_mem.2 (fun v hv => absurd (h.integers v hv) (by omega))
  have h5 : P.binaries = [] := List.eq_nil_iff_forall_not_mem.2 (fun v hv => absurd (h.binaries v hv) (by omega))
  have h6 : P.ranges = [] := List.eq_nil_iff_forall_not_mem.2 (fun r hr => absurd (h.ranges r hr) (by omega))
  intro x
  refine ⟨⟨fun _ => ?_, fun _ => ⟨fun c hc => absurd hc (Nat.not_lt_zero c), fun r hr => by cases hr⟩⟩, ?_⟩
  · refine ⟨?_, ?_, ?_, ?_, ?_, fun v hv => absurd hv (Nat.not_lt_zero v)⟩
    · rw [h2]; intro c hc; cases hc
    · rw [h3]; intro c hc; cases hc
    · rw [h4]; intro c hc; cases hc
    · rw [h5]; intro c hc; cases hc
    · rw [h6]; intro c hc; cases hc
  · rw [h1]
    simp [rowValue, termSum]

/-- No variable occurs twice in the objective or in a constraint. -/
structure Distinct (P : RangedMilp) : Prop where
  objective : (P.objective.map (·.2)).Nodup
  equalities : ∀ c ∈ P.equalities, (c.1.map (·.2)).Nodup
  inequalities : ∀ c ∈ P.inequalities, (c.1.map (·.2)).Nodup

theorem Built.allInRange {P : RangedMilp} {n : ℕ} (h : Built P n) : allInRange P n = true := by
  unfold LpBackend.allInRange inRange
  simp only [Bool.and_eq_true, List.all_eq_true, decide_eq_true_eq]
  exact ⟨⟨⟨⟨⟨h.objective, fun c hc => (h.equalities c hc).2⟩, fun c hc => (h.inequalities c hc).2⟩, h.integers⟩,
    h.binaries⟩, h.ranges⟩

theorem Built.length_le {P : RangedMilp} {n : ℕ} (h : Built P n) (hd : (P.objective.map (·.2)).Nodup) :
    P.objective.length ≤ n := by
  have h1 : (P.objective.map (·.2)).toFinset ⊆ Finset.range n := by
    intro v hv
    obtain ⟨t, ht, rfl⟩ := List.mem_map.1 (List.mem_toFinset.1 hv)
    exact Finset.mem_range.2 (h.objective t ht)
  have h2 := Finset.card_le_card h1
  rwa [List.toFinset_card_of_nodup hd, List.length_map, Finset.card_range] at h2

/-- If the columns express the ranges and types of the variables, the problem is faithful. -/
theorem faithful_of {P : RangedMilp} {n : ℕ} (h : Built P n) (hd : Distinct P) (col : ℕ → Column)
    (hcol : ∀ x : ℕ → ℚ, (∀ c < n, (col c).Admits (x c)) ↔
      (∀ v ∈ P.integers, ∃ z : ℤ, x v = z) ∧ (∀ v ∈ P.binaries, x v = 0 ∨ x v = 1) ∧
      (∀ r ∈ P.ranges, Within r.2.1 r.2.2 (x r.1)) ∧
      ∀ v < n, (∀ r ∈ P.ranges, r.1 ≠ v) → 0 ≤ x v ∧ (v ∉ P.integers → x v ≤ 1)) :
    Faithful P n ⟨n, setCoeffs P.objective, col, rows P⟩ := by
  intro x
  refine ⟨⟨fun hf => ?_, fun hf => ?_⟩, rowValue_setCoeffs x _ h.objective hd.objective⟩
  · obtain ⟨h1, h2, h3, h4⟩ := (hcol x).1 hf.column
    refine ⟨?_, ?_, h1, h2, h3, h4⟩
    · intro c hc
      have := hf.row ⟨setCoeffs c.1, c.2, true⟩ (List.mem_append_left _ (List.mem_map.2 ⟨c, hc, rfl⟩))
      simp only [if_true] at this
      rwa [rowValue_setCoeffs x _ (h.equalities c hc).2 (hd.equalities c hc)] at this
    · intro c hc
      have := hf.row ⟨setCoeffs c.1, c.2, false⟩ (List.mem_append_right _ (List.mem_map.2 ⟨c, hc, rfl⟩))
      simp only [Bool.false_eq_true, if_false] at this
      rwa [rowValue_setCoeffs x _ (h.inequalities c hc).2 (hd.inequalities c hc)] at this
  · refine ⟨(hcol x).2 ⟨hf.integer, hf.binary, hf.declared, hf.default⟩, ?_⟩
    intro r hr
    rcases List.mem_append.1 hr with hr | hr
    · obtain ⟨c, hc, rfl⟩ := List.mem_map.1 hr
      simp only [if_true]
      rw [rowValue_setCoeffs x _ (h.equalities c hc).2 (hd.equalities c hc)]
      exact hf.eq c hc
    · obtain ⟨c, hc, rfl⟩ := List.mem_map.1 hr
      simp only [Bool.false_eq_true, if_false]
      rw [rowValue_setCoeffs x _ (h.inequalities c hc).2 (hd.inequalities c hc)]
      exact hf.le c hc

/-! ### GLPK -/

theorem glpk_columns {P : RangedMilp} {n : ℕ} (h : Built P n)
    (hr : ∀ r ∈ P.ranges, r.1 ∈ P.integers ∨ r.1 ∈ P.binaries → r.2 = (some 0, none)) (x : ℕ → ℚ) :
    (∀ c < n, (glpkTypes P.integers P.binaries (setRanges P.ranges) c).Admits (x c)) ↔
      (∀ v ∈ P.integers, ∃ z : ℤ, x v = z) ∧ (∀ v ∈ P.binaries, x v = 0 ∨ x v = 1) ∧
      (∀ r ∈ P.ranges, Within r.2.1 r.2.2 (x r.1)) ∧
      ∀ v < n, (∀ r ∈ P.ranges, r.1 ≠ v) → 0 ≤ x v ∧ (v ∉ P.integers → x v ≤ 1) := by
  constructor
  · intro hc
    have hbin : ∀ v ∈ P.binaries, x v = 0 ∨ x v = 1 := by
      intro v hv
      have := hc v (h.binaries v hv)
      rw [glpkTypes_eq, if_pos hv] at this
      exact this.2
    have hint : ∀ v ∈ P.integers, 0 ≤ x v ∧ ∃ z : ℤ, x v = z := by
      intro v hv
      by_cases hb : v ∈ P.binaries
      · rcases hbin v hb with e | e
        · exact ⟨e.ge, 0, by rw [e]; rfl⟩
        · exact ⟨by rw [e]; exact zero_le_one, 1, by rw [e]; rfl⟩
      · have := hc v (h.integers v hv)
        rw [glpkTypes_eq, if_neg hb, if_pos hv] at this
        exact ⟨this.1.1 0 rfl, this.2⟩
    refine ⟨fun v hv => (hint v hv).2, hbin, ?_, ?_⟩
    · intro r hm
      by_cases hb : r.1 ∈ P.binaries
      · rw [hr r hm (Or.inr hb)]
        refine ⟨fun a ha => ?_, fun b hb => by cases hb⟩
        cases ha
        rcases hbin _ hb with e | e <;> rw [e]
        exact zero_le_one
      · by_cases hi : r.1 ∈ P.integers
        · rw [hr r hm (Or.inl hi)]
          refine ⟨fun a ha => ?_, fun b hb => by cases hb⟩
          cases ha
          exact (hint _ hi).1
        · have := hc r.1 (h.ranges r hm)
          rw [glpkTypes_eq, if_neg hb, if_neg hi, setRanges_mem h.once hm] at this
          exact this.1
    · intro v hv hno
      by_cases hb : v ∈ P.binaries
      · rcases hbin v hb with e | e <;> rw [e]
        · exact ⟨le_rfl, fun _ => zero_le_one⟩
        · exact ⟨zero_le_one, fun _ => le_rfl⟩
      · by_cases hi : v ∈ P.integers
        · exact ⟨(hint v hi).1, fun hn => absurd hi hn⟩
        · have := hc v hv
          rw [glpkTypes_eq, if_neg hb, if_neg hi, setRanges_notMem hno] at this
          exact ⟨this.1.1 0 rfl, fun _ => this.1.2 1 rfl⟩
  · rintro ⟨hint, hbin, hdec, hdef⟩ v hv
    rw [glpkTypes_eq]
    by_cases hb : v ∈ P.binaries
    · rw [if_pos hb]
      refine ⟨⟨fun a ha => ?_, fun a ha => ?_⟩, hbin v hb⟩ <;>
      · cases ha
        rcases hbin v hb with e | e <;> rw [e] <;> norm_num
    · rw [if_neg hb]
      by_cases hi : v ∈ P.integers
      · rw [if_pos hi]
        refine ⟨⟨fun a ha => ?_, fun a ha => by cases ha⟩, hint v hi⟩
        cases ha
        by_cases hm : ∃ r ∈ P.ranges, r.1 = v
        · obtain ⟨r, hm, rfl⟩ := hm
          have := hdec r hm
          rw [hr r hm (Or.inl hi)] at this
          exact this.1 0 rfl
        · push Not at hm
          exact (hdef v hv hm).1
      · rw [if_neg hi]
        by_cases hm : ∃ r ∈ P.ranges, r.1 = v
        · obtain ⟨r, hm, rfl⟩ := hm
          rw [setRanges_mem h.once hm]
          exact ⟨hdec r hm, trivial⟩
        · push Not at hm
          rw [setRanges_notMem hm]
          obtain ⟨h0, h1⟩ := hdef v hv hm
          refine ⟨⟨fun a ha => ?_, fun a ha => ?_⟩, trivial⟩ <;> cases ha
          · exact h0
          · exact h1 hi

/-- **C148**, partial: GLPK receives the program if no variable occurs twice in an expression, and if the ranges declared
for integer and binary variables are those of non-negative numbers. -/
theorem C148_glpk_partial (P : RangedMilp) (n : ℕ) (h : Built P n) (hd : Distinct P)
    (hr : ∀ r ∈ P.ranges, r.1 ∈ P.integers ∨ r.1 ∈ P.binaries → r.2 = (some 0, none)) :
    ∃ Q, glpk P n = some Q ∧ Faithful P n Q := by
  unfold glpk
  by_cases hn : n = 0
  · subst hn
    exact ⟨_, rfl, empty_faithful h⟩
  rw [if_neg hn, if_neg (not_not.2 (h.length_le hd.objective)), if_neg (not_not.2 h.allInRange), if_neg]
  · refine ⟨_, rfl, faithful_of h hd _ ?_⟩
    intro x
    rw [← glpk_columns h hr x]
    split_ifs with hm
    · rfl
    · have h1 : P.binaries = [] ∧ P.integers = [] := by
        revert hm
        cases P.binaries <;> cases P.integers <;> simp
      rw [h1.1, h1.2]
      rfl
  · rw [not_not, Bool.and_eq_true, List.all_eq_true, List.all_eq_true]
    exact ⟨fun c hc => decide_eq_true (hd.equalities c hc), fun c hc => decide_eq_true (hd.inequalities c hc)⟩

/-! ### CPLEX -/

theorem cpx_columns {P : RangedMilp} {n : ℕ} (h : Built P n)
    (hr : ∀ v ∈ P.integers, v ∈ P.binaries ∨ ∃ r ∈ P.ranges, r.1 = v) (x : ℕ → ℚ) :
    (∀ c < n, (cpxTypes P.integers P.binaries (setRanges P.ranges) c).Admits (x c)) ↔
      (∀ v ∈ P.integers, ∃ z : ℤ, x v = z) ∧ (∀ v ∈ P.binaries, x v = 0 ∨ x v = 1) ∧
      (∀ r ∈ P.ranges, Within r.2.1 r.2.2 (x r.1)) ∧
      ∀ v < n, (∀ r ∈ P.ranges, r.1 ≠ v) → 0 ≤ x v ∧ (v ∉ P.integers → x v ≤ 1) := by
  have hsplit : ∀ v, (cpxTypes P.integers P.binaries (setRanges P.ranges) v).Admits (x v) ↔
      Within (setRanges P.ranges v).lower (setRanges P.ranges v).upper (x v) ∧
      (v ∈ P.integers → ∃ z : ℤ, x v = z) ∧ (v ∈ P.binaries → x v = 0 ∨ x v = 1) := by
    intro v
    rw [cpxTypes_eq]
    by_cases hb : v ∈ P.binaries
    · rw [if_pos hb]
      constructor
      · rintro ⟨h1, h2⟩
        refine ⟨h1, fun _ => ?_, fun _ => h2⟩
        rcases h2 with e | e
        · exact ⟨0, by rw [e]; rfl⟩
        · exact ⟨1, by rw [e]; rfl⟩
      · rintro ⟨h1, _, h2⟩
        exact ⟨h1, h2 hb⟩
    · rw [if_neg hb]
      by_cases hi : v ∈ P.integers
      · rw [if_pos hi]
        exact ⟨fun ⟨h1, h2⟩ => ⟨h1, fun _ => h2, fun hc => absurd hc hb⟩, fun ⟨h1, h2, _⟩ => ⟨h1, h2 hi⟩⟩
      · rw [if_neg hi]
        unfold Column.Admits
        rw [setRanges_kind]
        exact ⟨fun ⟨h1, _⟩ => ⟨h1, fun hc => absurd hc hi, fun hc => absurd hc hb⟩, fun ⟨h1, _, _⟩ => ⟨h1, trivial⟩⟩
  constructor
  · intro hc
    refine ⟨fun v hv => ((hsplit v).1 (hc v (h.integers v hv))).2.1 hv,
      fun v hv => ((hsplit v).1 (hc v (h.binaries v hv))).2.2 hv, ?_, ?_⟩
    · intro r hm
      have := ((hsplit r.1).1 (hc r.1 (h.ranges r hm))).1
      rwa [setRanges_mem h.once hm] at this
    · intro v hv hno
      have := ((hsplit v).1 (hc v hv)).1
      rw [setRanges_notMem hno] at this
      exact ⟨this.1 0 rfl, fun _ => this.2 1 rfl⟩
  · rintro ⟨hint, hbin, hdec, hdef⟩ v hv
    refine (hsplit v).2 ⟨?_, hint v, hbin v⟩
    by_cases hm : ∃ r ∈ P.ranges, r.1 = v
    · obtain ⟨r, hm, rfl⟩ := hm
      rw [setRanges_mem h.once hm]
      exact hdec r hm
    · push Not at hm
      rw [setRanges_notMem hm]
      obtain ⟨h0, h1⟩ := hdef v hv hm
      refine ⟨fun a ha => ?_, fun a ha => ?_⟩ <;> cases ha
      · exact h0
      · by_cases hi : v ∈ P.integers
        · rcases hr v hi with hb | ⟨r, hrm, e⟩
          · rcases hbin v hb with e | e <;> rw [e]
            exact zero_le_one
          · exact absurd e (hm r hrm)
        · exact h1 hi

/-- **C148**, partial: CPLEX receives the program if no variable occurs twice in an expression, and if a range is declared
for each integer variable. -/
theorem C148_cplex_partial (P : RangedMilp) (n : ℕ) (h : Built P n) (hd : Distinct P)
    (hr : ∀ v ∈ P.integers, v ∈ P.binaries ∨ ∃ r ∈ P.ranges, r.1 = v) :
    ∃ Q, cpx P n = some Q ∧ Faithful P n Q := by
  unfold cpx
  by_cases hn : n = 0
  · subst hn
    exact ⟨_, rfl, empty_faithful h⟩
  rw [if_neg hn, if_neg (not_not.2 (h.length_le hd.objective)), if_neg (not_not.2 h.allInRange)]
  exact ⟨_, rfl, faithful_of h hd _ (cpx_columns h hr)⟩

/-! ### Violations -/

/-- Maximise an integer variable that is at most 2. -/
def exInteger : RangedMilp := { objective := [(1, 0)], inequalities := [([(1, 0)], 2)], integers := [0] }

theorem exInteger_built : Built exInteger 1 := by
  constructor <;> decide

/-- **C148**: the value 2 of the variable is accepted by GLPK, but CPLEX restricts it to 0 and 1. -/
theorem C148_integer_violated :
    (∃ Q, glpk exInteger 1 = some Q ∧ Q.Feasible (fun _ => 2)) ∧ exInteger.Feasible 1 (fun _ => 2) ∧
      ∃ Q, cpx exInteger 1 = some Q ∧ ∀ x, Q.Feasible x → x 0 ≤ 1 := by
  have hf : exInteger.Feasible 1 (fun _ => 2) := by
    refine ⟨by simp [exInteger], by simp [exInteger, termSum], fun v _ => ⟨2, rfl⟩, by simp [exInteger],
      by simp [exInteger], fun v hv _ => ⟨by norm_num, fun hn => absurd ?_ hn⟩⟩
    simp [exInteger]
    omega
  obtain ⟨Q, hQ, hF⟩ := C148_glpk_partial exInteger 1 exInteger_built
    ⟨by decide, by decide, by decide⟩ (by decide)
  refine ⟨⟨Q, hQ, ((hF _).1).2 hf⟩, hf, _, rfl, fun x hx => ?_⟩
  have := hx.column 0 Nat.one_pos
  dsimp only at this
  rw [cpxTypes_eq] at this
  exact this.1.2 1 rfl

/-- An objective that lists a variable twice. -/
def exTwice : RangedMilp := { objective := [(1, 0), (1, 0)], inequalities := [([(1, 1)], 1)] }

theorem exTwice_built : Built exTwice 2 := by
  constructor <;> decide

/-- **C148**: a variable that is listed twice in the objective counts only once, with both solvers. -/
theorem C148_twice_violated (Q : SolverProblem) (h : glpk exTwice 2 = some Q ∨ cpx exTwice 2 = some Q) :
    termSum (fun _ => 1) exTwice.objective = 2 ∧ rowValue Q.cols Q.objective (fun _ => 1) = 1 := by
  refine ⟨by norm_num [termSum, exTwice], ?_⟩
  rcases h with h | h <;>
  · cases h
    norm_num [rowValue, setCoeffs, exTwice, Finset.sum_range_succ, Function.update]

/-- A constraint that lists a variable twice. -/
def exConstraint : RangedMilp := { objective := [(1, 0)], inequalities := [([(1, 0), (1, 0)], 1)] }

/-- **C148**: a constraint with a variable that is listed twice is rejected by GLPK, and weakened by CPLEX. -/
theorem C148_constraint_violated : glpk exConstraint 2 = none ∧ ¬ exConstraint.Feasible 2 (fun _ => 1) ∧
    ∃ Q, cpx exConstraint 2 = some Q ∧ Q.Feasible (fun _ => 1) := by
  refine ⟨by decide, fun h => ?_, _, rfl, ?_, ?_⟩
  · have := h.le ([(1, 0), (1, 0)], 1) (by decide)
    norm_num [termSum] at this
  · intro c _
    dsimp only
    rw [cpxTypes_eq]
    refine ⟨⟨fun a ha => ?_, fun a ha => ?_⟩, trivial⟩ <;>
    · cases ha
      norm_num
  · intro r hr
    have e : r = ⟨setCoeffs [(1, 0), (1, 0)], 1, false⟩ := by
      simpa [rows, exConstraint] using hr
    subst e
    norm_num [rowValue, setCoeffs, Finset.sum_range_succ, Function.update]

/-- **C148** is violated for both solvers. -/
theorem C148_handed_over_violated : ¬ HandedOver glpk ∧ ¬ HandedOver cpx := by
  constructor
  · intro h
    obtain ⟨Q, hQ, hF⟩ := h exTwice 2 exTwice_built
    obtain ⟨h1, h2⟩ := C148_twice_violated Q (Or.inl hQ)
    have := (hF (fun _ => 1)).2
    rw [h1, h2] at this
    norm_num at this
  · intro h
    obtain ⟨Q, hQ, hF⟩ := h exTwice 2 exTwice_built
    obtain ⟨h1, h2⟩ := C148_twice_violated Q (Or.inr hQ)
    have := (hF (fun _ => 1)).2
    rw [h1, h2] at this
    norm_num at this

/-- A program with variables of all kinds. -/
def exKinds : RangedMilp :=
  { objective := [(1, 0), (2, 1), (-1, 3)], equalities := [([(1, 2), (1, 3)], 1)],
    inequalities := [([(1, 0), (1, 1)], 3)], integers := [0], binaries := [3], ranges := [(0, some 0, none), (1, none, some 2)] }

/-- The hypotheses of both partial theorems are satisfied by a program with variables of all kinds. -/
example : Built exKinds 4 ∧ Distinct exKinds ∧
    (∀ r ∈ exKinds.ranges, r.1 ∈ exKinds.integers ∨ r.1 ∈ exKinds.binaries → r.2 = (some 0, none)) ∧
    (∀ v ∈ exKinds.integers, v ∈ exKinds.binaries ∨ ∃ r ∈ exKinds.ranges, r.1 = v) := by
  refine ⟨?_, ?_, by decide, by decide⟩ <;> constructor <;> decide

end Verif.LpBackend
