/-
C34, C75, C76: linear programs (`schedcat/util/linprog.py`).
-/
import Verif.Model.LinProg
import Mathlib.Tactic.Linarith
import Mathlib.Tactic.Ring
import Mathlib.Tactic.NormNum
import Mathlib.Algebra.Order.BigOperators.Group.List

namespace Verif.LinProg
open Verif.Spec

@[simp] theorem value_nil (x : Var → ℚ) : value x [] = 0 := rfl

@[simp] theorem value_cons (x : Var → ℚ) (t : ℚ × Var) (v : Terms) :
    value x (t :: v) = t.1 * x t.2 + value x v := by simp [value]

theorem value_append (x : Var → ℚ) (u v : Terms) : value x (u ++ v) = value x u + value x v := by
  simp [value]

/-! ### Evaluation -/

theorem evaluate_from (sol : Solution) (vector : Terms) : ∀ acc : ℚ,
    vector.foldl (step sol) acc = acc + value (fun v => (sol.lookup v).getD 0) vector := by
  induction vector with
  | nil => intro acc; simp
  | cons t vector ih =>
    intro acc
    rw [List.foldl_cons, ih, value_cons]
    unfold step
    cases sol.lookup t.2 with
    | none => simp
    | some y => simp only [Option.getD_some]; ring

/-- **C34**: a solution evaluates a sum with value 0 for the variables it does not
mention. -/
theorem C34_evaluate (sol : Solution) (vector : Terms) :
    sol.evaluate vector = value (fun v => (sol.lookup v).getD 0) vector := by
  refine (evaluate_from sol vector 0).trans ?_
  rw [zero_add]

example : Solution.evaluate [("x".toList, 2), ("y".toList, 3)]
    [(5, "x".toList), (7, "z".toList), (-1, "y".toList)] = 7 := by decide +kernel

/-! ### Prefixes -/

theorem value_applyPrefix (x : Var → ℚ) (pre : Var) (v : Terms) :
    value x (applyPrefix v pre) = value (fun n => x (pre ++ '_' :: n)) v := by
  unfold value applyPrefix
  rw [List.map_map]
  rfl

/-- **C34**: prefixing renames variables.  An assignment satisfies the new program iff
its restriction to the renamed variables satisfies the old one, with the same
objective value; and every assignment of the old program arises in this way. -/
theorem C34_prefix (lp lp' : LP) (pre : Var) (obj : Terms) (hobj : lp.objective = some obj)
    (h : lp.applyVariablePrefix pre = some lp') :
    lp'.goal = lp.goal ∧ ∃ obj', lp'.objective = some obj' ∧
      (∀ x, (Satisfies x lp'.equalities lp'.inequalities ↔
          Satisfies (fun n => x (pre ++ '_' :: n)) lp.equalities lp.inequalities) ∧
        value x obj' = value (fun n => x (pre ++ '_' :: n)) obj) ∧
      (∀ y, NonNeg y → ∃ x, NonNeg x ∧ ∀ n, x (pre ++ '_' :: n) = y n) := by
  unfold LP.applyVariablePrefix at h
  rw [hobj] at h
  simp only [Option.some.injEq] at h
  subst h
  refine ⟨rfl, _, rfl, fun x => ⟨?_, value_applyPrefix x pre obj⟩, ?_⟩
  · unfold Satisfies
    simp only [List.mem_map, forall_exists_index, and_imp, forall_apply_eq_imp_iff₂,
      value_applyPrefix]
  · intro y hy
    refine ⟨fun n => y (n.drop (pre.length + 1)), fun n => hy _, fun n => ?_⟩
    show y (List.drop _ _) = y n
    congr 1
    rw [List.drop_append, List.drop_of_length_le (by omega)]
    simp

/-- Non-vacuity. -/
example : let lp : LP := ((({} : LP).setObjective [(99, "a".toList)]).addEquality [(10, "b".toList)] 0)
    (lp.applyVariablePrefix "t1".toList).map (fun l => (l.equalities, l.objective)) =
      some ([([(10, "t1_b".toList)], 0)], some [(99, "t1_a".toList)]) := rfl

/-! ### Merging -/

/-- **C34**: merging conjoins the constraints and adds the objectives. -/
theorem C34_merge (a b c : LP) (objB : Terms) (hB : b.objective = some objB)
    (h : a.merge b = some c) :
    c.goal = a.goal ∧ a.goal = b.goal ∧ ∃ objC, c.objective = some objC ∧ ∀ x,
      (Satisfies x c.equalities c.inequalities ↔
        Satisfies x a.equalities a.inequalities ∧ Satisfies x b.equalities b.inequalities) ∧
      value x objC = value x (a.objective.getD []) + value x objB := by
  unfold LP.merge at h
  rw [hB] at h
  split_ifs at h with hg
  simp only [Option.some.injEq] at h
  subst h
  refine ⟨rfl, hg.symm, _, rfl, fun x => ⟨?_, value_append _ _ _⟩⟩
  unfold Satisfies
  simp only [List.mem_append]
  constructor
  · rintro ⟨h1, h2⟩
    exact ⟨⟨fun c hc => h1 c (Or.inl hc), fun c hc => h2 c (Or.inl hc)⟩,
      ⟨fun c hc => h1 c (Or.inr hc), fun c hc => h2 c (Or.inr hc)⟩⟩
  · rintro ⟨⟨h1, h2⟩, h3, h4⟩
    exact ⟨fun c hc => hc.elim (h1 c) (h3 c), fun c hc => hc.elim (h2 c) (h4 c)⟩

/-- Merging succeeds iff the goals agree and the other program has an objective. -/
theorem C34_merge_succeeds (a b : LP) :
    (a.merge b).isSome = true ↔ b.goal = a.goal ∧ b.objective.isSome = true := by
  unfold LP.merge
  split_ifs with h
  · cases b.objective <;> simp [h]
  · simp [h]

/-! ### Removing variables that are forced to 0 -/

theorem value_nonneg {x : Var → ℚ} (hx : NonNeg x) {v : Terms} (hv : ∀ t ∈ v, 0 < t.1) :
    0 ≤ value x v := by
  induction v with
  | nil => simp
  | cons t v ih =>
    rw [value_cons]
    have h1 := ih (fun t ht => hv t (by simp [ht]))
    have h2 := mul_nonneg (hv t (by simp)).le (hx t.2)
    linarith

theorem value_zero {x : Var → ℚ} (hx : NonNeg x) {v : Terms} (hv : ∀ t ∈ v, 0 < t.1)
    (h : value x v ≤ 0) : ∀ t ∈ v, x t.2 = 0 := by
  induction v with
  | nil => simp
  | cons t v ih =>
    rw [value_cons] at h
    have hv' : ∀ t ∈ v, 0 < t.1 := fun t ht => hv t (by simp [ht])
    have h1 := value_nonneg hx hv'
    have h0 := hv t (by simp)
    have h2 := mul_nonneg h0.le (hx t.2)
    intro s hs
    rcases List.mem_cons.1 hs with rfl | hs
    · have : s.1 * x s.2 = 0 := by linarith
      rcases mul_eq_zero.1 this with h | h
      · linarith
      · exact h
    · exact ih hv' (by linarith) s hs

theorem value_filter {x : Var → ℚ} {dead : List Var} (hd : ∀ v ∈ dead, x v = 0) (v : Terms) :
    value x (filterVars dead v) = value x v := by
  induction v with
  | nil => rfl
  | cons t v ih =>
    unfold filterVars at ih ⊢
    rw [List.filter_cons]
    split_ifs with h
    · rw [value_cons, value_cons, ih]
    · rw [value_cons, ih]
      have : t.2 ∈ dead := by simpa using h
      rw [hd _ this]
      ring

theorem value_filter_zeroed (y : Var → ℚ) (dead : List Var) (v : Terms) :
    value (fun n => if n ∈ dead then 0 else y n) v = value y (filterVars dead v) := by
  induction v with
  | nil => rfl
  | cons t v ih =>
    unfold filterVars at ih ⊢
    rw [List.filter_cons, value_cons, ih]
    by_cases h : t.2 ∈ dead
    · simp [h]
    · simp [h]

theorem mem_killed {cs : List (Terms × ℚ)} {v : Var} :
    v ∈ killed cs ↔ ∃ c ∈ cs, c.2 ≤ 0 ∧ ∃ t ∈ c.1, t.2 = v := by
  unfold killed
  simp only [List.mem_flatMap, List.mem_filter, decide_eq_true_eq, List.mem_map]
  constructor
  · rintro ⟨c, ⟨h1, h2⟩, t, ht, rfl⟩; exact ⟨c, h1, h2, t, ht, rfl⟩
  · rintro ⟨c, h1, h2, t, ht, rfl⟩; exact ⟨c, ⟨h1, h2⟩, t, ht, rfl⟩

theorem mem_remaining {dead : List Var} {cs : List (Terms × ℚ)} {c : Terms × ℚ} :
    c ∈ remaining dead cs ↔ ∃ c' ∈ cs, 0 < c'.2 ∧ c = (filterVars dead c'.1, c'.2) ∧ c.1 ≠ [] := by
  unfold remaining
  simp only [List.mem_filter, List.mem_map, decide_eq_true_eq]
  constructor
  · rintro ⟨⟨c', ⟨h1, h2⟩, rfl⟩, h3⟩
    exact ⟨c', h1, h2, rfl, by simpa using h3⟩
  · rintro ⟨c', h1, h2, h3, h4⟩
    exact ⟨⟨c', ⟨h1, h2⟩, h3.symm⟩, by simpa using h4⟩

/-- All coefficients of the constraints are positive. -/
def PositiveCoefficients (lp : LP) : Prop :=
  (∀ c ∈ lp.equalities, ∀ t ∈ c.1, 0 < t.1) ∧ (∀ c ∈ lp.inequalities, ∀ t ∈ c.1, 0 < t.1)

theorem dead_zero {lp : LP} (hp : PositiveCoefficients lp) {x : Var → ℚ} (hx : NonNeg x)
    (hs : Satisfies x lp.equalities lp.inequalities) :
    ∀ v ∈ killed lp.equalities ++ killed lp.inequalities, x v = 0 := by
  intro v hv
  rcases List.mem_append.1 hv with hv | hv
  · obtain ⟨c, hc, h0, t, ht, rfl⟩ := mem_killed.1 hv
    exact value_zero hx (hp.1 c hc) (by rw [hs.1 c hc]; exact h0) t ht
  · obtain ⟨c, hc, h0, t, ht, rfl⟩ := mem_killed.1 hv
    exact value_zero hx (hp.2 c hc) ((hs.2 c hc).trans h0) t ht

/-- **C34**: removing the variables that are forced to 0 loses no solution: whatever
satisfies the old program satisfies the new one, with the same value of the
objective (and of the local objective). -/
theorem C34_kill_safe (lp lp' : LP) (obj : Terms) (hobj : lp.objective = some obj)
    (hp : PositiveCoefficients lp) (h : lp.killNonPositiveVars = some lp') :
    ∃ obj', lp'.objective = some obj' ∧ ∀ x, NonNeg x →
      Satisfies x lp.equalities lp.inequalities →
      Satisfies x lp'.equalities lp'.inequalities ∧ value x obj' = value x obj ∧
      ∀ l, lp.localObjective = some l →
        ∃ l', lp'.localObjective = some l' ∧ value x l' = value x l := by
  unfold LP.killNonPositiveVars at h
  rw [hobj] at h
  simp only [Option.some.injEq] at h
  subst h
  refine ⟨_, rfl, fun x hx hs => ?_⟩
  have hd := dead_zero hp hx hs
  refine ⟨⟨?_, ?_⟩, value_filter hd obj, ?_⟩
  · intro c hc
    obtain ⟨c', h1, -, rfl, -⟩ := mem_remaining.1 hc
    exact (value_filter hd _).trans (hs.1 c' h1)
  · intro c hc
    obtain ⟨c', h1, -, rfl, -⟩ := mem_remaining.1 hc
    exact (value_filter hd _).le.trans (hs.2 c' h1)
  · intro l hl
    exact ⟨filterVars _ l, by simp [hl], value_filter hd l⟩

/-- **C34**: if the old program has a solution at all, the new one has no further
objective values. -/
theorem C34_kill_exact_partial (lp lp' : LP) (obj : Terms) (hobj : lp.objective = some obj)
    (hp : PositiveCoefficients lp) (h : lp.killNonPositiveVars = some lp')
    (hfeas : ∃ x, NonNeg x ∧ Satisfies x lp.equalities lp.inequalities) :
    ∃ obj', lp'.objective = some obj' ∧ ∀ y, NonNeg y →
      Satisfies y lp'.equalities lp'.inequalities →
      ∃ x, NonNeg x ∧ Satisfies x lp.equalities lp.inequalities ∧ value x obj = value y obj' := by
  obtain ⟨x0, hx0, hs0⟩ := hfeas
  unfold LP.killNonPositiveVars at h
  rw [hobj] at h
  simp only [Option.some.injEq] at h
  subst h
  refine ⟨_, rfl, fun y hy hs => ?_⟩
  set dead := killed lp.equalities ++ killed lp.inequalities with hdead
  have hd0 := dead_zero hp hx0 hs0
  refine ⟨fun n => if n ∈ dead then 0 else y n, ?_, ⟨?_, ?_⟩, value_filter_zeroed y dead obj⟩
  · intro v
    simp only
    split_ifs
    · exact le_rfl
    · exact hy v
  · intro c hc
    rw [value_filter_zeroed]
    have e0 : value x0 (filterVars dead c.1) = c.2 := (value_filter hd0 _).trans (hs0.1 c hc)
    by_cases hb : 0 < c.2
    · by_cases hnil : filterVars dead c.1 = []
      · rw [hnil] at e0
        simp at e0
        linarith
      · exact hs.1 (filterVars dead c.1, c.2) (mem_remaining.2 ⟨c, hc, hb, rfl, hnil⟩)
    · have h1 : filterVars dead c.1 = [] := by
        unfold filterVars
        rw [List.filter_eq_nil_iff]
        intro t ht
        have : t.2 ∈ dead := List.mem_append_left _ (mem_killed.2 ⟨c, hc, not_lt.1 hb, t, ht, rfl⟩)
        simpa using this
      rw [h1] at e0 ⊢
      exact e0
  · intro c hc
    rw [value_filter_zeroed]
    have e0 : value x0 (filterVars dead c.1) ≤ c.2 := (value_filter hd0 _).le.trans (hs0.2 c hc)
    by_cases hb : 0 < c.2
    · by_cases hnil : filterVars dead c.1 = []
      · rw [hnil]
        exact hb.le
      · exact hs.2 (filterVars dead c.1, c.2) (mem_remaining.2 ⟨c, hc, hb, rfl, hnil⟩)
    · have h1 : filterVars dead c.1 = [] := by
        unfold filterVars
        rw [List.filter_eq_nil_iff]
        intro t ht
        have : t.2 ∈ dead := List.mem_append_right _ (mem_killed.2 ⟨c, hc, not_lt.1 hb, t, ht, rfl⟩)
        simpa using this
      rw [h1] at e0 ⊢
      exact e0

/-- A program in which some variables are forced to 0. -/
def demo : LP :=
  { equalities := [([(1, ['x'])], 0), ([(2, ['x']), (1, ['y'])], 4)]
    inequalities := [([(1, ['x']), (3, ['z'])], 6), ([(1, ['x'])], 7)]
    objective := some [(1, ['x']), (1, ['y']), (1, ['z'])] }

/-- Non-vacuity: the program has positive coefficients and a solution; one variable
and two constraints are removed. -/
example : PositiveCoefficients demo ∧
    (∃ x, NonNeg x ∧ Satisfies x demo.equalities demo.inequalities) ∧
    (demo.killNonPositiveVars.map (fun l => (l.equalities, l.inequalities, l.objective))) =
      some ([([(1, ['y'])], 4)], [([(3, ['z'])], 6)], some [(1, ['y']), (1, ['z'])]) := by
  refine ⟨⟨by decide +kernel, by decide +kernel⟩, ⟨fun v => if v = ['y'] then 4 else 0, ?_, ?_⟩,
    by rfl⟩
  · intro v
    simp only
    split_ifs <;> norm_num
  · exact ⟨by decide +kernel, by decide +kernel⟩

/-- **C34 is violated** for programs without solution: the equation `x = 5` is dropped
because `x ≤ 0` kills its only variable, and every assignment satisfies the result. -/
theorem C34_kill_violated : ∃ lp lp' : LP, PositiveCoefficients lp ∧
    lp.killNonPositiveVars = some lp' ∧
    (∀ x, ¬ Satisfies x lp.equalities lp.inequalities) ∧
    (∀ x, Satisfies x lp'.equalities lp'.inequalities) := by
  refine ⟨{ equalities := [([(1, ['x'])], 5)], inequalities := [([(1, ['x'])], 0)]
            objective := some [(1, ['y'])] }, { objective := some [(1, ['y'])] },
      ⟨by decide +kernel, by decide +kernel⟩, rfl, ?_, ?_⟩
  · rintro x ⟨h1, h2⟩
    have h1 := h1 _ (List.mem_singleton_self _)
    have h2 := h2 _ (List.mem_singleton_self _)
    simp only at h1 h2
    linarith
  · intro x
    exact ⟨by simp, by simp⟩

/-! ### Different prefixes -/

/-- **C75 is violated**: the variables of two programs with different prefixes need not
be different. -/
theorem C75_violated : ∃ (p q v w : Var), p ≠ q ∧ p ++ '_' :: v = q ++ '_' :: w :=
  ⟨"a".toList, "a_b".toList, "b_c".toList, "c".toList, by decide, by decide⟩

/-- The effect on an analysis: the second program's constraint restricts the first
program's variable. -/
theorem C75_merge_violated : ∃ (a b a' b' c : LP) (p q : Var), p ≠ q ∧
    a.applyVariablePrefix p = some a' ∧ b.applyVariablePrefix q = some b' ∧ a'.merge b' = some c ∧
    (∃ x, NonNeg x ∧ Satisfies x a.equalities a.inequalities ∧ value x (a.objective.getD []) = 1) ∧
    (∃ x, NonNeg x ∧ Satisfies x b.equalities b.inequalities) ∧
    (∀ x, NonNeg x → Satisfies x c.equalities c.inequalities → value x (a'.objective.getD []) ≤ 0) := by
  refine ⟨{ objective := some [(1, "b_c".toList)] },
    { inequalities := [([(1, "c".toList)], 0)], objective := some [] },
    { objective := some [(1, "a_b_c".toList)] },
    { inequalities := [([(1, "a_b_c".toList)], 0)], objective := some [] },
    { inequalities := [([(1, "a_b_c".toList)], 0)], objective := some [(1, "a_b_c".toList)] },
    "a".toList, "a_b".toList, by decide, by rfl, by rfl, by rfl, ⟨fun _ => 1, ?_, ?_, ?_⟩,
    ⟨fun _ => 0, ?_, ?_⟩, ?_⟩
  · intro v; norm_num
  · exact ⟨by simp, by simp⟩
  · simp
  · intro v; exact le_rfl
  · exact ⟨by simp, by simp⟩
  · rintro x - ⟨-, h⟩
    have := h _ (List.mem_singleton_self _)
    simpa using this

/-- **C75**: prefixes that do not contain the separator keep the variables apart. -/
theorem C75_disjoint_partial (p q v w : Var) (hp : '_' ∉ p) (hq : '_' ∉ q)
    (h : p ++ '_' :: v = q ++ '_' :: w) : p = q ∧ v = w := by
  induction p generalizing q with
  | nil =>
    cases q with
    | nil => simpa using h
    | cons d q =>
      simp only [List.nil_append, List.cons_append, List.cons.injEq] at h
      exact absurd (by rw [h.1]; simp) hq
  | cons c p ih =>
    cases q with
    | nil =>
      simp only [List.nil_append, List.cons_append, List.cons.injEq] at h
      exact absurd (by rw [← h.1]; simp) hp
    | cons d q =>
      simp only [List.cons_append, List.cons.injEq] at h
      obtain ⟨rfl, h⟩ := h
      obtain ⟨rfl, rfl⟩ := ih q (fun h => hp (by simp [h])) (fun h => hq (by simp [h])) h
      exact ⟨rfl, rfl⟩

example : '_' ∉ "t1".toList ∧ '_' ∉ "t23".toList := by decide

/-! ### The text -/

/-- The text without line breaks. -/
abbrev strip (l : List Tok) : List Tok := l.filter (fun t => decide (t ≠ .newline))

/-- No further term starts here. -/
def Stop (r : List Tok) : Prop := r.head? ≠ some .plus ∧ r.head? ≠ some .minus

theorem readTerms_stop {r : List Tok} (h : Stop r) : readTerms r = ([], r) := by
  unfold readTerms
  split
  · simp [Stop] at h
  · simp [Stop] at h
  · rfl

theorem strip_writeTerms_cons (t : ℚ × Var) (v : Terms) : strip (writeTerms (t :: v)) =
    (if t.1 < 0 then [.minus, .num (-t.1), .name t.2] else [.plus, .num t.1, .name t.2]) ++
      strip (writeTerms v) := by
  unfold strip writeTerms
  rw [List.flatMap_cons, List.filter_append]
  congr 1
  split_ifs <;> rfl

theorem strip_writeTerms_append (u v : Terms) :
    strip (writeTerms (u ++ v)) = strip (writeTerms u) ++ strip (writeTerms v) := by
  unfold strip writeTerms
  rw [List.flatMap_append, List.filter_append]

theorem readTerms_write (v : Terms) {r : List Tok} (hr : Stop r) :
    readTerms (strip (writeTerms v) ++ r) = (v, r) := by
  induction v with
  | nil => exact readTerms_stop hr
  | cons t v ih =>
    rw [strip_writeTerms_cons]
    split_ifs with h
    · simp only [List.cons_append, List.nil_append]
      rw [readTerms, ih]
      simp
    · simp only [List.cons_append, List.nil_append]
      rw [readTerms, ih]

theorem strip_chunks {perLine : ℕ} (hpl : 1 ≤ perLine) : ∀ (fuel : ℕ) (rest : Terms),
    rest.length ≤ fuel → strip (writeChunks perLine fuel rest) = strip (writeTerms rest)
  | 0, rest, h => by
    rw [List.length_eq_zero_iff.1 (Nat.le_zero.1 h)]
    rfl
  | fuel + 1, [], h => rfl
  | fuel + 1, t :: rest, h => by
    rw [writeChunks]
    have e : strip (.newline :: writeTerms ((t :: rest).take perLine) ++
        writeChunks perLine fuel ((t :: rest).drop perLine)) =
        strip (writeTerms ((t :: rest).take perLine)) ++
          strip (writeChunks perLine fuel ((t :: rest).drop perLine)) := by
      unfold strip
      rw [List.cons_append, List.filter_cons, if_neg (by simp), List.filter_append]
    rw [e, strip_chunks hpl fuel _ (by rw [List.length_drop]; omega), ← strip_writeTerms_append,
      List.take_append_drop]
    · simp

theorem readSum_write {perLine : ℕ} (hpl : 1 ≤ perLine) (v : Terms) {r : List Tok} (hr : Stop r)
    (hname : ∀ n, r.head? ≠ some (.name n)) :
    readSum (strip (writeSum perLine v) ++ r) = some (v, r) := by
  cases v with
  | nil =>
    have e : strip (writeSum perLine []) = [.num 0] := rfl
    rw [e, List.cons_append, List.nil_append]
    cases r with
    | nil => simp [readSum]
    | cons a r =>
      cases a with
      | name n => exact absurd rfl (hname n)
      | _ => simp [readSum]
  | cons t rest =>
    have e : strip (writeSum perLine (t :: rest)) =
        .num t.1 :: .name t.2 :: strip (writeTerms rest) := by
      rw [writeSum]
      unfold strip
      rw [List.cons_append, List.cons_append, List.filter_cons, if_pos (by simp), List.filter_cons,
        if_pos (by simp), List.filter_append]
      congr 2
      have := strip_chunks hpl rest.length (rest.drop (perLine - 1)) (by rw [List.length_drop]; omega)
      unfold strip at this
      rw [this]
      have := strip_writeTerms_append (rest.take (perLine - 1)) (rest.drop (perLine - 1))
      unfold strip at this
      rw [← this, List.take_append_drop]
    rw [e, List.cons_append, List.cons_append, readSum, readTerms_write rest hr]

theorem strip_constraints_cons (rel : Tok) (hrel : rel ≠ .newline) (c : Terms × ℚ)
    (cs : List (Terms × ℚ)) : strip (writeConstraints rel (c :: cs)) =
      strip (writeSum 7 c.1) ++ rel :: .num (sixDecimals c.2) :: strip (writeConstraints rel cs) := by
  unfold strip writeConstraints
  rw [List.flatMap_cons, List.filter_append, List.filter_append, List.append_assoc]
  congr 1
  rw [List.filter_cons, if_pos (by simpa using hrel)]
  rfl

/-- A sum is not the end. -/
theorem sum_ne_end (v : Terms) (r : List Tok) : strip (writeSum 7 v) ++ r ≠ [.word "End"] := by
  cases v with
  | nil => simp [strip, writeSum]
  | cons t v => simp [strip, writeSum]

theorem read_ineqs (cs : List (Terms × ℚ)) : ∀ fuel, cs.length + 1 ≤ fuel →
    readConstraints fuel (strip (writeConstraints .atMost cs) ++ [.word "End"]) =
      some ([], cs.map (fun c => (c.1, sixDecimals c.2))) := by
  induction cs with
  | nil =>
    intro fuel h
    obtain ⟨fuel, rfl⟩ : ∃ k, fuel = k + 1 := ⟨fuel - 1, by omega⟩
    rw [readConstraints, if_pos (by rfl)]
    rfl
  | cons c cs ih =>
    intro fuel h
    obtain ⟨fuel, rfl⟩ : ∃ k, fuel = k + 1 := ⟨fuel - 1, by omega⟩
    rw [readConstraints, strip_constraints_cons _ (by simp), List.append_assoc, if_neg (sum_ne_end _ _),
      readSum_write (by omega) _ (by constructor <;> simp) (by simp)]
    simp only [List.cons_append]
    rw [ih fuel (by simpa using h)]
    rfl

theorem read_constraints (es cs : List (Terms × ℚ)) : ∀ fuel, es.length + cs.length + 1 ≤ fuel →
    readConstraints fuel (strip (writeConstraints .equals es) ++
      (strip (writeConstraints .atMost cs) ++ [.word "End"])) =
      some (es.map (fun c => (c.1, sixDecimals c.2)), cs.map (fun c => (c.1, sixDecimals c.2))) := by
  induction es with
  | nil =>
    intro fuel h
    exact read_ineqs cs fuel (by simpa using h)
  | cons c es ih =>
    intro fuel h
    obtain ⟨fuel, rfl⟩ : ∃ k, fuel = k + 1 := ⟨fuel - 1, by simp at h; omega⟩
    rw [readConstraints, strip_constraints_cons _ (by simp), List.append_assoc, if_neg (sum_ne_end _ _),
      readSum_write (by omega) _ (by constructor <;> simp) (by simp)]
    simp only [List.cons_append]
    rw [ih fuel (by simp at h; omega)]
    rfl

theorem length_constraints (rel : Tok) (hrel : rel ≠ .newline) (cs : List (Terms × ℚ)) :
    cs.length ≤ (strip (writeConstraints rel cs)).length := by
  induction cs with
  | nil => simp
  | cons c cs ih =>
    rw [strip_constraints_cons _ hrel]
    simp only [List.length_append, List.length_cons]
    omega

theorem read_write (lp : LP) (obj : Terms) (hobj : lp.objective = some obj) :
    ∃ text, lp.writeCplex = some text ∧ readProgram text = some (lp.goal, obj,
      lp.equalities.map (fun c => (c.1, sixDecimals c.2)),
      lp.inequalities.map (fun c => (c.1, sixDecimals c.2))) := by
  refine ⟨_, by unfold LP.writeCplex; rw [hobj]; rfl, ?_⟩
  have e : List.filter (fun t => decide (t ≠ Tok.newline))
      ([.word lp.goal, .newline] ++ writeSum 7 obj ++ [.newline, .word "Subject To", .newline] ++
      writeConstraints .equals lp.equalities ++ writeConstraints .atMost lp.inequalities ++
      [.word "End", .newline]) = .word lp.goal :: (strip (writeSum 7 obj) ++ .word "Subject To" ::
        (strip (writeConstraints .equals lp.equalities) ++
          (strip (writeConstraints .atMost lp.inequalities) ++ [.word "End"]))) := by
    simp [strip, List.filter_append, List.append_assoc]
  unfold readProgram
  rw [e]
  simp only
  rw [readSum_write (by omega) _ (by constructor <;> simp) (by simp)]
  simp only [if_true]
  rw [read_constraints]
  · rfl
  · have h1 := length_constraints .equals (by simp) lp.equalities
    have h2 := length_constraints .atMost (by simp) lp.inequalities
    simp only [List.length_append, List.length_cons]
    omega

/-- **C76 is violated**: bounds are written with six decimals, so a program in which
`x ≤ 1/10^7` and `y ≤ 10^7 x` denotes, as text, one in which `y` must be 0. -/
theorem C76_violated : ∃ (lp : LP) (obj : Terms) (text : List Tok) (es cs : List (Terms × ℚ)),
    lp.objective = some obj ∧ lp.writeCplex = some text ∧
    readProgram text = some (lp.goal, obj, es, cs) ∧
    (∃ x, NonNeg x ∧ Satisfies x lp.equalities lp.inequalities ∧ value x obj = 1) ∧
    (∀ x, NonNeg x → Satisfies x es cs → value x obj = 0) := by
  let lp : LP :=
    { inequalities := [([(1, ['x'])], 1 / 10000000), ([(1, ['y']), (-10000000, ['x'])], 0)]
      objective := some [(1, ['y'])] }
  obtain ⟨text, h1, h2⟩ := read_write lp [(1, ['y'])] rfl
  refine ⟨lp, [(1, ['y'])], text, _, _, rfl, h1, h2, ⟨fun v => if v = ['x'] then 1 / 10000000 else 1,
    ?_, ?_, ?_⟩, ?_⟩
  · intro v
    simp only
    split_ifs <;> norm_num
  · exact ⟨by simp [lp], by decide +kernel⟩
  · decide +kernel
  · rintro x hx ⟨-, h⟩
    have e : sixDecimals (1 / 10000000) = 0 ∧ sixDecimals 0 = 0 := by decide +kernel
    have h3 := h ([(1, ['x'])], sixDecimals (1 / 10000000)) (by simp [lp])
    have h4 := h ([(1, ['y']), (-10000000, ['x'])], sixDecimals 0) (by simp [lp])
    rw [e.1] at h3
    rw [e.2] at h4
    simp only [value_cons, value_nil] at h3 h4 ⊢
    have h5 := hx ['x']
    have h6 := hx ['y']
    linarith

/-- **C76**: with bounds of at most six decimals, the text denotes exactly the program
that was built. -/
theorem C76_text_partial (lp : LP) (obj : Terms) (hobj : lp.objective = some obj)
    (hsix : ∀ c ∈ lp.equalities ++ lp.inequalities, ∃ k : ℤ, c.2 = k / 1000000) :
    ∃ text, lp.writeCplex = some text ∧
      readProgram text = some (lp.goal, obj, lp.equalities, lp.inequalities) := by
  obtain ⟨text, h1, h2⟩ := read_write lp obj hobj
  refine ⟨text, h1, h2.trans ?_⟩
  have key : ∀ cs : List (Terms × ℚ), (∀ c ∈ cs, ∃ k : ℤ, c.2 = k / 1000000) →
      cs.map (fun c => (c.1, sixDecimals c.2)) = cs := by
    intro cs h
    conv_rhs => rw [← List.map_id cs]
    apply List.map_congr_left
    intro c hc
    obtain ⟨k, hk⟩ := h c hc
    have : sixDecimals c.2 = c.2 := by
      unfold sixDecimals
      rw [hk, div_mul_cancel₀ _ (by norm_num)]
      have : ⌊(k : ℚ) + 1 / 2⌋ = k := by
        rw [Int.floor_eq_iff]
        constructor <;> linarith
      rw [this]
    rw [this]
    rfl
  rw [key _ (fun c hc => hsix c (List.mem_append_left _ hc)),
    key _ (fun c hc => hsix c (List.mem_append_right _ hc))]

/-- Non-vacuity: more terms than fit on one line, a negative coefficient and an empty
sum. -/
example : let v : Terms := (List.range 17).map (fun i : ℕ => ((3 - (i : ℚ)), [Char.ofNat (97 + i)]))
    let lp : LP := { equalities := [(v, 1 / 8)], inequalities := [([], 3)], objective := some v }
    (∀ c ∈ lp.equalities ++ lp.inequalities, ∃ k : ℤ, c.2 = k / 1000000) := by
  intro v lp c hc
  simp only [lp, List.cons_append, List.nil_append, List.mem_cons, List.not_mem_nil, or_false] at hc
  rcases hc with rfl | rfl
  · exact ⟨125000, by norm_num⟩
  · exact ⟨3000000, by norm_num⟩

end Verif.LinProg
