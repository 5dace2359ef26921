/-
What happens in a run with spin locks and without nesting is a feasible assignment of the integer linear programs for
nested spin locks.
-/
import Verif.Model.LpNested
import Verif.Lemmas.LpSpinCount

namespace Verif.SR.Lp
open Verif.Spec Finset
open Verif.SR.Msrp (system uses_iff)
open Verif.Nested (CritSec TaskCs outerLocks outerLoop)

/-! ### Lists -/

theorem card_le_listSum {α β : Type} [DecidableEq α] (P : β → α → Prop) [∀ b, DecidablePred (P b)] (L : List β) :
    ∀ F : Finset α, (∀ z ∈ F, ∃ s ∈ L, P s z) → F.card ≤ (L.map (fun s => (F.filter (P s)).card)).sum := by
  induction L with
  | nil =>
    intro F h
    rcases F.eq_empty_or_nonempty with rfl | ⟨z, hz⟩
    · simp
    · obtain ⟨s, hs, _⟩ := h z hz
      simp at hs
  | cons b L ih =>
    intro F h
    rw [List.map_cons, List.sum_cons, ← card_filter_add_card_filter_not (s := F) (P b)]
    apply Nat.add_le_add_left
    refine (ih (F.filter (fun z => ¬ P b z)) ?_).trans ?_
    · intro z hz
      obtain ⟨hz, hn⟩ := mem_filter.1 hz
      obtain ⟨s, hs, hp⟩ := h z hz
      rcases List.mem_cons.1 hs with rfl | hs
      · exact absurd hp hn
      · exact ⟨s, hs, hp⟩
    · apply List.sum_le_sum
      intro s _
      exact card_le_card (filter_subset_filter _ (filter_subset _ _))

theorem listSum_le_card {α β : Type} [DecidableEq α] (P : β → α → Prop) [∀ b, DecidablePred (P b)] (L : List β)
    (hL : L.Pairwise (fun s t => ∀ z, P s z → ¬ P t z)) :
    ∀ F : Finset α, (L.map (fun s => (F.filter (P s)).card)).sum ≤ F.card := by
  induction L with
  | nil => intro F; simp
  | cons b L ih =>
    intro F
    obtain ⟨hb, hL⟩ := List.pairwise_cons.1 hL
    rw [List.map_cons, List.sum_cons, ← card_filter_add_card_filter_not (s := F) (P b)]
    apply Nat.add_le_add_left
    refine le_trans (List.sum_le_sum ?_) (ih hL (F.filter (fun z => ¬ P b z)))
    intro s hs
    apply card_le_card
    intro z hz
    obtain ⟨hz, hp⟩ := mem_filter.1 hz
    exact mem_filter.2 ⟨mem_filter.2 ⟨hz, fun hc => hb s hs z hc hp⟩, hp⟩

/-! ### Critical sections -/

theorem mem_taskSecs {css : List TaskCs} {ts : List (ℕ × TaskInfo)} {s : TaskSec} :
    s ∈ taskSecs css ts ↔ s.1 ∈ ts ∧ (csOf css s.1.1)[s.2.2]? = some s.2.1 := by
  unfold taskSecs
  rw [List.mem_flatMap]
  constructor
  · rintro ⟨t, ht, h⟩
    obtain ⟨c, hc, rfl⟩ := List.mem_map.1 h
    exact ⟨ht, List.mem_zipIdx_iff_getElem?.1 hc⟩
  · rintro ⟨h1, h2⟩
    exact ⟨s.1, h1, List.mem_map.2 ⟨s.2, List.mem_zipIdx_iff_getElem?.2 h2, rfl⟩⟩

theorem pairwise_zipIdx {α : Type} (l : List α) : ∀ n, (l.zipIdx n).Pairwise (fun a b => a.2 ≠ b.2) := by
  induction l with
  | nil => intro n; simp
  | cons a l ih =>
    intro n
    rw [List.zipIdx_cons, List.pairwise_cons]
    refine ⟨?_, ih _⟩
    intro b hb
    have := List.le_snd_of_mem_zipIdx hb
    simp only
    omega

theorem pairwise_tasks (info : Info) : (tasks info).Pairwise (fun a b => a.1 ≠ b.1) := by
  unfold tasks
  rw [List.pairwise_map]
  exact pairwise_zipIdx _ _

theorem pairwise_taskSecs {css : List TaskCs} {ts : List (ℕ × TaskInfo)} (h : ts.Pairwise (fun a b => a.1 ≠ b.1)) :
    (taskSecs css ts).Pairwise (fun a b => a.1.1 ≠ b.1.1 ∨ a.2.2 ≠ b.2.2) := by
  unfold taskSecs
  rw [List.pairwise_flatMap]
  constructor
  · intro t _
    rw [List.pairwise_map]
    exact (pairwise_zipIdx _ _).imp (fun h => Or.inr h)
  · refine h.imp ?_
    intro a b hab x hx y hy
    obtain ⟨_, _, rfl⟩ := List.mem_map.1 hx
    obtain ⟨_, _, rfl⟩ := List.mem_map.1 hy
    exact Or.inl hab

/-! ### Assignments -/

/-- The first `N x d` instances of critical section `d` of task `x` block directly. -/
def nestAssign (css : List TaskCs) (N : ℕ → ℕ → ℕ) (key : Key) : ℚ :=
  if key.ty = .direct ∧ key.req / (csOf css key.task).length < N key.task (key.req % (csOf css key.task).length)
  then 1 else 0

variable {css : List TaskCs} {N : ℕ → ℕ → ℕ} {ti : TaskInfo}

theorem nestAssign_binary (key : Key) : nestAssign css N key = 0 ∨ nestAssign css N key = 1 := by
  unfold nestAssign
  split_ifs
  · exact Or.inr rfl
  · exact Or.inl rfl

theorem nestAssign_range (key : Key) : 0 ≤ nestAssign css N key ∧ nestAssign css N key ≤ 1 := by
  rcases nestAssign_binary (css := css) (N := N) key with h | h <;> rw [h] <;> constructor <;> norm_num

theorem nestAssign_nested (x v r : ℕ) : nestAssign css N ⟨.indirect, x, v, r⟩ = 0 := by
  simp [nestAssign]

theorem nestAssign_direct {s : TaskSec} (hs : s.2.2 < (csOf css s.1.1).length) (j r : ℕ) :
    nestAssign css N ⟨.direct, s.1.1, s.2.2 + j * (csOf css s.1.1).length, r⟩ =
      if j < N s.1.1 s.2.2 then 1 else 0 := by
  unfold nestAssign
  simp only [true_and]
  rw [Nat.add_mul_div_right _ _ (by omega), Nat.div_eq_of_lt hs, Nat.zero_add, Nat.add_mul_mod_self_right,
    Nat.mod_eq_of_lt hs]

theorem range_sum_lt (a : ℚ) (n : ℕ) : ∀ m, ((List.range m).map (fun j => a * if j < n then (1 : ℚ) else 0)).sum =
    a * ((min m n : ℕ) : ℚ) := by
  intro m
  induction m with
  | zero => simp
  | succ m ih =>
    rw [List.range_succ, List.map_append, List.sum_append, ih]
    by_cases h : m < n
    · rw [Nat.min_eq_left (by omega), Nat.min_eq_left (by omega)]
      simp [h]
      ring
    · rw [Nat.min_eq_right (by omega), Nat.min_eq_right (by omega)]
      simp [h]

theorem termSum_csVars {s : TaskSec} (hs : s.2.2 < (csOf css s.1.1).length)
    (hN : N s.1.1 s.2.2 ≤ jobsToConsider ti s.1.2) (a : ℚ) :
    termSum (nestAssign css N) (csVars css ti a .direct s) = a * (N s.1.1 s.2.2 : ℚ) := by
  unfold termSum csVars csInstances
  rw [List.map_map, List.map_map]
  have := range_sum_lt a (N s.1.1 s.2.2) (jobsToConsider ti s.1.2)
  rw [Nat.min_eq_right hN] at this
  rw [← this]
  congr 1
  apply List.map_congr_left
  intro j _
  simp only [Function.comp_apply]
  rw [nestAssign_direct hs]

theorem termSum_nestedVars (s : TaskSec) (a : ℚ) : termSum (nestAssign css N) (csVars css ti a .indirect s) = 0 := by
  apply termSum_zero
  intro t ht
  obtain ⟨v, _, rfl⟩ := List.mem_map.1 ht
  exact nestAssign_nested _ _ _

theorem termSum_pairs (s : TaskSec) (a : ℚ) :
    termSum (nestAssign css N) ((csInstances css ti s).flatMap (fun v =>
      [(a, ⟨.direct, s.1.1, v, s.2.1.res⟩), (a, ⟨.indirect, s.1.1, v, s.2.1.res⟩)])) =
    termSum (nestAssign css N) (csVars css ti a .direct s) := by
  unfold csVars
  induction csInstances css ti s with
  | nil => rfl
  | cons v l ih =>
    rw [List.flatMap_cons, termSum_append, ih, List.map_cons]
    simp [termSum, nestAssign_nested]

/-- Sums over critical sections. -/
theorem termSum_secs {L : List TaskSec} (h1 : ∀ s ∈ L, s.2.2 < (csOf css s.1.1).length)
    (h2 : ∀ s ∈ L, N s.1.1 s.2.2 ≤ jobsToConsider ti s.1.2) (a : ℚ) :
    termSum (nestAssign css N) (L.flatMap (csVars css ti a .direct)) =
      a * (((L.map (fun s => N s.1.1 s.2.2)).sum : ℕ) : ℚ) := by
  rw [termSum_flatMap]
  induction L with
  | nil => simp
  | cons s L ih =>
    rw [List.map_cons, List.sum_cons, ih (fun t ht => h1 t (List.mem_cons_of_mem _ ht))
      (fun t ht => h2 t (List.mem_cons_of_mem _ ht)), termSum_csVars (h1 s (List.mem_cons_self ..))
      (h2 s (List.mem_cons_self ..)), List.map_cons, List.sum_cons]
    push_cast
    ring

theorem lt_of_mem_taskSecs {ts : List (ℕ × TaskInfo)} {s : TaskSec} (h : s ∈ taskSecs css ts) :
    s.2.2 < (csOf css s.1.1).length := by
  obtain ⟨_, h⟩ := mem_taskSecs.1 h
  exact (List.getElem?_eq_some_iff.1 h).1

theorem outerSet_none {s : TaskSec} (h : s.2.1.outer = none) : outerSet css s = ∅ := by
  unfold outerSet outerLocks
  rw [h]
  cases (csOf css s.1.1).length <;> rfl

section
variable {info : Info} {i : ℕ} {P : Program}

theorem feasible_nested (paths : CsPaths)
    (hN : ∀ s ∈ taskSecs css (tasks info), N s.1.1 s.2.2 ≤ jobsToConsider ti s.1.2)
    (houter : ∀ s ∈ taskSecs css (tasks info), s.2.1.outer = none)
    (hlocal : ∀ s ∈ taskSecs css (localLowerEq info i ti), isLocalLower info css ti s.2.1.res → N s.1.1 s.2.2 = 0)
    (harr : ((taskSecs css (localLowerEq info i ti)).map (fun s => N s.1.1 s.2.2)).sum ≤ 1)
    (hrem : ∀ k, k ≠ ti.cluster → ∀ q,
      (((taskSecs css ((tasks info).filter (fun t => t.2.cluster = k))).filter (fun s => s.2.1.res = q)).map
        (fun s => N s.1.1 s.2.2)).sum ≤
      (((taskSecs css ((tasks info).filter (fun t => t.2.cluster = ti.cluster))).filter (fun s => s.2.1.res = q)).map
        (fun s => N s.1.1 s.2.2)).sum) :
    (remoteConstraints info css ti paths (arrivalBlockingConstraints info css i ti
      (localResourceConstraints info css i ti (nestingConstraints info css ti (typeConstraints info css ti
        (nestedObjective info css ti {})))))).Feasible (nestAssign css N) := by
  have hsub : ∀ {ts : List (ℕ × TaskInfo)}, (∀ t ∈ ts, t ∈ tasks info) → ∀ s ∈ taskSecs css ts,
      s ∈ taskSecs css (tasks info) := by
    intro ts h s hs
    obtain ⟨h1, h2⟩ := mem_taskSecs.1 hs
    exact mem_taskSecs.2 ⟨h _ h1, h2⟩
  have hlow : ∀ t ∈ localLowerEq info i ti, t ∈ tasks info := fun t ht => (List.mem_filter.1 ht).1
  have h0 : (nestedObjective info css ti {}).Feasible (nestAssign css N) := by
    have := feasible_empty (x := nestAssign css N) nestAssign_range
    exact ⟨this.eq, this.le, this.integer, this.binary, this.range⟩
  have h1 : (typeConstraints info css ti (nestedObjective info css ti {})).Feasible (nestAssign css N) := by
    unfold typeConstraints
    refine feasible_foldl (fun s _ P hP => feasible_foldl (fun v _ P hP => ?_) hP) h0
    apply feasible_addInequality
    · exact feasible_declareBinary (feasible_declareBinary hP (nestAssign_binary _)) (nestAssign_binary _)
    · simp only [termSum, List.map_cons, List.map_nil, List.sum_cons, List.sum_nil, nestAssign_nested]
      have := (nestAssign_range (css := css) (N := N) ⟨.direct, s.1.1, v, s.2.1.res⟩).2
      linarith
  have h2 : (nestingConstraints info css ti (typeConstraints info css ti (nestedObjective info css ti {}))).Feasible
      (nestAssign css N) := by
    unfold nestingConstraints
    refine feasible_foldl (fun s hs P hP => feasible_foldl (fun v _ P hP => ?_) hP) h1
    rw [houter s hs]
    apply feasible_addEquality hP
    simp [termSum, nestAssign_nested]
  have h3 : (localResourceConstraints info css i ti (nestingConstraints info css ti (typeConstraints info css ti
      (nestedObjective info css ti {})))).Feasible (nestAssign css N) := by
    apply feasible_addEquality h2
    rw [termSum_secs (fun s hs => lt_of_mem_taskSecs (List.mem_filter.1 hs).1)
      (fun s hs => hN s (hsub hlow s (List.mem_filter.1 hs).1)), one_mul]
    norm_cast
    apply List.sum_eq_zero
    intro n hn
    obtain ⟨s, hs, rfl⟩ := List.mem_map.1 hn
    obtain ⟨hs, hl⟩ := List.mem_filter.1 hs
    exact hlocal s hs hl
  have h4 : (arrivalBlockingConstraints info css i ti (localResourceConstraints info css i ti
      (nestingConstraints info css ti (typeConstraints info css ti
        (nestedObjective info css ti {}))))).Feasible (nestAssign css N) := by
    apply feasible_addInequality h3
    rw [termSum_secs (fun s hs => lt_of_mem_taskSecs hs) (fun s hs => hN s (hsub hlow s hs)), one_mul]
    exact_mod_cast harr
  unfold remoteConstraints
  refine feasible_foldl (fun k hk P hP => feasible_foldl (fun q _ P hP => feasible_foldl (fun sr _ P hP => ?_) hP) hP) h4
  have hk : k ≠ ti.cluster := by
    have := (List.mem_filter.1 hk).2
    simpa using this
  have hmem : ∀ {p : ℕ × TaskInfo → Bool}, ∀ t ∈ (tasks info).filter p, t ∈ tasks info :=
    fun t ht => (List.mem_filter.1 ht).1
  unfold remoteForResource
  dsimp only
  split_ifs with hemp
  · exact hP
  have hsr : sr = ∅ := by
    by_contra hne
    apply hemp
    rw [List.isEmpty_iff, List.flatMap_eq_nil_iff]
    intro s hs
    exfalso
    obtain ⟨hs, hc⟩ := List.mem_filter.1 hs
    have := (of_decide_eq_true hc).2
    rw [outerSet_none (houter s (hsub hmem s hs)), subset_empty] at this
    exact hne this
  subst hsr
  apply feasible_addInequality hP
  rw [termSum_append, termSum_append]
  rw [termSum_secs (fun s hs => lt_of_mem_taskSecs (List.mem_filter.1 hs).1)
      (fun s hs => hN s (hsub hmem s (List.mem_filter.1 hs).1)),
    termSum_secs (fun s hs => lt_of_mem_taskSecs (List.mem_filter.1 hs).1)
      (fun s hs => hN s (hsub hmem s (List.mem_filter.1 hs).1))]
  rw [show termSum (nestAssign css N) (List.flatMap (csVars css ti (-1) .indirect) (List.filter (fun s : TaskSec =>
      decide (s.2.1.res = q ∧ ∅ ∩ outerSet css s = ∅ ∧ ∅ ∩ pathSet paths s = ∅))
      (taskSecs css ((tasks info).filter (fun t => t.2.cluster ≠ k))))) = 0 by
    rw [termSum_flatMap]
    apply List.sum_eq_zero
    intro a ha
    obtain ⟨s, _, rfl⟩ := List.mem_map.1 ha
    exact termSum_nestedVars s _]
  have := hrem k hk q
  have e1 : (fun s : TaskSec => decide (s.2.1.res = q ∧ (∅ : Finset ℕ) ⊆ outerSet css s)) =
      fun s => decide (s.2.1.res = q) := by
    funext s
    simp
  have e2 : (fun s : TaskSec => decide (s.2.1.res = q ∧ (∅ : Finset ℕ) ∩ outerSet css s = ∅)) =
      fun s => decide (s.2.1.res = q) := by
    funext s
    simp
  rw [e1, e2]
  have h5 : ((((taskSecs css ((tasks info).filter (fun t => t.2.cluster = k))).filter (fun s =>
      decide (s.2.1.res = q))).map (fun s => N s.1.1 s.2.2)).sum : ℚ) ≤
      ((((taskSecs css ((tasks info).filter (fun t => t.2.cluster = ti.cluster))).filter (fun s =>
        decide (s.2.1.res = q))).map (fun s => N s.1.1 s.2.2)).sum : ℕ) := by exact_mod_cast this
  linarith

theorem objective_nested (paths : CsPaths) :
    (remoteConstraints info css ti paths (arrivalBlockingConstraints info css i ti
      (localResourceConstraints info css i ti (nestingConstraints info css ti (typeConstraints info css ti
        (nestedObjective info css ti {})))))).objective = (nestedObjective info css ti {}).objective := by
  unfold remoteConstraints
  rw [objective_foldl]
  · unfold arrivalBlockingConstraints localResourceConstraints
    rw [objective_addInequality, objective_addEquality]
    unfold nestingConstraints
    rw [objective_foldl]
    · unfold typeConstraints
      rw [objective_foldl]
      intro P s
      rw [objective_foldl]
      intro P v
      rw [objective_addInequality]
      rfl
    · intro P s
      rw [objective_foldl]
      intro P v
      split
      · split
        · rw [objective_addInequality]
        · rfl
      · rw [objective_addEquality]
  · intro P k
    rw [objective_foldl]
    intro P q
    rw [objective_foldl]
    intro P sr
    unfold remoteForResource
    dsimp only
    split_ifs
    · rfl
    · rw [objective_addInequality]

theorem value_nested (hN : ∀ s ∈ taskSecs css (tasks info), N s.1.1 s.2.2 ≤ jobsToConsider ti s.1.2) :
    termSum (nestAssign css N) (nestedObjective info css ti {}).objective =
      (((taskSecs css ((tasks info).filter (fun t => t.2.priority > ti.priority ∨ t.2.cluster ≠ ti.cluster))).map
        (fun s => s.2.1.len * N s.1.1 s.2.2)).sum : ℕ) := by
  unfold nestedObjective
  simp only [List.nil_append]
  rw [termSum_flatMap]
  have : ∀ L : List TaskSec, (∀ s ∈ L, s ∈ taskSecs css (tasks info)) →
      (L.map (fun s => termSum (nestAssign css N) ((csInstances css ti s).flatMap (fun v =>
        [((s.2.1.len : ℚ), ⟨.direct, s.1.1, v, s.2.1.res⟩), ((s.2.1.len : ℚ), ⟨.indirect, s.1.1, v, s.2.1.res⟩)])))).sum
      = ((L.map (fun s => s.2.1.len * N s.1.1 s.2.2)).sum : ℕ) := by
    intro L
    induction L with
    | nil => simp
    | cons s L ih =>
      intro h
      have hs := h s (List.mem_cons_self ..)
      rw [List.map_cons, List.sum_cons, ih (fun t ht => h t (List.mem_cons_of_mem _ ht)), termSum_pairs,
        termSum_csVars (lt_of_mem_taskSecs hs) (hN s hs), List.map_cons, List.sum_cons]
      push_cast
      ring
  apply this
  intro s hs
  obtain ⟨h1, h2⟩ := mem_taskSecs.1 hs
  exact mem_taskSecs.2 ⟨(List.mem_filter.1 h1).1, h2⟩

end

end Verif.SR.Lp
