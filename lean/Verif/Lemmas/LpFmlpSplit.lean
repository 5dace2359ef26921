/-
The linear programs of the FMLP+ analysis: local and remote blocking are independent, and local blocking is a whole number.
-/
import Verif.Lemmas.LpFmlp
import Verif.Lemmas.LpSplit

namespace Verif.SR.Lp
open Verif.Spec Finset
open Verif.SR.Msrp (system)

variable {info : Info} {k : Fin info.length}

/-- The variables of tasks on the processor of task `k`. -/
def LocalKey (info : Info) (k : Fin info.length) (v : Key) : Prop :=
  ∃ i : Fin info.length, (i : ℕ) = v.task ∧ (info.get i).cluster = (info.get k).cluster

theorem localKey_iff {x : Fin info.length} {v : Key} (hv : v.task = x) :
    LocalKey info k v ↔ (info.get x).cluster = (info.get k).cluster := by
  constructor
  · rintro ⟨i, hi, hc⟩
    rwa [show i = x from Fin.ext (hi.trans hv)] at hc
  · intro hc
    exact ⟨x, hv.symm, hc⟩

theorem mem_terms {ti : TaskInfo} {tys : List BlockingType} {t : ℕ × TaskInfo} {r : Request} {c : ℚ} {e : ℚ × Key} :
    e ∈ terms ti tys t r c ↔ ∃ v < instances ti t.2 r, ∃ ty ∈ tys, e = (c, ⟨ty, t.1, v, r.resId⟩) := by
  unfold terms
  simp only [List.mem_flatMap, List.mem_range, List.mem_map]
  constructor
  · rintro ⟨v, hv, ty, hty, rfl⟩
    exact ⟨v, hv, ty, hty, rfl⟩
  · rintro ⟨v, hv, ty, hty, rfl⟩
    exact ⟨v, hv, ty, hty, rfl⟩

theorem mem_allTerms {ti : TaskInfo} {tys : List BlockingType} {t : ℕ × TaskInfo} {e : ℚ × Key} :
    e ∈ allTerms ti tys t ↔ ∃ r ∈ t.2.requests, e ∈ terms ti tys t r 1 := by
  unfold allTerms
  rw [List.mem_flatMap]

/-- All terms of a task are about it. -/
theorem split_of_task (x : Fin info.length) {e : Exp} (he : ∀ t ∈ e, t.2.task = x) :
    (∀ t ∈ e, LocalKey info k t.2) ∨ ∀ t ∈ e, ¬ LocalKey info k t.2 := by
  by_cases hc : (info.get x).cluster = (info.get k).cluster
  · exact Or.inl (fun t ht => (localKey_iff (he t ht)).2 hc)
  · exact Or.inr (fun t ht hl => hc ((localKey_iff (he t ht)).1 hl))

theorem terms_task {ti : TaskInfo} {tys : List BlockingType} {t : ℕ × TaskInfo} {r : Request} {c : ℚ} :
    ∀ e ∈ terms ti tys t r c, e.2.task = t.1 := by
  intro e he
  obtain ⟨v, _, ty, _, rfl⟩ := mem_terms.1 he
  rfl

theorem allTerms_task {ti : TaskInfo} {tys : List BlockingType} {t : ℕ × TaskInfo} :
    ∀ e ∈ allTerms ti tys t, e.2.task = t.1 := by
  intro e he
  obtain ⟨r, _, he⟩ := mem_allTerms.1 he
  exact terms_task e he

theorem allTerms_one {ti : TaskInfo} {tys : List BlockingType} {ts : List (ℕ × TaskInfo)} :
    ∀ e ∈ ts.flatMap (allTerms ti tys), e.1 = 1 := by
  intro e he
  obtain ⟨t, _, he⟩ := List.mem_flatMap.1 he
  obtain ⟨r, _, he⟩ := mem_allTerms.1 he
  obtain ⟨v, _, ty, _, rfl⟩ := mem_terms.1 he
  rfl

theorem mem_others {i : ℕ} {t : ℕ × TaskInfo} (ht : t ∈ others info i) : ∃ x : Fin info.length, t = ((x : ℕ), info.get x) :=
  mem_tasks.1 (List.mem_filter.1 ht).1

theorem splits_semMutex {P : Program} (h : Splits (LocalKey info k) P) (i : ℕ) (ti : TaskInfo) :
    Splits (LocalKey info k) (semMutex info i ti P) := by
  refine Splits.foldl (fun t ht P h => Splits.foldl (fun r _ P h => Splits.foldl (fun v _ P h => ?_) h) h) h
  obtain ⟨x, rfl⟩ := mem_others ht
  apply h.addInequality
  apply split_of_task x
  intro t ht
  simp only [List.mem_cons, List.not_mem_nil, or_false] at ht
  rcases ht with rfl | rfl | rfl <;> rfl

theorem splits_fmlp (ti : TaskInfo) (i : ℕ) (o : Exp) :
    Splits (LocalKey info k) (fmlpConstraints info i ti { objective := o }) := by
  have h0 : Splits (LocalKey info k) ({ objective := o } : Program) := ⟨by simp, by simp, rfl, rfl⟩
  unfold fmlpConstraints
  have h1 : Splits (LocalKey info k) (lowerShm info i ti (topologyShm info ti (higherShm info ti
      (semMutex info i ti { objective := o })))) := by
    refine Splits.foldl (fun t ht P h => ?_)
      (Splits.addEquality (Splits.addEquality (splits_semMutex h0 i ti) allTerms_one) allTerms_one)
    obtain ⟨x, rfl⟩ := mem_tasks.1 (List.mem_filter.1 ht).1
    exact h.addInequality (split_of_task x allTerms_task)
  refine Splits.foldl (fun t ht P h => ?_) (Splits.foldl (fun t ht P h => ?_) (Splits.foldl (fun t ht P h =>
    Splits.foldl (fun r _ P h => ?_) h) h1))
  · obtain ⟨x, rfl⟩ := mem_tasks.1 (List.mem_filter.1 ht).1
    exact h.addInequality (split_of_task x allTerms_task)
  · obtain ⟨x, rfl⟩ := mem_others ht
    exact h.addInequality (split_of_task x allTerms_task)
  · obtain ⟨x, rfl⟩ := mem_others ht
    exact h.addInequality (split_of_task x terms_task)

theorem blockingTerms_filter (x : Key → ℚ) (ti : TaskInfo) (p : ℕ × TaskInfo → Prop) [DecidablePred p]
    (ts : List (ℕ × TaskInfo)) : termSum x (blockingTerms ti ts) =
      termSum x (blockingTerms ti (ts.filter (fun t => p t))) + termSum x (blockingTerms ti (ts.filter (fun t => ¬ p t))) := by
  induction ts with
  | nil => simp [blockingTerms, termSum]
  | cons t ts ih =>
    have e : ∀ l, termSum x (blockingTerms ti (t :: l)) = termSum x (t.2.requests.flatMap (fun r =>
        terms ti [.direct, .indirect, .preempt] t r r.length)) + termSum x (blockingTerms ti l) := by
      intro l
      unfold blockingTerms
      rw [List.flatMap_cons, termSum_append]
    rw [e, ih, List.filter_cons, List.filter_cons]
    by_cases hp : p t
    · simp only [hp, decide_true, if_true, not_true, decide_false]
      rw [e, if_neg (by simp)]
      ring
    · simp only [hp, decide_false, not_false_iff, decide_true, if_true]
      rw [e, if_neg (by simp)]
      ring

theorem blockingTerms_task {ti : TaskInfo} {ts : List (ℕ × TaskInfo)} {e : ℚ × Key} (he : e ∈ blockingTerms ti ts) :
    ∃ t ∈ ts, e.2.task = t.1 := by
  obtain ⟨t, ht, he⟩ := List.mem_flatMap.1 he
  obtain ⟨r, _, he⟩ := List.mem_flatMap.1 he
  exact ⟨t, ht, terms_task e he⟩

theorem objective_split (x : Key → ℚ) (i : ℕ) (ti : TaskInfo) : termSum x (partObjective info i ti) =
    termSum x (localObjective info i ti) + termSum x (remoteObjective info i ti) :=
  blockingTerms_filter x ti (fun t => t.2.cluster = ti.cluster) _

theorem local_terms : ∀ t ∈ localObjective info k (info.get k), LocalKey info k t.2 := by
  intro t ht
  obtain ⟨y, hy, he⟩ := blockingTerms_task ht
  obtain ⟨hy, hc⟩ := List.mem_filter.1 hy
  obtain ⟨x, rfl⟩ := mem_others hy
  exact (localKey_iff he).2 (by simpa using hc)

theorem remote_terms : ∀ t ∈ remoteObjective info k (info.get k), ¬ LocalKey info k t.2 := by
  intro t ht
  obtain ⟨y, hy, he⟩ := blockingTerms_task ht
  obtain ⟨hy, hc⟩ := List.mem_filter.1 hy
  obtain ⟨x, rfl⟩ := mem_others hy
  intro hl
  have := (localKey_iff he).1 hl
  simp only [this, not_true, decide_false] at hc
  cases hc

/-! ### Local blocking -/

/-- The requests of task `i` that are considered for task `k`. -/
def items (info : Info) (k i : Fin info.length) : Finset (Σ _ : Request, ℕ) :=
  (info.get i).requests.toFinset.sigma (fun a => range (instances (info.get k) (info.get i) a))

theorem items_sum (h1 : OneEntry info) (x : Key → ℚ) (tys : List BlockingType) (c : Request → ℚ) (i : Fin info.length) :
    termSum x ((info.get i).requests.flatMap (fun r => terms (info.get k) tys (i, info.get i) r (c r))) =
      ∑ p ∈ items info k i, (tys.map (fun ty => x ⟨ty, i, p.2, p.1.resId⟩)).sum * c p.1 := by
  have hnd : (info.get i).requests.Nodup := List.Nodup.of_map _ (h1 _ (List.get_mem info i))
  unfold items
  rw [sum_sigma, termSum_flatMap, ← List.sum_toFinset _ hnd]
  apply sum_congr rfl
  intro a _
  unfold terms
  rw [termSum_flatMap, ← List.sum_toFinset _ List.nodup_range, List.toFinset_range]
  apply sum_congr rfl
  intro v _
  unfold termSum
  rw [List.map_map, ← List.sum_map_mul_right]
  congr 1
  apply List.map_congr_left
  intro ty _
  simp only [Function.comp_apply]
  ring

theorem items_inj (h1 : OneEntry info) {i : Fin info.length} {a b : Request} {v : ℕ}
    (ha : a ∈ (info.get i).requests) (hb : b ∈ (info.get i).requests) (hab : a.resId = b.resId) :
    (⟨a, v⟩ : Σ _ : Request, ℕ) = ⟨b, v⟩ := by rw [h1.eq_of_mem ha hb hab]

theorem mem_items {i : Fin info.length} {p : Σ _ : Request, ℕ} : p ∈ items info k i ↔
    p.1 ∈ (info.get i).requests ∧ p.2 < instances (info.get k) (info.get i) p.1 := by
  unfold items
  rw [mem_sigma, List.mem_toFinset, mem_range]

open Classical in
/-- There is an optimal value of local blocking, and it is a whole number. -/
theorem local_optimum (info : Info) (k : Fin info.length) (h1 : OneEntry info) (o : Exp) :
    ∃ (n : ℕ) (y : Key → ℚ), (fmlpConstraints info k (info.get k) { objective := o }).Feasible y ∧
      termSum y (localObjective info k (info.get k)) = n ∧
      ∀ x, (fmlpConstraints info k (info.get k) { objective := o }).Feasible x →
        termSum x (localObjective info k (info.get k)) ≤ n := by
  -- how many requests of a task may be counted
  let lim : Fin info.length → ℕ := fun i =>
    if (info.get i).cluster = (info.get k).cluster ∧ (i : ℕ) ≠ k ∧ (info.get i).priority ≥ (info.get k).priority then
      arrivalsShm info (info.get k) else 0
  have hbest := fun i : Fin info.length => best_items (items info k i) (fun p => p.1.length) (lim i)
  choose T hTI hTc hT using hbest
  let y : Key → ℚ := fun v => if v.ty = .preempt ∧ ∃ i : Fin info.length, (i : ℕ) = v.task ∧
    ∃ p ∈ T i, p.1.resId = v.res ∧ p.2 = v.req then 1 else 0
  have hy0 : ∀ v : Key, v.ty ≠ .preempt → y v = 0 := fun v hv => if_neg (fun h => hv h.1)
  have hyT : ∀ i : Fin info.length, ∀ p ∈ items info k i,
      y ⟨.preempt, i, p.2, p.1.resId⟩ = if p ∈ T i then 1 else 0 := by
    intro i p hp
    by_cases hpT : p ∈ T i
    · rw [if_pos hpT]
      exact if_pos ⟨rfl, i, rfl, p, hpT, rfl, rfl⟩
    · rw [if_neg hpT]
      apply if_neg
      rintro ⟨_, i', hi', p', hp', hr, hv⟩
      simp only at hi' hr hv
      have := Fin.ext hi'
      subst this
      obtain ⟨a, v⟩ := p
      obtain ⟨a', v'⟩ := p'
      simp only at hr hv
      subst hv
      have h2 := mem_items.1 (hTI _ hp')
      rw [items_inj h1 (mem_items.1 hp).1 h2.1 hr.symm] at hpT
      exact hpT hp'
  have hy01 : ∀ v, 0 ≤ y v ∧ y v ≤ 1 := by
    intro v
    simp only [y]
    split_ifs <;> norm_num
  have hsum : ∀ i : Fin info.length, ∀ c : Request → ℚ, ∑ p ∈ items info k i, y ⟨.preempt, i, p.2, p.1.resId⟩ * c p.1 =
      ∑ p ∈ T i, c p.1 := by
    intro i c
    rw [sum_congr rfl (fun p hp => by rw [hyT i p hp])]
    rw [← sum_filter_add_sum_filter_not (items info k i) (fun p => p ∈ T i)]
    rw [sum_congr rfl (fun p hp => by rw [if_pos (mem_filter.1 hp).2, one_mul]),
      sum_congr (s₁ := (items info k i).filter (fun p => p ∉ T i)) rfl
        (fun p hp => by rw [if_neg (mem_filter.1 hp).2, zero_mul]), sum_const_zero, add_zero]
    congr 1
    ext p
    rw [mem_filter]
    exact ⟨fun h => h.2, fun h => ⟨hTI i h, h⟩⟩
  have hobj : ∀ z : Key → ℚ, termSum z (localObjective info k (info.get k)) =
      ∑ i ∈ univ.filter (fun i : Fin info.length => (i : ℕ) ≠ k ∧ (info.get i).cluster = (info.get k).cluster),
        ∑ p ∈ items info k i, (z ⟨.direct, i, p.2, p.1.resId⟩ + z ⟨.indirect, i, p.2, p.1.resId⟩ +
          z ⟨.preempt, i, p.2, p.1.resId⟩) * p.1.length := by
    intro z
    unfold localObjective blockingTerms others
    rw [List.filter_filter, termSum_flatMap]
    have := tasks_sum (info := info) (fun t : ℕ × TaskInfo => t.1 ≠ (k : ℕ) ∧ t.2.cluster = (info.get k).cluster)
      (fun t => termSum z (t.2.requests.flatMap (fun r =>
        terms (info.get k) [.direct, .indirect, .preempt] t r r.length)))
    refine Eq.trans ?_ (this.trans ?_)
    · congr 2
      apply List.filter_congr
      intro t _
      rw [← Bool.decide_and]
      congr 1
      rw [eq_iff_iff]
      tauto
    · apply sum_congr rfl
      intro i _
      simp only
      rw [items_sum h1 z [.direct, .indirect, .preempt] (fun r => r.length)]
      apply sum_congr rfl
      intro p _
      simp only [List.map_cons, List.map_nil, List.sum_cons, List.sum_nil]
      ring
  refine ⟨∑ i ∈ univ.filter (fun i : Fin info.length => (i : ℕ) ≠ k ∧ (info.get i).cluster = (info.get k).cluster),
    ∑ p ∈ T i, p.1.length, y, ?_, ?_, ?_⟩
  · -- the chosen requests satisfy all constraints
    have hz : ∀ (tys : List BlockingType), (∀ ty ∈ tys, ty ≠ .preempt) → ∀ t r c,
        ∀ e ∈ terms (info.get k) tys t r c, y e.2 = 0 := by
      intro tys htys t r c e he
      obtain ⟨v, _, ty, hty, rfl⟩ := mem_terms.1 he
      exact hy0 _ (htys ty hty)
    have hpre : ∀ i : Fin info.length, termSum y (allTerms (info.get k) [.preempt, .indirect, .direct] (i, info.get i)) =
        (T i).card := by
      intro i
      unfold allTerms
      rw [items_sum h1 y [.preempt, .indirect, .direct] (fun _ => 1)]
      rw [← Nat.smul_one_eq_cast, ← sum_const, ← hsum i (fun _ => 1)]
      apply sum_congr rfl
      intro p _
      simp only [List.map_cons, List.map_nil, List.sum_cons, List.sum_nil]
      rw [hy0 ⟨.indirect, i, p.2, p.1.resId⟩ (by simp), hy0 ⟨.direct, i, p.2, p.1.resId⟩ (by simp)]
      ring
    have h0 : ({ objective := o } : Program).Feasible y := ⟨by simp, by simp, by simp, by simp, fun v _ => hy01 v⟩
    have hzero : ∀ i : Fin info.length, lim i = 0 → T i = ∅ := by
      intro i hi
      have := hTc i
      rw [hi] at this
      exact card_eq_zero.1 (Nat.le_zero.1 this)
    have hyz : ∀ i : Fin info.length, T i = ∅ → ∀ v : Key, v.task = i → y v = 0 := by
      intro i hi v hv
      apply if_neg
      rintro ⟨_, i', hi', p', hp', _⟩
      rw [show i' = i from Fin.ext (hi'.trans hv), hi] at hp'
      simp at hp'
    unfold fmlpConstraints
    refine feasible_foldl (fun t ht P hP => ?_) (feasible_foldl (fun t ht P hP => ?_) (feasible_foldl (fun t ht P hP =>
      feasible_foldl (fun r _ P hP => ?_) hP) (feasible_foldl (fun t ht P hP => ?_) (feasible_addEquality
      (feasible_addEquality (feasible_foldl (fun t ht P hP => feasible_foldl (fun r _ P hP =>
      feasible_foldl (fun v _ P hP => ?_) hP) hP) h0) ?_) ?_))))
    · refine feasible_addInequality hP (le_trans (le_of_eq (termSum_zero ?_)) (Nat.cast_nonneg _))
      intro e he
      obtain ⟨r, _, he⟩ := mem_allTerms.1 he
      exact hz [.indirect] (by simp) _ _ _ e he
    · refine feasible_addInequality hP (le_trans (le_of_eq (termSum_zero ?_)) (Nat.cast_nonneg _))
      intro e he
      obtain ⟨r, _, he⟩ := mem_allTerms.1 he
      exact hz [.direct, .indirect] (by simp) _ _ _ e he
    · refine feasible_addInequality hP (le_trans (le_of_eq (termSum_zero ?_)) (Nat.cast_nonneg _))
      intro e he
      exact hz [.direct] (by simp) _ _ _ e he
    · obtain ⟨ht, hc⟩ := List.mem_filter.1 ht
      obtain ⟨i, rfl⟩ := mem_tasks.1 ht
      simp only [decide_eq_true_eq] at hc
      refine feasible_addInequality hP ?_
      rw [hpre i]
      have := hTc i
      simp only [lim] at this
      rw [if_pos hc] at this
      exact_mod_cast this
    · apply feasible_addInequality hP
      simp only [termSum, List.map_cons, List.map_nil, List.sum_cons, List.sum_nil]
      rw [hy0 ⟨.direct, t.1, v, r.resId⟩ (by simp), hy0 ⟨.indirect, t.1, v, r.resId⟩ (by simp)]
      have := (hy01 ⟨.preempt, t.1, v, r.resId⟩).2
      linarith
    · apply termSum_zero
      intro e he
      obtain ⟨t, ht, he⟩ := List.mem_flatMap.1 he
      obtain ⟨ht, hc⟩ := List.mem_filter.1 ht
      obtain ⟨i, rfl⟩ := mem_tasks.1 ht
      simp only [decide_eq_true_eq] at hc
      exact hyz i (hzero i (if_neg (fun h => by omega))) _ (allTerms_task e he)
    · apply termSum_zero
      intro e he
      obtain ⟨t, ht, he⟩ := List.mem_flatMap.1 he
      obtain ⟨ht, hc⟩ := List.mem_filter.1 ht
      obtain ⟨i, rfl⟩ := mem_tasks.1 ht
      simp only [decide_eq_true_eq] at hc
      exact hyz i (hzero i (if_neg (fun h => hc h.1))) _ (allTerms_task e he)
  · rw [hobj, Nat.cast_sum]
    apply sum_congr rfl
    intro i _
    rw [Nat.cast_sum, ← hsum i (fun r => r.length)]
    apply sum_congr rfl
    intro p _
    rw [hy0 ⟨.direct, i, p.2, p.1.resId⟩ (by simp), hy0 ⟨.indirect, i, p.2, p.1.resId⟩ (by simp), zero_add, zero_add]
  · intro x hx
    rw [hobj, Nat.cast_sum]
    unfold fmlpConstraints at hx
    have hx0 := (of_foldl (Q := fun _ => True) (fun t _ P h => ⟨(of_addInequality h (Nat.cast_nonneg _)).1, trivial⟩) hx).1
    have hx0 := (of_foldl (Q := fun _ => True) (fun t _ P h => ⟨(of_addInequality h (Nat.cast_nonneg _)).1, trivial⟩) hx0).1
    have hx0 := (of_foldl (Q := fun _ => True) (fun t _ P h => ⟨(of_foldl (Q := fun _ => True)
      (fun t _ P h => ⟨(of_addInequality h (Nat.cast_nonneg _)).1, trivial⟩) h).1, trivial⟩) hx0).1
    obtain ⟨hx0, hlow⟩ := of_foldl (fun t _ P h => of_addInequality h (Nat.cast_nonneg _)) hx0
    obtain ⟨hx0, _⟩ := of_addEquality hx0
    obtain ⟨hx0, hhigh⟩ := of_addEquality hx0
    obtain ⟨hx0, hmut⟩ := of_foldl (fun t _ P h => of_foldl (fun r _ P h => of_foldl
      (fun v _ P h => of_addInequality h zero_le_one) h) h) hx0
    have hpos : ∀ v, 0 ≤ x v := fun v => (hx0.range v (by simp)).1
    apply sum_le_sum
    intro i hi
    obtain ⟨_, hne, hcl⟩ := mem_filter.1 hi
    have hmemT : ((i : ℕ), info.get i) ∈ tasks info := mem_tasks.2 ⟨i, rfl⟩
    refine hT i (fun p => x ⟨.direct, i, p.2, p.1.resId⟩ + x ⟨.indirect, i, p.2, p.1.resId⟩ +
      x ⟨.preempt, i, p.2, p.1.resId⟩) ?_ ?_
    · intro p hp
      obtain ⟨hp1, hp2⟩ := mem_items.1 hp
      refine ⟨by have := hpos ⟨.direct, i, p.2, p.1.resId⟩; have := hpos ⟨.indirect, i, p.2, p.1.resId⟩
                 have := hpos ⟨.preempt, i, p.2, p.1.resId⟩; linarith, ?_⟩
      have := hmut (i, info.get i) (List.mem_filter.2 ⟨hmemT, by simpa using hne⟩) p.1 hp1 p.2 (List.mem_range.2 hp2)
      simp only [termSum, List.map_cons, List.map_nil, List.sum_cons, List.sum_nil] at this
      linarith
    · have e : ∑ p ∈ items info k i, (x ⟨.direct, i, p.2, p.1.resId⟩ + x ⟨.indirect, i, p.2, p.1.resId⟩ +
          x ⟨.preempt, i, p.2, p.1.resId⟩) = termSum x (allTerms (info.get k) [.preempt, .indirect, .direct] (i, info.get i)) := by
        unfold allTerms
        rw [items_sum h1 x [.preempt, .indirect, .direct] (fun _ => 1)]
        apply sum_congr rfl
        intro p _
        simp only [List.map_cons, List.map_nil, List.sum_cons, List.sum_nil]
        ring
      rw [e]
      simp only [lim]
      by_cases hpr : (info.get i).priority ≥ (info.get k).priority
      · rw [if_pos ⟨hcl, hne, hpr⟩]
        exact hlow (i, info.get i) (List.mem_filter.2 ⟨hmemT, by simpa using ⟨hcl, fun h => hne (by rw [h]), hpr⟩⟩)
      · rw [if_neg (fun h => hpr h.2.2), Nat.cast_zero]
        apply le_of_eq
        apply termSum_zero
        intro e he
        refine zero_of_termSum allTerms_one (fun t _ => hpos _) hhigh e ?_
        refine List.mem_flatMap.2 ⟨(i, info.get i), List.mem_filter.2 ⟨hmemT, ?_⟩, he⟩
        simp only [decide_eq_true_eq]
        exact ⟨hcl, not_le.1 hpr⟩

end Verif.SR.Lp
