/-
The linear programs of the generalized FMLP+ for partitioned fixed-priority scheduling: they allow every solution of
the programs of the FMLP+, local and remote blocking are independent, and local blocking is a whole number.
-/
import Verif.Lemmas.LpFmlpSplit
import Verif.Model.LpGfmlp

namespace Verif.SR.Lp
open Verif.Spec Finset
open Verif.SR.Msrp (system)
open Verif.SR.Fmlp (totalNumRequests)

variable {info : Info} {k : Fin info.length}

theorem totalNumRequests_eq (t : TaskInfo) : totalNumRequests t = (t.requests.map Request.num).sum := by
  unfold totalNumRequests
  have : ∀ (l : List Request) (c : ℕ), l.foldl (fun c r => c + r.num) c = c + (l.map Request.num).sum := by
    intro l
    induction l with
    | nil => intro c; simp
    | cons a l ih =>
      intro c
      rw [List.foldl_cons, ih, List.map_cons, List.sum_cons]
      omega
  rw [this, Nat.zero_add]

theorem conflicts_le (ti : TaskInfo) (ts : List (ℕ × TaskInfo)) : conflicts ti ts ≤ totalNumRequests ti := by
  rw [totalNumRequests_eq]
  unfold conflicts
  apply List.sum_le_sum
  intro r _
  exact min_le_left _ _

theorem termSum_le_length {x : Key → ℚ} (hx : ∀ v, x v ≤ 1) :
    ∀ {e : Exp}, (∀ t ∈ e, t.1 = 1) → termSum x e ≤ e.length := by
  intro e
  induction e with
  | nil => intro _; simp [termSum]
  | cons a e ih =>
    intro h
    have h1 := ih (fun t ht => h t (List.mem_cons_of_mem _ ht))
    have e1 : termSum x (a :: e) = a.1 * x a.2 + termSum x e := by simp [termSum]
    rw [e1, h a (List.mem_cons_self ..), one_mul, List.length_cons]
    push_cast
    have := hx a.2
    linarith

theorem terms_one {ti : TaskInfo} {tys : List BlockingType} {t : ℕ × TaskInfo} {r : Request} :
    ∀ e ∈ terms ti tys t r 1, e.1 = 1 := by
  intro e he
  obtain ⟨v, _, ty, _, rfl⟩ := mem_terms.1 he
  rfl

theorem allTerms_one' {ti : TaskInfo} {tys : List BlockingType} {t : ℕ × TaskInfo} :
    ∀ e ∈ allTerms ti tys t, e.1 = 1 := by
  intro e he
  obtain ⟨r, _, he⟩ := mem_allTerms.1 he
  exact terms_one e he

theorem terms_length (ti : TaskInfo) (ty : BlockingType) (t : ℕ × TaskInfo) (r : Request) (c : ℚ) :
    (terms ti [ty] t r c).length = instances ti t.2 r := by
  unfold terms
  simp

theorem allTerms_length (ti : TaskInfo) (ty : BlockingType) (t : ℕ × TaskInfo) :
    (allTerms ti [ty] t).length = t.2.maxNumJobs ti.response * totalNumRequests t.2 := by
  rw [totalNumRequests_eq]
  unfold allTerms
  rw [List.length_flatMap]
  have : (fun r => (terms ti [ty] t r 1).length) = fun r : Request => t.2.maxNumJobs ti.response * r.num := by
    funext r
    rw [terms_length]
    rfl
  rw [this, List.sum_map_mul_left]

/-- The terms of a task, by kinds of blocking. -/
theorem allTerms_split (h1 : OneEntry info) (x : Key → ℚ) (i : Fin info.length) :
    termSum x (allTerms (info.get k) [.preempt, .indirect, .direct] (i, info.get i)) =
      termSum x (allTerms (info.get k) [.preempt] (i, info.get i)) +
      termSum x (allTerms (info.get k) [.direct, .indirect] (i, info.get i)) := by
  unfold allTerms
  rw [items_sum h1 x [.preempt, .indirect, .direct] (fun _ => 1), items_sum h1 x [.preempt] (fun _ => 1),
    items_sum h1 x [.direct, .indirect] (fun _ => 1), ← sum_add_distrib]
  apply sum_congr rfl
  intro p _
  simp only [List.map_cons, List.map_nil, List.sum_cons, List.sum_nil]
  ring

theorem lowerPrioJobs_lower {ti tx : TaskInfo} (h : ti.priority < tx.priority) :
    lowerPrioJobs false ti tx = tx.maxNumJobs ti.response := by
  simp [lowerPrioJobs, fpLowerPrioJobs, h]

/-- The base constraints with what they say. -/
theorem of_fmlp {x : Key → ℚ} {o : Exp} (hx : (fmlpConstraints info k (info.get k) { objective := o }).Feasible x) :
    ({ objective := o } : Program).Feasible x ∧
    (∀ i : Fin info.length, (info.get i).cluster ≠ (info.get k).cluster →
      termSum x (allTerms (info.get k) [.indirect] (i, info.get i)) ≤
        (conflicts (info.get k) ((tasks info).filter (fun y => y.2.cluster = (info.get i).cluster ∧ y.1 ≠ i)) : ℕ)) ∧
    (∀ i : Fin info.length, (i : ℕ) ≠ k → termSum x (allTerms (info.get k) [.direct, .indirect] (i, info.get i)) ≤
        (opportunities info k (info.get k) (info.get i).cluster : ℕ)) ∧
    (∀ i : Fin info.length, (i : ℕ) ≠ k → ∀ r ∈ (info.get i).requests,
      termSum x (terms (info.get k) [.direct] (i, info.get i) r 1) ≤ (perResource (info.get k) r.resId : ℕ)) ∧
    (∀ i : Fin info.length, (info.get i).cluster = (info.get k).cluster → (i : ℕ) ≠ k →
      (info.get k).priority ≤ (info.get i).priority →
      termSum x (allTerms (info.get k) [.preempt, .indirect, .direct] (i, info.get i)) ≤
        (arrivalsShm info (info.get k) : ℕ)) ∧
    (∀ i : Fin info.length, (info.get i).cluster ≠ (info.get k).cluster →
      ∀ e ∈ allTerms (info.get k) [.preempt] (i, info.get i), x e.2 = 0) ∧
    (∀ i : Fin info.length, (info.get i).cluster = (info.get k).cluster → (info.get i).priority < (info.get k).priority →
      ∀ e ∈ allTerms (info.get k) [.preempt, .indirect, .direct] (i, info.get i), x e.2 = 0) ∧
    (∀ i : Fin info.length, (i : ℕ) ≠ k → ∀ r ∈ (info.get i).requests, ∀ v < instances (info.get k) (info.get i) r,
      termSum x [(1, ⟨.direct, i, v, r.resId⟩), (1, ⟨.indirect, i, v, r.resId⟩), (1, ⟨.preempt, i, v, r.resId⟩)] ≤ 1) := by
  unfold fmlpConstraints at hx
  obtain ⟨hx, hcl⟩ := of_foldl (fun t _ P h => of_addInequality h (Nat.cast_nonneg _)) hx
  obtain ⟨hx, hto⟩ := of_foldl (fun t _ P h => of_addInequality h (Nat.cast_nonneg _)) hx
  obtain ⟨hx, hre⟩ := of_foldl (fun t _ P h => of_foldl (fun r _ P h => of_addInequality h (Nat.cast_nonneg _)) h) hx
  obtain ⟨hx, hlo⟩ := of_foldl (fun t _ P h => of_addInequality h (Nat.cast_nonneg _)) hx
  obtain ⟨hx, htp⟩ := of_addEquality hx
  obtain ⟨hx, hhi⟩ := of_addEquality hx
  obtain ⟨hx, hmu⟩ := of_foldl (fun t _ P h => of_foldl (fun r _ P h => of_foldl
      (fun v _ P h => of_addInequality h zero_le_one) h) h) hx
  have hpos : ∀ v, 0 ≤ x v := fun v => (hx.range v (by simp)).1
  have hm : ∀ i : Fin info.length, ((i : ℕ), info.get i) ∈ tasks info := fun i => mem_tasks.2 ⟨i, rfl⟩
  have ho : ∀ i : Fin info.length, (i : ℕ) ≠ k → ((i : ℕ), info.get i) ∈ others info k := fun i hi =>
    List.mem_filter.2 ⟨hm i, by simpa using hi⟩
  refine ⟨hx, ?_, ?_, ?_, ?_, ?_, ?_, ?_⟩
  · intro i hi
    exact hcl (i, info.get i) (List.mem_filter.2 ⟨hm i, by simpa using hi⟩)
  · intro i hi
    exact hto (i, info.get i) (ho i hi)
  · intro i hi r hr
    exact hre (i, info.get i) (ho i hi) r hr
  · intro i hc hi hp
    exact hlo (i, info.get i) (List.mem_filter.2 ⟨hm i, by simpa using ⟨hc, fun h => hi (by rw [h]), hp⟩⟩)
  · intro i hc e he
    exact zero_of_termSum allTerms_one (fun t _ => hpos _) htp e (List.mem_flatMap.2 ⟨(i, info.get i),
      List.mem_filter.2 ⟨hm i, by simpa using hc⟩, he⟩)
  · intro i hc hp e he
    exact zero_of_termSum allTerms_one (fun t _ => hpos _) hhi e (List.mem_flatMap.2 ⟨(i, info.get i),
      List.mem_filter.2 ⟨hm i, by simpa using ⟨hc, hp⟩⟩, he⟩)
  · intro i hi r hr v hv
    exact hmu (i, info.get i) (ho i hi) r hr v (List.mem_range.2 hv)

/-- The solutions of a program of the generalized FMLP+. -/
theorem feasible_gfmlp {x : Key → ℚ} {o : Exp} (h0 : ({ objective := o } : Program).Feasible x)
    (hcl : ∀ i : Fin info.length, (info.get i).cluster ≠ (info.get k).cluster →
      termSum x (allTerms (info.get k) [.indirect] (i, info.get i)) ≤
        (conflicts (info.get k) ((tasks info).filter (fun y => y.2.cluster = (info.get i).cluster ∧ y.1 ≠ i)) : ℕ))
    (hto : ∀ i : Fin info.length, (i : ℕ) ≠ k → termSum x (allTerms (info.get k) [.direct, .indirect] (i, info.get i)) ≤
        (opportunities info k (info.get k) (info.get i).cluster : ℕ))
    (hre : ∀ i : Fin info.length, (i : ℕ) ≠ k → ∀ r ∈ (info.get i).requests,
      termSum x (terms (info.get k) [.direct] (i, info.get i) r 1) ≤ (perResource (info.get k) r.resId : ℕ))
    (hlo : ∀ i : Fin info.length, (info.get i).cluster = (info.get k).cluster → (i : ℕ) ≠ k →
      (info.get k).priority ≤ (info.get i).priority →
      termSum x (allTerms (info.get k) [.preempt, .indirect, .direct] (i, info.get i)) ≤
        (arrivalsShm info (info.get k) : ℕ))
    (htp : ∀ i : Fin info.length, (info.get i).cluster ≠ (info.get k).cluster →
      ∀ e ∈ allTerms (info.get k) [.preempt] (i, info.get i), x e.2 = 0)
    (hhi : ∀ i : Fin info.length, (i : ℕ) ≠ k → (info.get i).cluster = (info.get k).cluster →
      (info.get i).priority ≤ (info.get k).priority →
      ∀ e ∈ allTerms (info.get k) [.preempt] (i, info.get i), x e.2 = 0)
    (hmu : ∀ i : Fin info.length, (i : ℕ) ≠ k → ∀ r ∈ (info.get i).requests, ∀ v < instances (info.get k) (info.get i) r,
      termSum x [(1, ⟨.direct, i, v, r.resId⟩), (1, ⟨.indirect, i, v, r.resId⟩), (1, ⟨.preempt, i, v, r.resId⟩)] ≤ 1)
    (hsg : ∀ i : Fin info.length, (i : ℕ) ≠ k →
      termSum x (allTerms (info.get k) [.preempt, .indirect, .direct] (i, info.get i)) ≤
        (1 + 2 * totalNumRequests (info.get k) : ℕ)) :
    (gfmlpConstraints false 1 info k (info.get k) { objective := o }).Feasible x := by
  have hle : ∀ v, x v ≤ 1 := fun v => (h0.range v (by simp)).2
  have hzero : ∀ i : Fin info.length, (i : ℕ) ≠ k → ¬ (info.get k).priority < (info.get i).priority →
      ∀ e ∈ allTerms (info.get k) [.preempt] (i, info.get i), x e.2 = 0 := by
    intro i hi hp
    by_cases hc : (info.get i).cluster = (info.get k).cluster
    · exact hhi i hi hc (not_lt.1 hp)
    · exact htp i hc
  have hot : ∀ t ∈ others info k, ∃ i : Fin info.length, t = ((i : ℕ), info.get i) ∧ (i : ℕ) ≠ k := by
    intro t ht
    obtain ⟨ht, hne⟩ := List.mem_filter.1 ht
    obtain ⟨i, rfl⟩ := mem_tasks.1 ht
    exact ⟨i, rfl, by simpa using hne⟩
  unfold gfmlpConstraints
  simp only [if_true]
  refine feasible_foldl (fun t ht P hP => ?_) (feasible_foldl (fun t ht P hP => feasible_foldl (fun r hr P hP => ?_) hP)
    (feasible_foldl (fun t ht P hP => ?_) (feasible_foldl (fun t ht P hP => ?_) (feasible_foldl (fun t ht P hP => ?_)
    (feasible_foldl (fun t ht P hP => ?_) (feasible_foldl (fun t ht P hP => feasible_foldl (fun r hr P hP => ?_) hP)
    (feasible_addEquality (feasible_foldl (fun t ht P hP => feasible_foldl (fun r hr P hP =>
      feasible_foldl (fun v hv P hP => ?_) hP) hP) h0) ?_)))))))
  · obtain ⟨ht, hc⟩ := List.mem_filter.1 ht
    obtain ⟨i, rfl⟩ := mem_tasks.1 ht
    simp only [decide_eq_true_eq] at hc
    exact feasible_addInequality hP (hlo i hc.1 hc.2.1 hc.2.2)
  · obtain ⟨i, rfl, hi⟩ := hot t ht
    refine feasible_addInequality hP ?_
    by_cases hp : (info.get k).priority < (info.get i).priority
    · rw [lowerPrioJobs_lower hp]
      refine (termSum_le_length hle terms_one).trans ?_
      rw [terms_length]
      rfl
    · rw [termSum_zero (fun e he => hzero i hi hp e (mem_allTerms.2 ⟨r, hr, he⟩))]
      exact Nat.cast_nonneg _
  · obtain ⟨i, rfl, hi⟩ := hot t ht
    refine feasible_addInequality hP ?_
    by_cases hp : (info.get k).priority < (info.get i).priority
    · rw [lowerPrioJobs_lower hp]
      refine (termSum_le_length hle allTerms_one').trans ?_
      rw [allTerms_length]
    · rw [termSum_zero (hzero i hi hp)]
      exact Nat.cast_nonneg _
  · obtain ⟨i, rfl, hi⟩ := hot t ht
    exact feasible_addInequality hP (hsg i hi)
  · obtain ⟨ht, hc⟩ := List.mem_filter.1 ht
    obtain ⟨i, rfl⟩ := mem_tasks.1 ht
    exact feasible_addInequality hP (hcl i (by simpa using hc))
  · obtain ⟨i, rfl, hi⟩ := hot t ht
    exact feasible_addInequality hP (hto i hi)
  · obtain ⟨i, rfl, hi⟩ := hot t ht
    exact feasible_addInequality hP (hre i hi r hr)
  · obtain ⟨i, rfl, hi⟩ := hot t ht
    exact feasible_addInequality hP (hmu i hi r hr v (List.mem_range.1 hv))
  · apply termSum_zero
    intro e he
    obtain ⟨t, ht, he⟩ := List.mem_flatMap.1 he
    obtain ⟨ht, hc⟩ := List.mem_filter.1 ht
    obtain ⟨i, rfl⟩ := mem_tasks.1 ht
    exact htp i (by simpa using hc) e he

/-- The programs of the generalized FMLP+ allow all solutions of the programs of the FMLP+. -/
theorem gfmlp_of_fmlp (h1 : OneEntry info)
    (hd : ∀ i : Fin info.length, (info.get i).cluster = (info.get k).cluster →
      (info.get i).priority = (info.get k).priority → i = k) {x : Key → ℚ} {o : Exp}
    (hx : (fmlpConstraints info k (info.get k) { objective := o }).Feasible x) :
    (gfmlpConstraints false 1 info k (info.get k) { objective := o }).Feasible x := by
  obtain ⟨h0, hcl, hto, hre, hlo, htp, hhi, hmu⟩ := of_fmlp hx
  refine feasible_gfmlp h0 hcl hto hre hlo htp ?_ hmu ?_
  · intro i hi hc hp e he
    have hne : (info.get i).priority ≠ (info.get k).priority := fun h => hi (by rw [hd i hc h])
    refine hhi i hc (by omega) e ?_
    obtain ⟨r, hr, he⟩ := mem_allTerms.1 he
    obtain ⟨v, hv, ty, hty, rfl⟩ := mem_terms.1 he
    exact mem_allTerms.2 ⟨r, hr, mem_terms.2 ⟨v, hv, ty, by rw [List.mem_singleton.1 hty]; simp, rfl⟩⟩
  · intro i hi
    have hN := fun ts => conflicts_le (info.get k) ts
    by_cases hc : (info.get i).cluster = (info.get k).cluster
    · by_cases hp : (info.get k).priority ≤ (info.get i).priority
      · refine (hlo i hc hi hp).trans (Nat.cast_le.2 ?_)
        unfold arrivalsShm
        have := hN ((tasks info).filter (fun t => t.2.cluster ≠ (info.get k).cluster))
        omega
      · rw [termSum_zero (hhi i hc (not_le.1 hp))]
        exact Nat.cast_nonneg _
    · rw [allTerms_split h1, termSum_zero (htp i hc), zero_add]
      refine (hto i hi).trans (Nat.cast_le.2 ?_)
      unfold opportunities
      have := hN ((tasks info).filter (fun y => y.2.cluster = (info.get i).cluster ∧ y.1 ≠ (k : ℕ)))
      omega

theorem splits_gfmlp (ti : TaskInfo) (i : ℕ) (o : Exp) :
    Splits (LocalKey info k) (gfmlpConstraints false 1 info i ti { objective := o }) := by
  have h0 : Splits (LocalKey info k) ({ objective := o } : Program) := ⟨by simp, by simp, rfl, rfl⟩
  unfold gfmlpConstraints
  simp only [if_true]
  refine Splits.foldl (fun t ht P h => ?_) (Splits.foldl (fun t ht P h => Splits.foldl (fun r _ P h => ?_) h)
    (Splits.foldl (fun t ht P h => ?_) (Splits.foldl (fun t ht P h => ?_) (Splits.foldl (fun t ht P h => ?_)
    (Splits.foldl (fun t ht P h => ?_) (Splits.foldl (fun t ht P h => Splits.foldl (fun r _ P h => ?_) h)
    (Splits.addEquality (splits_semMutex h0 i ti) allTerms_one)))))))
  · obtain ⟨x, rfl⟩ := mem_tasks.1 (List.mem_filter.1 ht).1
    exact h.addInequality (split_of_task x allTerms_task)
  · obtain ⟨x, rfl⟩ := mem_others ht
    exact h.addInequality (split_of_task x terms_task)
  · obtain ⟨x, rfl⟩ := mem_others ht
    exact h.addInequality (split_of_task x allTerms_task)
  · obtain ⟨x, rfl⟩ := mem_others ht
    exact h.addInequality (split_of_task x allTerms_task)
  · obtain ⟨x, rfl⟩ := mem_tasks.1 (List.mem_filter.1 ht).1
    exact h.addInequality (split_of_task x allTerms_task)
  · obtain ⟨x, rfl⟩ := mem_others ht
    exact h.addInequality (split_of_task x allTerms_task)
  · obtain ⟨x, rfl⟩ := mem_others ht
    exact h.addInequality (split_of_task x terms_task)

/-- What the constraints say about local tasks. -/
theorem of_gfmlp {x : Key → ℚ} {o : Exp}
    (hx : (gfmlpConstraints false 1 info k (info.get k) { objective := o }).Feasible x) :
    ({ objective := o } : Program).Feasible x ∧
    (∀ i : Fin info.length, (i : ℕ) ≠ k → termSum x (allTerms (info.get k) [.direct, .indirect] (i, info.get i)) ≤
        (opportunities info k (info.get k) (info.get i).cluster : ℕ)) ∧
    (∀ i : Fin info.length, (info.get i).cluster = (info.get k).cluster → (i : ℕ) ≠ k →
      (info.get k).priority ≤ (info.get i).priority →
      termSum x (allTerms (info.get k) [.preempt, .indirect, .direct] (i, info.get i)) ≤
        (arrivalsShm info (info.get k) : ℕ)) ∧
    (∀ i : Fin info.length, (i : ℕ) ≠ k → ¬ (info.get k).priority < (info.get i).priority →
      termSum x (allTerms (info.get k) [.preempt] (i, info.get i)) ≤ 0) ∧
    (∀ i : Fin info.length, (i : ℕ) ≠ k → ∀ r ∈ (info.get i).requests, ∀ v < instances (info.get k) (info.get i) r,
      termSum x [(1, ⟨.direct, i, v, r.resId⟩), (1, ⟨.indirect, i, v, r.resId⟩), (1, ⟨.preempt, i, v, r.resId⟩)] ≤ 1) := by
  unfold gfmlpConstraints at hx
  simp only [if_true] at hx
  obtain ⟨hx, hlo⟩ := of_foldl (fun t _ P h => of_addInequality h (Nat.cast_nonneg _)) hx
  obtain ⟨hx, _⟩ := of_foldl (fun t _ P h => of_foldl (fun r _ P h => of_addInequality h (Nat.cast_nonneg _)) h) hx
  obtain ⟨hx, hpr⟩ := of_foldl (fun t _ P h => of_addInequality h (Nat.cast_nonneg _)) hx
  obtain ⟨hx, _⟩ := of_foldl (fun t _ P h => of_addInequality h (Nat.cast_nonneg _)) hx
  obtain ⟨hx, _⟩ := of_foldl (fun t _ P h => of_addInequality h (Nat.cast_nonneg _)) hx
  obtain ⟨hx, hto⟩ := of_foldl (fun t _ P h => of_addInequality h (Nat.cast_nonneg _)) hx
  obtain ⟨hx, _⟩ := of_foldl (fun t _ P h => of_foldl (fun r _ P h => of_addInequality h (Nat.cast_nonneg _)) h) hx
  obtain ⟨hx, _⟩ := of_addEquality hx
  obtain ⟨hx, hmu⟩ := of_foldl (fun t _ P h => of_foldl (fun r _ P h => of_foldl
      (fun v _ P h => of_addInequality h zero_le_one) h) h) hx
  have hm : ∀ i : Fin info.length, ((i : ℕ), info.get i) ∈ tasks info := fun i => mem_tasks.2 ⟨i, rfl⟩
  have ho : ∀ i : Fin info.length, (i : ℕ) ≠ k → ((i : ℕ), info.get i) ∈ others info k := fun i hi =>
    List.mem_filter.2 ⟨hm i, by simpa using hi⟩
  refine ⟨hx, ?_, ?_, ?_, ?_⟩
  · intro i hi
    exact hto (i, info.get i) (ho i hi)
  · intro i hc hi hp
    exact hlo (i, info.get i) (List.mem_filter.2 ⟨hm i, by simpa using ⟨hc, fun h => hi (by rw [h]), hp⟩⟩)
  · intro i hi hp
    have := hpr (i, info.get i) (ho i hi)
    simp only [lowerPrioJobs, fpLowerPrioJobs, if_neg hp, Bool.false_eq_true, if_false, Nat.zero_mul, Nat.cast_zero] at this
    exact this
  · intro i hi r hr v hv
    exact hmu (i, info.get i) (ho i hi) r hr v (List.mem_range.2 hv)

open Classical in
/-- There is an optimal value of local blocking, and it is a whole number. -/
theorem local_optimum_gfmlp (info : Info) (k : Fin info.length) (h1 : OneEntry info)
    (hd : ∀ i : Fin info.length, (info.get i).cluster = (info.get k).cluster →
      (info.get i).priority = (info.get k).priority → i = k) (o : Exp) :
    ∃ (n : ℕ) (y : Key → ℚ), (gfmlpConstraints false 1 info k (info.get k) { objective := o }).Feasible y ∧
      termSum y (localObjective info k (info.get k)) = n ∧
      ∀ x, (gfmlpConstraints false 1 info k (info.get k) { objective := o }).Feasible x →
        termSum x (localObjective info k (info.get k)) ≤ n := by
  -- how many requests of a task may be counted
  let lim : Fin info.length → ℕ := fun i =>
    if (info.get i).cluster = (info.get k).cluster ∧ (i : ℕ) ≠ k then
      if (info.get k).priority ≤ (info.get i).priority then arrivalsShm info (info.get k)
      else opportunities info k (info.get k) (info.get i).cluster
    else 0
  have hbest := fun i : Fin info.length => best_items (items info k i) (fun p => p.1.length) (lim i)
  choose T hTI hTc hT using hbest
  -- the kind of blocking by a task
  let kd : Fin info.length → BlockingType := fun i =>
    if (info.get k).priority < (info.get i).priority then .preempt else .indirect
  have hkd : ∀ i, kd i ≠ .direct := by
    intro i
    simp only [kd]
    split_ifs <;> simp
  let y : Key → ℚ := fun v => if ∃ i : Fin info.length, (i : ℕ) = v.task ∧ v.ty = kd i ∧
    ∃ p ∈ T i, p.1.resId = v.res ∧ p.2 = v.req then 1 else 0
  have hyk : ∀ (i : Fin info.length) (v : Key), v.task = i → v.ty ≠ kd i → y v = 0 := by
    intro i v hv hne
    apply if_neg
    rintro ⟨i', hi', hty, _⟩
    rw [show i' = i from Fin.ext (hi'.trans hv)] at hty
    exact hne hty
  have hyT : ∀ i : Fin info.length, ∀ p ∈ items info k i,
      y ⟨kd i, i, p.2, p.1.resId⟩ = if p ∈ T i then 1 else 0 := by
    intro i p hp
    by_cases hpT : p ∈ T i
    · rw [if_pos hpT]
      exact if_pos ⟨i, rfl, rfl, p, hpT, rfl, rfl⟩
    · rw [if_neg hpT]
      apply if_neg
      rintro ⟨i', hi', _, p', hp', hr, hv⟩
      simp only at hi' hr hv
      have := Fin.ext hi'
      subst this
      obtain ⟨a, v⟩ := p
      obtain ⟨a', v'⟩ := p'
      simp only at hr hv
      subst hv
      have h2 := mem_items.1 (hTI _ hp')
      rw [items_inj h1 (mem_items.1 hp).1 h2.1 hr.symm] at hpT
      exact hpT hp'
  have hy01 : ∀ v, 0 ≤ y v ∧ y v ≤ 1 := by
    intro v
    simp only [y]
    split_ifs <;> norm_num
  have hdir : ∀ (i : Fin info.length) (v : ℕ) (r : ℕ), y ⟨.direct, i, v, r⟩ = 0 := fun i v r =>
    hyk i _ rfl (fun h => hkd i h.symm)
  have hall : ∀ i : Fin info.length, ∀ p ∈ items info k i, y ⟨.preempt, i, p.2, p.1.resId⟩ +
      y ⟨.indirect, i, p.2, p.1.resId⟩ = if p ∈ T i then 1 else 0 := by
    intro i p hp
    have h2 := hyT i p hp
    have hc : kd i = .preempt ∨ kd i = .indirect := by
      simp only [kd]
      split_ifs <;> simp
    rcases hc with hc | hc
    · rw [hyk i ⟨.indirect, i, p.2, p.1.resId⟩ rfl (by rw [hc]; simp), add_zero, ← h2, hc]
    · rw [hyk i ⟨.preempt, i, p.2, p.1.resId⟩ rfl (by rw [hc]; simp), zero_add, ← h2, hc]
  have hsum : ∀ i : Fin info.length, ∀ c : Request → ℚ, ∑ p ∈ items info k i,
      (y ⟨.preempt, i, p.2, p.1.resId⟩ + y ⟨.indirect, i, p.2, p.1.resId⟩) * c p.1 = ∑ p ∈ T i, c p.1 := by
    intro i c
    rw [sum_congr rfl (fun p hp => by rw [hall i p hp])]
    rw [← sum_filter_add_sum_filter_not (items info k i) (fun p => p ∈ T i)]
    rw [sum_congr rfl (fun p hp => by rw [if_pos (mem_filter.1 hp).2, one_mul]),
      sum_congr (s₁ := (items info k i).filter (fun p => p ∉ T i)) rfl
        (fun p hp => by rw [if_neg (mem_filter.1 hp).2, zero_mul]), sum_const_zero, add_zero]
    congr 1
    ext p
    rw [mem_filter]
    exact ⟨fun h => h.2, fun h => ⟨hTI i h, h⟩⟩
  have hobj : ∀ z : Key → ℚ, termSum z (localObjective info k (info.get k)) =
      ∑ i ∈ univ.filter (fun i : Fin info.length => (i : ℕ) ≠ k ∧ (info.get i).cluster = (info.get k).cluster),
        ∑ p ∈ items info k i, (z ⟨.direct, i, p.2, p.1.resId⟩ + z ⟨.indirect, i, p.2, p.1.resId⟩ +
          z ⟨.preempt, i, p.2, p.1.resId⟩) * p.1.length := by
    intro z
    unfold localObjective blockingTerms others
    rw [List.filter_filter, termSum_flatMap]
    have := tasks_sum (info := info) (fun t : ℕ × TaskInfo => t.1 ≠ (k : ℕ) ∧ t.2.cluster = (info.get k).cluster)
      (fun t => termSum z (t.2.requests.flatMap (fun r =>
        terms (info.get k) [.direct, .indirect, .preempt] t r r.length)))
    refine Eq.trans ?_ (this.trans ?_)
    · congr 2
      apply List.filter_congr
      intro t _
      rw [← Bool.decide_and]
      congr 1
      rw [eq_iff_iff]
      tauto
    · apply sum_congr rfl
      intro i _
      simp only
      rw [items_sum h1 z [.direct, .indirect, .preempt] (fun r => r.length)]
      apply sum_congr rfl
      intro p _
      simp only [List.map_cons, List.map_nil, List.sum_cons, List.sum_nil]
      ring
  refine ⟨∑ i ∈ univ.filter (fun i : Fin info.length => (i : ℕ) ≠ k ∧ (info.get i).cluster = (info.get k).cluster),
    ∑ p ∈ T i, p.1.length, y, ?_, ?_, ?_⟩
  · -- the chosen requests satisfy all constraints
    have hpre : ∀ i : Fin info.length, termSum y (allTerms (info.get k) [.preempt, .indirect, .direct] (i, info.get i)) =
        (T i).card := by
      intro i
      unfold allTerms
      rw [items_sum h1 y [.preempt, .indirect, .direct] (fun _ => 1)]
      rw [← Nat.smul_one_eq_cast, ← sum_const, ← hsum i (fun _ => 1)]
      apply sum_congr rfl
      intro p _
      simp only [List.map_cons, List.map_nil, List.sum_cons, List.sum_nil]
      rw [hdir i]
      ring
    have h0 : ({ objective := o } : Program).Feasible y := ⟨by simp, by simp, by simp, by simp, fun v _ => hy01 v⟩
    have hyz : ∀ i : Fin info.length, lim i = 0 → ∀ v : Key, v.task = i → y v = 0 := by
      intro i hi v hv
      have hTe : T i = ∅ := by
        have := hTc i
        rw [hi] at this
        exact card_eq_zero.1 (Nat.le_zero.1 this)
      apply if_neg
      rintro ⟨i', hi', _, p', hp', _⟩
      rw [show i' = i from Fin.ext (hi'.trans hv), hTe] at hp'
      simp at hp'
    have hremote : ∀ i : Fin info.length, (info.get i).cluster ≠ (info.get k).cluster → lim i = 0 := fun i hc =>
      if_neg (fun h => hc h.1)
    have hnokd : ∀ (i : Fin info.length) (ty : BlockingType), ty ≠ kd i →
        ∀ e ∈ allTerms (info.get k) [ty] (i, info.get i), y e.2 = 0 := by
      intro i ty hne e he
      obtain ⟨r, _, he⟩ := mem_allTerms.1 he
      obtain ⟨v, _, ty', hty, rfl⟩ := mem_terms.1 he
      rw [List.mem_singleton.1 hty]
      exact hyk i _ rfl hne
    have hN := fun ts => conflicts_le (info.get k) ts
    refine feasible_gfmlp h0 ?_ ?_ ?_ ?_ ?_ ?_ ?_ ?_
    · intro i hc
      rw [termSum_zero (fun e he => hyz i (hremote i hc) _ (allTerms_task e he))]
      exact Nat.cast_nonneg _
    · intro i hi
      by_cases hc : (info.get i).cluster = (info.get k).cluster
      · by_cases hp : (info.get k).priority < (info.get i).priority
        · have hk : kd i = .preempt := if_pos hp
          rw [termSum_zero]
          · exact Nat.cast_nonneg _
          · intro e he
            obtain ⟨r, _, he⟩ := mem_allTerms.1 he
            obtain ⟨v, _, ty', hty, rfl⟩ := mem_terms.1 he
            refine hyk i _ rfl ?_
            rw [hk]
            rintro rfl
            simp at hty
        · have hne : (info.get i).priority ≠ (info.get k).priority := fun h => hi (by rw [hd i hc h])
          have h3 := hpre i
          rw [allTerms_split h1, termSum_zero (hnokd i .preempt (by
            have : kd i = .indirect := if_neg hp
            rw [this]; simp)), zero_add] at h3
          rw [h3]
          have := hTc i
          simp only [lim] at this
          rw [if_pos ⟨hc, hi⟩, if_neg (by omega)] at this
          exact_mod_cast this
      · rw [termSum_zero (fun e he => hyz i (hremote i hc) _ (allTerms_task e he))]
        exact Nat.cast_nonneg _
    · intro i hi r hr
      rw [termSum_zero (fun e he => hnokd i .direct (fun h => hkd i h.symm) e (mem_allTerms.2 ⟨r, hr, he⟩))]
      exact Nat.cast_nonneg _
    · intro i hc hi hp
      rw [hpre i]
      have := hTc i
      simp only [lim] at this
      rw [if_pos ⟨hc, hi⟩, if_pos hp] at this
      exact_mod_cast this
    · intro i hc e he
      exact hyz i (hremote i hc) _ (allTerms_task e he)
    · intro i hi hc hp
      apply hnokd
      have : kd i = .indirect := if_neg (not_lt.2 hp)
      rw [this]
      simp
    · intro i hi r hr v hv
      have h3 := hall i ⟨r, v⟩ (mem_items.2 ⟨hr, hv⟩)
      simp only at h3
      simp only [termSum, List.map_cons, List.map_nil, List.sum_cons, List.sum_nil]
      rw [hdir i]
      have : (if (⟨r, v⟩ : Σ _ : Request, ℕ) ∈ T i then (1 : ℚ) else 0) ≤ 1 := by split_ifs <;> norm_num
      linarith
    · intro i hi
      rw [hpre i]
      have := hTc i
      refine Nat.cast_le.2 (this.trans ?_)
      simp only [lim]
      split_ifs
      · unfold arrivalsShm
        have := hN ((tasks info).filter (fun t => t.2.cluster ≠ (info.get k).cluster))
        omega
      · unfold opportunities
        have := hN ((tasks info).filter (fun y => y.2.cluster = (info.get i).cluster ∧ y.1 ≠ (k : ℕ)))
        omega
      · omega
  · rw [hobj, Nat.cast_sum]
    apply sum_congr rfl
    intro i _
    rw [Nat.cast_sum, ← hsum i (fun r => r.length)]
    apply sum_congr rfl
    intro p _
    rw [hdir i]
    ring
  · intro x hx
    rw [hobj, Nat.cast_sum]
    obtain ⟨hx0, hto, hlow, hpr, hmut⟩ := of_gfmlp hx
    have hpos : ∀ v, 0 ≤ x v := fun v => (hx0.range v (by simp)).1
    apply sum_le_sum
    intro i hi
    obtain ⟨_, hne, hcl⟩ := mem_filter.1 hi
    refine hT i (fun p => x ⟨.direct, i, p.2, p.1.resId⟩ + x ⟨.indirect, i, p.2, p.1.resId⟩ +
      x ⟨.preempt, i, p.2, p.1.resId⟩) ?_ ?_
    · intro p hp
      obtain ⟨hp1, hp2⟩ := mem_items.1 hp
      refine ⟨by have := hpos ⟨.direct, i, p.2, p.1.resId⟩; have := hpos ⟨.indirect, i, p.2, p.1.resId⟩
                 have := hpos ⟨.preempt, i, p.2, p.1.resId⟩; linarith, ?_⟩
      have := hmut i hne p.1 hp1 p.2 hp2
      simp only [termSum, List.map_cons, List.map_nil, List.sum_cons, List.sum_nil] at this
      linarith
    · have e : ∑ p ∈ items info k i, (x ⟨.direct, i, p.2, p.1.resId⟩ + x ⟨.indirect, i, p.2, p.1.resId⟩ +
          x ⟨.preempt, i, p.2, p.1.resId⟩) = termSum x (allTerms (info.get k) [.preempt, .indirect, .direct] (i, info.get i)) := by
        unfold allTerms
        rw [items_sum h1 x [.preempt, .indirect, .direct] (fun _ => 1)]
        apply sum_congr rfl
        intro p _
        simp only [List.map_cons, List.map_nil, List.sum_cons, List.sum_nil]
        ring
      rw [e]
      simp only [lim]
      rw [if_pos ⟨hcl, hne⟩]
      by_cases hp : (info.get k).priority ≤ (info.get i).priority
      · rw [if_pos hp]
        exact hlow i hcl hne hp
      · rw [if_neg hp, allTerms_split h1]
        have h2 := hpr i hne (fun h => hp h.le)
        have h3 := hto i hne
        linarith

end Verif.SR.Lp
