/-
How the slots in which a job is delayed give an assignment to the variables of the LPs for global scheduling.
-/
import Verif.Model.LpGlobal
import Verif.Lemmas.LpCharge

namespace Verif.SR.Lp.Glob
open Verif.Spec Finset
open Verif.SR.Msrp (system)
open Verif.SR.Fmlp (totalNumRequests)

/-! ### Programs -/

section
variable {P : Program} {x : Var → ℚ}

theorem feasible_addInequality (h : P.Feasible x) {e : Exp} {b : ℚ} (hle : termSum x e ≤ b) :
    (addInequality P e b).Feasible x := by
  unfold addInequality
  split_ifs
  · exact h
  · refine ⟨?_, h.nonneg, h.le_one⟩
    intro c hc
    rcases List.mem_append.1 hc with hc | hc
    · exact h.le c hc
    · rw [List.mem_singleton.1 hc]
      exact hle

theorem feasible_foldl {α : Type} {f : Program → α → Program} {l : List α}
    (hf : ∀ a ∈ l, ∀ P : Program, P.Feasible x → (f P a).Feasible x) :
    ∀ {P : Program}, P.Feasible x → (l.foldl f P).Feasible x := by
  induction l with
  | nil => intro P h; exact h
  | cons a l ih =>
    intro P h
    exact ih (fun b hb => hf b (List.mem_cons_of_mem _ hb)) (hf a (List.mem_cons_self ..) P h)

end

theorem objective_foldl {α : Type} (l : List α) (f : Program → α → Program) (P : Program)
    (h : ∀ P a, (f P a).objective = P.objective) : (l.foldl f P).objective = P.objective := by
  induction l generalizing P with
  | nil => rfl
  | cons a l ih => rw [List.foldl_cons, ih, h]

theorem objective_addInequality (P : Program) (e : Exp) (b : ℚ) : (addInequality P e b).objective = P.objective := by
  unfold addInequality
  split_ifs <;> rfl

variable {info : Info} {k : Fin info.length} {m : ℕ}

theorem mem_others {t : ℕ × TaskInfo} : t ∈ others info k ↔
    ∃ x : Fin info.length, x ≠ k ∧ t = ((x : ℕ), info.get x) := by
  unfold others
  rw [List.mem_filter, mem_tasks]
  constructor
  · rintro ⟨⟨x, rfl⟩, h⟩
    refine ⟨x, ?_, rfl⟩
    intro e
    simp [e] at h
  · rintro ⟨x, h, rfl⟩
    refine ⟨⟨x, rfl⟩, ?_⟩
    have : (x : ℕ) ≠ k := fun e => h (Fin.ext e)
    simpa using this

theorem others_sum (g : ℕ × TaskInfo → ℚ) : ((others info k).map g).sum =
    ∑ x ∈ univ.filter (fun x : Fin info.length => x ≠ k), g (x, info.get x) := by
  unfold others
  have := tasks_sum (info := info) (fun t => t.1 ≠ (k : ℕ)) g
  rw [this]
  apply sum_congr _ (fun _ _ => rfl)
  ext x
  simp [Fin.ext_iff]

theorem others_sum_filter (x : Fin info.length) (hx : x ≠ k) (g : ℕ × TaskInfo → ℚ) :
    (((others info k).filter (fun y => (x : ℕ) ≠ y.1)).map g).sum =
    ∑ y ∈ univ.filter (fun y : Fin info.length => y ≠ k), g (y, info.get y) - g (x, info.get x) := by
  have h1 : (((others info k).filter (fun y => (x : ℕ) ≠ y.1)).map g).sum =
      ((others info k).map (fun y => if (x : ℕ) ≠ y.1 then g y else 0)).sum := by
    induction others info k with
    | nil => rfl
    | cons a l ih =>
      rw [List.filter_cons]
      by_cases h : (x : ℕ) ≠ a.1
      · simp only [h, ne_eq, not_false_eq_true, decide_true, if_true, List.map_cons, List.sum_cons]
        rw [← ih]
      · rw [if_neg (by simpa using h), List.map_cons, List.sum_cons, if_neg h, zero_add, ih]
  rw [h1, others_sum]
  have hmem : x ∈ univ.filter (fun y : Fin info.length => y ≠ k) := by simp [hx]
  rw [← sum_erase_add _ _ hmem, ← sum_erase_add _ (fun y : Fin info.length => g ((y : ℕ), info.get y)) hmem]
  simp only [ne_eq, not_true_eq_false, if_false, add_zero, add_sub_cancel_right]
  apply sum_congr rfl
  intro y hy
  have : ¬ (x : ℕ) = y := fun e => (mem_erase.1 hy).1 (Fin.ext e.symm)
  rw [if_pos this]

theorem mem_lowerTasks (hp : ∀ x : Fin info.length, (info.get x).priority = x) {t : ℕ × TaskInfo} :
    t ∈ lowerTasks info (info.get k) ↔ ∃ x : Fin info.length, k < x ∧ t = ((x : ℕ), info.get x) := by
  unfold lowerTasks
  rw [List.mem_filter, mem_tasks]
  constructor
  · rintro ⟨⟨x, rfl⟩, h⟩
    refine ⟨x, ?_, rfl⟩
    simp only [hp, gt_iff_lt, decide_eq_true_eq] at h
    exact Fin.lt_def.2 h
  · rintro ⟨x, h, rfl⟩
    refine ⟨⟨x, rfl⟩, ?_⟩
    simp only [hp, gt_iff_lt, decide_eq_true_eq]
    exact Fin.lt_def.1 h

theorem mem_higherTasks (hp : ∀ x : Fin info.length, (info.get x).priority = x) {t : ℕ × TaskInfo} :
    t ∈ higherTasks info (info.get k) ↔ ∃ x : Fin info.length, x < k ∧ t = ((x : ℕ), info.get x) := by
  unfold higherTasks
  rw [List.mem_filter, mem_tasks]
  constructor
  · rintro ⟨⟨x, rfl⟩, h⟩
    refine ⟨x, ?_, rfl⟩
    simp only [hp, decide_eq_true_eq] at h
    exact Fin.lt_def.2 h
  · rintro ⟨x, h, rfl⟩
    refine ⟨⟨x, rfl⟩, ?_⟩
    simp only [hp, decide_eq_true_eq]
    exact Fin.lt_def.1 h

/-! ### Delays -/

/-- The resource of a section. -/
def resOf (z : Section info.length) : ℕ :=
  match (info.get z.job.1).requests[z.idx]? with
  | some r => r.resId
  | none => 0

theorem resOf_some {z : Section info.length} {r : Request} (h : (info.get z.job.1).requests[z.idx]? = some r) :
    resOf z = r.resId := by
  unfold resOf
  rw [h]

/-- Sections of a task for a resource. -/
def bucket (Z : Finset (Section info.length)) (x q : ℕ) : Finset (Section info.length) :=
  Z.filter (fun z => (z.job.1 : ℕ) = x ∧ resOf z = q)

/-- Sections of a task. -/
def ofTask (Z : Finset (Section info.length)) (x : ℕ) : Finset (Section info.length) :=
  Z.filter (fun z => (z.job.1 : ℕ) = x)

/-- How a job of task `k` is delayed: by the sections `Z` for `D` slots directly, one at a time, and in `Y` further
slots in which `m` jobs of other tasks execute, in `I` of them in a section and in `N` of them not.  -/
structure Delay (info : Info) (k : Fin info.length) (m : ℕ) (Z : Finset (Section info.length))
    (D I : Section info.length → ℕ) (N : Fin info.length → ℕ) (Y : ℕ) : Prop where
  own : N k = 0
  other : ∀ z ∈ Z, z.job.1 ≠ k
  low : ∀ z ∈ Z, z.job.1 < k → I z = 0
  length : ∀ z ∈ Z, ∃ r, (info.get z.job.1).requests[z.idx]? = some r ∧ D z + I z ≤ r.length
  count : ∀ x d r, (info.get x).requests[d]? = some r →
    (Z.filter (fun z => z.job.1 = x ∧ z.idx = d)).card ≤ instances (info.get k) (info.get x) r
  workload : ∀ x ≠ k, N x + ∑ z ∈ ofTask Z x, (D z + I z) ≤ workloadBound (info.get x) (info.get k).response
  slack : ∀ x ≠ k, N x + ∑ z ∈ ofTask Z x, I z ≤ Y
  full : ∑ x ∈ univ.filter (fun x => x ≠ k), (N x + ∑ z ∈ ofTask Z x, I z) = m * Y
  independent : totalNumRequests (info.get k) = 0 → ∀ x, k < x → N x = 0
  access : ∀ z ∈ Z, 0 < D z → ∃ r ∈ (info.get k).requests, r.resId = resOf z

variable {Z : Finset (Section info.length)} {D I : Section info.length → ℕ} {N : Fin info.length → ℕ} {Y : ℕ}

section
variable (hD : Delay info k m Z D I N Y) (h1 : OneEntry info)
include hD h1

theorem Delay.request {x : Fin info.length} {r : Request} (hr : r ∈ (info.get x).requests) {z : Section info.length}
    (hz : z ∈ bucket Z x r.resId) : (info.get z.job.1).requests[z.idx]? = some r := by
  obtain ⟨hz, hx, hq⟩ := mem_filter.1 hz
  obtain ⟨r', hr', _⟩ := hD.length z hz
  rw [resOf_some hr'] at hq
  have hx : z.job.1 = x := Fin.ext hx
  rw [hr']
  congr 1
  refine h1.eq_of_mem (i := x) ?_ hr hq
  rw [← hx]
  exact List.mem_of_getElem? hr'

theorem Delay.bucket_card {x : Fin info.length} {r : Request} (hr : r ∈ (info.get x).requests) :
    (bucket Z x r.resId).card ≤ instances (info.get k) (info.get x) r := by
  obtain ⟨d, hd⟩ := List.getElem?_of_mem hr
  refine le_trans (card_le_card ?_) (hD.count x d r hd)
  intro z hz
  have h2 := hD.request h1 hr hz
  obtain ⟨hz, hx, hq⟩ := mem_filter.1 hz
  have hx : z.job.1 = x := Fin.ext hx
  rw [hx] at h2
  exact mem_filter.2 ⟨hz, hx, (h1.eq h2 hd rfl).1⟩

theorem Delay.bucket_sum {x : Fin info.length} {r : Request} (hr : r ∈ (info.get x).requests) :
    ∑ z ∈ bucket Z x r.resId, (D z + I z) ≤ r.length * instances (info.get k) (info.get x) r := by
  refine (sum_le_card_nsmul _ _ r.length ?_).trans ?_
  · intro z hz
    obtain ⟨r', hr', hle⟩ := hD.length z (mem_filter.1 hz).1
    rw [hD.request h1 hr hz] at hr'
    cases hr'
    exact hle
  · rw [smul_eq_mul, Nat.mul_comm]
    exact Nat.mul_le_mul_left _ (hD.bucket_card h1 hr)

theorem Delay.total (x : Fin info.length) (f : Section info.length → ℚ) :
    ((info.get x).requests.map (fun r => ∑ z ∈ bucket Z x r.resId, f z)).sum = ∑ z ∈ ofTask Z x, f z := by
  have hn := h1 _ (List.get_mem info x)
  have e : ((info.get x).requests.map (fun r => ∑ z ∈ bucket Z x r.resId, f z)).sum =
      ∑ q ∈ ((info.get x).requests.map Request.resId).toFinset, ∑ z ∈ bucket Z x q, f z := by
    rw [List.sum_toFinset _ hn, List.map_map]
    rfl
  rw [e, ← sum_fiberwise_of_maps_to (s := ofTask Z x) (g := resOf)
    (t := ((info.get x).requests.map Request.resId).toFinset)]
  · apply sum_congr rfl
    intro q _
    apply sum_congr _ (fun _ _ => rfl)
    ext z
    simp only [bucket, ofTask, mem_filter, and_assoc]
  · intro z hz
    obtain ⟨hz, hx⟩ := mem_filter.1 hz
    obtain ⟨r, hr, _⟩ := hD.length z hz
    have hx : z.job.1 = x := Fin.ext hx
    rw [resOf_some hr, List.mem_toFinset, List.mem_map]
    rw [hx] at hr
    exact ⟨r, List.mem_of_getElem? hr, rfl⟩

end

/-- The share of the requests of task `x` for resource `q`. -/
def share (k : Fin info.length) (Z : Finset (Section info.length)) (f : Section info.length → ℕ) (x q : ℕ) : ℚ :=
  match requestOf info x q with
  | none => 0
  | some p => ((∑ z ∈ bucket Z x q, f z : ℕ) : ℚ) / ((p.2.length * instances (info.get k) p.1 p.2 : ℕ) : ℚ)

/-- The assignment. -/
def value (k : Fin info.length) (Z : Finset (Section info.length)) (D I : Section info.length → ℕ)
    (N : Fin info.length → ℕ) : Var → ℚ
  | .frac ⟨.direct, x, _, q⟩ => share k Z D x q
  | .frac ⟨.indirect, x, _, q⟩ => share k Z I x q
  | .frac _ => 0
  | .intf .coBoosting _ => 0
  | .intf _ x => if h : x < info.length then N ⟨x, h⟩ else 0

theorem share_eq (h1 : OneEntry info) (f : Section info.length → ℕ) {x : Fin info.length} {r : Request}
    (hr : r ∈ (info.get x).requests) : share k Z f x r.resId =
      ((∑ z ∈ bucket Z x r.resId, f z : ℕ) : ℚ) / ((r.length * instances (info.get k) (info.get x) r : ℕ) : ℚ) := by
  unfold share
  rw [h1.requestOf hr]

theorem share_nonneg (f : Section info.length → ℕ) (x q : ℕ) : 0 ≤ share k Z f x q := by
  unfold share
  split
  · exact le_rfl
  · positivity

theorem value_nonneg (v : Var) : 0 ≤ value k Z D I N v := by
  unfold value
  split
  · exact share_nonneg ..
  · exact share_nonneg ..
  · exact le_rfl
  · exact le_rfl
  · split_ifs
    · positivity
    · exact le_rfl

theorem termSum_terms (c : ℚ) (ty : BlockingType) (t : ℕ × TaskInfo) (r : Request) (y : Var → ℚ) (s : ℚ)
    (hy : ∀ v, y (.frac ⟨ty, t.1, v, r.resId⟩) = s) (ti : TaskInfo) :
    termSum y (terms c ti ty t r) = c * (instances ti t.2 r * s) := by
  unfold termSum terms
  rw [List.map_map]
  have : ((fun t : ℚ × Var => t.1 * y t.2) ∘ fun v => (c, Var.frac ⟨ty, t.1, v, r.resId⟩)) = fun _ => c * s := by
    funext v
    simp only [Function.comp_apply, hy]
  rw [this]
  simp
  ring

section
variable (hD : Delay info k m Z D I N Y) (h1 : OneEntry info)
include hD h1

theorem Delay.share_add_le (x q : ℕ) : share k Z D x q + share k Z I x q ≤ 1 := by
  unfold share
  split
  · norm_num
  · rename_i p hp
    obtain ⟨i, rfl, hp1, hp2, rfl⟩ := requestOf_some hp
    rw [hp1, ← add_div]
    apply div_le_one_of_le₀
    · rw [← Nat.cast_add, ← sum_add_distrib]
      exact_mod_cast hD.bucket_sum h1 hp2
    · positivity

/-- Scaled with the length, the terms sum up to the number of slots. -/
theorem Delay.scaled {f : Section info.length → ℕ} (hf : ∀ z, f z ≤ D z + I z) {x : Fin info.length} {r : Request}
    (hr : r ∈ (info.get x).requests) :
    (r.length : ℚ) * (instances (info.get k) (info.get x) r * share k Z f x r.resId) =
      ((∑ z ∈ bucket Z x r.resId, f z : ℕ) : ℚ) := by
  rw [share_eq h1 f hr]
  by_cases h0 : r.length * instances (info.get k) (info.get x) r = 0
  · have h2 : ∑ z ∈ bucket Z x r.resId, f z = 0 := by
      have := hD.bucket_sum h1 hr
      rw [h0] at this
      have h3 := sum_le_sum (fun z (_ : z ∈ bucket Z x r.resId) => hf z)
      omega
    rw [h2]
    simp
  · have h3 : ((r.length * instances (info.get k) (info.get x) r : ℕ) : ℚ) ≠ 0 := by exact_mod_cast h0
    rw [← mul_assoc, ← Nat.cast_mul, mul_div_cancel₀ _ h3]

/-- The terms sum up to no more than the number of sections. -/
theorem Delay.counted {f : Section info.length → ℕ} (hf : ∀ z, f z ≤ D z + I z) {x : Fin info.length} {r : Request}
    (hr : r ∈ (info.get x).requests) :
    (instances (info.get k) (info.get x) r * share k Z f x r.resId : ℚ) ≤
      (((bucket Z x r.resId).filter (fun z => 0 < f z)).card : ℚ) := by
  rw [share_eq h1 f hr]
  have hle : ∑ z ∈ bucket Z x r.resId, f z ≤ r.length * ((bucket Z x r.resId).filter (fun z => 0 < f z)).card := by
    rw [← sum_filter_add_sum_filter_not (bucket Z x r.resId) (fun z => 0 < f z)]
    have h2 : ∑ z ∈ (bucket Z x r.resId).filter (fun z => ¬ 0 < f z), f z = 0 := by
      apply sum_eq_zero
      intro z hz
      have := (mem_filter.1 hz).2
      omega
    rw [h2, add_zero, Nat.mul_comm]
    refine (sum_le_card_nsmul _ _ r.length ?_)
    intro z hz
    have hz := (mem_filter.1 hz).1
    obtain ⟨r', hr', hle⟩ := hD.length z (mem_filter.1 hz).1
    rw [hD.request h1 hr hz] at hr'
    cases hr'
    exact (hf z).trans hle
  by_cases h0 : r.length * instances (info.get k) (info.get x) r = 0
  · rw [h0]
    simp
  · have h3 : (0 : ℚ) < ((r.length * instances (info.get k) (info.get x) r : ℕ) : ℚ) := by
      exact_mod_cast Nat.pos_of_ne_zero h0
    rw [← mul_div_assoc, div_le_iff₀ h3]
    have h4 : instances (info.get k) (info.get x) r * (∑ z ∈ bucket Z x r.resId, f z) ≤
        ((bucket Z x r.resId).filter (fun z => 0 < f z)).card * (r.length * instances (info.get k) (info.get x) r) := by
      calc instances (info.get k) (info.get x) r * (∑ z ∈ bucket Z x r.resId, f z)
          ≤ instances (info.get k) (info.get x) r *
              (r.length * ((bucket Z x r.resId).filter (fun z => 0 < f z)).card) := Nat.mul_le_mul_left _ hle
        _ = _ := by ring
    exact_mod_cast h4

end

/-! ### The generic constraints -/

theorem termSum_cons (y : Var → ℚ) (c : ℚ) (v : Var) (e : Exp) : termSum y ((c, v) :: e) = c * y v + termSum y e := by
  simp [termSum]

theorem termSum_nil (y : Var → ℚ) : termSum y [] = 0 := rfl

theorem direct_terms (c : ℚ) (x : ℕ × TaskInfo) (r : Request) :
    termSum (value k Z D I N) (terms c (info.get k) .direct x r) =
      c * (instances (info.get k) x.2 r * share k Z D x.1 r.resId) :=
  termSum_terms c .direct x r _ _ (fun _ => rfl) _

theorem indirect_terms (c : ℚ) (x : ℕ × TaskInfo) (r : Request) :
    termSum (value k Z D I N) (terms c (info.get k) .indirect x r) =
      c * (instances (info.get k) x.2 r * share k Z I x.1 r.resId) :=
  termSum_terms c .indirect x r _ _ (fun _ => rfl) _

theorem preempt_terms (c : ℚ) (x : ℕ × TaskInfo) (r : Request) :
    termSum (value k Z D I N) (terms c (info.get k) .preempt x r) = 0 := by
  rw [termSum_terms c .preempt x r _ 0 (fun _ => rfl)]
  ring

theorem value_regular (x : Fin info.length) : value k Z D I N (.intf .regular x) = N x := by
  simp [value]

theorem value_stalling (x : Fin info.length) : value k Z D I N (.intf .stalling x) = N x := by
  simp [value]

theorem value_coBoosting (x : ℕ) : value k Z D I N (.intf .coBoosting x) = 0 := rfl

section
variable (hD : Delay info k m Z D I N Y) (h1 : OneEntry info)
include hD h1

theorem Delay.direct_sum (x : Fin info.length) :
    ((info.get x).requests.map (fun r => (r.length : ℚ) *
      (instances (info.get k) (info.get x) r * share k Z D x r.resId))).sum = ((∑ z ∈ ofTask Z x, D z : ℕ) : ℚ) := by
  rw [Nat.cast_sum, ← hD.total h1 x (fun z => (D z : ℚ))]
  congr 1
  apply List.map_congr_left
  intro r hr
  rw [hD.scaled h1 (f := D) (fun z => Nat.le_add_right _ _) hr, Nat.cast_sum]

theorem Delay.indirect_sum (x : Fin info.length) :
    ((info.get x).requests.map (fun r => (r.length : ℚ) *
      (instances (info.get k) (info.get x) r * share k Z I x r.resId))).sum = ((∑ z ∈ ofTask Z x, I z : ℕ) : ℚ) := by
  rw [Nat.cast_sum, ← hD.total h1 x (fun z => (I z : ℚ))]
  congr 1
  apply List.map_congr_left
  intro r hr
  rw [hD.scaled h1 (f := I) (fun z => Nat.le_add_left _ _) hr, Nat.cast_sum]

omit h1 in
theorem Delay.high_zero {x : Fin info.length} (hx : x < k) : ∑ z ∈ ofTask Z x, I z = 0 := by
  apply sum_eq_zero
  intro z hz
  obtain ⟨hz, hzx⟩ := mem_filter.1 hz
  exact hD.low z hz (by rw [show z.job.1 = x from Fin.ext hzx]; exact hx)

theorem Delay.workload_terms {x : Fin info.length} (hx : x ≠ k) :
    termSum (value k Z D I N)
      ((if (x : ℕ) < k then [((1 : ℚ), Var.intf .regular x)]
        else [(1, Var.intf .coBoosting x), (1, Var.intf .stalling x)]) ++
      (info.get x).requests.flatMap (fun r =>
        terms r.length (info.get k) .direct (↑x, info.get x) r ++
        if (x : ℕ) > k then terms r.length (info.get k) .indirect (↑x, info.get x) r ++
          terms r.length (info.get k) .preempt (↑x, info.get x) r else [])) =
      ((N x + ∑ z ∈ ofTask Z x, (D z + I z) : ℕ) : ℚ) := by
  rw [termSum_append, termSum_flatMap]
  have e' : termSum (value k Z D I N) (if (x : ℕ) < k then [((1 : ℚ), Var.intf .regular x)]
        else [(1, Var.intf .coBoosting x), (1, Var.intf .stalling x)]) = N x := by
    split_ifs
    · rw [termSum_cons, termSum_nil, value_regular]
      ring
    · rw [termSum_cons, termSum_cons, termSum_nil, value_stalling, value_coBoosting]
      ring
  rw [e', sum_add_distrib, Nat.cast_add, Nat.cast_add]
  congr 1
  by_cases hlt : (x : ℕ) > k
  · rw [← hD.direct_sum h1 x, ← hD.indirect_sum h1 x, ← List.sum_map_add]
    congr 1
    apply List.map_congr_left
    intro r _
    rw [if_pos hlt, termSum_append, termSum_append, direct_terms, indirect_terms, preempt_terms, add_zero]
  · have hlt' : x < k := lt_of_le_of_ne (Fin.le_def.2 (not_lt.1 hlt)) hx
    rw [hD.high_zero hlt', Nat.cast_zero, add_zero, ← hD.direct_sum h1 x]
    congr 1
    apply List.map_congr_left
    intro r _
    rw [if_neg hlt, List.append_nil, direct_terms]

theorem Delay.slack_terms (c : ℚ) {x : Fin info.length} (hx : x ≠ k) :
    termSum (value k Z D I N) (slackTerms k (info.get k) c (↑x, info.get x)) =
      c * ((N x + ∑ z ∈ ofTask Z x, I z : ℕ) : ℚ) := by
  unfold slackTerms
  by_cases hlt : (x : ℕ) < k
  · rw [if_pos hlt, termSum_cons, termSum_nil, hD.high_zero (Fin.lt_def.2 hlt), value_regular]
    simp
  · rw [if_neg hlt, termSum_append, termSum_cons, termSum_cons, termSum_nil, value_coBoosting, value_stalling,
      termSum_flatMap, Nat.cast_add, ← hD.indirect_sum h1 x, mul_add, ← List.sum_map_mul_left]
    simp only [mul_zero, zero_add, add_zero]
    congr 2
    apply List.map_congr_left
    intro r _
    rw [termSum_append, indirect_terms, preempt_terms, add_zero]
    ring

theorem Delay.objective (hm : 0 < m) : termSum (value k Z D I N) (objective info k (info.get k) m) =
    ((∑ z ∈ Z, D z + Y : ℕ) : ℚ) := by
  have hm' : (m : ℚ) ≠ 0 := by exact_mod_cast hm.ne'
  unfold Glob.objective
  rw [termSum_flatMap, others_sum]
  have hx : ∀ x ∈ univ.filter (fun x : Fin info.length => x ≠ k),
      termSum (value k Z D I N)
        ((if (x : ℕ) < k then [(1 / (m : ℚ), Var.intf .regular x)] else []) ++
        (if (x : ℕ) > k then [(1 / (m : ℚ), Var.intf .coBoosting x), (1 / (m : ℚ), Var.intf .stalling x)] else []) ++
        (info.get x).requests.flatMap (fun r =>
          terms r.length (info.get k) .direct (↑x, info.get x) r ++
          if (x : ℕ) > k then terms (r.length / m) (info.get k) .indirect (↑x, info.get x) r ++
            terms (r.length / m) (info.get k) .preempt (↑x, info.get x) r else [])) =
      ((∑ z ∈ ofTask Z x, D z : ℕ) : ℚ) + 1 / m * ((N x + ∑ z ∈ ofTask Z x, I z : ℕ) : ℚ) := by
    intro x hx
    have hx : x ≠ k := (mem_filter.1 hx).2
    rw [termSum_append, termSum_append, termSum_flatMap]
    by_cases hlt : (x : ℕ) < k
    · have hng : ¬ (x : ℕ) > k := by omega
      rw [if_pos hlt, if_neg hng, termSum_cons, termSum_nil, value_regular, hD.high_zero (Fin.lt_def.2 hlt),
        ← hD.direct_sum h1 x]
      simp only [hng, if_false, List.append_nil, direct_terms, Nat.add_zero, add_zero]
      ring
    · have hg : (x : ℕ) > k := by
        have : (x : ℕ) ≠ k := fun e => hx (Fin.ext e)
        omega
      rw [if_neg hlt, if_pos hg, termSum_cons, termSum_cons, termSum_nil, value_coBoosting, value_stalling,
        Nat.cast_add, ← hD.direct_sum h1 x, ← hD.indirect_sum h1 x, mul_add, ← List.sum_map_mul_left]
      simp only [hg, if_true, termSum_append, direct_terms, indirect_terms, preempt_terms, mul_zero, zero_add,
        add_zero]
      rw [List.sum_map_add, add_left_comm]
      congr 3
      apply List.map_congr_left
      intro r _
      ring
  rw [sum_congr rfl hx, sum_add_distrib, ← mul_sum, ← Nat.cast_sum, ← Nat.cast_sum, hD.full]
  have e : ∑ x ∈ univ.filter (fun x : Fin info.length => x ≠ k), ∑ z ∈ ofTask Z x, D z = ∑ z ∈ Z, D z := by
    rw [← sum_fiberwise_of_maps_to (s := Z) (g := fun z => z.job.1)
      (t := univ.filter (fun x : Fin info.length => x ≠ k))]
    · apply sum_congr rfl
      intro x _
      apply sum_congr _ (fun _ _ => rfl)
      ext z
      simp [ofTask, Fin.ext_iff]
    · intro z hz
      simp [hD.other z hz]
  rw [e]
  push_cast
  field_simp

theorem Delay.start (e : Exp) : ({ objective := e, unbounded := (others info k).flatMap (fun t =>
        [.intf .regular t.1, .intf .coBoosting t.1, .intf .stalling t.1]) } : Program).Feasible (value k Z D I N) := by
  refine ⟨by simp, value_nonneg, ?_⟩
  intro v hv
  have hsum := hD.share_add_le h1
  have hN : ∀ ty x, Var.intf ty x = v → (if h : x < info.length then (N ⟨x, h⟩ : ℚ) else 0) ≤ 1 := by
    rintro ty x rfl
    split_ifs with h
    · by_cases hk : (⟨x, h⟩ : Fin info.length) = k
      · rw [hk, hD.own]
        norm_num
      · exfalso
        apply hv
        rw [List.mem_flatMap]
        refine ⟨(x, info.get ⟨x, h⟩), mem_others.2 ⟨⟨x, h⟩, hk, rfl⟩, ?_⟩
        cases ty <;> simp
    · norm_num
  unfold value
  split
  · rename_i x _ q
    have h2 : 0 ≤ share k Z I x q := share_nonneg ..
    have := hsum x q
    linarith
  · rename_i x _ q
    have h2 : 0 ≤ share k Z D x q := share_nonneg ..
    have := hsum x q
    linarith
  · norm_num
  · norm_num
  · exact hN _ _ rfl

theorem Delay.workloadConstraints {P : Program} (hP : P.Feasible (value k Z D I N)) :
    (workloadConstraints info k (info.get k) P).Feasible (value k Z D I N) := by
  apply feasible_foldl _ hP
  intro t ht P hP
  obtain ⟨x, hx, rfl⟩ := mem_others.1 ht
  apply feasible_addInequality hP
  refine (le_of_eq (hD.workload_terms h1 hx)).trans ?_
  exact_mod_cast hD.workload x hx

theorem Delay.slackConstraints (hm : 0 < m) {P : Program} (hP : P.Feasible (value k Z D I N)) :
    (slackConstraints info k (info.get k) m P).Feasible (value k Z D I N) := by
  have hm' : (m : ℚ) ≠ 0 := by exact_mod_cast hm.ne'
  apply feasible_foldl _ hP
  intro t ht P hP
  obtain ⟨x, hx, rfl⟩ := mem_others.1 ht
  apply feasible_addInequality hP
  rw [termSum_append, hD.slack_terms h1 _ hx, termSum_flatMap, others_sum_filter x hx, hD.slack_terms h1 _ hx]
  rw [sum_congr rfl (fun y hy => hD.slack_terms h1 (-(1 / (m : ℚ))) (mem_filter.1 hy).2), ← mul_sum, ← Nat.cast_sum,
    hD.full, Nat.cast_mul]
  have h2 : ((N x + ∑ z ∈ ofTask Z x, I z : ℕ) : ℚ) ≤ Y := by exact_mod_cast hD.slack x hx
  generalize ((N x + ∑ z ∈ ofTask Z x, I z : ℕ) : ℚ) = a at h2
  have e : (1 - 1 / (m : ℚ)) * a + (-(1 / (m : ℚ)) * (m * Y) - -(1 / (m : ℚ)) * a) = a - Y := by
    field_simp
    ring
  rw [e]
  linarith

theorem Delay.mutexConstraints {P : Program} (hP : P.Feasible (value k Z D I N)) :
    (mutexConstraints info k (info.get k) P).Feasible (value k Z D I N) := by
  apply feasible_foldl _ hP
  intro t ht P hP
  apply feasible_foldl _ hP
  intro r hr P hP
  apply feasible_foldl _ hP
  intro v _ P hP
  apply feasible_addInequality hP
  have h2 := hD.share_add_le h1 t.1 r.resId
  have h3 : 0 ≤ share k Z I t.1 r.resId := share_nonneg ..
  rw [termSum_append, termSum_cons, termSum_nil]
  have e : value k Z D I N (.frac ⟨.direct, t.1, v, r.resId⟩) = share k Z D t.1 r.resId := rfl
  rw [e]
  split_ifs
  · rw [termSum_cons, termSum_cons, termSum_nil]
    have e : value k Z D I N (.frac ⟨.indirect, t.1, v, r.resId⟩) = share k Z I t.1 r.resId := rfl
    have e' : value k Z D I N (.frac ⟨.preempt, t.1, v, r.resId⟩) = 0 := rfl
    rw [e, e']
    linarith
  · rw [termSum_nil]
    linarith

omit h1 in
theorem Delay.independentConstraint (hp : ∀ x : Fin info.length, (info.get x).priority = x) {P : Program}
    (hP : P.Feasible (value k Z D I N)) :
    (independentConstraint info (info.get k) P).Feasible (value k Z D I N) := by
  unfold Glob.independentConstraint
  split_ifs with h0
  · apply feasible_addInequality hP
    apply le_of_eq
    apply termSum_zero
    intro t ht
    obtain ⟨a, ha, rfl⟩ := List.mem_map.1 ht
    obtain ⟨x, hx, rfl⟩ := (mem_lowerTasks hp).1 ha
    simp only
    rw [value_stalling, hD.independent h0 x hx, Nat.cast_zero]
  · exact hP

theorem Delay.nonAccessConstraints {P : Program} (hP : P.Feasible (value k Z D I N)) :
    (nonAccessConstraints info k (info.get k) P).Feasible (value k Z D I N) := by
  apply feasible_foldl _ hP
  intro q _ P hP
  split_ifs with hany
  · exact hP
  apply feasible_addInequality hP
  apply le_of_eq
  rw [termSum_flatMap]
  apply List.sum_eq_zero
  intro a ha
  obtain ⟨t, ht, rfl⟩ := List.mem_map.1 ha
  obtain ⟨x, hx, rfl⟩ := mem_others.1 ht
  rw [termSum_flatMap]
  apply List.sum_eq_zero
  intro a ha
  obtain ⟨r, hr, rfl⟩ := List.mem_map.1 ha
  obtain ⟨hr, hrq⟩ := List.mem_filter.1 hr
  have hrq : r.resId = q := by simpa using hrq
  rw [direct_terms, one_mul]
  have h3 := hD.counted h1 (f := D) (fun z => Nat.le_add_right _ _) hr
  have h4 : (bucket Z x r.resId).filter (fun z => 0 < D z) = ∅ := by
    rw [filter_eq_empty_iff]
    intro z hz hpos
    obtain ⟨hz, _, hq⟩ := mem_filter.1 hz
    obtain ⟨a, ha, hae⟩ := hD.access z hz hpos
    apply hany
    rw [List.any_eq_true]
    exact ⟨a, ha, by simp [hae, hq, hrq]⟩
  rw [h4] at h3
  have h5 : (0 : ℚ) ≤ instances (info.get k) (info.get x) r * share k Z D x r.resId :=
    mul_nonneg (by positivity) (share_nonneg ..)
  simp only [card_empty, Nat.cast_zero] at h3
  exact le_antisymm h3 h5

/-- The assignment respects the constraints of the generic program. -/
theorem Delay.generic (hm : 0 < m) (hp : ∀ x : Fin info.length, (info.get x).priority = x) :
    (generic info k (info.get k) m).Feasible (value k Z D I N) := by
  unfold Glob.generic
  simp only
  exact hD.nonAccessConstraints h1 (hD.independentConstraint hp (hD.mutexConstraints h1
    (hD.slackConstraints h1 hm (hD.workloadConstraints h1 (hD.start h1 _)))))

end

end Verif.SR.Lp.Glob
