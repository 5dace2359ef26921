/-
How the slots in which a job is delayed give an assignment to the variables of the linear programs.
-/
import Verif.Model.LpCommon
import Verif.Lemmas.PartLocks
import Mathlib.Algebra.Order.BigOperators.Group.Finset
import Mathlib.Tactic.Linarith
import Mathlib.Algebra.BigOperators.Field
import Mathlib.Tactic.FieldSimp

namespace Verif.SR.Lp
open Verif.Spec Finset
open Verif.SR.Msrp (system)

/-! ### Terms and programs -/

section
variable {V : Type} {x : V → ℚ}

theorem termSum_append (a b : List (ℚ × V)) : termSum x (a ++ b) = termSum x a + termSum x b := by
  simp [termSum]

theorem termSum_flatMap {α : Type} (l : List α) (f : α → List (ℚ × V)) :
    termSum x (l.flatMap f) = (l.map (fun a => termSum x (f a))).sum := by
  induction l with
  | nil => rfl
  | cons a l ih => rw [List.flatMap_cons, termSum_append, ih, List.map_cons, List.sum_cons]

theorem termSum_zero {e : List (ℚ × V)} (h : ∀ t ∈ e, x t.2 = 0) : termSum x e = 0 := by
  unfold termSum
  apply List.sum_eq_zero
  intro a ha
  obtain ⟨t, ht, rfl⟩ := List.mem_map.1 ha
  rw [h t ht, mul_zero]

end

section
variable {P : Program} {x : Key → ℚ}

theorem feasible_addInequality (h : P.Feasible x) {e : Exp} {b : ℚ} (hle : termSum x e ≤ b) :
    (addInequality P e b).Feasible x := by
  unfold addInequality
  split_ifs
  · exact h
  · refine ⟨h.eq, ?_, h.integer, h.binary, h.range⟩
    intro c hc
    rcases List.mem_append.1 hc with hc | hc
    · exact h.le c hc
    · rw [List.mem_singleton.1 hc]
      exact hle

theorem feasible_addEquality (h : P.Feasible x) {e : Exp} {b : ℚ} (hle : termSum x e = b) :
    (addEquality P e b).Feasible x := by
  unfold addEquality
  split_ifs
  · exact h
  · refine ⟨?_, h.le, h.integer, h.binary, h.range⟩
    intro c hc
    rcases List.mem_append.1 hc with hc | hc
    · exact h.eq c hc
    · rw [List.mem_singleton.1 hc]
      exact hle

theorem feasible_declareBinary (h : P.Feasible x) {k : Key} (hk : x k = 0 ∨ x k = 1) :
    (declareBinary P k).Feasible x := by
  refine ⟨h.eq, h.le, h.integer, ?_, h.range⟩
  intro v hv
  rcases List.mem_cons.1 hv with rfl | hv
  · exact hk
  · exact h.binary v hv

theorem feasible_declareInteger (h : P.Feasible x) {k : Key} (hk : ∃ n : ℕ, x k = n) :
    (declareInteger P k).Feasible x := by
  refine ⟨h.eq, h.le, ?_, h.binary, ?_⟩
  · intro v hv
    rcases List.mem_cons.1 hv with rfl | hv
    · exact hk
    · exact h.integer v hv
  · intro v hv
    exact h.range v (fun hc => hv (List.mem_cons_of_mem _ hc))

theorem feasible_foldl {α : Type} {f : Program → α → Program} {l : List α}
    (hf : ∀ a ∈ l, ∀ P : Program, P.Feasible x → (f P a).Feasible x) :
    ∀ {P : Program}, P.Feasible x → (l.foldl f P).Feasible x := by
  induction l with
  | nil => intro P h; exact h
  | cons a l ih =>
    intro P h
    exact ih (fun b hb => hf b (List.mem_cons_of_mem _ hb)) (hf a (List.mem_cons_self ..) P h)

theorem feasible_empty (h : ∀ v, 0 ≤ x v ∧ x v ≤ 1) : ({} : Program).Feasible x :=
  ⟨by simp, by simp, by simp, by simp, fun v _ => h v⟩

end

theorem objective_foldl {α : Type} (l : List α) (f : Program → α → Program) (P : Program)
    (h : ∀ P a, (f P a).objective = P.objective) : (l.foldl f P).objective = P.objective := by
  induction l generalizing P with
  | nil => rfl
  | cons a l ih => rw [List.foldl_cons, ih, h]

theorem objective_addInequality (P : Program) (e : Exp) (b : ℚ) : (addInequality P e b).objective = P.objective := by
  unfold addInequality
  split_ifs <;> rfl

theorem objective_addEquality (P : Program) (e : Exp) (b : ℚ) : (addEquality P e b).objective = P.objective := by
  unfold addEquality
  split_ifs <;> rfl

/-- Rounding does not lose whole units. -/
theorem le_lrint {n : ℕ} {q : ℚ} (h : (n : ℚ) ≤ q) : n ≤ (lrint q).toNat := by
  have h1 : (n : ℤ) ≤ ⌊q⌋ := Int.le_floor.2 (by exact_mod_cast h)
  have h2 : ⌊q⌋ ≤ lrint q := by
    unfold lrint
    split_ifs <;> omega
  omega

/-! ### Tasks -/

variable {info : Info}

theorem tasks_eq (info : Info) :
    tasks info = (List.finRange info.length).map (fun i : Fin info.length => ((i : ℕ), info.get i)) := by
  unfold tasks
  apply List.ext_getElem
  · simp
  · intro a h1 h2
    simp

theorem tasks_eq_indexed (info : Info) : tasks info = indexed info := rfl

theorem mem_tasks {t : ℕ × TaskInfo} : t ∈ tasks info ↔ ∃ i : Fin info.length, t = ((i : ℕ), info.get i) := by
  rw [tasks_eq, List.mem_map]
  constructor
  · rintro ⟨i, _, rfl⟩
    exact ⟨i, rfl⟩
  · rintro ⟨i, rfl⟩
    exact ⟨i, List.mem_finRange _, rfl⟩

theorem tasks_sum {M : Type} [AddCommMonoid M] (p : ℕ × TaskInfo → Prop) [DecidablePred p] (g : ℕ × TaskInfo → M) :
    (((tasks info).filter (fun t => p t)).map g).sum =
      ∑ i ∈ univ.filter (fun i : Fin info.length => p ((i : ℕ), info.get i)), g (i, info.get i) := by
  rw [tasks_eq, List.filter_map, List.map_map, Finset.sum_filter, Fin.sum_univ_def]
  induction (List.finRange info.length) with
  | nil => rfl
  | cons a l ih =>
    rw [List.filter_cons]
    by_cases h : p ((a : ℕ), info.get a)
    · simp only [Function.comp_apply, h, decide_true, if_true, List.map_cons, List.sum_cons]
      rw [← ih]
    · simp only [Function.comp_apply, h, decide_false, List.map_cons, List.sum_cons, if_false, zero_add]
      rw [← ih]
      simp

/-! ### Charges -/

/-- Each task requests a resource at most once, i.e., has at most one entry for it. -/
def OneEntry (info : Info) : Prop := ∀ t ∈ info, (t.requests.map Request.resId).Nodup

theorem OneEntry.eq (h : OneEntry info) {i : Fin info.length} {d e : ℕ} {a b : Request}
    (ha : (info.get i).requests[d]? = some a) (hb : (info.get i).requests[e]? = some b) (hab : a.resId = b.resId) :
    d = e ∧ a = b := by
  have hn := h _ (List.get_mem info i)
  have h1 : ((info.get i).requests.map Request.resId)[d]? = some a.resId := by rw [List.getElem?_map, ha]; rfl
  have h2 : ((info.get i).requests.map Request.resId)[e]? = some a.resId := by rw [List.getElem?_map, hb, hab]; rfl
  have hd : d < ((info.get i).requests.map Request.resId).length := (List.getElem?_eq_some_iff.1 h1).1
  have := List.getElem?_inj (l := (info.get i).requests.map Request.resId) hd hn |>.1 (h1.trans h2.symm)
  subst this
  exact ⟨rfl, Option.some.inj (ha.symm.trans hb)⟩

theorem OneEntry.eq_of_mem (h : OneEntry info) {i : Fin info.length} {a b : Request}
    (ha : a ∈ (info.get i).requests) (hb : b ∈ (info.get i).requests) (hab : a.resId = b.resId) : a = b := by
  obtain ⟨d, hd⟩ := List.getElem?_of_mem ha
  obtain ⟨e, he⟩ := List.getElem?_of_mem hb
  exact (h.eq hd he hab).2

theorem OneEntry.filter (h : OneEntry info) {i : Fin info.length} {a : Request} (ha : a ∈ (info.get i).requests) :
    (info.get i).requests.filter (fun r => r.resId = a.resId) = [a] := by
  have hnd : (info.get i).requests.Nodup := List.Nodup.of_map _ (h _ (List.get_mem info i))
  have hmem : ∀ r, r ∈ (info.get i).requests.filter (fun r => r.resId = a.resId) ↔ r = a := by
    intro r
    rw [List.mem_filter]
    constructor
    · rintro ⟨h1, h2⟩
      exact h.eq_of_mem h1 ha (by simpa using h2)
    · rintro rfl
      exact ⟨ha, by simp⟩
  have hp := List.perm_of_nodup_nodup_toFinset_eq (hnd.filter (fun r => r.resId = a.resId))
    (List.nodup_singleton a) (by ext r; rw [List.mem_toFinset, hmem]; simp)
  exact List.perm_singleton.1 hp

/-- The request that task `x` makes for resource `r`. -/
def requestOf (info : Info) (x r : ℕ) : Option (TaskInfo × Request) :=
  match info[x]? with
  | none => none
  | some tx => (tx.requests.find? (fun q => q.resId = r)).map (fun q => (tx, q))

theorem OneEntry.requestOf (h : OneEntry info) {i : Fin info.length} {a : Request} (ha : a ∈ (info.get i).requests) :
    requestOf info i a.resId = some (info.get i, a) := by
  unfold Lp.requestOf
  rw [fin_get?]
  simp only
  have h1 : ((info.get i).requests.find? (fun q => q.resId = a.resId)).isSome := by
    rw [List.find?_isSome]
    exact ⟨a, ha, by simp⟩
  obtain ⟨b, hb⟩ := Option.isSome_iff_exists.1 h1
  have hb1 := List.find?_some hb
  have hb2 := List.mem_of_find?_eq_some hb
  rw [hb, h.eq_of_mem hb2 ha (by simpa using hb1)]
  rfl

theorem requestOf_some {x r : ℕ} {p : TaskInfo × Request} (h : requestOf info x r = some p) :
    ∃ i : Fin info.length, (i : ℕ) = x ∧ p.1 = info.get i ∧ p.2 ∈ (info.get i).requests ∧ p.2.resId = r := by
  unfold requestOf at h
  split at h
  · cases h
  · rename_i tx htx
    obtain ⟨hx, rfl⟩ := List.getElem?_eq_some_iff.1 htx
    rw [Option.map_eq_some_iff] at h
    obtain ⟨q, hq, rfl⟩ := h
    exact ⟨⟨x, hx⟩, rfl, rfl, List.mem_of_find?_eq_some hq, by simpa using List.find?_some hq⟩

/-- In each slot of `V`, a section of another task is served; `sec` says which one.  No more sections are served than
the analysis of task `k` assumes, and none longer than declared. -/
structure Charge (info : Info) (k : Fin info.length) (V : Finset ℕ) (sec : ℕ → Section info.length) : Prop where
  other : ∀ u ∈ V, (sec u).job.1 ≠ k
  count : ∀ x d r, (info.get x).requests[d]? = some r →
    ((V.image sec).filter (fun z => z.job.1 = x ∧ z.idx = d)).card ≤ instances (info.get k) (info.get x) r
  length : ∀ u ∈ V, ∃ r, (info.get (sec u).job.1).requests[(sec u).idx]? = some r ∧
    (V.filter (fun v => sec v = sec u)).card ≤ r.length

variable {k : Fin info.length} {V : Finset ℕ} {sec : ℕ → Section info.length} {kind : ℕ → BlockingType}

open Classical in
/-- The slots of one kind in which a request of task `x` for resource `r` is served. -/
noncomputable def slots (V : Finset ℕ) (sec : ℕ → Section info.length) (kind : ℕ → BlockingType) (ty : BlockingType)
    (x r : ℕ) : Finset ℕ :=
  V.filter (fun u => ((sec u).job.1 : ℕ) = x ∧ (system info).For (sec u) r ∧ kind u = ty)

theorem mem_slots {ty : BlockingType} {x r u : ℕ} : u ∈ slots V sec kind ty x r ↔
    u ∈ V ∧ ((sec u).job.1 : ℕ) = x ∧ (system info).For (sec u) r ∧ kind u = ty := by
  classical
  unfold slots
  rw [mem_filter]

theorem for_iff {z : Section info.length} {r : ℕ} : (system info).For z r ↔
    ∃ q, (info.get z.job.1).requests[z.idx]? = some q ∧ q.resId = r := by
  constructor
  · rintro ⟨q, hq, rfl⟩
    obtain ⟨a, ha, rfl⟩ := lock_req hq
    exact ⟨a, ha, rfl⟩
  · rintro ⟨q, hq, rfl⟩
    exact ⟨_, lock_req' hq, rfl⟩

open Classical in
/-- Slots and sections. -/
theorem Charge.card_le (h : Charge info k V sec) (h1 : OneEntry info) {x : Fin info.length} {a : Request}
    (ha : a ∈ (info.get x).requests) {F : Finset ℕ}
    (hF : ∀ u ∈ F, u ∈ V ∧ (sec u).job.1 = x ∧ (system info).For (sec u) a.resId) :
    F.card ≤ a.length * (F.image sec).card ∧ (F.image sec).card ≤ instances (info.get k) (info.get x) a := by
  have hu : ∀ u ∈ F, (info.get x).requests[(sec u).idx]? = some a := by
    intro u hu
    obtain ⟨_, h3, h4⟩ := hF u hu
    obtain ⟨q, hq, hr⟩ := for_iff.1 h4
    rw [h3] at hq
    rwa [h1.eq_of_mem (List.mem_of_getElem? hq) ha hr] at hq
  constructor
  · apply card_le_mul_card_image
    intro z hz
    obtain ⟨u, huF, rfl⟩ := mem_image.1 hz
    obtain ⟨r, hr, hle⟩ := h.length u (hF u huF).1
    rw [(hF u huF).2.1, hu u huF] at hr
    cases hr
    refine le_trans (card_le_card ?_) hle
    intro v hv
    obtain ⟨h3, h4⟩ := mem_filter.1 hv
    exact mem_filter.2 ⟨(hF v h3).1, h4⟩
  · obtain ⟨d, hd⟩ := List.getElem?_of_mem ha
    refine le_trans (card_le_card ?_) (h.count x d a hd)
    intro z hz
    obtain ⟨u, huF, rfl⟩ := mem_image.1 hz
    refine mem_filter.2 ⟨mem_image_of_mem _ (hF u huF).1, (hF u huF).2.1, ?_⟩
    exact (h1.eq (hu u huF) hd rfl).1

/-- The share of the requests of task `x` for resource `r`. -/
noncomputable def share (k : Fin info.length) (V : Finset ℕ) (sec : ℕ → Section info.length) (kind : ℕ → BlockingType)
    (ty : BlockingType) (x r : ℕ) : ℚ :=
  match requestOf info x r with
  | none => 0
  | some p => ((slots V sec kind ty x r).card : ℚ) / ((p.2.length * instances (info.get k) p.1 p.2 : ℕ) : ℚ)

theorem share_eq (h1 : OneEntry info) {ty : BlockingType} {x : Fin info.length} {a : Request}
    (ha : a ∈ (info.get x).requests) : share k V sec kind ty x a.resId =
      ((slots V sec kind ty x a.resId).card : ℚ) / ((a.length * instances (info.get k) (info.get x) a : ℕ) : ℚ) := by
  unfold share
  rw [h1.requestOf ha]

theorem share_nonneg {ty : BlockingType} {x r : ℕ} : 0 ≤ share k V sec kind ty x r := by
  unfold share
  split
  · exact le_rfl
  · positivity

theorem share_zero {ty : BlockingType} {x r : ℕ} (h : slots V sec kind ty x r = ∅) : share k V sec kind ty x r = 0 := by
  unfold share
  split
  · rfl
  · rw [h]; simp

/-- The sum of the shares of different kinds. -/
theorem Charge.share_add_le (h : Charge info k V sec) (h1 : OneEntry info) {tys : Finset BlockingType} {x r : ℕ} :
    ∑ ty ∈ tys, share k V sec kind ty x r ≤ 1 := by
  classical
  rcases hr : requestOf info x r with _ | p
  · have : ∀ ty ∈ tys, share k V sec kind ty x r = 0 := by
      intro ty _
      unfold share
      rw [hr]
    rw [sum_congr rfl this]
    simp
  · obtain ⟨i, rfl, hp1, hp2, rfl⟩ := requestOf_some hr
    rw [sum_congr rfl (fun ty _ => share_eq h1 hp2), ← sum_div]
    apply div_le_one_of_le₀
    · have hdis : ∑ ty ∈ tys, (slots V sec kind ty i p.2.resId).card =
          (tys.biUnion (fun ty => slots V sec kind ty i p.2.resId)).card := by
        rw [card_biUnion]
        intro a _ b _ hab
        change Disjoint _ _
        rw [disjoint_left]
        intro u hu hu'
        exact hab ((mem_slots.1 hu).2.2.2.symm.trans (mem_slots.1 hu').2.2.2)
      have := h.card_le h1 hp2 (F := tys.biUnion (fun ty => slots V sec kind ty i p.2.resId)) (by
        intro u hu
        obtain ⟨ty, _, hu⟩ := mem_biUnion.1 hu
        obtain ⟨h3, h4, h5, _⟩ := mem_slots.1 hu
        exact ⟨h3, Fin.ext h4, h5⟩)
      rw [← Nat.cast_sum, hdis]
      have h3 := Nat.mul_le_mul_left p.2.length this.2
      exact_mod_cast this.1.trans h3
    · positivity

theorem Charge.share_le (h : Charge info k V sec) (h1 : OneEntry info) {ty : BlockingType} {x r : ℕ} :
    share k V sec kind ty x r ≤ 1 := by
  have := h.share_add_le h1 (kind := kind) (tys := {ty}) (x := x) (r := r)
  rwa [sum_singleton] at this

/-- The values of all variables for a request. -/
theorem Charge.instances_mul (h : Charge info k V sec) (h1 : OneEntry info) {ty : BlockingType} {x : Fin info.length}
    {a : Request} (ha : a ∈ (info.get x).requests) :
    (instances (info.get k) (info.get x) a : ℚ) * share k V sec kind ty x a.resId =
      ((slots V sec kind ty x a.resId).card : ℚ) / a.length := by
  classical
  rw [share_eq h1 ha]
  by_cases hi : instances (info.get k) (info.get x) a = 0
  · have := h.card_le h1 ha (F := slots V sec kind ty x a.resId) (by
      intro u hu
      obtain ⟨h3, h4, h5, _⟩ := mem_slots.1 hu
      exact ⟨h3, Fin.ext h4, h5⟩)
    rw [hi] at this
    have h0 : (slots V sec kind ty x a.resId).card = 0 := by
      have h2 := this.1
      rw [Nat.le_zero.1 this.2] at h2
      omega
    rw [h0]
    simp
  · push_cast
    have : (instances (info.get k) (info.get x) a : ℚ) ≠ 0 := by exact_mod_cast hi
    by_cases hl : (a.length : ℚ) = 0
    · rw [hl]; simp
    · field_simp

variable {X : Key → ℚ}

theorem Charge.vars_sum (h : Charge info k V sec) (h1 : OneEntry info) {ty : BlockingType}
    (hX : ∀ x v r, X ⟨ty, x, v, r⟩ = share k V sec kind ty x r) {x : Fin info.length}
    {a : Request} (ha : a ∈ (info.get x).requests) :
    termSum X (vars (info.get k) ty (x, info.get x) a) = ((slots V sec kind ty x a.resId).card : ℚ) / a.length := by
  rw [← h.instances_mul h1 ha]
  unfold vars termSum
  rw [List.map_map]
  have : ((fun t : ℚ × Key => t.1 * X t.2) ∘ fun v => ((1 : ℚ), (⟨ty, (x : ℕ), v, a.resId⟩ : Key))) =
      fun _ => share k V sec kind ty x a.resId := by
    funext v
    simp [hX]
  rw [this, List.map_const', List.sum_replicate, List.length_range, nsmul_eq_mul]

open Classical in
/-- Requests of a task for a resource. -/
theorem Charge.for_le (h : Charge info k V sec) (h1 : OneEntry info) {ty : BlockingType}
    (hX : ∀ x v r, X ⟨ty, x, v, r⟩ = share k V sec kind ty x r) (x : Fin info.length) (r : ℕ) :
    termSum X (((info.get x).requests.filter (fun q => q.resId = r)).flatMap (vars (info.get k) ty (x, info.get x))) ≤
      ((slots V sec kind ty x r).image sec).card := by
  by_cases hr : ∃ a ∈ (info.get x).requests, a.resId = r
  · obtain ⟨a, ha, rfl⟩ := hr
    rw [h1.filter ha, List.flatMap_singleton, h.vars_sum h1 hX ha]
    by_cases hl : a.length = 0
    · rw [hl]; simp
    rw [div_le_iff₀ (by exact_mod_cast Nat.pos_of_ne_zero hl)]
    have := (h.card_le h1 ha (F := slots V sec kind ty x a.resId) (by
      intro u hu
      obtain ⟨h3, h4, h5, _⟩ := mem_slots.1 hu
      exact ⟨h3, Fin.ext h4, h5⟩)).1
    rw [mul_comm]
    exact_mod_cast this
  · have : (info.get x).requests.filter (fun q => q.resId = r) = [] := by
      rw [List.filter_eq_nil_iff]
      intro a ha hc
      exact hr ⟨a, ha, by simpa using hc⟩
    rw [this]
    simp [termSum]

open Classical in
/-- Requests of several tasks for a resource. -/
theorem Charge.tasks_le (h : Charge info k V sec) (h1 : OneEntry info) {ty : BlockingType}
    (hX : ∀ x v r, X ⟨ty, x, v, r⟩ = share k V sec kind ty x r) (p : ℕ × TaskInfo → Prop) [DecidablePred p] (r : ℕ) :
    termSum X (((tasks info).filter (fun t => p t)).flatMap (fun t =>
      (t.2.requests.filter (fun q => q.resId = r)).flatMap (vars (info.get k) ty t))) ≤
      ((V.filter (fun u => p (((sec u).job.1 : ℕ), info.get (sec u).job.1) ∧ (system info).For (sec u) r ∧
        kind u = ty)).image sec).card := by
  rw [termSum_flatMap, tasks_sum]
  refine le_trans (sum_le_sum (fun x _ => h.for_le h1 hX x r)) ?_
  rw [← Nat.cast_sum]
  refine Nat.cast_le.2 ?_
  rw [← card_biUnion]
  · apply card_le_card
    intro z hz
    obtain ⟨x, hx, hz⟩ := mem_biUnion.1 hz
    obtain ⟨u, hu, rfl⟩ := mem_image.1 hz
    obtain ⟨h3, h4, h5, h6⟩ := mem_slots.1 hu
    have h4 : (sec u).job.1 = x := Fin.ext h4
    refine mem_image_of_mem _ (mem_filter.2 ⟨h3, ?_, h5, h6⟩)
    rw [h4]
    exact (mem_filter.1 hx).2
  · intro a _ b _ hab
    change Disjoint _ _
    rw [disjoint_left]
    intro z hz hz'
    obtain ⟨u, hu, rfl⟩ := mem_image.1 hz
    obtain ⟨v, hv, he⟩ := mem_image.1 hz'
    apply hab
    apply Fin.ext
    rw [← (mem_slots.1 hu).2.1, ← (mem_slots.1 hv).2.1, he]

/-- The value of the variables of a task is zero if it does not delay. -/
theorem vars_zero {ty : BlockingType} (hX : ∀ x v r, X ⟨ty, x, v, r⟩ = share k V sec kind ty x r) (x : Fin info.length)
    (h : ∀ u ∈ V, kind u = ty → (sec u).job.1 ≠ x) :
    ∀ a, ∀ t ∈ vars (info.get k) ty (x, info.get x) a, X t.2 = 0 := by
  intro a t ht
  unfold vars at ht
  obtain ⟨v, _, rfl⟩ := List.mem_map.1 ht
  simp only [hX]
  apply share_zero
  rw [eq_empty_iff_forall_notMem]
  intro u hu
  obtain ⟨h3, h4, _, h6⟩ := mem_slots.1 hu
  exact h u h3 h6 (Fin.ext h4)

/-- The value of the objective for some kinds of blocking. -/
theorem Charge.objective (h : Charge info k V sec) (h1 : OneEntry info) (tys : List BlockingType)
    (hX : ∀ ty ∈ tys, ∀ x v r, X ⟨ty, x, v, r⟩ = share k V sec kind ty x r)
    (hk : ∀ u ∈ V, kind u ∈ tys) :
    (V.card : ℚ) ≤ termSum X ((others info k).flatMap (fun t => t.2.requests.flatMap (fun r =>
      (List.range (instances (info.get k) t.2 r)).flatMap (fun v =>
        tys.map (fun ty => ((r.length : ℚ), (⟨ty, t.1, v, r.resId⟩ : Key))))))) := by
  classical
  unfold others
  rw [termSum_flatMap, tasks_sum]
  have hV : V.card = ∑ x ∈ univ.filter (fun i : Fin info.length => (i : ℕ) ≠ k), (V.filter (fun u => (sec u).job.1 = x)).card := by
    apply card_eq_sum_card_fiberwise
    intro u hu
    refine mem_coe.2 (mem_filter.2 ⟨mem_univ _, ?_⟩)
    intro hc
    exact h.other u hu (Fin.ext hc)
  rw [hV, Nat.cast_sum]
  apply sum_le_sum
  intro x _
  simp only
  have hterm : ∀ a ∈ (info.get x).requests, termSum X ((List.range (instances (info.get k) (info.get x) a)).flatMap
      (fun v => tys.map (fun ty => ((a.length : ℚ), (⟨ty, (x : ℕ), v, a.resId⟩ : Key))))) =
      (tys.map (fun ty => ((slots V sec kind ty x a.resId).card : ℚ))).sum := by
    intro a ha
    rw [termSum_flatMap]
    have e : (fun v => termSum X (tys.map (fun ty => ((a.length : ℚ), (⟨ty, (x : ℕ), v, a.resId⟩ : Key))))) =
        fun _ => (tys.map (fun ty => (a.length : ℚ) * share k V sec kind ty x a.resId)).sum := by
      funext v
      unfold termSum
      rw [List.map_map]
      congr 1
      apply List.map_congr_left
      intro ty hty
      simp only [Function.comp_apply, hX ty hty]
    rw [e, List.map_const', List.sum_replicate, List.length_range, nsmul_eq_mul, ← List.sum_map_mul_left]
    congr 1
    apply List.map_congr_left
    intro ty _
    rw [mul_left_comm, h.instances_mul h1 ha]
    by_cases hl : a.length = 0
    · have := (h.card_le h1 ha (F := slots V sec kind ty x a.resId) (by
        intro u hu
        obtain ⟨h3, h4, h5, _⟩ := mem_slots.1 hu
        exact ⟨h3, Fin.ext h4, h5⟩)).1
      rw [hl, Nat.zero_mul, Nat.le_zero] at this
      rw [this]
      simp
    · rw [mul_div_cancel₀]
      exact_mod_cast hl
  rw [termSum_flatMap, List.map_congr_left hterm]
  have hcov : V.filter (fun u => (sec u).job.1 = x) ⊆ (info.get x).requests.toFinset.biUnion (fun a =>
      tys.toFinset.biUnion (fun ty => slots V sec kind ty x a.resId)) := by
    intro u hu
    obtain ⟨h3, h4⟩ := mem_filter.1 hu
    obtain ⟨r, hr, _⟩ := h.length u h3
    rw [mem_biUnion]
    refine ⟨r, List.mem_toFinset.2 ?_, mem_biUnion.2 ⟨kind u, List.mem_toFinset.2 (hk u h3), ?_⟩⟩
    · rw [← h4]; exact List.mem_of_getElem? hr
    · exact mem_slots.2 ⟨h3, by rw [h4], for_iff.2 ⟨r, hr, rfl⟩, rfl⟩
  have hle : ∀ (l : List BlockingType) (f : BlockingType → ℕ), ∑ ty ∈ l.toFinset, f ty ≤ (l.map f).sum := by
    intro l f
    induction l with
    | nil => simp
    | cons b l ih =>
      rw [List.toFinset_cons, List.map_cons, List.sum_cons]
      by_cases hb : b ∈ l.toFinset
      · rw [insert_eq_of_mem hb]; omega
      · rw [sum_insert hb]; omega
  have hle' : ∀ (l : List Request) (f : Request → ℕ), ∑ a ∈ l.toFinset, f a ≤ (l.map f).sum := by
    intro l f
    induction l with
    | nil => simp
    | cons b l ih =>
      rw [List.toFinset_cons, List.map_cons, List.sum_cons]
      by_cases hb : b ∈ l.toFinset
      · rw [insert_eq_of_mem hb]; omega
      · rw [sum_insert hb]; omega
  have hfin := (card_le_card hcov).trans (card_biUnion_le.trans (sum_le_sum (fun a _ => card_biUnion_le.trans
    (hle tys (fun ty => (slots V sec kind ty x a.resId).card)))))
  have hfin := hfin.trans (hle' _ _)
  refine (Nat.cast_le (α := ℚ).2 hfin).trans (le_of_eq ?_)
  rw [Nat.cast_list_sum, List.map_map]
  congr 1
  apply List.map_congr_left
  intro a _
  simp only [Function.comp_apply]
  rw [Nat.cast_list_sum, List.map_map]
  rfl

end Verif.SR.Lp
