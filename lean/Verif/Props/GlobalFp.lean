/-
C51, C74: response-time analysis for global fixed-priority scheduling
(`schedcat/sched/fp/bertogna.py`, `schedcat/sched/fp/guan.py`).
-/
import Verif.Model.GlobalFp
import Verif.Lemmas.GlobalFp
import Verif.Lemmas.Necessary
import Mathlib.Data.List.FinRange
import Mathlib.Data.Fintype.BigOperators

namespace Verif.GFp
open Verif.Spec Finset

/-- Task parameters as functions. -/
def costs (ts : List FTask) : Fin ts.length → ℕ := fun i => (ts.get i).cost
def periods (ts : List FTask) : Fin ts.length → ℕ := fun i => (ts.get i).period
def deadlines (ts : List FTask) : Fin ts.length → ℕ := fun i => (ts.get i).deadline
/-- `hp_direct_blocked`, 0 if missing. -/
def highBlocking (ts : List FTask) : Fin ts.length → ℕ := fun i => (ts.get i).hpDirect.getD 0
/-- The rest of `blocked`. -/
def lowBlocking (ts : List FTask) : Fin ts.length → ℕ := fun i =>
  (ts.get i).blocked.getD 0 - (ts.get i).hpDirect.getD 0

variable {ts : List FTask} {m : ℕ}

/-! ### The tasks analysed so far -/

/-- The first `k` tasks with their response-time bounds. -/
def doneOf (ts : List FTask) (E : Fin ts.length → ℕ) (k : ℕ) : List (FTask × ℤ) :=
  ((List.finRange ts.length).take k).map (fun i => (ts.get i, (E i : ℤ)))

theorem mem_take_finRange {n k : ℕ} (i : Fin n) : i ∈ (List.finRange n).take k ↔ i.1 < k := by
  rw [List.mem_take_iff_getElem]
  constructor
  · rintro ⟨j, hj, rfl⟩
    simp at hj ⊢
    omega
  · intro h
    exact ⟨i.1, by simp [h, i.2], by simp⟩

theorem sum_doneOf {M : Type} [AddCommMonoid M] (E : Fin ts.length → ℕ) (k : ℕ) (f : FTask × ℤ → M) :
    ((doneOf ts E k).map f).sum =
      ∑ i ∈ univ.filter (fun i : Fin ts.length => i.1 < k), f (ts.get i, (E i : ℤ)) := by
  classical
  unfold doneOf
  rw [List.map_map]
  have hnd : ((List.finRange ts.length).take k).Nodup :=
    (List.nodup_finRange _).sublist (List.take_sublist _ _)
  have := List.sum_toFinset (fun i => f (ts.get i, (E i : ℤ))) hnd
  rw [show (f ∘ fun i => (ts.get i, (E i : ℤ))) = fun i => f (ts.get i, (E i : ℤ)) from rfl, ← this]
  apply sum_congr _ (fun _ _ => rfl)
  ext i
  rw [List.mem_toFinset, mem_take_finRange, mem_filter]
  simp

theorem doneOf_length (E : Fin ts.length → ℕ) {k : ℕ} (hk : k ≤ ts.length) :
    (doneOf ts E k).length = k := by
  simp [doneOf, hk]

theorem doneOf_succ (E : Fin ts.length → ℕ) (k : Fin ts.length) (R : ℕ) :
    doneOf ts E k ++ [(ts.get k, (R : ℤ))] = doneOf ts (Function.update E k R) (k.1 + 1) := by
  unfold doneOf
  rw [List.take_succ, List.map_append]
  congr 1
  · apply List.map_congr_left
    intro i hi
    rw [mem_take_finRange] at hi
    rw [Function.update_of_ne]
    intro h
    rw [h] at hi
    omega
  · simp

theorem doneOf_get (E : Fin ts.length → ℕ) (i : Fin ts.length) :
    (doneOf ts E ts.length)[i.1]? = some (ts.get i, (E i : ℤ)) := by
  unfold doneOf
  rw [List.take_of_length_le (by simp)]
  simp

/-- A successful run collects a bound for every task. -/
theorem allTasks_inv (P : Fin ts.length → ℕ → Prop)
    (test : FTask → List (FTask × ℤ) → Option (Option ℤ))
    (hstep : ∀ (k : Fin ts.length) (E : Fin ts.length → ℕ), (∀ i < k, P i (E i)) → ∀ r,
      test (ts.get k) (doneOf ts E k) = some (some r) → ∃ R : ℕ, r = R ∧ P k R)
    {rs : List (FTask × ℤ)} (h : allTasks test [] ts = some (true, rs)) :
    ∃ E, rs = doneOf ts E ts.length ∧ ∀ i, P i (E i) := by
  have key : ∀ (rest : List FTask) (k : ℕ) (E : Fin ts.length → ℕ), k ≤ ts.length →
      rest = ts.drop k → (∀ i, i.1 < k → P i (E i)) →
      allTasks test (doneOf ts E k) rest = some (true, rs) →
      ∃ E, rs = doneOf ts E ts.length ∧ ∀ i, P i (E i) := by
    intro rest
    induction rest with
    | nil =>
      intro k E hk hr hP h
      rw [allTasks] at h
      simp only [Option.some.injEq, Prod.mk.injEq, true_and] at h
      have hkn : k = ts.length := by
        have := congrArg List.length hr
        simp at this
        omega
      subst hkn
      exact ⟨E, h.symm, fun i => hP i i.2⟩
    | cons t rest ih =>
      intro k E hk hr hP h
      have hklt : k < ts.length := by
        have := congrArg List.length hr
        simp at this
        omega
      have ht : t = ts.get ⟨k, hklt⟩ ∧ rest = ts.drop (k + 1) := by
        rw [List.drop_eq_getElem_cons hklt, List.cons.injEq] at hr
        exact hr
      rw [allTasks] at h
      cases hres : test t (doneOf ts E k) with
      | none => rw [hres] at h; simp at h
      | some o =>
        cases o with
        | none => rw [hres] at h; simp at h
        | some r =>
          rw [hres] at h
          simp only at h
          rw [ht.1] at hres
          obtain ⟨R, rfl, hR⟩ := hstep ⟨k, hklt⟩ E (fun i hi => hP i hi) r hres
          rw [ht.1, doneOf_succ E ⟨k, hklt⟩ R] at h
          refine ih (k + 1) _ hklt ht.2 ?_ h
          intro i hi
          by_cases hik : i = ⟨k, hklt⟩
          · subst hik; rw [Function.update_self]; exact hR
          · rw [Function.update_of_ne hik]
            apply hP
            have : i.1 ≠ k := fun h => hik (Fin.ext h)
            omega
  refine key ts 0 (fun _ => 0) (Nat.zero_le _) (by simp) (fun i hi => absurd hi (by omega)) ?_
  simpa [doneOf] using h

/-- A run ends if each task's analysis does. -/
theorem allTasks_ends (P : Fin ts.length → ℕ → Prop)
    (test : FTask → List (FTask × ℤ) → Option (Option ℤ))
    (hstep : ∀ (k : Fin ts.length) (E : Fin ts.length → ℕ), (∀ i < k, P i (E i)) → ∀ r,
      test (ts.get k) (doneOf ts E k) = some (some r) → ∃ R : ℕ, r = R ∧ P k R)
    (hend : ∀ (k : Fin ts.length) (E : Fin ts.length → ℕ), (∀ i < k, P i (E i)) →
      test (ts.get k) (doneOf ts E k) ≠ none) :
    allTasks test [] ts ≠ none := by
  have key : ∀ (rest : List FTask) (k : ℕ) (E : Fin ts.length → ℕ), k ≤ ts.length →
      rest = ts.drop k → (∀ i, i.1 < k → P i (E i)) →
      allTasks test (doneOf ts E k) rest ≠ none := by
    intro rest
    induction rest with
    | nil => intro k E hk hr hP; simp [allTasks]
    | cons t rest ih =>
      intro k E hk hr hP
      have hklt : k < ts.length := by
        have := congrArg List.length hr
        simp at this
        omega
      have ht : t = ts.get ⟨k, hklt⟩ ∧ rest = ts.drop (k + 1) := by
        rw [List.drop_eq_getElem_cons hklt, List.cons.injEq] at hr
        exact hr
      rw [allTasks]
      cases hres : test t (doneOf ts E k) with
      | none =>
        rw [ht.1] at hres
        exact absurd hres (hend ⟨k, hklt⟩ E (fun i hi => hP i hi))
      | some o =>
        cases o with
        | none => simp
        | some r =>
          simp only
          rw [ht.1] at hres
          obtain ⟨R, rfl, hR⟩ := hstep ⟨k, hklt⟩ E (fun i hi => hP i hi) r hres
          rw [ht.1, doneOf_succ E ⟨k, hklt⟩ R]
          refine ih (k + 1) _ hklt ht.2 ?_
          intro i hi
          by_cases hik : i = ⟨k, hklt⟩
          · subst hik; rw [Function.update_self]; exact hR
          · rw [Function.update_of_ne hik]
            apply hP
            have : i.1 ≠ k := fun h => hik (Fin.ext h)
            omega
  have := key ts 0 (fun _ => 0) (Nat.zero_le _) (by simp) (fun i hi => absurd hi (by omega))
  simpa [doneOf] using this

/-! ### Bertogna and Cirinei -/

theorem slackAware_eq (t : FTask) (e x : ℕ) (hce : t.cost ≤ e) (hed : e ≤ t.deadline) :
    slackAwareWorkloadFunction (t, (e : ℤ)) x = gwork t.cost t.period (x + e - t.cost) := by
  unfold slackAwareWorkloadFunction gwork
  have hs : max 0 ((t.deadline : ℤ) - e) = (t.deadline : ℤ) - e := max_eq_right (by omega)
  have h1 : (x : ℤ) - t.cost - ((t.deadline : ℤ) - e) + t.deadline = ((x + e - t.cost : ℕ) : ℤ) := by
    omega
  have h2 : (x : ℤ) - t.cost + t.deadline - ((t.deadline : ℤ) - e) = ((x + e - t.cost : ℕ) : ℤ) := by
    omega
  simp only [hs, h1, h2]
  have h3 : ((x + e - t.cost : ℕ) : ℤ) - t.period * (((x + e - t.cost : ℕ) : ℤ) / t.period) =
      (((x + e - t.cost) % t.period : ℕ) : ℤ) := by
    rw [Int.natCast_mod, Int.emod_def]
  rw [h3]
  push_cast
  ring

theorem workload_eq (t : FTask) (x : ℕ) (hcd : t.cost ≤ t.deadline) :
    workloadFunction t x = gwork t.cost t.period (x + t.deadline - t.cost) := by
  have h := slackAware_eq t t.deadline x hcd le_rfl
  rw [← h]
  unfold slackAwareWorkloadFunction workloadFunction
  simp

/-- The workload bound that the analysis uses for task `i`. -/
def hpWork (ts : List FTask) (noSlack : Bool) (E : Fin ts.length → ℕ) (x : ℕ) (i : Fin ts.length) : ℕ :=
  gwork (costs ts i) (periods ts i)
    (x + (if noSlack then deadlines ts i else E i) - costs ts i)

theorem hpInterference_eq (noSlack : Bool) {E : Fin ts.length → ℕ} {k : Fin ts.length}
    (hE : ∀ i < k, costs ts i ≤ E i ∧ E i ≤ deadlines ts i) (x : ℕ) :
    hpInterference m noSlack (ts.get k) (doneOf ts E k) x =
      (((∑ i ∈ univ.filter (fun i => i < k), hpWork ts noSlack E x i) - highBlocking ts k) / m : ℕ) := by
  have htot : (if noSlack then ((doneOf ts E k).map (fun ti => workloadFunction ti.1 x)).sum
      else ((doneOf ts E k).map (fun ti => slackAwareWorkloadFunction ti x)).sum) =
      ((∑ i ∈ univ.filter (fun i => i < k), hpWork ts noSlack E x i : ℕ) : ℤ) := by
    rw [Nat.cast_sum]
    have hset : (univ.filter (fun i : Fin ts.length => i.1 < k.1)) = univ.filter (fun i => i < k) := rfl
    cases noSlack with
    | true =>
      rw [if_pos rfl, sum_doneOf, hset]
      apply sum_congr rfl
      intro i hi
      obtain ⟨h1, h2⟩ := hE i (mem_filter.1 hi).2
      rw [workload_eq _ _ (h1.trans h2)]
      rfl
    | false =>
      rw [if_neg (by simp), sum_doneOf, hset]
      apply sum_congr rfl
      intro i hi
      obtain ⟨h1, h2⟩ := hE i (mem_filter.1 hi).2
      rw [slackAware_eq _ _ _ h1 h2]
      rfl
  unfold hpInterference
  simp only
  rw [htot]
  generalize (∑ i ∈ univ.filter (fun i => i < k), hpWork ts noSlack E x i) = W
  unfold highBlocking
  cases hh : (ts.get k).hpDirect with
  | none => simp
  | some h =>
    simp only [Option.getD_some]
    rw [Nat.cast_div_eq_ediv W h m]
  where
    Nat.cast_div_eq_ediv (W h m : ℕ) : max ((W : ℤ) - h) 0 / (m : ℤ) = ((W - h) / m : ℕ) := by
      have : max ((W : ℤ) - h) 0 = ((W - h : ℕ) : ℤ) := by omega
      rw [this]
      push_cast
      rfl

/-- The demand of the loop as a function on the natural numbers. -/
def demN (ts : List FTask) (m : ℕ) (noSlack : Bool) (E : Fin ts.length → ℕ) (k : Fin ts.length)
    (x : ℕ) : ℕ :=
  (ts.get k).cost + (ts.get k).blocked.getD 0 +
    ((∑ i ∈ univ.filter (fun i => i < k), hpWork ts noSlack E x i) - highBlocking ts k) / m

theorem bertognaLoop_spec (noSlack : Bool) {E : Fin ts.length → ℕ} {k : Fin ts.length}
    (hE : ∀ i < k, costs ts i ≤ E i ∧ E i ≤ deadlines ts i) :
    ∀ (fuel x : ℕ) (r : ℤ),
    bertognaLoop m noSlack (ts.get k) (doneOf ts E k) fuel x = some (some r) →
    ∃ R : ℕ, r = R ∧ R ≤ deadlines ts k ∧ demN ts m noSlack E k R = R := by
  intro fuel
  induction fuel with
  | zero => intro x r h; simp [bertognaLoop] at h
  | succ fuel ih =>
    intro x r h
    rw [bertognaLoop, hpInterference_eq noSlack hE] at h
    have e : ((ts.get k).cost : ℤ) + ((ts.get k).blocked.getD 0 : ℕ) +
        (((∑ i ∈ univ.filter (fun i => i < k), hpWork ts noSlack E x i) - highBlocking ts k) / m : ℕ) =
        ((demN ts m noSlack E k x : ℕ) : ℤ) := by
      unfold demN; push_cast; rfl
    simp only [e] at h
    split_ifs at h with h1 h2
    · simp only [Option.some.injEq] at h
      exact ⟨x, h.symm, by exact_mod_cast h1, by exact_mod_cast h2⟩
    · exact ih _ _ h
    · simp at h

theorem gwork_mono' (c : ℕ) {T x y : ℕ} (h : x ≤ y) : gwork c T x ≤ gwork c T y := by
  unfold gwork
  have hd := Nat.div_le_div_right (c := T) h
  rcases Nat.eq_or_lt_of_le hd with he | hlt
  · have e1 := Nat.div_add_mod x T
    have e2 := Nat.div_add_mod y T
    rw [he] at e1
    have : x % T ≤ y % T := by omega
    rw [he]
    omega
  · have : (x / T + 1) * c ≤ y / T * c := Nat.mul_le_mul_right _ hlt
    rw [Nat.add_mul] at this
    omega

theorem demN_mono (noSlack : Bool) (E : Fin ts.length → ℕ) (k : Fin ts.length) {x y : ℕ} (h : x ≤ y) :
    demN ts m noSlack E k x ≤ demN ts m noSlack E k y := by
  unfold demN
  apply Nat.add_le_add_left
  apply Nat.div_le_div_right
  apply Nat.sub_le_sub_right
  apply sum_le_sum
  intro i _
  exact gwork_mono' _ (by omega)

theorem bertognaLoop_ends (noSlack : Bool) {E : Fin ts.length → ℕ} {k : Fin ts.length}
    (hE : ∀ i < k, costs ts i ≤ E i ∧ E i ≤ deadlines ts i) :
    ∀ (fuel x : ℕ), deadlines ts k + 2 ≤ fuel + x → 1 ≤ fuel → x ≤ demN ts m noSlack E k x →
    bertognaLoop m noSlack (ts.get k) (doneOf ts E k) fuel x ≠ none := by
  intro fuel
  induction fuel with
  | zero => intro x _ h; omega
  | succ fuel ih =>
    intro x hf _ hx
    rw [bertognaLoop, hpInterference_eq noSlack hE]
    have e : ((ts.get k).cost : ℤ) + ((ts.get k).blocked.getD 0 : ℕ) +
        (((∑ i ∈ univ.filter (fun i => i < k), hpWork ts noSlack E x i) - highBlocking ts k) / m : ℕ) =
        ((demN ts m noSlack E k x : ℕ) : ℤ) := by
      unfold demN; push_cast; rfl
    simp only [e]
    split_ifs with h1 h2
    · simp
    · have h1' : x ≤ deadlines ts k := by exact_mod_cast h1
      have h2' : demN ts m noSlack E k x ≠ x := fun h => h2 (by exact_mod_cast h)
      exact ih _ (by omega) (by omega) (demN_mono noSlack E k hx)
    · simp

theorem bertogna_bounds (noSlack : Bool) {fuel : ℕ} {E : Fin ts.length → ℕ} {k : Fin ts.length}
    (hE : ∀ i < k, costs ts i ≤ E i ∧ E i ≤ deadlines ts i) {r : ℤ}
    (h : bertognaTask fuel m noSlack (ts.get k) (doneOf ts E k) = some (some r)) :
    ∃ R : ℕ, r = R ∧ costs ts k + (ts.get k).blocked.getD 0 ≤ R ∧ R ≤ deadlines ts k ∧
      (k.1 < m ∨ demN ts m noSlack E k R = R) := by
  unfold bertognaTask at h
  simp only at h
  rw [doneOf_length E k.2.le] at h
  split_ifs at h with h1 h2
  · simp at h
  · simp only [Option.some.injEq] at h
    refine ⟨costs ts k + (ts.get k).blocked.getD 0, by rw [← h]; unfold costs; push_cast; rfl, le_rfl,
      ?_, Or.inl h1⟩
    unfold costs deadlines
    have : ((ts.get k).cost : ℤ) + ((ts.get k).blocked.getD 0 : ℕ) ≤ (ts.get k).deadline := not_lt.1 h2
    exact_mod_cast this
  · have e : ((ts.get k).cost : ℤ) + ((ts.get k).blocked.getD 0 : ℕ) =
        (((ts.get k).cost + (ts.get k).blocked.getD 0 : ℕ) : ℤ) := by push_cast; rfl
    rw [e] at h
    obtain ⟨R, hr, hd, hR⟩ := bertognaLoop_spec noSlack hE _ _ _ h
    refine ⟨R, hr, ?_, hd, Or.inr hR⟩
    rw [← hR]
    exact Nat.le_add_right _ _

/-- **C51, Bertogna and Cirinei.**  If the test accepts tasks with constrained
deadlines, then every job, in every global fixed-priority schedule in which
blocking respects the attributes `blocked` and `hp_direct_blocked`, finishes
within the reported response time, which is at most the deadline. -/
theorem C51_bertogna_safe (m : ℕ) (hm : 1 ≤ m) (ts : List FTask)
    (hts : ∀ t ∈ ts, 0 < t.period ∧ t.deadline ≤ t.period ∧
      t.hpDirect.getD 0 ≤ t.blocked.getD 0)
    (fuel : ℕ) (noSlack : Bool) (rs : List (FTask × ℤ))
    (h : bertogna fuel m ts noSlack = some (true, rs)) :
    rs.length = ts.length ∧ ∀ i : Fin ts.length, ∃ R : ℕ, rs[i.1]? = some (ts.get i, (R : ℤ)) ∧
      R ≤ deadlines ts i ∧
      ∀ (w : Workload ts.length) (σ : Schedule ts.length) (low high : Job ts.length → ℕ → Prop),
        BlockedFp m (costs ts) (periods ts) (lowBlocking ts) (highBlocking ts) w σ low high →
        ∀ q, Completed w σ (i, q) (w.release (i, q) + R) := by
  let P : Fin ts.length → ℕ → Prop := fun i R => costs ts i ≤ R ∧ R ≤ deadlines ts i ∧
    ∀ (w : Workload ts.length) (σ : Schedule ts.length) (low high : Job ts.length → ℕ → Prop),
        BlockedFp m (costs ts) (periods ts) (lowBlocking ts) (highBlocking ts) w σ low high →
        ∀ q, Completed w σ (i, q) (w.release (i, q) + R)
  obtain ⟨E, rfl, hP⟩ := allTasks_inv P (bertognaTask fuel m noSlack) (by
    intro k E hE r hr
    have hE' : ∀ i < k, costs ts i ≤ E i ∧ E i ≤ deadlines ts i := fun i hi => ⟨(hE i hi).1, (hE i hi).2.1⟩
    obtain ⟨R, rfl, hCR, hRD, hcase⟩ := bertogna_bounds noSlack hE' hr
    refine ⟨R, rfl, by omega, hRD, ?_⟩
    intro w σ low high hb q
    have hk := hts _ (List.get_mem ts k)
    induction q using Nat.strong_induction_on with
    | _ q ih =>
      have hpred := pred_done hb.sporadic (hRD.trans hk.2.1) ih
      have hB : costs ts k + lowBlocking ts k + highBlocking ts k =
          costs ts k + (ts.get k).blocked.getD 0 := by
        unfold lowBlocking highBlocking
        have := hk.2.2
        omega
      rcases hcase with hkm | hfix
      · exact top_step hb hkm hpred (by omega)
      · refine blocked_step hb hm hpred (hpWork ts noSlack E R) ?_ ?_
        · intro i hi
          have hi' := hts _ (List.get_mem ts i)
          obtain ⟨h1, h2, h3⟩ := hE i hi
          unfold hpWork
          refine wc_busy hb.sporadic hb.valid hi'.1 (h1.trans (h2.trans hi'.2.1)) ?_ ?_ _ _
          · split_ifs
            · exact h1.trans h2
            · exact h1
          · intro p
            split_ifs
            · exact (h3 w σ low high hb p).mono (by omega)
            · exact h3 w σ low high hb p
        · rw [hB]
          exact hfix.le) h
  refine ⟨doneOf_length E le_rfl, fun i => ⟨E i, doneOf_get E i, (hP i).2.1, (hP i).2.2⟩⟩

/-- **C51**: without blocking attributes, in terms of plain global fixed-priority
schedules. -/
theorem C51_bertogna_schedulable (m : ℕ) (hm : 1 ≤ m) (ts : List FTask)
    (hts : ∀ t ∈ ts, 0 < t.period ∧ t.deadline ≤ t.period ∧ t.blocked = none ∧ t.hpDirect = none)
    (fuel : ℕ) (noSlack : Bool) (rs : List (FTask × ℤ))
    (h : bertogna fuel m ts noSlack = some (true, rs))
    (w : Workload ts.length) (σ : Schedule ts.length) (hs : w.Sporadic (costs ts) (periods ts))
    (hv : ValidSchedule m w σ) (hp : GlobalFp m w σ) : MeetsDeadlines w (deadlines ts) σ := by
  classical
  rintro ⟨i, q⟩
  obtain ⟨-, hall⟩ := C51_bertogna_safe m hm ts (fun t ht => by
    obtain ⟨h1, h2, h3, h4⟩ := hts t ht
    exact ⟨h1, h2, by simp [h3, h4]⟩) fuel noSlack rs h
  obtain ⟨R, -, hRD, hR⟩ := hall i
  refine (hR w σ (fun _ _ => False) (fun _ _ => False) ⟨hs, hv, ?_, by simp, by simp, by simp⟩ q).mono
    (Nat.add_le_add_left hRD _)
  intro t j hready hnot
  obtain ⟨h1, h2⟩ := hp t j hready hnot
  refine Or.inr (Or.inr ⟨h1, fun j' hj' => lt_of_le_of_ne (h2 j' hj') ?_⟩)
  intro heq
  obtain ⟨a, b⟩ := j
  obtain ⟨a', b'⟩ := j'
  simp only at heq
  subst heq
  rw [ready_unique (hv.ready t _ hj') hready] at hj'
  exact hnot hj'

/-- **C51**: the analysis of Bertogna and Cirinei ends, whatever the tasks. -/
theorem C51_bertogna_terminates (m : ℕ) (ts : List FTask) (noSlack : Bool) (fuel : ℕ)
    (hfuel : ∀ t ∈ ts, t.deadline + 2 ≤ fuel) : bertogna fuel m ts noSlack ≠ none := by
  refine allTasks_ends (fun i R => costs ts i ≤ R ∧ R ≤ deadlines ts i) _ ?_ ?_
  · intro k E hE r hr
    obtain ⟨R, h1, h2, h3, -⟩ := bertogna_bounds noSlack hE hr
    exact ⟨R, h1, by omega, h3⟩
  · intro k E hE
    unfold bertognaTask
    simp only
    split_ifs
    · simp
    · simp
    · have e : ((ts.get k).cost : ℤ) + ((ts.get k).blocked.getD 0 : ℕ) =
        (((ts.get k).cost + (ts.get k).blocked.getD 0 : ℕ) : ℤ) := by push_cast; rfl
      rw [e]
      have := hfuel _ (List.get_mem ts k)
      refine bertognaLoop_ends noSlack hE _ _ ?_ (by omega) (Nat.le_add_right _ _)
      have : deadlines ts k = (ts.get k).deadline := rfl
      omega

/-- Non-vacuity: four tasks on two processors, two of them with blocking. -/
example : let ts : List FTask := [⟨1, 4, 4, none, none⟩, ⟨2, 9, 8, some 1, none⟩,
      ⟨3, 20, 15, some 3, some 2⟩, ⟨4, 30, 25, none, none⟩]
    bertogna 40 2 ts = some (true, ts.zip [1, 3, 7, 7]) ∧
    (∀ t ∈ ts, 0 < t.period ∧ t.deadline ≤ t.period ∧ t.hpDirect.getD 0 ≤ t.blocked.getD 0) := by
  decide +kernel

/-! ### Guan et al. -/

theorem carryIn_eq (ti tk : FTask) (e x : ℕ) (heT : e ≤ ti.period) (hx : tk.cost ≤ x) :
    interferenceWithCarryIn (ti, (e : ℤ)) tk x =
      (min (ciWork ti.cost ti.period e x) (x - tk.cost + 1) : ℕ) := by
  unfold interferenceWithCarryIn ciWork
  have h1 : max 0 ((x : ℤ) - ti.cost) = ((x - ti.cost : ℕ) : ℤ) := by omega
  have h2 : max ((x : ℤ) - ti.cost) 0 = ((x - ti.cost : ℕ) : ℤ) := by omega
  simp only [h1, h2]
  have h3 : ((x - ti.cost : ℕ) : ℤ) % ti.period = (((x - ti.cost) % ti.period : ℕ) : ℤ) := by
    rw [Int.natCast_mod]
  have h4 : ((x - ti.cost : ℕ) : ℤ) / ti.period * ti.cost =
      (((x - ti.cost) / ti.period * ti.cost : ℕ) : ℤ) := by push_cast; rfl
  rw [h3, h4]
  generalize hq : (x - ti.cost) / ti.period * ti.cost = q
  have hq0 : ti.cost = 0 → q = 0 := by intro h; rw [← hq, h]; simp
  generalize (x - ti.cost) % ti.period = b
  omega

theorem noCarryIn_eq (ti tk : FTask) (x : ℕ) (hx : tk.cost ≤ x) :
    interferenceWithoutCarryIn ti tk x = (min (gwork ti.cost ti.period x) (x - tk.cost + 1) : ℕ) := by
  unfold interferenceWithoutCarryIn gwork
  have h3 : (x : ℤ) % ti.period = ((x % ti.period : ℕ) : ℤ) := by rw [Int.natCast_mod]
  have h4 : (x : ℤ) / ti.period * ti.cost = ((x / ti.period * ti.cost : ℕ) : ℤ) := by push_cast; rfl
  simp only [h3, h4]
  generalize x / ti.period * ti.cost = q
  generalize x % ti.period = b
  omega

/-- The largest values of a sorted list. -/
theorem sum_take_of_sorted : ∀ (l : List ℤ) (c : ℕ) (v : List ℤ), l.Pairwise (fun a b => b ≤ a) →
    (∀ x ∈ l, 0 ≤ x) → v.Sublist l → v.length ≤ c → v.sum ≤ (l.take c).sum
  | [], c, v, _, _, hv, _ => by
    rw [List.sublist_nil.1 hv]; simp
  | a :: l, 0, v, _, _, hv, hc => by
    rw [List.length_eq_zero_iff.1 (Nat.le_zero.1 hc)]; simp
  | a :: l, c + 1, v, hs, h0, hv, hc => by
    rw [List.pairwise_cons] at hs
    rw [List.take_succ_cons, List.sum_cons]
    have h0' : ∀ x ∈ l, 0 ≤ x := fun x hx => h0 x (List.mem_cons_of_mem _ hx)
    rcases List.sublist_cons_iff.1 hv with hv' | ⟨v', rfl, hv'⟩
    · cases v with
      | nil =>
        have h1 := sum_take_of_sorted l c [] hs.2 h0' (List.nil_sublist _) (Nat.zero_le _)
        have h2 := h0 a List.mem_cons_self
        simp only [List.sum_nil] at h1 ⊢
        omega
      | cons b v =>
        have h1 := sum_take_of_sorted l c v hs.2 h0' ((List.sublist_cons_self b v).trans hv')
          (by simpa using hc)
        have h2 := hs.1 b (hv'.subset List.mem_cons_self)
        rw [List.sum_cons]
        omega
    · have h1 := sum_take_of_sorted l c v' hs.2 h0' hv' (by simpa using hc)
      rw [List.sum_cons]
      omega

/-- The sum of the `c` largest values of `d` over the first `k` positions, as a sum
over some positions. -/
theorem top_positions {n : ℕ} (d : Fin n → ℤ) (k c : ℕ)
    (h0 : ∀ i : Fin n, i.1 < k → 0 ≤ d i) :
    ∃ S : Finset (Fin n), (∀ i ∈ S, i.1 < k) ∧ S.card ≤ c ∧
      (((((List.finRange n).take k).map d).insertionSort (fun a b => b ≤ a)).take c).sum = ∑ i ∈ S, d i ∧
      ∀ S' : Finset (Fin n), (∀ i ∈ S', i.1 < k) → S'.card ≤ c → ∑ i ∈ S', d i ≤ ∑ i ∈ S, d i := by
  classical
  set I := ((List.finRange n).take k).insertionSort (fun a b => d b ≤ d a) with hI
  have hperm : I.Perm ((List.finRange n).take k) := List.perm_insertionSort _ _
  have hmap : I.map d = (((List.finRange n).take k).map d).insertionSort (fun a b => b ≤ a) :=
    List.map_insertionSort (r := fun a b => d b ≤ d a) (s := fun a b => b ≤ a) d _
      (fun a _ b _ => Iff.rfl)
  have hnd : I.Nodup := hperm.nodup_iff.2
    ((List.nodup_finRange _).sublist (List.take_sublist _ _))
  have hmem : ∀ i, i ∈ I ↔ i.1 < k := fun i => by rw [hperm.mem_iff, mem_take_finRange]
  have hndt : (I.take c).Nodup := hnd.sublist (List.take_sublist _ _)
  have hsum : (((((List.finRange n).take k).map d).insertionSort (fun a b => b ≤ a)).take c).sum =
      ∑ i ∈ (I.take c).toFinset, d i := by
    rw [← hmap, ← List.map_take, List.sum_toFinset _ hndt]
  refine ⟨(I.take c).toFinset, ?_, ?_, hsum, ?_⟩
  · intro i hi
    rw [List.mem_toFinset] at hi
    exact (hmem i).1 (List.mem_of_mem_take hi)
  · exact (List.toFinset_card_le _).trans (by simp)
  · intro S' hS' hc
    rw [← hsum, ← hmap]
    have h1 : ∑ i ∈ S', d i = ((I.filter (fun i => i ∈ S')).map d).sum := by
      rw [← List.sum_toFinset _ (hnd.filter _)]
      apply sum_congr _ (fun _ _ => rfl)
      ext i
      rw [List.mem_toFinset, List.mem_filter]
      simp only [decide_eq_true_eq]
      exact ⟨fun h => ⟨(hmem i).2 (hS' i h), h⟩, fun h => h.2⟩
    rw [h1]
    apply sum_take_of_sorted
    · rw [hmap]
      exact List.pairwise_insertionSort _ _
    · intro x hx
      obtain ⟨i, hi, rfl⟩ := List.mem_map.1 hx
      exact h0 i ((hmem i).1 hi)
    · exact List.filter_sublist.map d
    · rw [List.length_map]
      refine le_trans (le_of_eq ?_) hc
      rw [← List.toFinset_card_of_nodup (hnd.filter _)]
      congr 1
      ext i
      rw [List.mem_toFinset, List.mem_filter]
      simp only [decide_eq_true_eq]
      exact ⟨fun h => h.2, fun h => ⟨(hmem i).2 (hS' i h), h⟩⟩

/-- Interference of the tasks before `k`, if those in `S` have carry-in. -/
def splitWork (ts : List FTask) (E : Fin ts.length → ℕ) (k : Fin ts.length) (x : ℕ)
    (S : Finset (Fin ts.length)) : ℕ :=
  ∑ i ∈ univ.filter (fun i => i < k), min (if i ∈ S then ciWork (costs ts i) (periods ts i) (E i) x
        else gwork (costs ts i) (periods ts i) x) (x - costs ts k + 1)

/-- Bounds between cost and period. -/
def Within (ts : List FTask) (i : Fin ts.length) (e : ℕ) : Prop :=
  0 < periods ts i ∧ costs ts i ≤ e ∧ e ≤ periods ts i

theorem total_eq {E : Fin ts.length → ℕ} {k : Fin ts.length} (hm : 1 ≤ m)
    (hE : ∀ i < k, Within ts i (E i)) {x : ℕ} (hx : costs ts k ≤ x) :
    ∃ S : Finset (Fin ts.length), (∀ i ∈ S, i < k) ∧ S.card + 1 ≤ m ∧
      totalInterference m (ts.get k) (doneOf ts E k) x = splitWork ts E k x S ∧
      ∀ S' : Finset (Fin ts.length), (∀ i ∈ S', i < k) → S'.card + 1 ≤ m →
        splitWork ts E k x S' ≤ splitWork ts E k x S := by
  classical
  set ci : Fin ts.length → ℕ := fun i =>
    min (ciWork (costs ts i) (periods ts i) (E i) x) (x - costs ts k + 1) with hci
  set nc : Fin ts.length → ℕ := fun i =>
    min (gwork (costs ts i) (periods ts i) x) (x - costs ts k + 1) with hnc
  have hle : ∀ i < k, nc i ≤ ci i := fun i hi => by
    obtain ⟨h1, h2, h3⟩ := hE i hi
    exact min_le_min_right _ (gwork_le_ciWork h1 h2 h3)
  set d : Fin ts.length → ℤ := fun i => (ci i : ℤ) - nc i with hd
  obtain ⟨S, hS, hSc, hSsum, hSmax⟩ := top_positions d k.1 (m - 1) (by
    intro i hi
    have := hle i hi
    simp only [hd]
    omega)
  have hsplit : ∀ S' : Finset (Fin ts.length), (∀ i ∈ S', i < k) →
      (splitWork ts E k x S' : ℤ) = ∑ i ∈ S', d i +
        ∑ i ∈ univ.filter (fun i => i < k), (nc i : ℤ) := by
    intro S' hS'
    have e1 : ∑ i ∈ S', d i = ∑ i ∈ univ.filter (fun i => i < k), if i ∈ S' then d i else 0 := by
      rw [← sum_filter]
      apply sum_congr _ (fun _ _ => rfl)
      ext i
      rw [mem_filter, mem_filter]
      exact ⟨fun h => ⟨⟨mem_univ _, hS' i h⟩, h⟩, fun h => h.2⟩
    rw [e1, ← sum_add_distrib]
    unfold splitWork
    rw [Nat.cast_sum]
    apply sum_congr rfl
    intro i _
    split_ifs
    · simp only [hd, hci, hnc]; ring
    · simp [hnc]
  refine ⟨S, hS, by omega, ?_, ?_⟩
  · rw [hsplit S hS, ← hSsum]
    unfold totalInterference
    simp only
    congr 1
    · congr 2
      unfold doneOf
      rw [List.map_map]
      congr 1
      apply List.map_congr_left
      intro i hi
      rw [mem_take_finRange] at hi
      simp only [Function.comp_apply, hd, hci, hnc]
      rw [carryIn_eq _ _ _ _ (hE i hi).2.2 hx, noCarryIn_eq _ _ _ hx]
      rfl
    · rw [sum_doneOf (f := fun ti => interferenceWithoutCarryIn ti.1 (ts.get k) x)]
      apply sum_congr rfl
      intro i _
      simp only [hnc]
      rw [noCarryIn_eq _ _ _ hx]
      rfl
  · intro S' hS' hc
    have h1 := hsplit S hS
    have h2 := hsplit S' hS'
    have h3 := hSmax S' hS' (by omega)
    omega

theorem guanLoop_spec {E : Fin ts.length → ℕ} {k : Fin ts.length} (hm : 1 ≤ m)
    (hE : ∀ i < k, Within ts i (E i)) :
    ∀ (fuel x : ℕ) (r : ℤ), costs ts k ≤ x →
    guanLoop m (ts.get k) (doneOf ts E k) fuel x = some (some r) →
    ∃ R : ℕ, r = R ∧ costs ts k ≤ R ∧ R ≤ deadlines ts k ∧
      ∀ S : Finset (Fin ts.length), (∀ i ∈ S, i < k) → S.card + 1 ≤ m →
        costs ts k + splitWork ts E k R S / m ≤ R := by
  intro fuel
  induction fuel with
  | zero => intro x r _ h; simp [guanLoop] at h
  | succ fuel ih =>
    intro x r hx h
    obtain ⟨S, -, -, htot, hmax⟩ := total_eq hm hE hx
    rw [guanLoop, htot] at h
    have e : ((ts.get k).cost : ℤ) + (splitWork ts E k x S : ℤ) / m =
        ((costs ts k + splitWork ts E k x S / m : ℕ) : ℤ) := by
      unfold costs; push_cast; rfl
    simp only [e] at h
    split_ifs at h with h1 h2
    · simp only [Option.some.injEq] at h
      refine ⟨x, h.symm, hx, by exact_mod_cast h1, ?_⟩
      intro S' hS' hc
      have h3 : costs ts k + splitWork ts E k x S / m = x := by exact_mod_cast h2
      have h4 := Nat.div_le_div_right (c := m) (hmax S' hS' hc)
      omega
    · exact ih _ _ (Nat.le_add_right _ _) h
    · simp at h

theorem splitWork_mono {E : Fin ts.length → ℕ} {k : Fin ts.length}
    (hE : ∀ i < k, Within ts i (E i)) {x y : ℕ} (h : x ≤ y) (S : Finset (Fin ts.length)) :
    splitWork ts E k x S ≤ splitWork ts E k y S := by
  unfold splitWork
  apply sum_le_sum
  intro i hi
  have hi' := hE i (mem_filter.1 hi).2
  apply min_le_min
  · split_ifs
    · exact ciWork_mono hi'.1 h
    · exact gwork_mono' _ h
  · omega

theorem guanLoop_ends {E : Fin ts.length → ℕ} {k : Fin ts.length} (hm : 1 ≤ m)
    (hE : ∀ i < k, Within ts i (E i)) :
    ∀ (fuel x : ℕ), costs ts k ≤ x → deadlines ts k + 2 ≤ fuel + x → 1 ≤ fuel →
    (∃ S : Finset (Fin ts.length), (∀ i ∈ S, i < k) ∧ S.card + 1 ≤ m ∧
      x ≤ costs ts k + splitWork ts E k x S / m) →
    guanLoop m (ts.get k) (doneOf ts E k) fuel x ≠ none := by
  intro fuel
  induction fuel with
  | zero => intro x _ _ h; omega
  | succ fuel ih =>
    intro x hx hf _ ⟨S0, hS0, hc0, hle⟩
    obtain ⟨S, hS, hSc, htot, hmax⟩ := total_eq hm hE hx
    rw [guanLoop, htot]
    have e : ((ts.get k).cost : ℤ) + (splitWork ts E k x S : ℤ) / m =
        ((costs ts k + splitWork ts E k x S / m : ℕ) : ℤ) := by
      unfold costs; push_cast; rfl
    simp only [e]
    have hge : x ≤ costs ts k + splitWork ts E k x S / m := by
      have := Nat.div_le_div_right (c := m) (hmax S0 hS0 hc0)
      omega
    split_ifs with h1 h2
    · simp
    · have h1' : x ≤ deadlines ts k := by exact_mod_cast h1
      have h2' : costs ts k + splitWork ts E k x S / m ≠ x := fun h => h2 (by exact_mod_cast h)
      refine ih _ (Nat.le_add_right _ _) (by omega) (by omega) ⟨S, hS, hSc, ?_⟩
      exact Nat.add_le_add_left (Nat.div_le_div_right (splitWork_mono hE hge S)) _
    · simp

theorem guan_bounds {fuel : ℕ} {E : Fin ts.length → ℕ} {k : Fin ts.length} (hm : 1 ≤ m)
    (hE : ∀ i < k, Within ts i (E i)) {r : ℤ}
    (h : guanTask fuel m (ts.get k) (doneOf ts E k) = some (some r)) :
    ∃ R : ℕ, r = R ∧ costs ts k ≤ R ∧ R ≤ deadlines ts k ∧
      (k.1 < m ∧ R = costs ts k ∨
        ∀ S : Finset (Fin ts.length), (∀ i ∈ S, i < k) → S.card + 1 ≤ m →
        costs ts k + splitWork ts E k R S / m ≤ R) := by
  unfold guanTask at h
  rw [doneOf_length E k.2.le] at h
  split_ifs at h with h1 h2
  · simp at h
  · simp only [Option.some.injEq] at h
    exact ⟨costs ts k, h.symm, le_rfl, not_lt.1 h2, Or.inl ⟨h1, rfl⟩⟩
  · obtain ⟨R, hr, hc, hd, hR⟩ := guanLoop_spec hm hE _ _ _ (le_refl (costs ts k)) h
    exact ⟨R, hr, hc, hd, Or.inr hR⟩

/-- An answer `True` means that all tasks have constrained deadlines and pass. -/
theorem guanAll_true {fuel : ℕ} : ∀ (rest : List FTask) (done rs : List (FTask × ℤ)),
    guanAll fuel m done rest = .returned true rs →
    (∀ t ∈ rest, t.deadline ≤ t.period) ∧
      allTasks (guanTask fuel m) done rest = some (true, rs)
  | [], done, rs, h => by
    rw [guanAll] at h
    simp only [Outcome.returned.injEq, true_and] at h
    simp [allTasks, h]
  | t :: rest, done, rs, h => by
    rw [guanAll] at h
    split_ifs at h with hc
    rw [allTasks]
    cases hres : guanTask fuel m t done with
    | none => rw [hres] at h; simp at h
    | some o =>
      cases o with
      | none => rw [hres] at h; simp at h
      | some r =>
        rw [hres] at h
        simp only at h
        obtain ⟨h1, h2⟩ := guanAll_true rest _ rs h
        exact ⟨by rintro t' (_ | ⟨_, ht'⟩); exacts [hc, h1 t' ht'], h2⟩

theorem guanAll_running {fuel : ℕ} : ∀ (rest : List FTask) (done : List (FTask × ℤ)),
    guanAll fuel m done rest = .running →
    allTasks (fun t done => if t.deadline ≤ t.period then guanTask fuel m t done else some none)
      done rest = none
  | [], done, h => by simp [guanAll] at h
  | t :: rest, done, h => by
    rw [guanAll] at h
    split_ifs at h with hc
    rw [allTasks, if_pos hc]
    cases hres : guanTask fuel m t done with
    | none => rfl
    | some o =>
      cases o with
      | none => rw [hres] at h; simp at h
      | some r =>
        rw [hres] at h
        exact guanAll_running rest _ h

/-- **C51, Guan et al.**  If the test accepts, then every job, in every global
fixed-priority schedule, finishes within the reported response time, which is at
most the deadline. -/
theorem C51_guan_safe (m : ℕ) (hm : 1 ≤ m) (ts : List FTask) (hts : ∀ t ∈ ts, 0 < t.period)
    (fuel : ℕ) (rs : List (FTask × ℤ)) (h : guan fuel m ts = .returned true rs) :
    rs.length = ts.length ∧ ∀ i : Fin ts.length, ∃ R : ℕ, rs[i.1]? = some (ts.get i, (R : ℤ)) ∧
      R ≤ deadlines ts i ∧
      ∀ (w : Workload ts.length) (σ : Schedule ts.length), w.Sporadic (costs ts) (periods ts) →
        ValidSchedule m w σ → GlobalFp m w σ →
        ∀ q, Completed w σ (i, q) (w.release (i, q) + R) := by
  classical
  obtain ⟨hcon, hall⟩ := guanAll_true ts [] rs h
  let P : Fin ts.length → ℕ → Prop := fun i R => Within ts i R ∧ R ≤ deadlines ts i ∧
    ∀ (w : Workload ts.length) (σ : Schedule ts.length), w.Sporadic (costs ts) (periods ts) →
        ValidSchedule m w σ → GlobalFp m w σ →
        ∀ q, Completed w σ (i, q) (w.release (i, q) + R)
  obtain ⟨E, rfl, hP⟩ := allTasks_inv P (guanTask fuel m) (by
    intro k E hE r hr
    have hE' : ∀ i < k, Within ts i (E i) := fun i hi => (hE i hi).1
    obtain ⟨R, rfl, hCR, hRD, hcase⟩ := guan_bounds hm hE' hr
    have hk := hcon _ (List.get_mem ts k)
    have hRT : R ≤ periods ts k := hRD.trans hk
    refine ⟨R, rfl, ⟨hts _ (List.get_mem ts k), hCR, hRT⟩, hRD, ?_⟩
    intro w σ hs hv hp q
    induction q using Nat.strong_induction_on with
    | _ q ih =>
      have hpred := pred_done hs hRT ih
      rcases hcase with ⟨hkm, hRC⟩ | hfix
      · refine top_step (L := fun _ => 0) (H := fun _ => 0) (low := fun _ _ => False)
          (high := fun _ _ => False) ⟨hs, hv, ?_, by simp, by simp, by simp⟩ hkm hpred (by simp [hCR])
        intro t j hready hnot
        obtain ⟨h1, h2⟩ := hp t j hready hnot
        refine Or.inr (Or.inr ⟨h1, fun j' hj' => lt_of_le_of_ne (h2 j' hj') ?_⟩)
        intro heq
        obtain ⟨a, b⟩ := j
        obtain ⟨a', b'⟩ := j'
        simp only at heq
        subst heq
        rw [ready_unique (hv.ready t _ hj') hready] at hj'
        exact hnot hj'
      · exact guan_step hs hv hp hm (E := E) hpred (fun i hi => (hE' i hi).1)
          (fun i hi => (hE' i hi).2.1) (fun i hi => (hE' i hi).2.2)
          (fun i hi p => (hE i hi).2.2 w σ hs hv hp p) hCR hfix) hall
  exact ⟨doneOf_length E le_rfl, fun i => ⟨E i, doneOf_get E i, (hP i).2.1, (hP i).2.2⟩⟩

/-- **C51**: the analysis of Guan et al. ends, whatever the tasks; it raises an
assertion error only if a deadline exceeds a period. -/
theorem C51_guan_terminates (m : ℕ) (hm : 1 ≤ m) (ts : List FTask) (hts : ∀ t ∈ ts, 0 < t.period)
    (fuel : ℕ) (hfuel : ∀ t ∈ ts, t.deadline + 2 ≤ fuel) :
    guan fuel m ts ≠ .running ∧
    ((∀ t ∈ ts, t.deadline ≤ t.period) → guan fuel m ts ≠ .assertionError) := by
  constructor
  · intro hrun
    refine allTasks_ends (ts := ts) (Within ts) (fun t done =>
      if t.deadline ≤ t.period then guanTask fuel m t done else some none) ?_ ?_
      (guanAll_running ts [] hrun)
    · intro k E hE r hr
      split_ifs at hr with hc
      · obtain ⟨R, h1, h2, h3, -⟩ := guan_bounds hm hE hr
        exact ⟨R, h1, hts _ (List.get_mem ts k), h2, h3.trans hc⟩
      · simp at hr
    · intro k E hE
      split_ifs
      · unfold guanTask
        split_ifs
        · simp
        · simp
        · have h1 := hfuel _ (List.get_mem ts k)
          have h2 : deadlines ts k = (ts.get k).deadline := rfl
          exact guanLoop_ends hm hE _ _ (le_refl (costs ts k)) (by omega) (by omega)
            ⟨∅, by simp, by simpa using hm, Nat.le_add_right _ _⟩
      · simp
  · intro hc
    unfold guan
    generalize ([] : List (FTask × ℤ)) = done
    induction ts generalizing done with
    | nil => simp [guanAll]
    | cons t ts ih =>
      rw [guanAll, if_pos (hc t (by simp))]
      cases guanTask fuel m t done with
      | none => simp
      | some o =>
        cases o with
        | none => simp
        | some r =>
          exact ih (fun t ht => hts t (by simp [ht])) (fun t ht => hfuel t (by simp [ht]))
            (fun t ht => hc t (by simp [ht])) _

/-- Non-vacuity: four tasks on two processors. -/
example : let ts : List FTask := [⟨1, 4, 4, none, none⟩, ⟨2, 9, 8, none, none⟩,
      ⟨3, 20, 15, none, none⟩, ⟨4, 30, 25, none, none⟩]
    guan 40 2 ts = .returned true (ts.zip [1, 2, 4, 7]) ∧ ∀ t ∈ ts, 0 < t.period := by
  decide +kernel

/-! ### Arbitrary deadlines -/

/-- **C74 is violated**: unlike `guan.py`, `bertogna.py` does not check that deadlines
are constrained.  It accepts a set with total utilization 2.5 on two processors, each
task of which is feasible on its own, although every schedule of the periodic
arrivals misses a deadline. -/
theorem C74_violated : ∃ (ts : List FTask) (rs : List (FTask × ℤ)),
    (∀ t ∈ ts, 0 < t.period ∧ t.cost ≤ t.period ∧ t.cost ≤ t.deadline ∧ t.blocked = none ∧
      t.hpDirect = none) ∧
    bertogna 100 2 ts = some (true, rs) ∧
    ∀ σ, ValidSchedule 2 (periodic (costs ts) (periods ts)) σ →
      ¬ MeetsDeadlines (periodic (costs ts) (periods ts)) (deadlines ts) σ := by
  refine ⟨[⟨1, 1, 1, none, none⟩, ⟨1, 2, 2, none, none⟩, ⟨8, 8, 40, none, none⟩],
    [(⟨1, 1, 1, none, none⟩, 1), (⟨1, 2, 2, none, none⟩, 1), (⟨8, 8, 40, none, none⟩, 30)],
    by decide +kernel, by decide +kernel, fun σ hv => ?_⟩
  exact multi_necessary (t := 80) (by decide +kernel) hv

/-- **C74**: the dispatcher's multiprocessor test (`guan.py`) never answers `True` for a
set with a deadline beyond a period; it raises an assertion error or, if an earlier
task fails, answers `False`. -/
theorem C74_guan_partial (m : ℕ) (ts : List FTask) (fuel : ℕ) (rs : List (FTask × ℤ))
    (h : guan fuel m ts = .returned true rs) : ∀ t ∈ ts, t.deadline ≤ t.period :=
  (guanAll_true ts [] rs h).1

/-- Non-vacuity: the set above, and one that fails before the assertion. -/
example : guan 100 2 [⟨1, 1, 1, none, none⟩, ⟨1, 2, 2, none, none⟩, ⟨8, 8, 40, none, none⟩] =
      .assertionError ∧
    guan 100 2 [⟨2, 1, 1, none, none⟩, ⟨8, 8, 40, none, none⟩] = .returned false [] := by
  decide +kernel

end Verif.GFp
