/-
Properties C82 and C83: response-time bounds of Devi and Anderson for global EDF
(`schedcat/sched/edf/da.py`).
-/
import Verif.Model.Da
import Verif.Lemmas.DaSchedule
import Verif.Spec.NonPreemptive
import Verif.Props.Gel

namespace Verif.Da
open Verif.Spec Verif.Gel Finset

variable {n m : ℕ} {ts : Fin n → GTask}

/-! ### The largest costs and utilizations -/

theorem sum_le_nlargest {v : Fin n → ℚ} (hv : ∀ i, 0 ≤ v i) {k : ℤ} {R : Finset (Fin n)} (hR : R.card ≤ k.toNat) :
    ∑ i ∈ R, v i ≤ (nlargest k ((List.finRange n).map v)).sum := by
  classical
  have hL := nlargestIdx_largest k v
  rw [nlargest_sum]
  have hRn : R.card ≤ n := by simpa using card_le_univ R
  obtain ⟨S, hRS, hS⟩ := exists_superset_card_eq (s := R) (n := min k.toNat n) (by omega) (by simp)
  refine (sum_le_sum_of_subset_of_nonneg hRS (fun i _ _ => hv i)).trans ?_
  exact largest_sum_ge hL (by rw [hS, hL.card])

theorem byUtil_slice {k : ℤ} (hk : 0 ≤ k) : slice k (byUtil ts) =
    nlargest k ((List.finRange n).map fun i => ((ts i).cost : ℚ) / (ts i).period) := by
  unfold slice byUtil nlargest
  rw [if_pos hk]

theorem byCost_slice {k : ℤ} (hk : 0 ≤ k) : (((slice k (byCost ts)).sum : ℕ) : ℚ) =
    (nlargest k ((List.finRange n).map fun i => ((ts i).cost : ℚ))).sum := by
  unfold slice byCost nlargest
  rw [if_pos hk]
  have h := List.map_insertionSort (r := fun a b : ℕ => b ≤ a) (s := fun a b : ℚ => b ≤ a) (fun a : ℕ => (a : ℚ))
    ((List.finRange n).map fun i => (ts i).cost) (fun a _ b _ => by simp)
  rw [List.map_map] at h
  rw [show ((fun a : ℕ => (a : ℚ)) ∘ fun i => (ts i).cost) = fun i => ((ts i).cost : ℚ) from rfl] at h
  rw [← h, ← List.map_take, Nat.cast_list_sum]

theorem emin_le (i : Fin n) : emin ts ≤ (ts i).cost := by
  unfold emin byCost
  set l := ((List.finRange n).map fun i => (ts i).cost).insertionSort (fun a b => b ≤ a) with hl
  have : Std.Total (fun a b : ℕ => b ≤ a) := ⟨fun a b => le_total _ _⟩
  have : IsTrans ℕ (fun a b : ℕ => b ≤ a) := ⟨fun a b c h1 h2 => h2.trans h1⟩
  have hs : l.Pairwise (fun a b => b ≤ a) := List.pairwise_insertionSort _ _
  have hmem : (ts i).cost ∈ l := (List.mem_insertionSort _).2 (List.mem_map.2 ⟨i, List.mem_finRange i, rfl⟩)
  have hne : l ≠ [] := List.ne_nil_of_mem hmem
  rw [List.getLastD_eq_getLast?, List.getLast?_eq_some_getLast hne, Option.getD_some]
  rw [← List.dropLast_append_getLast hne] at hs hmem
  rw [List.pairwise_append] at hs
  rcases List.mem_append.1 hmem with h | h
  · exact hs.2.2 _ h _ (by simp)
  · rw [List.mem_singleton] at h
    exact h.ge

theorem hasBounded_iff : hasBoundedTardiness m ts = true ↔
    utilSum ts ≤ m ∧ ∀ i, (ts i).cost ≤ (ts i).period := by
  unfold hasBoundedTardiness
  simp

theorem byUtil_nonneg : ∀ u ∈ byUtil ts, 0 ≤ u := by
  intro u hu
  obtain ⟨i, _, rfl⟩ := List.mem_map.1 ((List.mem_insertionSort _).1 hu)
  positivity

theorem slice_sublist {α : Type} (k : ℤ) (xs : List α) : (slice k xs).Sublist xs := by
  unfold slice
  split_ifs <;> exact List.take_sublist _ _

theorem slice_le_total (k : ℤ) : (slice k (byUtil ts)).sum ≤ utilSum ts := by
  have h1 : (byUtil ts).sum = utilSum ts := by
    unfold byUtil utilSum
    exact (List.perm_insertionSort _ _).sum_eq
  rw [← h1]
  exact (slice_sublist k _).sum_le_sum byUtil_nonneg

/-- The capacity that is left is positive whenever the utilizations are legal. -/
theorem capacity_pos (hm : 2 ≤ m) (hT : ∀ i, 0 < (ts i).period) (hCT : ∀ i, (ts i).cost ≤ (ts i).period)
    (hU : utilSum ts ≤ m) : 0 < reducedCapacity m ts := by
  unfold reducedCapacity
  have hceil : ⌈utilSum ts⌉ ≤ (m : ℤ) := Int.ceil_le.2 (by exact_mod_cast hU)
  rcases lt_or_ge (utilSum ts) m with hlt | hge
  · have := slice_le_total (ts := ts) (lambda ts - 1)
    linarith
  · have heq : utilSum ts = m := le_antisymm hU hge
    have hl : lambda ts - 1 = (m : ℤ) - 2 := by
      unfold lambda
      rw [heq, show ((m : ℕ) : ℚ) = ((m : ℤ) : ℚ) by push_cast; rfl, Int.ceil_intCast]
      omega
    rw [hl, byUtil_slice (by omega), nlargest_sum]
    have h2 : ∑ i ∈ (nlargestIdx ((m : ℤ) - 2) fun i => ((ts i).cost : ℚ) / (ts i).period).toFinset,
        ((ts i).cost : ℚ) / (ts i).period ≤
        (nlargestIdx ((m : ℤ) - 2) fun i => ((ts i).cost : ℚ) / (ts i).period).toFinset.card • (1 : ℚ) :=
      sum_le_card_nsmul _ _ _ (fun i _ => util_le_one hT hCT i)
    rw [(nlargestIdx_largest _ _).card, nsmul_eq_mul, mul_one] at h2
    have h3 : ((min ((m : ℤ) - 2).toNat n : ℕ) : ℚ) + 2 ≤ m := by
      have : min ((m : ℤ) - 2).toNat n + 2 ≤ m := by omega
      exact_mod_cast this
    linarith

/-! ### Preemptive EDF -/

/-- The code's `x` fulfils the conditions of the argument of Devi and Anderson. -/
theorem compliant {x : ℤ} (hT : ∀ i, 0 < (ts i).period) (h : taskTardinessBound m ts true = some x) (hm : 0 < m) :
    0 ≤ x ∧ DaCompliant m ⌈utilSum ts⌉.toNat (costs ts) (periods ts) x (m * x + emin ts) := by
  unfold taskTardinessBound at h
  simp only [if_true] at h
  split_ifs at h with h1 h2
  · -- several processors
    rw [Bool.not_eq_false, hasBounded_iff] at h1
    obtain ⟨hU, hCT⟩ := h1
    unfold tardinessX at h
    split_ifs at h with h3 h4 h5 h6
    · simp only [Option.some.injEq] at h
      subst h3
      subst h
      refine ⟨le_rfl, ⟨?_, le_rfl, ?_, fun i => i.elim0⟩⟩
      · have : (0 : ℚ) ≤ emin ts := by positivity
        push_cast
        linarith
      · intro R _ a _
        exact a.elim0
    · omega
    · simp only [Option.some.injEq] at h
      have hcap : 0 < reducedCapacity m ts := by linarith
      set rc : ℤ := max 0 (((slice (lambda ts) (byCost ts)).sum : ℕ) - (emin ts : ℤ)) with hrc
      have hrc0 : 0 ≤ rc := le_max_left _ _
      have hx0 : 0 ≤ x := by
        rw [← h]
        exact Int.ceil_nonneg (div_nonneg (by exact_mod_cast hrc0) hcap.le)
      have hx0q : (0 : ℚ) ≤ x := by exact_mod_cast hx0
      have hxc : (rc : ℚ) ≤ x * reducedCapacity m ts := by
        rw [← div_le_iff₀ hcap, ← h]
        exact Int.le_ceil _
      refine ⟨hx0, ⟨by positivity, hx0q, ?_, ?_⟩⟩
      · intro R hR a ha
        have hpos : 0 < R.card := card_pos.2 ⟨a, ha⟩
        have hl1 : 1 ≤ lambda ts := by unfold lambda; omega
        have hRl : R.card ≤ (lambda ts).toNat := by unfold lambda; omega
        have hE := sum_le_nlargest (v := fun i => ((ts i).cost : ℚ)) (fun i => by positivity) hRl
        rw [← byCost_slice (by omega)] at hE
        have hV := sum_le_nlargest (v := fun i => ((ts i).cost : ℚ) / (ts i).period) (fun i => by positivity)
          (k := lambda ts - 1) (R := R.erase a) (by rw [card_erase_of_mem ha]; omega)
        rw [← byUtil_slice (by omega)] at hV
        have hV' := mul_le_mul_of_nonneg_left hV hx0q
        have hrc1 : (((slice (lambda ts) (byCost ts)).sum : ℕ) : ℚ) - (emin ts : ℚ) ≤ rc := by
          have : (((slice (lambda ts) (byCost ts)).sum : ℕ) : ℤ) - (emin ts : ℤ) ≤ rc := le_max_right _ _
          exact_mod_cast this
        unfold reducedCapacity at hxc
        rw [mul_sub] at hxc
        change ∑ i ∈ R, ((ts i).cost : ℚ) + x * ∑ i ∈ R.erase a, ((ts i).cost : ℚ) / (ts i).period ≤ _
        linarith
      · intro i
        have : (emin ts : ℚ) ≤ (ts i).cost := by exact_mod_cast emin_le i
        change _ ≤ (m : ℚ) * x + ((ts i).cost : ℚ)
        linarith
  · -- one processor
    obtain rfl : 0 = x := Option.some.inj h
    rw [Bool.not_eq_false, hasBounded_iff] at h1
    have hm1 : m = 1 := by omega
    subst hm1
    have hceil : ⌈utilSum ts⌉ ≤ (1 : ℤ) := Int.ceil_le.2 (by exact_mod_cast h1.1)
    refine ⟨le_rfl, ⟨by positivity, by simp, ?_, ?_⟩⟩
    · intro R hR a ha
      have hpos : 0 < R.card := card_pos.2 ⟨a, ha⟩
      omega
    · intro i
      have : (emin ts : ℚ) ≤ (ts i).cost := by exact_mod_cast emin_le i
      change _ ≤ ((1 : ℕ) : ℚ) * ((0 : ℤ) : ℚ) + ((ts i).cost : ℚ)
      push_cast
      linarith

/-- **C82**: the tardiness bound is safe for preemptive global EDF and implicit
deadlines: every job finishes at most its cost and `x` after its deadline. -/
theorem C82_tardiness {x : ℤ} (hT : ∀ i, 0 < (ts i).period) (h : taskTardinessBound m ts true = some x) :
    EdfResponseTimesBounded m (fun i => (ts i).cost) (fun i => (ts i).period) (fun i => (ts i).period)
      fun i => (ts i).period + (ts i).cost + x := by
  intro w σ hs hv he j t ht
  have hb : hasBoundedTardiness m ts = true := by
    unfold taskTardinessBound at h
    split_ifs at h with h1 <;> simpa using h1
  obtain ⟨hU, hCT⟩ := hasBounded_iff.1 hb
  rcases Nat.eq_zero_or_pos m with hm | hm
  · -- no processors: all costs are zero
    subst hm
    have h0 : (ts j.1).cost = 0 := by
      by_contra hne
      have hle : ((ts j.1).cost : ℚ) / (ts j.1).period ≤ utilSum ts := by
        rw [utilSum_eq]
        exact single_le_sum (f := fun i => (costs ts i : ℚ) / periods ts i) (fun i _ => by positivity) (mem_univ j.1)
      have h1 : (0 : ℚ) < ((ts j.1).cost : ℚ) / (ts j.1).period := by
        have := hT j.1
        have : 0 < (ts j.1).cost := by omega
        positivity
      push_cast at hU
      linarith
    have := hs.wcet j.1 j.2
    simp only [h0] at this
    unfold Completed
    have e : w.exec j = 0 := by
      have : w.exec (j.1, j.2) = 0 := by omega
      exact this
    omega
  · obtain ⟨hx0, hc⟩ := compliant hT h hm
    have hceil : ⌈utilSum ts⌉ ≤ (m : ℤ) := Int.ceil_le.2 (by exact_mod_cast hU)
    have hKU : ∑ i, utilOf (costs ts) (periods ts) i ≤ (⌈utilSum ts⌉.toNat : ℚ) := by
      have h1 : ∑ i, utilOf (costs ts) (periods ts) i = utilSum ts := by rw [utilSum_eq]; rfl
      rw [h1]
      have h2 : ⌈utilSum ts⌉ ≤ ((⌈utilSum ts⌉.toNat : ℕ) : ℤ) := Int.self_le_toNat _
      have h3 : ((⌈utilSum ts⌉ : ℤ) : ℚ) ≤ ((⌈utilSum ts⌉.toNat : ℕ) : ℚ) := by exact_mod_cast h2
      exact (Int.le_ceil _).trans h3
    apply da_bound hs hT hCT hm hv he (by omega) hKU hc j t
    rw [Int.floor_intCast]
    change (w.release j : ℤ) + (ts j.1).period + (ts j.1).cost + x ≤ t
    simp only at ht
    linarith

/-- **C82**: the response times assigned for preemptive global EDF are safe. -/
theorem C82_safe {R : Fin n → ℤ} (hT : ∀ i, 0 < (ts i).period) (h : boundResponseTimes m ts true = some (some R)) :
    EdfResponseTimesBounded m (fun i => (ts i).cost) (fun i => (ts i).period) (fun i => (ts i).deadline) R := by
  unfold boundResponseTimes at h
  split_ifs at h with hd
  simp only [List.all_eq_true, List.mem_finRange, decide_eq_true_eq, forall_true_left] at hd
  simp only [Option.some.injEq, Option.map_eq_some_iff] at h
  obtain ⟨x, hx, rfl⟩ := h
  have := C82_tardiness hT hx
  rw [show (fun i => (ts i).deadline) = fun i => (ts i).period from funext hd]
  rw [show (fun i => ((ts i).deadline : ℤ) + (ts i).cost + x) = fun i => ((ts i).period : ℤ) + (ts i).cost + x from
    funext fun i => by rw [hd i]]
  exact this

/-- A task that may execute for longer than its period falls behind without bound. -/
theorem cost_unbounded {C T D : Fin n → ℕ} (hT : ∀ i, 0 < T i) {i : Fin n} (hi : T i < C i) (B : Fin n → ℤ) :
    ¬ EdfResponseTimesBounded m C T D B := by
  classical
  intro hb
  obtain ⟨σ, hv, he⟩ := exists_edf m (periodic_sporadic C T) hT D
  have hle : ∀ N t, ∑ q ∈ range N, service σ (i, q) t ≤ t := by
    intro N t
    induction t with
    | zero => simp [service]
    | succ t ih =>
      simp only [service_succ, sum_add_distrib]
      have h1 : ∑ q ∈ range N, (if (i, q) ∈ σ t then 1 else 0) ≤ 1 := by
        rw [← card_filter, card_le_one]
        intro a ha b hb
        rw [mem_filter] at ha hb
        exact ready_unique (hv.ready t _ ha.2) (hv.ready t _ hb.2)
      omega
  set k := (B i).toNat with hk
  have hB : B i ≤ k := Int.self_le_toNat _
  have hdone : ∀ q ∈ range (k + 1), C i ≤ service σ (i, q) (k * T i + k) := by
    intro q hq
    rw [mem_range] at hq
    have h1 := hb (periodic C T) σ (periodic_sporadic C T) hv he (i, q) (q * T i + k) (by
      change ((q * T i : ℕ) : ℤ) + B i ≤ _
      push_cast
      linarith)
    refine le_trans (show C i ≤ _ from h1) (service_mono σ _ ?_)
    have : q * T i ≤ k * T i := Nat.mul_le_mul_right _ (by omega)
    omega
  have h2 := sum_le_sum hdone
  rw [sum_const, card_range, smul_eq_mul] at h2
  have h3 := hle (k + 1) (k * T i + k)
  have h4 : (k + 1) * (T i + 1) ≤ (k + 1) * C i := Nat.mul_le_mul_left _ hi
  have h5 : (k + 1) * (T i + 1) = k * T i + k + T i + 1 := by ring
  omega

/-- **C82**: for implicit deadlines the test answers `False` only if no bounds on the
response times exist, on any number of processors. -/
theorem C82_complete (hT : ∀ i, 0 < (ts i).period) (hD : ∀ i, (ts i).deadline = (ts i).period) :
    (∃ R, boundResponseTimes m ts true = some (some R)) ∨
    (boundResponseTimes m ts true = some none ∧ ∀ B, ¬ EdfResponseTimesBounded m (fun i => (ts i).cost)
      (fun i => (ts i).period) (fun i => (ts i).deadline) B) := by
  unfold boundResponseTimes
  rw [if_pos (by simpa using hD)]
  cases hx : taskTardinessBound m ts true with
  | some x => left; exact ⟨_, rfl⟩
  | none =>
    right
    refine ⟨rfl, fun B hB => ?_⟩
    by_cases hb : hasBoundedTardiness m ts = true
    · exfalso
      obtain ⟨hU, hCT⟩ := hasBounded_iff.1 hb
      unfold taskTardinessBound at hx
      rw [if_neg (by simp [hb])] at hx
      simp only [if_true] at hx
      split_ifs at hx with h2
      have hcap := capacity_pos (by omega) hT hCT hU
      unfold tardinessX at hx
      rw [if_neg (show ¬ m = 1 by omega), if_neg (show ¬ reducedCapacity m ts ≤ 0 by linarith)] at hx
      split_ifs at hx
    · rw [hasBounded_iff] at hb
      by_cases hU : utilSum ts ≤ m
      · have : ∃ i, (ts i).period < (ts i).cost := by
          by_contra hc
          push Not at hc
          exact hb ⟨hU, hc⟩
        obtain ⟨i, hi⟩ := this
        exact cost_unbounded hT hi B hB
      · push Not at hU
        rw [utilSum_eq] at hU
        apply overload_unbounded (C := costs ts) (T := periods ts) hT hU (fun i => ((ts i).deadline : ℤ)) B
        intro w σ hs hv hg j t ht
        refine hB w σ hs hv (fun t j hr hn => ?_) j t ht
        obtain ⟨h1, h2⟩ := hg t j hr hn
        refine ⟨h1, fun j' hj' => ?_⟩
        have := h2 j' hj'
        unfold Workload.deadline
        simp only at this ⊢
        omega

/-! ### Non-preemptive EDF -/

/-- Long jobs that occupy all processors from time 0 and a short job that comes at
time 1. -/
def blockWorkload (m c : ℕ) : Workload (m + 1) where
  release := fun j => if j.1 = Fin.last m then 1 + 2 * j.2 else 2 * c * j.2
  exec := fun j => if j.2 = 0 then (if j.1 = Fin.last m then 1 else c) else 0

/-- The long jobs execute first. -/
def blockSchedule (m c : ℕ) : Schedule (m + 1) := fun t =>
  if t < c then (univ.filter (fun i : Fin (m + 1) => i ≠ Fin.last m)).image (fun i => (i, 0))
  else if t = c then {(Fin.last m, 0)} else ∅

theorem mem_blockSchedule {m c t : ℕ} {j : Job (m + 1)} : j ∈ blockSchedule m c t ↔
    j.2 = 0 ∧ ((t < c ∧ j.1 ≠ Fin.last m) ∨ (t = c ∧ j.1 = Fin.last m)) := by
  obtain ⟨i, k⟩ := j
  unfold blockSchedule
  split_ifs with h1 h2
  · simp only [mem_image, mem_filter, mem_univ, true_and, Prod.mk.injEq]
    constructor
    · rintro ⟨a, ha, rfl, rfl⟩
      exact ⟨rfl, Or.inl ⟨h1, ha⟩⟩
    · rintro ⟨rfl, ⟨_, h⟩ | ⟨h, _⟩⟩
      · exact ⟨i, h, rfl, rfl⟩
      · omega
  · simp only [mem_singleton, Prod.mk.injEq]
    constructor
    · rintro ⟨rfl, rfl⟩
      exact ⟨rfl, Or.inr ⟨h2, rfl⟩⟩
    · rintro ⟨rfl, ⟨h, _⟩ | ⟨_, h⟩⟩
      · omega
      · exact ⟨h, rfl⟩
  · simp only [notMem_empty, false_iff]
    rintro ⟨_, ⟨h, _⟩ | ⟨h, _⟩⟩ <;> omega

theorem block_service {m c : ℕ} (j : Job (m + 1)) (t : ℕ) : service (blockSchedule m c) j t =
    if j.2 = 0 then (if j.1 = Fin.last m then (if c < t then 1 else 0) else min t c) else 0 := by
  induction t with
  | zero => simp [service]
  | succ t ih =>
    rw [service_succ, ih]
    simp only [mem_blockSchedule]
    by_cases h0 : j.2 = 0
    · by_cases hl : j.1 = Fin.last m
      · simp only [h0, hl]
        simp
        split_ifs <;> omega
      · simp only [h0, hl]
        simp
        split_ifs <;> omega
    · simp [h0]

theorem block_card {m c t : ℕ} (h : t < c) : (blockSchedule m c t).card = m := by
  unfold blockSchedule
  rw [if_pos h, card_image_of_injective _ (fun a b h => (Prod.mk.inj h).1), filter_ne', card_erase_of_mem (mem_univ _)]
  simp

theorem block_completed {m c : ℕ} (j : Job (m + 1)) (t : ℕ) : Completed (blockWorkload m c) (blockSchedule m c) j t ↔
    (j.2 ≠ 0 ∨ (j.1 = Fin.last m ∧ c < t) ∨ (j.1 ≠ Fin.last m ∧ c ≤ t)) := by
  unfold Completed
  rw [block_service]
  unfold blockWorkload
  by_cases h0 : j.2 = 0
  · by_cases hl : j.1 = Fin.last m
    · simp only [h0, hl]
      simp
      split_ifs <;> omega
    · simp only [h0]
      simp [hl]
  · simp [h0]

/-- Under non-preemptive EDF a short job may have to wait for long ones. -/
theorem np_blocked (m c : ℕ) (hm : 0 < m) (hc : 0 < c) (B : Fin (m + 1) → ℤ) (hB : B (Fin.last m) < c) :
    ¬ NpResponseTimesBounded m (fun i => if i = Fin.last m then 1 else c)
      (fun i => if i = Fin.last m then 2 else 2 * c) (fun i => if i = Fin.last m then 2 else 2 * c) B := by
  intro hb
  have hready : ∀ t (j : Job (m + 1)), Ready (blockWorkload m c) (blockSchedule m c) j t ↔
      j.2 = 0 ∧ ((j.1 = Fin.last m ∧ 1 ≤ t ∧ t ≤ c) ∨ (j.1 ≠ Fin.last m ∧ t < c)) := by
    rintro t ⟨i, k⟩
    unfold Ready Pending
    simp only [block_completed]
    unfold blockWorkload
    by_cases hk : k = 0
    · subst hk
      by_cases hl : i = Fin.last m
      · simp only [hl]
        simp
      · simp [hl]
    · simp [hk]
  have := hb (blockWorkload m c) (blockSchedule m c) ?_ ?_ ?_ (Fin.last m, 0) ((1 + B (Fin.last m)).toNat) ?_
  · rw [block_completed] at this
    simp at this
    omega
  · constructor
    · intro i k
      unfold blockWorkload
      simp only
      split_ifs
      · omega
      · rw [Nat.mul_add]; omega
    · intro i k
      unfold blockWorkload
      simp only
      split_ifs <;> omega
  · constructor
    · intro t
      rcases Nat.lt_or_ge t c with h | h
      · exact (block_card h).le
      · unfold blockSchedule
        rw [if_neg (by omega)]
        split_ifs
        · rw [card_singleton]; exact hm
        · simp
    · intro t j hj
      rw [mem_blockSchedule] at hj
      rw [hready]
      refine ⟨hj.1, ?_⟩
      rcases hj.2 with ⟨h1, h2⟩ | ⟨h1, h2⟩
      · exact Or.inr ⟨h2, h1⟩
      · exact Or.inl ⟨h2, by omega, by omega⟩
  · constructor
    · intro t j h1 h2
      rw [block_service] at h1
      rw [block_completed] at h2
      rw [mem_blockSchedule]
      push Not at h2
      refine ⟨h2.1, ?_⟩
      rw [if_pos h2.1] at h1
      by_cases hl : j.1 = Fin.last m
      · rw [if_pos hl] at h1
        have := h2.2.1 hl
        split_ifs at h1 <;> omega
      · exact Or.inl ⟨h2.2.2 hl, hl⟩
    · intro t j hr hn
      rw [hready] at hr
      rw [mem_blockSchedule] at hn
      obtain ⟨h0, hr⟩ := hr
      have hl : j.1 = Fin.last m := by
        by_contra hl
        rcases hr with h | h
        · exact hl h.1
        · exact hn ⟨h0, Or.inl ⟨h.2, hl⟩⟩
      have ht : 1 ≤ t ∧ t < c := by
        rcases hr with h | h
        · refine ⟨h.2.1, lt_of_le_of_ne h.2.2 (fun he => hn ⟨h0, Or.inr ⟨he, hl⟩⟩)⟩
        · exact absurd hl h.1
      refine ⟨block_card ht.2, fun j' hj' => Or.inl ?_⟩
      rw [mem_blockSchedule] at hj'
      obtain ⟨h0', hj'⟩ := hj'
      rw [block_service, if_pos h0']
      rcases hj' with h | h
      · rw [if_neg h.2]
        omega
      · omega
  · unfold blockWorkload
    simp

/-- **C83** is violated on one processor: for two tasks of costs 8 and 1 the response
time of the second is bounded by 3, although it may have to wait for the first. -/
theorem C83_uniprocessor_violated :
    ∃ (ts : Fin 2 → GTask) (R : Fin 2 → ℤ), (∀ i, 0 < (ts i).period) ∧
      boundResponseTimes 1 ts false = some (some R) ∧ R 1 = 3 ∧
      ¬ NpResponseTimesBounded 1 (fun i => (ts i).cost) (fun i => (ts i).period) (fun i => (ts i).deadline) R := by
  let ts : Fin 2 → GTask := ![⟨8, 16, 16⟩, ⟨1, 2, 2⟩]
  have hb : (taskTardinessBound 1 ts false) = some 0 := by decide +kernel
  refine ⟨ts, fun i => (ts i).deadline + (ts i).cost + 0, by decide, ?_, by decide, ?_⟩
  · unfold boundResponseTimes
    rw [if_pos (by decide), hb]
    rfl
  · have h1 : (fun i => (ts i).cost) = fun i : Fin 2 => if i = Fin.last 1 then 1 else 8 := by decide
    have h2 : (fun i => (ts i).period) = fun i : Fin 2 => if i = Fin.last 1 then 2 else 2 * 8 := by decide
    have h3 : (fun i => (ts i).deadline) = fun i : Fin 2 => if i = Fin.last 1 then 2 else 2 * 8 := by decide
    rw [h1, h2, h3]
    exact np_blocked 1 8 (by decide) (by decide) _ (by decide)

/-- **C83** is violated on two processors as well: the response time of a task of
cost 1 is bounded by 7, although it may have to wait for tasks of cost 8. -/
theorem C83_violated :
    ∃ (ts : Fin 3 → GTask) (R : Fin 3 → ℤ), (∀ i, 0 < (ts i).period) ∧
      boundResponseTimes 2 ts false = some (some R) ∧ R 2 = 7 ∧
      ¬ NpResponseTimesBounded 2 (fun i => (ts i).cost) (fun i => (ts i).period) (fun i => (ts i).deadline) R := by
  let ts : Fin 3 → GTask := ![⟨8, 16, 16⟩, ⟨8, 16, 16⟩, ⟨1, 2, 2⟩]
  have hb : (taskTardinessBound 2 ts false) = some 4 := by decide +kernel
  refine ⟨ts, fun i => (ts i).deadline + (ts i).cost + 4, by decide, ?_, by decide, ?_⟩
  · unfold boundResponseTimes
    rw [if_pos (by decide), hb]
    rfl
  · have h1 : (fun i => (ts i).cost) = fun i : Fin 3 => if i = Fin.last 2 then 1 else 8 := by decide
    have h2 : (fun i => (ts i).period) = fun i : Fin 3 => if i = Fin.last 2 then 2 else 2 * 8 := by decide
    have h3 : (fun i => (ts i).deadline) = fun i : Fin 3 => if i = Fin.last 2 then 2 else 2 * 8 := by decide
    rw [h1, h2, h3]
    exact np_blocked 2 8 (by decide) (by decide) _ (by decide)

theorem emin_le_slice (hn : n ≠ 0) {k : ℤ} (hk : 1 ≤ k) : emin ts ≤ (slice k (byCost ts)).sum := by
  have i : Fin n := ⟨0, Nat.pos_of_ne_zero hn⟩
  have h := sum_le_nlargest (v := fun i => ((ts i).cost : ℚ)) (fun i => by positivity) (k := k) (R := {i})
    (by rw [card_singleton]; omega)
  rw [← byCost_slice (by omega), sum_singleton] at h
  have h' : (ts i).cost ≤ (slice k (byCost ts)).sum := by exact_mod_cast h
  exact (emin_le i).trans h'

/-- The bound for non-preemptive EDF is never below that for preemptive EDF. -/
theorem np_ge {y : ℤ} (h : taskTardinessBound m ts false = some y) : ∃ x ≤ y, taskTardinessBound m ts true = some x := by
  unfold taskTardinessBound at h ⊢
  simp only [if_true] at h ⊢
  split_ifs at h ⊢ with h1 h2 h3
  · exact absurd h3 (by decide)
  · rw [Bool.not_eq_false, hasBounded_iff] at h1
    have hceil : ⌈utilSum ts⌉ ≤ (m : ℤ) := Int.ceil_le.2 (by exact_mod_cast h1.1)
    unfold npTardinessX at h
    unfold tardinessX
    split_ifs at h ⊢ with h4 h5 h6 h7
    · exact ⟨0, (Option.some.inj h).le, rfl⟩
    · omega
    · omega
    · refine ⟨_, ?_, rfl⟩
      rw [← Option.some.inj h]
      have hcap : 0 < reducedCapacity m ts := by linarith
      refine Int.ceil_le_ceil ((div_le_div_iff_of_pos_right hcap).2 ?_)
      rw [Int.cast_le, max_le_iff]
      constructor
      · by_cases hl : 1 ≤ lambda ts
        · have := emin_le_slice (ts := ts) h4 hl
          omega
        · have := emin_le_slice (ts := ts) h4 (k := (m : ℤ) - lambda ts - 1) (by omega)
          omega
      · omega
  · exact ⟨y, le_rfl, h⟩

/-- The part of **C83** that holds: if no job needs more than one time unit, the
response times assigned for non-preemptive global EDF are safe. -/
theorem C83_unit_cost_partial {R : Fin n → ℤ} (hT : ∀ i, 0 < (ts i).period) (hC : ∀ i, (ts i).cost ≤ 1)
    (h : boundResponseTimes m ts false = some (some R)) :
    NpResponseTimesBounded m (fun i => (ts i).cost) (fun i => (ts i).period) (fun i => (ts i).deadline) R := by
  unfold boundResponseTimes at h
  split_ifs at h with hd
  simp only [List.all_eq_true, List.mem_finRange, decide_eq_true_eq, forall_true_left] at hd
  simp only [Option.some.injEq, Option.map_eq_some_iff] at h
  obtain ⟨y, hy, rfl⟩ := h
  obtain ⟨x, hxy, hx⟩ := np_ge hy
  intro w σ hs hv hnp j t ht
  have he : EDF m w (fun i => (ts i).period) σ := by
    intro t j hr hn
    obtain ⟨h1, h2⟩ := hnp.2 t j hr hn
    refine ⟨h1, fun j' hj' => ?_⟩
    rcases h2 j' hj' with h | h
    · exfalso
      apply (hv.ready t j' hj').1.2
      have h3 : w.exec j' ≤ (ts j'.1).cost := hs.wcet j'.1 j'.2
      have := hC j'.1
      unfold Completed
      omega
    · unfold Workload.deadline at h ⊢
      simp only [hd] at h
      exact h
  refine C82_tardiness hT hx w σ hs hv he j t ?_
  simp only at ht ⊢
  rw [hd j.1] at ht
  linarith

/-! ### Examples -/

/-- Four tasks with utilization 7/3 on three processors: `x = 4`. -/
example : taskTardinessBound 3 ![⟨4, 6, 6⟩, ⟨2, 3, 3⟩, ⟨5, 10, 10⟩, ⟨1, 2, 2⟩] true = some 4 := by decide +kernel

example : (boundResponseTimes 3 ![⟨4, 6, 6⟩, ⟨2, 3, 3⟩, ⟨5, 10, 10⟩, ⟨1, 2, 2⟩] true).map
    (fun r => r.map fun R => (R 0, R 1, R 2, R 3)) = some (some (14, 9, 19, 7)) := by decide +kernel

/-- The same tasks under non-preemptive EDF. -/
example : taskTardinessBound 3 ![⟨4, 6, 6⟩, ⟨2, 3, 3⟩, ⟨5, 10, 10⟩, ⟨1, 2, 2⟩] false = some 4 := by decide +kernel

/-- Full utilization is accepted. -/
example : taskTardinessBound 2 ![⟨2, 3, 3⟩, ⟨2, 3, 3⟩, ⟨2, 3, 3⟩] true = some 0 := by decide +kernel

/-- Overload is rejected. -/
example : taskTardinessBound 2 ![⟨2, 3, 3⟩, ⟨3, 3, 3⟩, ⟨2, 3, 3⟩] true = none := by decide +kernel

/-- Unit costs under non-preemptive EDF. -/
example : (boundResponseTimes 2 ![⟨1, 2, 2⟩, ⟨1, 2, 2⟩, ⟨1, 2, 2⟩] false).map (fun r => r.map fun R => (R 0, R 1, R 2)) =
    some (some (3, 3, 3)) := by decide +kernel

end Verif.Da
