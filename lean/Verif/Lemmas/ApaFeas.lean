/-
Lemmas for the feasibility test for arbitrary processor affinities.
-/
import Verif.Model.ApaFeas
import Verif.Spec.ApaFeasible
import Verif.Lemmas.ApaSlots
import Mathlib.Data.Nat.Count
import Mathlib.Data.Nat.Periodic
import Mathlib.Algebra.BigOperators.Fin
import Mathlib.Data.Fintype.BigOperators
import Mathlib.Algebra.Order.BigOperators.Group.Finset

namespace Verif.ApaFeas
open Verif.Spec Finset

/-! ### Affinities -/

/-- The affinities are those given by the calls of `add_cpu`. -/
structure Reflects (a : Affinities) (calls : List (ℕ × ℕ)) : Prop where
  nodup : ∀ i, (a.getD i []).Nodup
  mem : ∀ i c, c ∈ a.getD i [] ↔ (i, c) ∈ calls
  length : ∀ i, i < a.length ↔ ∃ c ∈ calls, i ≤ c.1

theorem getD_append_nil (a : Affinities) (k i : ℕ) :
    (a ++ List.replicate k []).getD i [] = a.getD i [] := by
  rw [List.getD_eq_getElem?_getD, List.getD_eq_getElem?_getD]
  by_cases h : i < a.length
  · rw [List.getElem?_append_left h]
  · rw [List.getElem?_append_right (by omega), List.getElem?_eq_none (by omega : a.length ≤ i),
      List.getElem?_replicate]
    split_ifs <;> rfl

theorem addCpu_getD (a : Affinities) (call : ℕ × ℕ) (i : ℕ) :
    (addCpu a call).getD i [] =
      if i = call.1 then
        (if call.2 ∈ a.getD i [] then a.getD i [] else a.getD i [] ++ [call.2])
      else a.getD i [] := by
  unfold addCpu
  simp only
  rw [List.getD_eq_getElem?_getD, List.getElem?_modify]
  have hg := getD_append_nil a (call.1 + 1 - a.length) i
  rw [List.getD_eq_getElem?_getD] at hg
  by_cases h : i = call.1
  · subst h
    rw [if_pos rfl]
    have hlt : call.1 < (a ++ List.replicate (call.1 + 1 - a.length) ([] : List ℕ)).length := by
      simp; omega
    rw [List.getElem?_eq_getElem hlt] at hg ⊢
    simp only [Option.getD_some] at hg
    simp only [if_pos, Option.map_some, Option.getD_some, hg]
    rfl
  · rw [if_neg h]
    have h' : ¬ call.1 = i := fun e => h e.symm
    simp only [h', if_false]
    rw [← hg]
    cases (a ++ List.replicate (call.1 + 1 - a.length) ([] : List ℕ))[i]? <;> rfl

theorem addCpu_reflects {a : Affinities} {calls : List (ℕ × ℕ)} (h : Reflects a calls)
    (call : ℕ × ℕ) : Reflects (addCpu a call) (calls ++ [call]) := by
  refine ⟨?_, ?_, ?_⟩
  · intro i
    rw [addCpu_getD]
    split_ifs with h1 h2
    · exact h.nodup i
    · rw [List.nodup_append]
      refine ⟨h.nodup i, by simp, ?_⟩
      intro x hx y hy
      simp only [List.mem_singleton] at hy
      subst hy
      rintro rfl
      exact h2 hx
    · exact h.nodup i
  · intro i c
    rw [addCpu_getD, List.mem_append, ← h.mem, List.mem_singleton]
    split_ifs with h1 h2
    · constructor
      · exact Or.inl
      · rintro (hc | hc)
        · exact hc
        · rw [← hc] at h2; exact h2
    · rw [List.mem_append, List.mem_singleton]
      constructor
      · rintro (hc | rfl)
        · exact Or.inl hc
        · exact Or.inr (by rw [h1])
      · rintro (hc | hc)
        · exact Or.inl hc
        · exact Or.inr (by rw [← hc])
    · constructor
      · exact Or.inl
      · rintro (hc | hc)
        · exact hc
        · exact absurd (by rw [← hc]) h1
  · intro i
    have hl : (addCpu a call).length = max a.length (call.1 + 1) := by
      simp [addCpu]; omega
    rw [hl]
    have := h.length i
    constructor
    · intro hi
      by_cases h1 : i < a.length
      · obtain ⟨c, hc, hic⟩ := this.mp h1
        exact ⟨c, by simp [hc], hic⟩
      · exact ⟨call, by simp, by omega⟩
    · rintro ⟨c, hc, hic⟩
      rcases List.mem_append.mp hc with hc | hc
      · have := this.mpr ⟨c, hc, hic⟩
        omega
      · simp only [List.mem_singleton] at hc
        subst hc
        omega

theorem foldl_reflects (calls : List (ℕ × ℕ)) : ∀ (a : Affinities) (done : List (ℕ × ℕ)),
    Reflects a done → Reflects (calls.foldl addCpu a) (done ++ calls) := by
  induction calls with
  | nil => intro a done h; simpa using h
  | cons c rest ih =>
    intro a done h
    have := ih _ _ (addCpu_reflects h c)
    simpa using this

theorem addCpus_reflects (calls : List (ℕ × ℕ)) : Reflects (addCpus calls) calls := by
  have := foldl_reflects calls [] [] ⟨by simp, by simp, by simp⟩
  simpa [addCpus] using this

theorem mem_allCpus {a : Affinities} {calls : List (ℕ × ℕ)} (h : Reflects a calls) (p : ℕ) :
    p ∈ allCpus a ↔ ∃ i, (i, p) ∈ calls := by
  unfold allCpus
  rw [List.mem_dedup, List.mem_flatten]
  constructor
  · rintro ⟨l, hl, hp⟩
    obtain ⟨i, hi⟩ := List.getElem?_of_mem hl
    refine ⟨i, (h.mem i p).mp ?_⟩
    rw [List.getD_eq_getElem?_getD, hi]
    exact hp
  · rintro ⟨i, hi⟩
    have := (h.mem i p).mpr hi
    rw [List.getD_eq_getElem?_getD] at this
    cases hx : a[i]? with
    | none => rw [hx] at this; simp at this
    | some l =>
      rw [hx] at this
      exact ⟨l, List.mem_of_getElem? hx, this⟩

/-! ### Sums of terms -/

theorem termSum_service (x : ℕ × ℕ → ℚ) (i : ℕ) (l : List ℕ) (hl : l.Nodup) :
    termSum x (l.map fun cpu => (1, (i, cpu))) = ∑ p ∈ l.toFinset, x (i, p) := by
  rw [List.sum_toFinset _ hl]
  simp [termSum, List.map_map, Function.comp_def]

theorem zipIdx_ofFn (ts : List Tsk) :
    ts.zipIdx = List.ofFn (fun i : Fin ts.length => (ts[i], (i : ℕ))) := by
  apply List.ext_getElem
  · simp
  · intro k h1 h2
    simp

theorem termSum_capacity (x : ℕ × ℕ → ℚ) (ts : List Tsk) (cpu : ℕ) :
    termSum x (ts.zipIdx.map fun t => (t.1.utilization, (t.2, cpu))) =
      ∑ i : Fin ts.length, ts[i].utilization * x ((i : ℕ), cpu) := by
  rw [zipIdx_ofFn, termSum, List.map_map, List.map_ofFn, List.sum_ofFn]
  rfl

/-- What a feasible assignment of the program means. -/
theorem feasible_iff {ts : List Tsk} {a : Affinities} {calls : List (ℕ × ℕ)}
    (h : Reflects a calls) (x : ℕ × ℕ → ℚ) :
    (program ts a).Feasible x ↔
      (∀ i < ts.length, ∑ p ∈ (a.getD i []).toFinset, x (i, p) = 1) ∧
      (∀ p ∈ allCpus a, ∑ i : Fin ts.length, ts[i].utilization * x ((i : ℕ), p) ≤ 1) ∧
      ∀ v, 0 ≤ x v ∧ x v ≤ 1 := by
  constructor
  · intro hf
    refine ⟨?_, ?_, fun v => hf.range v (by simp [program])⟩
    · intro i hi
      rw [← termSum_service _ _ _ (h.nodup i)]
      exact hf.eq _ (List.mem_map.mpr ⟨i, List.mem_range.mpr hi, rfl⟩)
    · intro p hp
      rw [← termSum_capacity]
      exact hf.le _ (List.mem_map.mpr ⟨p, hp, rfl⟩)
  · rintro ⟨h1, h2, h3⟩
    refine ⟨?_, ?_, by simp [program], by simp [program], fun v _ => h3 v⟩
    · intro c hc
      obtain ⟨i, hi, rfl⟩ := List.mem_map.mp hc
      rw [termSum_service _ _ _ (h.nodup i)]
      exact h1 i (List.mem_range.mp hi)
    · intro c hc
      obtain ⟨p, hp, rfl⟩ := List.mem_map.mp hc
      rw [termSum_capacity]
      exact h2 p hp

/-! ### Periodic slots -/

theorem count_periodic (q T start : ℕ) (p : ℕ → Prop) [DecidablePred p]
    (hp : Function.Periodic p q) :
    ((Ico (start * q) ((start + T) * q)).filter p).card = T * q.count p := by
  induction T with
  | zero => simp
  | succ T ih =>
    have hsplit : Ico (start * q) ((start + (T + 1)) * q) =
        Ico (start * q) ((start + T) * q) ∪ Ico ((start + T) * q) ((start + T) * q + q) := by
      rw [Finset.Ico_union_Ico_eq_Ico]
      · congr 1; ring
      · exact Nat.mul_le_mul_right _ (by omega)
      · omega
    rw [hsplit, filter_union, card_union_of_disjoint, ih,
      Nat.filter_Ico_card_eq_of_periodic _ _ _ hp]
    · ring
    · rw [Finset.disjoint_left]
      intro s hs hs'
      simp only [mem_filter, mem_Ico] at hs hs'
      omega

/-- Releases of a task are far apart. -/
theorem rel_apart {n : ℕ} {S : AffinityTasks n} {A : JobArrivals n} (h : S.Legal A) (i : Fin n)
    {k k' : ℕ} (hk : k < k') : A.rel i k + S.period i ≤ A.rel i k' := by
  induction k', hk using Nat.le_induction with
  | base => exact h.apart i k
  | succ m _ ih =>
    have := h.apart i m
    omega

section
variable {n : ℕ}

open Classical in
/-- The job of a task whose window contains a slot. -/
noncomputable def jobAt (S : AffinityTasks n) (A : JobArrivals n) (q : ℕ) (s : ℕ) (i : Fin n) :
    Option (Fin n × ℕ) :=
  if h : ∃ k, A.rel i k * q ≤ s ∧ s < (A.rel i k + S.period i) * q then some (i, h.choose)
  else none

theorem jobAt_eq {S : AffinityTasks n} {A : JobArrivals n} (h : S.Legal A) {q s : ℕ} {i : Fin n}
    {k : ℕ} (h1 : A.rel i k * q ≤ s) (h2 : s < (A.rel i k + S.period i) * q) :
    jobAt S A q s i = some (i, k) := by
  have hex : ∃ k, A.rel i k * q ≤ s ∧ s < (A.rel i k + S.period i) * q := ⟨k, h1, h2⟩
  unfold jobAt
  rw [dif_pos hex]
  obtain ⟨h3, h4⟩ := hex.choose_spec
  generalize hex.choose = m at h3 h4
  rcases lt_trichotomy m k with hlt | heq | hgt
  · have := Nat.mul_le_mul_right q (rel_apart h i hlt)
    omega
  · rw [heq]
  · have := Nat.mul_le_mul_right q (rel_apart h i hgt)
    omega

theorem jobAt_some {S : AffinityTasks n} {A : JobArrivals n} {q s : ℕ} {i j : Fin n}
    {k : ℕ} (h : jobAt S A q s i = some (j, k)) :
    j = i ∧ A.rel i k * q ≤ s ∧ s < (A.rel i k + S.period i) * q := by
  unfold jobAt at h
  split_ifs at h with hex
  simp only [Option.some.injEq, Prod.mk.injEq] at h
  obtain ⟨rfl, rfl⟩ := h
  exact ⟨rfl, hex.choose_spec⟩

/-- Rates that respect the affinities and the capacity of tasks and processors yield
schedules for all arrival sequences. -/
theorem schedule_of_rates (S : AffinityTasks n) (hT : ∀ i, 0 < S.period i) (cpus : Finset ℕ)
    (R : Fin n → ℕ → ℚ) (h0 : ∀ i p, 0 ≤ R i p) (hmay : ∀ i, ∀ p ∈ cpus, R i p ≠ 0 → S.may i p)
    (hrow : ∀ i, ∑ p ∈ cpus, R i p = (S.cost i : ℚ) / S.period i)
    (hle : ∀ i, S.cost i ≤ S.period i)
    (hcol : ∀ p ∈ cpus, ∑ i, R i p ≤ 1) :
    ∃ q, 0 < q ∧ ∀ A, S.Legal A → ∃ σ, S.Schedule A q σ ∧ S.MeetsAll A q σ := by
  classical
  obtain ⟨q, hq, f, hone, hcount⟩ := slots_exist (ι := Fin n) (κ := cpus)
    (fun i p => R i p) (fun i p => h0 i p)
    (by
      intro i
      rw [Finset.sum_coe_sort cpus (fun p => R i p), hrow i, div_le_one (by exact_mod_cast hT i)]
      exact_mod_cast hle i)
    (fun p => hcol p p.2)
  refine ⟨q, hq, fun A hA => ?_⟩
  let slot : ℕ → Fin q := fun s => ⟨s % q, Nat.mod_lt _ hq⟩
  let σ : ℕ → ℕ → Option (Fin n × ℕ) := fun s p =>
    if hp : p ∈ cpus then (f (slot s) ⟨p, hp⟩).bind (jobAt S A q s) else none
  have hσ : ∀ s p i k, σ s p = some (i, k) ↔ ∃ hp : p ∈ cpus, f (slot s) ⟨p, hp⟩ = some i ∧
      A.rel i k * q ≤ s ∧ s < (A.rel i k + S.period i) * q := by
    intro s p i k
    constructor
    · intro h
      simp only [σ] at h
      split_ifs at h with hp
      rw [Option.bind_eq_some_iff] at h
      obtain ⟨i', hi', hj⟩ := h
      obtain ⟨rfl, h1, h2⟩ := jobAt_some hj
      exact ⟨hp, hi', h1, h2⟩
    · rintro ⟨hp, hf, h1, h2⟩
      simp only [σ, hp, dif_pos, hf, Option.bind_some]
      exact jobAt_eq hA h1 h2
  refine ⟨σ, ⟨?_, ?_, ?_⟩, ?_⟩
  · intro s p i k h
    obtain ⟨hp, hf, _⟩ := (hσ s p i k).mp h
    apply hmay i p hp
    intro hz
    have hc := hcount i ⟨p, hp⟩
    simp only [hz, zero_mul, Nat.cast_eq_zero, card_eq_zero] at hc
    have : slot s ∈ univ.filter fun s => f s ⟨p, hp⟩ = some i := by simp [hf]
    rw [hc] at this
    simp at this
  · rintro s p p' ⟨i, k⟩ h h'
    obtain ⟨hp, hf, _⟩ := (hσ s p i k).mp h
    obtain ⟨hp', hf', _⟩ := (hσ s p' i k).mp h'
    have := hone _ _ _ _ hf hf'
    simpa using this
  · intro s p i k h
    exact ((hσ s p i k).mp h).choose_spec.2.1
  · intro i k
    -- the slots of one time unit in which the task is served
    let served : ℕ → Prop := fun s => ∃ p : cpus, f (slot s) p = some i
    have hper : Function.Periodic served q := by
      intro s
      simp only [served, slot, Nat.add_mod_right]
    have hunit : ((q.count served : ℕ) : ℚ) * S.period i = S.cost i * q := by
      have h1 : q.count served = (univ.filter fun s : Fin q => ∃ p, f s p = some i).card := by
        rw [Nat.count_eq_card_filter_range]
        symm
        apply Finset.card_bij (fun (s : Fin q) _ => (s : ℕ))
        · intro s hs
          simp only [mem_filter, mem_univ, true_and, mem_range] at hs ⊢
          have : slot (s : ℕ) = s := by
            apply Fin.ext
            simp [slot, Nat.mod_eq_of_lt s.2]
          exact ⟨s.2, by simpa [served, this] using hs⟩
        · intro s _ s' _ h
          exact Fin.ext h
        · intro s hs
          simp only [mem_filter, mem_range] at hs
          refine ⟨⟨s, hs.1⟩, ?_, rfl⟩
          have : slot s = ⟨s, hs.1⟩ := by
            apply Fin.ext
            simp [slot, Nat.mod_eq_of_lt hs.1]
          simpa [served, this] using hs.2
      have h2 : (univ.filter fun s : Fin q => ∃ p, f s p = some i).card =
          ∑ p : cpus, (univ.filter fun s : Fin q => f s p = some i).card := by
        rw [← Finset.card_biUnion]
        · congr 1
          ext s
          simp
        · intro p _ p' _ hne
          rw [Function.onFun, Finset.disjoint_left]
          intro s hs hs'
          simp only [mem_filter, mem_univ, true_and] at hs hs'
          exact hne (hone _ _ _ _ hs hs')
      rw [h1, h2]
      push_cast
      rw [Finset.sum_congr rfl (fun p _ => hcount i p), ← Finset.sum_mul,
        Finset.sum_coe_sort cpus (fun p => R i p), hrow i]
      have : (S.period i : ℚ) ≠ 0 := by exact_mod_cast (hT i).ne'
      field_simp
    have hunit' : S.period i * q.count served = S.cost i * q := by
      have : ((S.period i * q.count served : ℕ) : ℚ) = ((S.cost i * q : ℕ) : ℚ) := by
        push_cast
        linarith
      exact_mod_cast this
    calc A.need i k * q ≤ S.cost i * q := Nat.mul_le_mul_right _ (hA.need i k)
      _ = S.period i * q.count served := hunit'.symm
      _ = ((Ico (A.rel i k * q) ((A.rel i k + S.period i) * q)).filter served).card :=
          (count_periodic q _ _ served hper).symm
      _ ≤ _ := by
          apply Finset.card_le_card
          intro s hs
          simp only [mem_filter, mem_Ico, mem_range] at hs ⊢
          obtain ⟨⟨h1, h2⟩, ⟨p, hp⟩⟩ := hs
          exact ⟨h2, p, (hσ s p i k).mpr ⟨p.2, hp, h1, h2⟩⟩

/-- The arrival sequence in which all tasks release jobs as early and as often as
possible, with maximal costs. -/
def synchronous (S : AffinityTasks n) : JobArrivals n where
  rel i k := k * S.period i
  need i _ := S.cost i

theorem synchronous_legal (S : AffinityTasks n) : S.Legal (synchronous S) :=
  ⟨fun i k => by simp only [synchronous]; rw [Nat.succ_mul], fun _ _ => le_rfl⟩

open Classical in
/-- Slots before time `H` in which a processor executes a task. -/
noncomputable def usage (σ : ℕ → ℕ → Option (Fin n × ℕ)) (slots : ℕ) (i : Fin n) (p : ℕ) : ℕ :=
  ((range slots).filter fun s => ∃ k, σ s p = some (i, k)).card

theorem usage_col (σ : ℕ → ℕ → Option (Fin n × ℕ)) (slots : ℕ) (p : ℕ) :
    ∑ i, usage σ slots i p ≤ slots := by
  classical
  unfold usage
  rw [← Finset.card_biUnion]
  · calc _ ≤ (range slots).card := by
          apply Finset.card_le_card
          intro s hs
          simp only [mem_biUnion, mem_filter, mem_univ, true_and] at hs
          exact hs.choose_spec.1
      _ = slots := card_range _
  · intro i _ j _ hne
    rw [Function.onFun, Finset.disjoint_left]
    intro s hs hs'
    simp only [mem_filter] at hs hs'
    obtain ⟨_, k, hk⟩ := hs
    obtain ⟨_, k', hk'⟩ := hs'
    rw [hk] at hk'
    simp only [Option.some.injEq, Prod.mk.injEq] at hk'
    exact hne hk'.1

/-- If all deadlines are met, each task executes for at least its utilization. -/
theorem usage_row (S : AffinityTasks n) (q : ℕ)
    (σ : ℕ → ℕ → Option (Fin n × ℕ)) (hσ : S.Schedule (synchronous S) q σ)
    (hm : S.MeetsAll (synchronous S) q σ) (cpus : Finset ℕ)
    (i : Fin n) (hc : ∀ p, S.may i p → p ∈ cpus) (N : ℕ) :
    N * (S.cost i * q) ≤ ∑ p ∈ cpus, usage σ (N * S.period i * q) i p := by
  classical
  -- slots of each job on each processor
  have h1 : ∀ k < N, S.cost i * q ≤
      ∑ p ∈ cpus, ((range (N * S.period i * q)).filter fun s => σ s p = some (i, k)).card := by
    intro k hk
    refine (hm i k).trans ?_
    rw [← Finset.card_biUnion]
    · apply Finset.card_le_card
      intro s hs
      simp only [mem_filter, mem_range, mem_biUnion] at hs ⊢
      obtain ⟨hlt, p, hp⟩ := hs
      refine ⟨p, hc p (hσ.may _ _ _ _ hp), lt_of_lt_of_le hlt ?_, hp⟩
      apply Nat.mul_le_mul_right
      simp only [synchronous]
      calc k * S.period i + S.period i = (k + 1) * S.period i := by ring
        _ ≤ N * S.period i := Nat.mul_le_mul_right _ hk
    · intro p _ p' _ hne
      rw [Function.onFun, Finset.disjoint_left]
      intro s hs hs'
      simp only [mem_filter] at hs hs'
      exact hne (hσ.once s p p' _ hs.2 hs'.2)
  calc N * (S.cost i * q) = ∑ _k ∈ range N, S.cost i * q := by simp
    _ ≤ ∑ k ∈ range N, ∑ p ∈ cpus,
          ((range (N * S.period i * q)).filter fun s => σ s p = some (i, k)).card :=
        Finset.sum_le_sum fun k hk => h1 k (mem_range.mp hk)
    _ = ∑ p ∈ cpus, ∑ k ∈ range N,
          ((range (N * S.period i * q)).filter fun s => σ s p = some (i, k)).card :=
        Finset.sum_comm
    _ ≤ _ := by
        apply Finset.sum_le_sum
        intro p _
        rw [← Finset.card_biUnion]
        · apply Finset.card_le_card
          intro s hs
          simp only [mem_biUnion, mem_filter] at hs ⊢
          obtain ⟨k, _, h, hk⟩ := hs
          exact ⟨h, k, hk⟩
        · intro k _ k' _ hne
          rw [Function.onFun, Finset.disjoint_left]
          intro s hs hs'
          simp only [mem_filter] at hs hs'
          rw [hs.2] at hs'
          simp only [Option.some.injEq, Prod.mk.injEq] at hs'
          exact hne hs'.2.2

/-- If all deadlines are met, no task's cost exceeds its period. -/
theorem cost_le_of_meets (S : AffinityTasks n) (q : ℕ) (hq : 0 < q)
    (σ : ℕ → ℕ → Option (Fin n × ℕ)) (hm : S.MeetsAll (synchronous S) q σ) (i : Fin n) :
    S.cost i ≤ S.period i := by
  classical
  have h := (hm i 0).trans (Finset.card_filter_le _ _)
  simp only [synchronous, zero_mul, zero_add, card_range] at h
  exact Nat.le_of_mul_le_mul_right h hq

end

end Verif.ApaFeas
