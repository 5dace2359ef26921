/-
Properties C05 (hyperperiod), C06 (heaviest-k sums) and C07 (ids and priorities).
-/
import Verif.Model.Tasks
import Mathlib.Algebra.GCDMonoid.Nat
import Mathlib.Data.List.Perm.Subperm
import Mathlib.Data.List.NodupEquivFin
import Mathlib.Tactic.FinCases
import Mathlib.Data.Fin.VecNotation
import Verif.Lemmas.Sort
import Mathlib.Tactic.Linarith
import Mathlib.Tactic.Positivity

namespace Verif

/-! ### C05 -/

theorem lcmLoop_spec (a : ℕ) (ha : 0 < a) (bs : List ℕ) (hb : ∀ b ∈ bs, 0 < b) :
    ∃ H : ℕ, lcmLoop (a : ℚ) (bs.map (fun n : ℕ => (n : ℚ))) = some (H : ℚ) ∧ 0 < H ∧
      a ∣ H ∧ (∀ b ∈ bs, b ∣ H) ∧ (∀ n, a ∣ n → (∀ b ∈ bs, b ∣ n) → H ∣ n) := by
  induction bs generalizing a with
  | nil => exact ⟨a, rfl, ha, dvd_rfl, by simp, fun n h _ => h⟩
  | cons b bs ih =>
    have hb0 := hb b (by simp)
    have e : ((((a : ℚ).num / (Int.gcd (a : ℚ).num (b : ℚ).num : ℤ)) * (b : ℚ).num : ℤ) : ℚ)
        = ((Nat.lcm a b : ℕ) : ℚ) := by
      have h1 : ((a : ℚ).num / (Int.gcd (a : ℚ).num (b : ℚ).num : ℤ)) * (b : ℚ).num
          = ((a / Nat.gcd a b * b : ℕ) : ℤ) := by
        simp [Int.gcd]
      rw [h1, Nat.lcm, Nat.div_mul_right_comm (Nat.gcd_dvd_left a b)]
      push_cast; rfl
    obtain ⟨H, h1, h2, h3, h4, h5⟩ := ih (Nat.lcm a b) (Nat.lcm_pos ha hb0)
      (fun x hx => hb x (by simp [hx]))
    refine ⟨H, ?_, h2, (Nat.dvd_lcm_left a b).trans h3, ?_, ?_⟩
    · rw [List.map_cons, lcmLoop, e, h1]
      simp [isIntegral]
    · intro x hx
      rcases List.mem_cons.1 hx with rfl | hx
      · exact (Nat.dvd_lcm_right a x).trans h3
      · exact h4 x hx
    · intro n hn hbn
      exact h5 n (Nat.lcm_dvd hn (hbn b (by simp))) (fun x hx => hbn x (by simp [hx]))

/-- C05: for a non-empty task system with positive integral periods,
`hyperperiod()` returns the least common multiple: every period divides it and
it divides every other common multiple. -/
theorem C05_hyperperiod_is_lcm (ts : TaskSystem) (ps : List ℕ) (hne : ts ≠ [])
    (hps : ts.map (·.period) = ps.map (fun n : ℕ => (n : ℚ))) (hpos : ∀ p ∈ ps, 0 < p) :
    ∃ H : ℕ, ts.hyperperiod = some (H : ℚ) ∧ 0 < H ∧ (∀ p ∈ ps, p ∣ H) ∧
      (∀ n, (∀ p ∈ ps, p ∣ n) → H ∣ n) := by
  unfold TaskSystem.hyperperiod
  rw [hps]
  cases ps with
  | nil => simp at hps; exact absurd hps hne
  | cons a bs =>
    obtain ⟨H, h1, h2, h3, h4, h5⟩ := lcmLoop_spec a (hpos a (by simp)) bs
      (fun b hb => hpos b (by simp [hb]))
    refine ⟨H, h1, h2, ?_, fun n hn => h5 n (hn a (by simp)) (fun b hb => hn b (by simp [hb]))⟩
    intro p hp
    rcases List.mem_cons.1 hp with rfl | hp
    · exact h3
    · exact h4 p hp

/-- C05: the hyperperiod does not depend on the order of the tasks. -/
theorem C05_hyperperiod_perm (ts ts' : TaskSystem) (ps : List ℕ) (hne : ts ≠ [])
    (hps : ts.map (·.period) = ps.map (fun n : ℕ => (n : ℚ))) (hpos : ∀ p ∈ ps, 0 < p)
    (hperm : ts.Perm ts') : ts.hyperperiod = ts'.hyperperiod := by
  have hperm' : (ts.map (·.period)).Perm (ts'.map (·.period)) := hperm.map _
  have hn : ∀ p ∈ ts.map (·.period), ∃ n : ℕ, (n : ℚ) = p := by
    rw [hps]; intro p hp; obtain ⟨n, _, rfl⟩ := List.mem_map.1 hp; exact ⟨n, rfl⟩
  have hn' : ∀ p ∈ ts'.map (·.period), ∃ n : ℕ, (n : ℚ) = p :=
    fun p hp => hn p (hperm'.mem_iff.2 hp)
  have : ∃ qs : List ℕ, ts'.map (·.period) = qs.map (fun n : ℕ => (n : ℚ)) := by
    clear hperm hperm' hn hne
    generalize ts'.map (·.period) = l at *
    induction l with
    | nil => exact ⟨[], rfl⟩
    | cons x xs ih =>
      obtain ⟨n, rfl⟩ := hn' x (by simp)
      obtain ⟨qs, hqs⟩ := ih (fun p hp => hn' p (by simp [hp]))
      exact ⟨n :: qs, by simp [hqs]⟩
  obtain ⟨qs, hqs⟩ := this
  have hpq : ∀ n, n ∈ ps ↔ n ∈ qs := by
    intro n
    have h1 : (n : ℚ) ∈ ts.map (·.period) ↔ (n : ℚ) ∈ ts'.map (·.period) := hperm'.mem_iff
    rw [hps, hqs] at h1
    simpa using h1
  have hne' : ts' ≠ [] := by
    rintro rfl; exact hne hperm.eq_nil
  obtain ⟨H, h1, _, h2, h3⟩ := C05_hyperperiod_is_lcm ts ps hne hps hpos
  obtain ⟨H', h1', _, h2', h3'⟩ := C05_hyperperiod_is_lcm ts' qs hne' hqs
    (fun p hp => hpos p ((hpq p).2 hp))
  rw [h1, h1', Nat.dvd_antisymm (h3 H' fun p hp => h2' p ((hpq p).1 hp))
    (h3' H fun p hp => h2 p ((hpq p).2 hp))]

/-- C05: demand repeats with the hyperperiod (or any other common multiple of
the periods): `dbf(t + H) = dbf(t) + H * utilization`, for every `t` that is
not before any task's relative deadline minus its period. -/
theorem C05_dbf_periodic (ts : TaskSystem) (H : ℚ) (hH : 0 ≤ H)
    (hok : ∀ tsk ∈ ts, 0 < tsk.period ∧ 0 ≤ tsk.cost)
    (hmult : ∀ tsk ∈ ts, ∃ k : ℕ, H = k * tsk.period)
    (t : ℚ) (ht : 0 < t) (htD : ∀ tsk ∈ ts, tsk.deadline - tsk.period ≤ t) :
    ts.dbf (t + H) = ts.dbf t + H * ts.utilization := by
  induction ts with
  | nil => simp [TaskSystem.dbf, TaskSystem.utilization]
  | cons a as ih =>
    have ih := ih (fun x hx => hok x (by simp [hx])) (fun x hx => hmult x (by simp [hx]))
      (fun x hx => htD x (by simp [hx]))
    have e : ∀ x, TaskSystem.dbf (a :: as) x = a.dbf x + TaskSystem.dbf as x := fun x => rfl
    have eu : TaskSystem.utilization (a :: as) = a.utilization + TaskSystem.utilization as := rfl
    rw [e, e, eu, ih]
    obtain ⟨hT, hC⟩ := hok a (by simp)
    obtain ⟨k, hk⟩ := hmult a (by simp)
    have hD := htD a (by simp)
    have key : a.dbf (t + H) = a.dbf t + H * a.utilization := by
      unfold SporadicTask.dbf SporadicTask.utilization
      rw [if_neg (by linarith), if_neg (by linarith)]
      have hfl : ⌊(t + H - a.deadline) / a.period⌋ = ⌊(t - a.deadline) / a.period⌋ + k := by
        rw [hk]
        have : (t + k * a.period - a.deadline) / a.period = (t - a.deadline) / a.period + k := by
          field_simp; ring
        rw [this, Int.floor_add_natCast]
      have h0 : (0 : ℤ) ≤ ⌊(t - a.deadline) / a.period⌋ + 1 := by
        have : (-1 : ℤ) ≤ ⌊(t - a.deadline) / a.period⌋ := by
          rw [Int.le_floor, le_div_iff₀ hT]; push_cast; linarith
        omega
      have h0q : (0 : ℚ) ≤ ((⌊(t - a.deadline) / a.period⌋ : ℤ) : ℚ) + 1 := by exact_mod_cast h0
      have hk0 : (0 : ℚ) ≤ (k : ℚ) := by positivity
      have n1 : 0 ≤ ((((⌊(t - a.deadline) / a.period⌋ + (k : ℤ) : ℤ)) : ℚ) + 1) * a.cost := by
        push_cast; exact mul_nonneg (by linarith) hC
      rw [hfl, max_eq_right n1, max_eq_right (mul_nonneg h0q hC)]
      rw [hk]; push_cast; field_simp; ring
    rw [key]; ring

example : TaskSystem.hyperperiod [⟨1, 4, 4⟩, ⟨1, 6, 6⟩, ⟨2, 10, 7⟩] = some 60 := by
  have : TaskSystem.hyperperiod [⟨1, 4, 4⟩, ⟨1, 6, 6⟩, ⟨2, 10, 7⟩]
      = pyLcm [4, 6, 10] := rfl
  rw [this]; decide +kernel

/-! ### C06 -/

theorem sum_sublist_le_take (u v : List ℚ) (hu : u.Pairwise (fun a b => b ≤ a))
    (hv : v.Sublist u) : v.sum ≤ (u.take v.length).sum := by
  induction hv with
  | slnil => simp
  | @cons v u a hs ih =>
    rw [List.pairwise_cons] at hu
    cases v with
    | nil => simp
    | cons b v =>
      have hba : b ≤ a := hu.1 b (hs.subset (by simp))
      -- drop the first element of the selection and use it for `a`
      have hlen : (b :: v).length ≤ u.length := hs.length_le
      have h1 := ih hu.2
      have h2 : (u.take (b :: v).length).sum ≤ a + (u.take v.length).sum := by
        clear ih h1
        have : u.take (v.length + 1) = u.take v.length ++ [u[v.length]'(by simp at hlen; omega)] := by
          simp
        rw [List.length_cons, this, List.sum_append]
        have := hu.1 (u[v.length]'(by simp at hlen; omega)) (List.getElem_mem _)
        simp; linarith
      simpa using h1.trans h2
  | @cons_cons v u a hs ih =>
    rw [List.pairwise_cons] at hu
    simpa using ih hu.2

theorem sum_subperm_le_topsum (u v : List ℚ) (hv : v.Subperm u) :
    v.sum ≤ ((TaskSystem.sortDesc u).take v.length).sum := by
  have h1 : v.Subperm (TaskSystem.sortDesc u) := hv.trans (sortDesc_perm u).symm.subperm
  obtain ⟨v', h2, h3⟩ := h1
  rw [← h2.sum_eq, ← h2.length_eq]
  exact sum_sublist_le_take _ _ (sortDesc_sorted u) h3

/-- C06: `topsum(lst, f, n)` is an upper bound on the sum over every selection
of exactly `min(n, len(lst))` elements. -/
theorem C06_topsum_upper {α : Type} (lst : List α) (f : α → ℚ) (n : ℕ) (sel : List α)
    (hsel : sel.Subperm lst) (hlen : sel.length = min n lst.length) :
    (sel.map f).sum ≤ topsum lst f n := by
  have h := sum_subperm_le_topsum (lst.map f) (sel.map f) (subperm_map f hsel)
  unfold topsum
  rw [List.length_map, hlen] at h
  have e : (TaskSystem.sortDesc (lst.map f)).take (min n lst.length)
      = (TaskSystem.sortDesc (lst.map f)).take n := by
    have hl : (TaskSystem.sortDesc (lst.map f)).length = lst.length := by
      rw [(sortDesc_perm _).length_eq, List.length_map]
    rcases le_total n lst.length with hle | hle
    · rw [min_eq_left hle]
    · rw [min_eq_right hle, List.take_of_length_le (by omega), List.take_of_length_le (by omega)]
  rwa [e] at h

/-- C06: some selection of `min(n, len(lst))` elements attains `topsum`. -/
theorem C06_topsum_attained {α : Type} (lst : List α) (f : α → ℚ) (n : ℕ) :
    ∃ sel : List α, sel.Subperm lst ∧ sel.length = min n lst.length ∧
      (sel.map f).sum = topsum lst f n := by
  -- sort the elements themselves
  let srt := lst.insertionSort (fun a b => f b ≤ f a)
  have hp : srt.Perm lst := List.perm_insertionSort _ _
  have hs : srt.Pairwise (fun a b => f b ≤ f a) := insertionSort_desc_sorted f lst
  refine ⟨srt.take n, (List.take_sublist n srt).subperm.trans hp.subperm, ?_, ?_⟩
  · rw [List.length_take, hp.length_eq]
  · unfold topsum
    have h1 : (srt.map f).Perm (TaskSystem.sortDesc (lst.map f)) :=
      (hp.map f).trans (sortDesc_perm _).symm
    have h2 : srt.map f = TaskSystem.sortDesc (lst.map f) :=
      List.Perm.eq_of_pairwise (fun a b _ _ h h' => le_antisymm h' h)
        (List.pairwise_map.2 hs) (sortDesc_sorted _) h1
    rw [← h2, List.map_take]

/-- C06: with non-negative values no selection of *at most* `n` elements
exceeds `topsum`. -/
theorem C06_topsum_upper_nonneg {α : Type} (lst : List α) (f : α → ℚ) (n : ℕ)
    (hf : ∀ x ∈ lst, 0 ≤ f x) (sel : List α)
    (hsel : sel.Subperm lst) (hlen : sel.length ≤ n) :
    (sel.map f).sum ≤ topsum lst f n := by
  have h := sum_subperm_le_topsum (lst.map f) (sel.map f) (subperm_map f hsel)
  refine h.trans ?_
  unfold topsum
  have hn : ∀ x ∈ TaskSystem.sortDesc (lst.map f), 0 ≤ x := by
    intro x hx
    obtain ⟨y, hy, rfl⟩ := List.mem_map.1 ((sortDesc_perm _).subset hx)
    exact hf y hy
  rw [List.length_map]
  have hsub : ((TaskSystem.sortDesc (lst.map f)).take sel.length).Sublist
      ((TaskSystem.sortDesc (lst.map f)).take n) := by
    exact List.take_sublist_take_left hlen
  exact List.Sublist.sum_le_sum hsub (fun x hx => hn x ((List.take_sublist _ _).subset hx))

/-- C06: the result does not depend on the order of the list. -/
theorem C06_topsum_perm {α : Type} (lst lst' : List α) (f : α → ℚ) (n : ℕ)
    (h : lst.Perm lst') : topsum lst f n = topsum lst' f n := by
  unfold topsum
  have : TaskSystem.sortDesc (lst.map f) = TaskSystem.sortDesc (lst'.map f) :=
    List.Perm.eq_of_pairwise (fun a b _ _ h h' => le_antisymm h' h)
      (sortDesc_sorted _) (sortDesc_sorted _)
      ((sortDesc_perm _).trans ((h.map f).trans (sortDesc_perm _).symm))
  rw [this]

/-- C06: `TaskSystem.utilization(heaviest=n)` is the largest total utilization
of `min(n, len)` of the tasks. -/
theorem C06_heaviest_utilization (ts : TaskSystem) (n : ℕ) :
    (∀ sel : TaskSystem, sel.Subperm ts → sel.length = min n ts.length →
      sel.utilization ≤ ts.utilization (some n)) ∧
    (∃ sel : TaskSystem, sel.Subperm ts ∧ sel.length = min n ts.length ∧
      sel.utilization = ts.utilization (some n)) :=
  ⟨fun sel h1 h2 => C06_topsum_upper ts (·.utilization) n sel h1 h2,
   C06_topsum_attained ts (·.utilization) n⟩

example : topsum [3, 1, 2] (fun x : ℚ => x) 2 = 5 := by decide +kernel

/-! ### C07 -/

/-- C07: sorting a task system gives a sorted permutation of it (and the
in-place sorts are stable: tasks with equal keys keep their order). -/
theorem C07_sorting (ts : TaskSystem) :
    (ts.sortByDeadline.Perm ts ∧ ts.sortByDeadline.Pairwise (fun a b => a.deadline ≤ b.deadline)) ∧
    (ts.sortByPeriod.Perm ts ∧ ts.sortByPeriod.Pairwise (fun a b => a.period ≤ b.period)) ∧
    (∀ d, ts.sortByDeadline.filter (fun t => t.deadline = d) = ts.filter (fun t => t.deadline = d)) ∧
    (∀ p, ts.sortByPeriod.filter (fun t => t.period = p) = ts.filter (fun t => t.period = p)) := by
  have stable := fun key d => sortByKey_stable key ts d
  exact ⟨⟨sortByKey_perm _ _, sortByKey_sorted _ _⟩, ⟨sortByKey_perm _ _, sortByKey_sorted _ _⟩,
    stable (·.deadline), stable (·.period)⟩

/-- C07: `assign_ids` numbers the tasks `1..n` in list order. -/
theorem C07_assign_ids (ts : TaskSystem) :
    (ts.assignIds.map Prod.fst = ts) ∧
    (∀ i (h : i < ts.assignIds.length), (ts.assignIds[i]).2 = i + 1) := by
  constructor
  · simp [TaskSystem.assignIds, Function.comp_def]
  · intro i h
    simp [TaskSystem.assignIds]

theorem assignIdsBy_length (key : SporadicTask → ℚ) (ts : TaskSystem) :
    (TaskSystem.assignIdsBy key ts).length = ts.length := by simp [TaskSystem.assignIdsBy]

theorem zipIdx_nodup {α : Type} (l : List α) (k : ℕ) : (l.zipIdx k).Nodup := by
  apply List.Nodup.of_map Prod.snd
  rw [List.zipIdx_map_snd]
  exact List.nodup_range' ..

theorem sortedPositions_nodup (key : SporadicTask → ℚ) (ts : TaskSystem) :
    (TaskSystem.sortedPositions key ts).Nodup :=
  (sortByKey_perm _ _).nodup_iff.2 (zipIdx_nodup ts 0)

/-- C07: `assign_ids_by_deadline` / `assign_ids_by_period` keep the list,
hand out each of the ids `1..n` exactly once, give a task with a smaller key a
smaller id, and break ties by list position. -/
theorem C07_assign_ids_by (key : SporadicTask → ℚ) (ts : TaskSystem) :
    let r := TaskSystem.assignIdsBy key ts
    r.map Prod.fst = ts ∧
    (r.map Prod.snd).Perm (List.range' 1 ts.length) ∧
    (∀ i j (hi : i < r.length) (hj : j < r.length),
      key (r[i]).1 < key (r[j]).1 → (r[i]).2 < (r[j]).2) ∧
    (∀ i j (hi : i < r.length) (hj : j < r.length),
      key (r[i]).1 = key (r[j]).1 → i < j → (r[i]).2 < (r[j]).2) := by
  intro r
  have hnd := sortedPositions_nodup key ts
  have hperm : (TaskSystem.sortedPositions key ts).Perm ts.zipIdx := sortByKey_perm _ _
  have hlen : r.length = ts.length := assignIdsBy_length key ts
  refine ⟨?_, ?_, ?_, ?_⟩
  · simp [r, TaskSystem.assignIdsBy, Function.comp_def]
  · have h1 : r.map Prod.snd
        = ts.zipIdx.map (fun p => (TaskSystem.sortedPositions key ts).idxOf p + 1) := by
      simp [r, TaskSystem.assignIdsBy, Function.comp_def]
    have h2 : (ts.zipIdx.map (fun p => (TaskSystem.sortedPositions key ts).idxOf p + 1)).Perm
        ((TaskSystem.sortedPositions key ts).map
          (fun p => (TaskSystem.sortedPositions key ts).idxOf p + 1)) := hperm.symm.map _
    have h3 : (TaskSystem.sortedPositions key ts).map
          (fun p => (TaskSystem.sortedPositions key ts).idxOf p + 1) = List.range' 1 ts.length := by
      apply List.ext_getElem
      · simp [hperm.length_eq]
      · intro i h _
        rw [List.getElem_map, hnd.idxOf_getElem]
        simp [Nat.add_comm]
    rw [h1]; rw [h3] at h2; exact h2
  all_goals
    intro i j hi hj hk
    have hi' : i < ts.length := hlen ▸ hi
    have hj' : j < ts.length := hlen ▸ hj
    have ri : r[i] = (ts[i], (TaskSystem.sortedPositions key ts).idxOf (ts[i], i) + 1) := by
      simp [r, TaskSystem.assignIdsBy]
    have rj : r[j] = (ts[j], (TaskSystem.sortedPositions key ts).idxOf (ts[j], j) + 1) := by
      simp [r, TaskSystem.assignIdsBy]
    rw [ri, rj] at hk ⊢
    simp only at hk ⊢
    have mi : (ts[i], i) ∈ TaskSystem.sortedPositions key ts :=
      hperm.mem_iff.2 (List.mk_mem_zipIdx_iff_getElem?.2 (by simp [hi']))
    have mj : (ts[j], j) ∈ TaskSystem.sortedPositions key ts :=
      hperm.mem_iff.2 (List.mk_mem_zipIdx_iff_getElem?.2 (by simp [hj']))
    have li := List.idxOf_lt_length_of_mem mi
    have lj := List.idxOf_lt_length_of_mem mj
    have ei := List.getElem_idxOf li
    have ej := List.getElem_idxOf lj
  · -- strictly smaller key
    by_contra hcon
    have hle : (TaskSystem.sortedPositions key ts).idxOf (ts[j], j)
        ≤ (TaskSystem.sortedPositions key ts).idxOf (ts[i], i) := by omega
    rcases hle.eq_or_lt with h | h
    · have : (ts[j], j) = (ts[i], i) := by
        rw [← ei, ← ej]; congr 1
      rw [Prod.mk.injEq] at this
      rw [this.1] at hk; exact lt_irrefl _ hk
    · have hs := List.pairwise_iff_getElem.1
        (sortByKey_sorted (fun p : SporadicTask × ℕ => key p.1) ts.zipIdx) _ _ lj li h
      have e1 : (sortByKey (fun p : SporadicTask × ℕ => key p.1) ts.zipIdx)
          = TaskSystem.sortedPositions key ts := rfl
      simp only [e1, ei, ej] at hs
      exact absurd hk (not_lt.mpr hs)
  · -- equal keys: stability
    intro hij
    have hsub : [(ts[i], i), (ts[j], j)].Sublist (TaskSystem.sortedPositions key ts) := by
      apply sublist_sortByKey
      · simp [hk]
      · have : [(ts[i], i), (ts[j], j)] = [ts.zipIdx[i]'(by simpa), ts.zipIdx[j]'(by simpa)] := by
          simp
        rw [this]
        have h1 : (ts.zipIdx).Pairwise (fun a b => a.2 < b.2) := by
          rw [← List.pairwise_map, List.zipIdx_map_snd]
          exact List.pairwise_lt_range' ..
        rw [List.sublist_iff_exists_fin_orderEmbedding_get_eq]
        let f : Fin 2 → Fin ts.zipIdx.length := ![⟨i, by simpa⟩, ⟨j, by simpa⟩]
        have hf : StrictMono f := by
          intro a b hab
          fin_cases a <;> fin_cases b <;> simp_all [f]
        refine ⟨OrderEmbedding.ofStrictMono f hf, ?_⟩
        intro ix
        fin_cases ix <;> simp [f]
    obtain ⟨f, hf⟩ := List.sublist_iff_exists_fin_orderEmbedding_get_eq.1 hsub
    have h0 := hf ⟨0, by simp⟩
    have h1 := hf ⟨1, by simp⟩
    have hlt : f ⟨0, by simp⟩ < f ⟨1, by simp⟩ := f.strictMono (by simp)
    simp only [List.get_eq_getElem] at h0 h1
    simp at h0 h1
    rw [h0, h1, hnd.idxOf_getElem, hnd.idxOf_getElem]
    simpa using hlt

/-- C07: when ids are unique, the tasks with higher priority, the task itself
and the tasks with lower priority partition the task system. -/
theorem C07_priority_partition (ts : List (SporadicTask × ℕ)) (hnd : (ts.map Prod.snd).Nodup)
    (t : SporadicTask × ℕ) (ht : t ∈ ts) :
    (TaskSystem.withHigherPriorityThan ts t ++ [t] ++ TaskSystem.withLowerPriorityThan ts t).Perm
      ts := by
  induction ts with
  | nil => simp at ht
  | cons a as ih =>
    rw [List.map_cons, List.nodup_cons] at hnd
    have aux : ∀ as : List (SporadicTask × ℕ), t.2 ∉ as.map Prod.snd →
        (TaskSystem.withHigherPriorityThan as t ++ TaskSystem.withLowerPriorityThan as t).Perm as := by
      intro as
      induction as with
      | nil => intro _; simp [TaskSystem.withHigherPriorityThan, TaskSystem.withLowerPriorityThan]
      | cons b bs ih =>
        intro hn
        rw [List.map_cons, List.mem_cons, not_or] at hn
        have ih := ih hn.2
        simp only [TaskSystem.withHigherPriorityThan, TaskSystem.withLowerPriorityThan] at *
        rcases Nat.lt_or_gt_of_ne hn.1 with h | h
        · rw [List.filter_cons_of_neg (by simpa using h.le),
            List.filter_cons_of_pos (by simpa using h)]
          exact List.perm_middle.trans (ih.cons b)
        · rw [List.filter_cons_of_pos (by simpa using h),
            List.filter_cons_of_neg (by simpa using h.le)]
          exact ih.cons b
    rcases List.mem_cons.1 ht with rfl | ht'
    · have := aux as hnd.1
      simp only [TaskSystem.withHigherPriorityThan, TaskSystem.withLowerPriorityThan] at *
      rw [List.filter_cons_of_neg (by simp), List.filter_cons_of_neg (by simp)]
      rw [List.append_assoc]
      exact List.perm_middle.trans (this.cons t)
    · have ih := ih hnd.2 ht'
      have hne : a.2 ≠ t.2 := by
        intro h; apply hnd.1; rw [h]; exact List.mem_map.2 ⟨t, ht', rfl⟩
      simp only [TaskSystem.withHigherPriorityThan, TaskSystem.withLowerPriorityThan] at *
      rcases Nat.lt_or_gt_of_ne hne with h | h
      · rw [List.filter_cons_of_pos (by simpa using h),
          List.filter_cons_of_neg (by simpa using h.le)]
        exact ih.cons a
      · rw [List.filter_cons_of_neg (by simpa using h.le),
          List.filter_cons_of_pos (by simpa using h)]
        exact List.perm_middle.trans (ih.cons a)

/-- Non-vacuity for C07: two tasks with equal deadlines and one with a smaller
deadline. -/
example : (TaskSystem.assignIdsByDeadline [⟨1, 9, 9⟩, ⟨2, 9, 9⟩, ⟨1, 4, 4⟩]).map Prod.snd
    = [2, 3, 1] := by decide +kernel

end Verif
