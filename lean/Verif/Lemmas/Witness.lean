/-
Deadline misses under global EDF that are shown by a finite table of the jobs that
execute in each slot.
-/
import Verif.Lemmas.Schedule

namespace Verif.Spec
open Finset

variable {n m : ℕ}

/-- Task `i` releases a job every `P i` time units; the first `K i` jobs execute for
`C i`, the others for 0. -/
def tableWork (C P K : Fin n → ℕ) : Workload n where
  release := fun j => j.2 * P j.1
  exec := fun j => if j.2 < K j.1 then C j.1 else 0

/-- The schedule given by a table. -/
def tableSched (tab : List (List (Job n))) : Schedule n := fun t => (tab.getD t []).toFinset

def tableService (tab : List (List (Job n))) (j : Job n) (t : ℕ) : ℕ :=
  (tab.take t).countP (fun l => decide (j ∈ l))

theorem service_table (tab : List (List (Job n))) (j : Job n) (t : ℕ) :
    service (tableSched tab) j t = tableService tab j t := by
  induction t with
  | zero => simp [service_zero, tableService]
  | succ t ih =>
    rw [service_succ, ih]
    unfold tableService tableSched
    simp only [List.mem_toFinset]
    rw [List.take_add_one, List.countP_append]
    congr 1
    cases h : tab[t]? with
    | none => simp [List.getD, h]
    | some l =>
      simp only [List.getD, h, Option.getD_some, Option.toList_some, List.countP_cons, List.countP_nil, zero_add,
        decide_eq_true_eq]

def tableDone (C K : Fin n → ℕ) (tab : List (List (Job n))) (j : Job n) (t : ℕ) : Bool :=
  decide ((if j.2 < K j.1 then C j.1 else 0) ≤ tableService tab j t)

theorem completed_table {C P K : Fin n → ℕ} {tab : List (List (Job n))} {j : Job n} {t : ℕ} :
    Completed (tableWork C P K) (tableSched tab) j t ↔ tableDone C K tab j t = true := by
  unfold Completed tableDone
  rw [service_table, decide_eq_true_eq]
  rfl

def tableReady (C P K : Fin n → ℕ) (tab : List (List (Job n))) (j : Job n) (t : ℕ) : Bool :=
  decide (j.2 * P j.1 ≤ t) && !tableDone C K tab j t && (List.range j.2).all (fun k => tableDone C K tab (j.1, k) t)

theorem ready_table {C P K : Fin n → ℕ} {tab : List (List (Job n))} {j : Job n} {t : ℕ} :
    Ready (tableWork C P K) (tableSched tab) j t ↔ tableReady C P K tab j t = true := by
  unfold Ready Pending tableReady
  simp only [completed_table, Bool.and_eq_true, decide_eq_true_eq, Bool.not_eq_true', List.all_eq_true, List.mem_range,
    Bool.not_eq_true]
  rfl

/-- The table describes an EDF schedule. -/
def tableEdf (m : ℕ) (C T D P K : Fin n → ℕ) (tab : List (List (Job n))) : Bool :=
  (List.finRange n).all (fun i => decide (T i ≤ P i)) &&
  tab.all (fun l => decide (l.length ≤ m) && decide l.Nodup) &&
  (List.range tab.length).all (fun t =>
    let l := tab.getD t []
    l.all (fun j => tableReady C P K tab j t) &&
    (List.finRange n).all (fun i => (List.range (K i)).all (fun k =>
      !tableReady C P K tab (i, k) t || decide ((i, k) ∈ l) ||
        decide (l.length = m) && l.all (fun j' => decide (j'.2 * P j'.1 + D j'.1 ≤ k * P i + D i))))) &&
  (List.finRange n).all (fun i => (List.range (K i)).all (fun k => tableDone C K tab (i, k) tab.length))

/-- The table describes an EDF schedule in which a job misses its deadline. -/
def tableCheck (m : ℕ) (C T D P K : Fin n → ℕ) (tab : List (List (Job n))) (j : Job n) : Bool :=
  tableEdf m C T D P K tab && !tableDone C K tab j (j.2 * P j.1 + D j.1)

theorem edf_of_table {C T D : Fin n → ℕ} {P K : Fin n → ℕ} {tab : List (List (Job n))}
    (h : tableEdf m C T D P K tab = true) : (tableWork C P K).Sporadic C T ∧
      ValidSchedule m (tableWork C P K) (tableSched tab) ∧ EDF m (tableWork C P K) D (tableSched tab) := by
  unfold tableEdf at h
  simp only [Bool.and_eq_true, List.all_eq_true, decide_eq_true_eq, List.mem_finRange, forall_const, List.mem_range,
    Bool.or_eq_true, Bool.not_eq_true'] at h
  obtain ⟨⟨⟨hP, htab⟩, hrun⟩, hend⟩ := h
  have hs : (tableWork C P K).Sporadic C T := by
    refine ⟨fun i k => ?_, fun i k => ?_⟩
    · change k * P i + T i ≤ (k + 1) * P i
      have := hP i
      rw [Nat.succ_mul]
      omega
    · change (if k < K i then C i else 0) ≤ C i
      split_ifs <;> omega
  have hlist : ∀ t, t < tab.length → tab.getD t [] ∈ tab := by
    intro t ht
    rw [List.getD_eq_getElem?_getD, List.getElem?_eq_getElem ht]
    exact List.getElem_mem ht
  have hempty : ∀ t, ¬ t < tab.length → tab.getD t [] = [] := by
    intro t ht
    rw [List.getD_eq_getElem?_getD, List.getElem?_eq_none (by omega)]
    rfl
  have hv : ValidSchedule m (tableWork C P K) (tableSched tab) := by
    refine ⟨fun t => ?_, fun t j hj => ?_⟩
    · unfold tableSched
      by_cases ht : t < tab.length
      · exact (List.toFinset_card_le _).trans (htab _ (hlist t ht)).1
      · rw [hempty t ht]
        simp
    · unfold tableSched at hj
      rw [List.mem_toFinset] at hj
      by_cases ht : t < tab.length
      · exact ready_table.2 ((hrun t ht).1 j hj)
      · rw [hempty t ht] at hj
        simp at hj
  have he : EDF m (tableWork C P K) D (tableSched tab) := by
    rintro t ⟨i, k⟩ hr hn
    have hk : k < K i := by
      by_contra hk
      apply hr.1.2
      unfold Completed tableWork
      simp [hk]
    by_cases ht : t < tab.length
    · unfold tableSched at hn ⊢
      rw [List.mem_toFinset] at hn
      rcases (hrun t ht).2 i k hk with (h1 | h1) | h1
      · rw [ready_table.1 hr] at h1
        cases h1
      · exact absurd h1 hn
      · refine ⟨?_, fun j' hj' => h1.2 j' (List.mem_toFinset.1 hj')⟩
        rw [List.toFinset_card_of_nodup (htab _ (hlist t ht)).2]
        exact h1.1
    · exact absurd ((completed_table.2 (hend i k hk)).mono (by omega)) hr.1.2
  exact ⟨hs, hv, he⟩

theorem miss_of_table {C T D : Fin n → ℕ} (P K : Fin n → ℕ) (tab : List (List (Job n))) (j : Job n)
    (h : tableCheck m C T D P K tab j = true) : ¬ EdfSchedulable m C T D := by
  unfold tableCheck at h
  rw [Bool.and_eq_true, Bool.not_eq_true'] at h
  obtain ⟨hs, hv, he⟩ := edf_of_table h.1
  have hmiss := h.2
  intro hsch
  have := hsch _ _ hs hv he j
  rw [completed_table] at this
  change tableDone C K tab j (j.2 * P j.1 + D j.1) = true at this
  rw [hmiss] at this
  cases this

end Verif.Spec
