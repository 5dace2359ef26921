/-
Runs with commit loops that are given by tables.
-/
import Verif.Spec.LockFree
import Mathlib.Algebra.Order.BigOperators.Group.Finset
import Mathlib.Tactic.Ring

namespace Verif.Spec
open Finset

/-- A job, the slots in which it executes, and the times at which its attempts begin, followed by the time of the commit. -/
structure CommitEntry (n : ℕ) where
  job : Job n
  slots : Finset ℕ
  starts : List ℕ

/-- A table of jobs, with the first release of each task. -/
structure CommitTable (n : ℕ) where
  entries : List (CommitEntry n)
  first : Fin n → ℕ

namespace CommitTable
variable {n : ℕ} (T : CommitTable n) (S : LockSystem n)

def jobs : List (Job n) := T.entries.map CommitEntry.job

def entry (j : Job n) : Option (CommitEntry n) := T.entries.find? (fun e => e.job = j)

def slots (j : Job n) : Finset ℕ := ((T.entry j).map CommitEntry.slots).getD ∅

def starts (j : Job n) : List ℕ := ((T.entry j).map CommitEntry.starts).getD []

def start (j : Job n) (a : ℕ) : ℕ := (T.starts j).getD a 0

def retries (j : Job n) : ℕ := (T.starts j).length - 2

def commit (j : Job n) : ℕ := T.start j (T.retries j + 1)

def release (j : Job n) : ℕ := T.first j.1 + S.period j.1 * j.2

def attempt (j : Job n) (a : ℕ) : ℕ := ((Ico (T.start j a) (T.start j (a + 1))).filter (fun t => t ∈ T.slots j)).card

/-- The run that a table describes. -/
def run : CommitRun n where
  work := ⟨T.release S, fun j => (T.slots j).card⟩
  sched t := T.jobs.toFinset.filter (fun j => t ∈ T.slots j)
  issued s := T.starts s.job ≠ [] ∧ s.idx = 0 ∧ s.inst = 0
  retries s := T.retries s.job
  start s := T.start s.job

variable {T S}

theorem mem_jobs {j : Job n} (h : T.entry j ≠ none) : j ∈ T.jobs := by
  unfold entry at h
  obtain ⟨e, he⟩ := Option.ne_none_iff_exists'.1 h
  have h1 := List.mem_of_find?_eq_some he
  have h2 := List.find?_some he
  simp only [decide_eq_true_eq] at h2
  exact List.mem_map.2 ⟨e, h1, h2⟩

theorem mem_jobs_of_slot {j : Job n} {t : ℕ} (h : t ∈ T.slots j) : j ∈ T.jobs := by
  apply mem_jobs
  intro hc
  unfold slots at h
  rw [hc] at h
  cases h

theorem mem_jobs_of_starts {j : Job n} (h : T.starts j ≠ []) : j ∈ T.jobs := by
  apply mem_jobs
  intro hc
  unfold starts at h
  rw [hc] at h
  exact h rfl

theorem mem_sched {j : Job n} {t : ℕ} : j ∈ (T.run S).sched t ↔ t ∈ T.slots j := by
  show j ∈ T.jobs.toFinset.filter (fun j => t ∈ T.slots j) ↔ _
  rw [mem_filter, List.mem_toFinset]
  exact ⟨fun h => h.2, fun h => ⟨mem_jobs_of_slot h, h⟩⟩

theorem service_eq (j : Job n) (t : ℕ) : service (T.run S).sched j t = ((T.slots j).filter (fun u => u < t)).card := by
  unfold service
  congr 1
  ext u
  simp only [mem_filter, mem_range, mem_sched]
  tauto

theorem completed_iff {j : Job n} {t : ℕ} : Completed (T.run S).work (T.run S).sched j t ↔ ∀ u ∈ T.slots j, u < t := by
  unfold Completed
  rw [service_eq]
  show (T.slots j).card ≤ _ ↔ _
  constructor
  · intro h u hu
    have := eq_of_subset_of_card_le (filter_subset _ _) h
    rw [← this] at hu
    exact (mem_filter.1 hu).2
  · intro h
    rw [filter_true_of_mem h]

theorem ready_iff {j : Job n} {t : ℕ} : Ready (T.run S).work (T.run S).sched j t ↔
    (T.release S j ≤ t ∧ ∃ u ∈ T.slots j, t ≤ u) ∧ ∀ k < j.2, ∀ u ∈ T.slots (j.1, k), u < t := by
  unfold Ready Pending
  simp only [completed_iff]
  push Not
  rfl

theorem run_attempt (s : Section n) (a : ℕ) : (T.run S).attempt s a = T.attempt s.job a := by
  unfold CommitRun.attempt attempt
  congr 1
  ext t
  simp only [mem_filter, mem_sched]
  rfl

/-- What has to be checked: a table describes a run if its entries are consistent. -/
structure Ok (T : CommitTable n) (S : LockSystem n) (res len : Job n → ℕ) : Prop where
  req : ∀ j ∈ T.jobs, T.starts j ≠ [] → (S.reqs j.1)[0]? = some ⟨res j, 1, len j⟩
  cost : ∀ j ∈ T.jobs, (T.slots j).card ≤ S.cost j.1 + ∑ a ∈ range (T.retries j), T.attempt j a
  one : ∀ j ∈ T.jobs, ∀ j' ∈ T.jobs, j ≠ j' → S.proc j.1 = S.proc j'.1 → ∀ t ∈ T.slots j, t ∉ T.slots j'
  ready : ∀ j ∈ T.jobs, ∀ t ∈ T.slots j, T.release S j ≤ t ∧ ∀ k < j.2, ∀ u ∈ T.slots (j.1, k), u < t
  attempts : ∀ j ∈ T.jobs, T.starts j ≠ [] → ∀ a < T.retries j + 1,
    T.start j a < T.start j (a + 1) ∧ T.start j a ∈ T.slots j ∧ T.attempt j a ≤ len j
  conflict : ∀ j ∈ T.jobs, ∀ a < T.retries j, ∃ j' ∈ T.jobs, j' ≠ j ∧ T.starts j' ≠ [] ∧ res j' = res j ∧
    T.start j a < T.commit j' ∧ T.commit j' ≤ T.start j (a + 1)
  loops : ∀ j ∈ T.jobs, T.starts j = [] → T.retries j = 0

theorem Ok.base {res len : Job n → ℕ} (h : T.Ok S res len) : LockFreeBase S (T.run S) where
  separated i k := by
    show T.first i + S.period i * k + S.period i ≤ T.first i + S.period i * (k + 1)
    rw [Nat.mul_succ]
    omega
  cost j := by
    show (T.slots j).card ≤ _
    by_cases hj : j ∈ T.jobs
    · refine (h.cost j hj).trans (Nat.add_le_add_left ?_ _)
      by_cases hs : T.starts j = []
      · rw [h.loops j hj hs]
        simp
      · have hq := h.req j hj hs
        have hl : 0 < (S.reqs j.1).length := by
          by_contra hc
          rw [List.getElem?_eq_none (by omega)] at hq
          cases hq
        have hg : (S.reqs j.1).get ⟨0, hl⟩ = ⟨res j, 1, len j⟩ := by
          rw [List.getElem?_eq_getElem hl] at hq
          exact Option.some.inj hq
        unfold CommitRun.wasted
        refine le_trans ?_ (single_le_sum (fun _ _ => Nat.zero_le _) (mem_univ (⟨0, hl⟩ : Fin _)))
        have hi : (T.run S).issued ⟨j, 0, 0⟩ := ⟨hs, rfl, rfl⟩
        have he : ∑ a ∈ range (T.retries j), T.attempt j a =
            ∑ a ∈ range ((T.run S).retries ⟨j, 0, 0⟩), (T.run S).attempt ⟨j, 0, 0⟩ a :=
          sum_congr rfl (fun a _ => (run_attempt ⟨j, 0, 0⟩ a).symm)
        rw [hg, sum_range_one, he, if_pos hi]
    · have : T.slots j = ∅ := by
        rw [eq_empty_iff_forall_notMem]
        intro t ht
        exact hj (mem_jobs_of_slot ht)
      rw [this]
      exact Nat.zero_le _
  one t j hj j' hj' hp := by
    rw [mem_sched] at hj hj'
    by_contra hne
    exact h.one j (mem_jobs_of_slot hj) j' (mem_jobs_of_slot hj') hne hp t hj hj'
  ready t j hj := by
    rw [mem_sched] at hj
    obtain ⟨h1, h2⟩ := h.ready j (mem_jobs_of_slot hj) t hj
    exact ready_iff.2 ⟨⟨h1, t, hj, le_rfl⟩, h2⟩
  declared s hs := by
    obtain ⟨h1, h2, h3⟩ := hs
    rw [h2, h3]
    exact ⟨_, h.req s.job (mem_jobs_of_starts h1) h1, Nat.one_pos⟩
  order s hs a ha := (h.attempts s.job (mem_jobs_of_starts hs.1) hs.1 a (Nat.lt_succ_of_le ha)).1
  starts s hs a ha := mem_sched.2 (h.attempts s.job (mem_jobs_of_starts hs.1) hs.1 a (Nat.lt_succ_of_le ha)).2.1
  length s q hs hq a ha := by
    rw [hs.2.1, h.req s.job (mem_jobs_of_starts hs.1) hs.1] at hq
    obtain rfl := Option.some.inj hq
    rw [run_attempt]
    exact (h.attempts s.job (mem_jobs_of_starts hs.1) hs.1 a (Nat.lt_succ_of_le ha)).2.2
  serial s s' hs hs' hj hne := by
    obtain ⟨j, x, a⟩ := s
    obtain ⟨j', x', a'⟩ := s'
    obtain ⟨_, h3, h4⟩ := hs
    obtain ⟨_, h3', h4'⟩ := hs'
    simp only at hj h3 h4 h3' h4'
    subst hj h3 h4 h3' h4'
    exact absurd rfl hne
  conflict s q hs hq a ha := by
    have hm := mem_jobs_of_starts hs.1
    rw [hs.2.1, h.req s.job hm hs.1] at hq
    obtain rfl := Option.some.inj hq
    obtain ⟨j', h1, h2, h3, h4, h5, h6⟩ := h.conflict s.job hm a ha
    exact ⟨⟨j', 0, 0⟩, _, fun hc => h2 (congrArg Section.job hc), ⟨h3, rfl, rfl⟩, h.req j' h1 h3, h4, h5, h6⟩

/-- Preemptive commit loops. -/
theorem Ok.preemptive {res len : Job n → ℕ} (h : T.Ok S res len)
    (hedf : ∀ j ∈ T.jobs, ∀ u ∈ T.slots j, ∀ t ∈ range u, (T.release S j ≤ t ∧ t ∉ T.slots j ∧
      ∀ k ∈ range j.2, ∀ v ∈ T.slots (j.1, k), v < t) →
      ∃ j' ∈ T.jobs, t ∈ T.slots j' ∧ S.proc j'.1 = S.proc j.1 ∧
        T.release S j' + S.deadline j'.1 ≤ T.release S j + S.deadline j.1) : PreemptiveCommits S (T.run S) where
  toLockFreeBase := h.base
  edf t j hr hj := by
    rw [mem_sched] at hj
    obtain ⟨⟨h1, u, hu, h2⟩, h3⟩ := ready_iff.1 hr
    have : t ≠ u := fun hc => hj (hc ▸ hu)
    obtain ⟨j', _, h5, h6, h7⟩ := hedf j (mem_jobs_of_slot hu) u hu t (mem_range.2 (by omega))
      ⟨h1, hj, fun k hk => h3 k (mem_range.1 hk)⟩
    exact ⟨j', mem_sched.2 h5, h6, h7⟩

/-- Non-preemptive commit loops. -/
theorem Ok.nonpreemptive {res len : Job n → ℕ} (h : T.Ok S res len)
    (hnp : ∀ j ∈ T.jobs, T.starts j ≠ [] → ∀ t ∈ Ico (T.start j 0) (T.commit j), t ∈ T.slots j)
    (hedf : ∀ j ∈ T.jobs, ∀ u ∈ T.slots j, ∀ t ∈ range u, (T.release S j ≤ t ∧ t ∉ T.slots j ∧
      ∀ k ∈ range j.2, ∀ v ∈ T.slots (j.1, k), v < t) →
      ∃ j' ∈ T.jobs, t ∈ T.slots j' ∧ S.proc j'.1 = S.proc j.1 ∧
        (T.release S j' + S.deadline j'.1 ≤ T.release S j + S.deadline j.1 ∨
          (T.starts j' ≠ [] ∧ T.start j' 0 < t ∧ t < T.commit j'))) : NonPreemptiveCommits S (T.run S) where
  toLockFreeBase := h.base
  nonpreemptive s t hs h1 h2 :=
    mem_sched.2 (hnp s.job (mem_jobs_of_starts hs.1) hs.1 t (mem_Ico.2 ⟨h1, h2⟩))
  edf t j hr hj := by
    rw [mem_sched] at hj
    obtain ⟨⟨h1, u, hu, h2⟩, h3⟩ := ready_iff.1 hr
    have : t ≠ u := fun hc => hj (hc ▸ hu)
    obtain ⟨j', _, h5, h6, h7⟩ := hedf j (mem_jobs_of_slot hu) u hu t (mem_range.2 (by omega))
      ⟨h1, hj, fun k hk => h3 k (mem_range.1 hk)⟩
    refine ⟨j', mem_sched.2 h5, h6, ?_⟩
    rcases h7 with h7 | ⟨h7, h8, h9⟩
    · exact Or.inl h7
    · exact Or.inr ⟨⟨j', 0, 0⟩, ⟨h7, rfl, rfl⟩, rfl, h8, h9⟩

/-- A job that executes after its deadline misses it. -/
theorem missed {j : Job n} {u : ℕ} (hu : u ∈ T.slots j) (h : T.release S j + S.deadline j.1 ≤ u) :
    ¬ MeetsDeadlines (T.run S).work S.deadline (T.run S).sched := by
  intro hm
  have := completed_iff.1 (hm j) u hu
  change u < T.release S j + S.deadline j.1 at this
  omega

end CommitTable

end Verif.Spec
