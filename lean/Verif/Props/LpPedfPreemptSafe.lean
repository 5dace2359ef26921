/-
C130: tasks without shared local resources that the LP-based analysis of partitioned EDF with preemptable FIFO spin locks
accepts meet their deadlines.
-/
import Verif.Lemmas.LpPedfPreemptWin
import Verif.Props.LpPedf
import Verif.Props.LpPedfPreempt

namespace Verif.SR.Pedf
open Verif.Spec
open Verif.SR.Msrp (system)

/-- **C130**, for tasks that do not share local resources: if the test accepts the tasks and the solver returns optimal
solutions only, no deadline is missed in any run, however ties of deadlines are broken. -/
theorem C130_pedf_fifo_preempt_partial {info : Info} {solve : Solver} {fuel : ℕ}
    (hs : ∀ P x, solve P = some x → P.Maximum x)
    (htask : ∀ t ∈ info, 0 < t.cost ∧ 0 < t.deadline ∧ t.deadline ≤ t.period ∧ t.period ≤ 2 ^ 64)
    (hreq : ∀ t ∈ info, (t.requests.map Request.resId).Nodup ∧ ∀ r ∈ t.requests, r.length ≤ t.cost)
    (hshare : ∀ i k r, (system info).Uses i r → (system info).Uses k r → i ≠ k → (system info).Global r)
    (hacc : fifoPreemptIsSchedulable fuel solve info = some true) (tie : Fin info.length → ℕ) (R : LockRun info.length)
    (hR : FifoPreempt (system info) tie R) :
    MeetsDeadlines R.work (system info).deadline R.sched := by
  have hu : Usual info :=
    { one := fun t ht => (hreq t ht).1
      deadline := fun t ht => (htask t ht).2.1
      constrained := fun t ht => (htask t ht).2.2.1
      small := fun t ht => (htask t ht).2.2.2
      cost := fun t ht => (htask t ht).1
      length := fun t ht => (hreq t ht).2 }
  have key : ∀ H, BoundedBefore R.work R.sched (system info).deadline H := by
    intro H
    induction H with
    | zero => intro j hj; omega
    | succ H ih =>
      intro j hj
      rcases Nat.lt_or_ge (R.work.release j + (system info).deadline j.1) H with h1 | h1
      · exact ih j h1
      · have hH : R.work.release j + (info.get j.1).deadline = H := by
          change R.work.release j + (info.get j.1).deadline < H + 1 at hj
          change H ≤ R.work.release j + (info.get j.1).deadline at h1
          omega
        have hq := allClusters_true hacc (info.get j.1).cluster (List.mem_range.2 (cluster_lt_split j.1))
        obtain ⟨L, hL, h2, h3⟩ := paccepted hu hs rfl hq
        have := preempt_no_miss hR hu ih hshare hL h2 h3 rfl hH
        rw [← hH] at this
        exact this
  intro j
  exact key _ j (Nat.lt_succ_self _)

/-! ### An example -/

/-- A task that uses a resource, a task of the same processor with a shorter deadline, and a task of another processor that
uses the same resource. -/
def exCancel : Info :=
  [⟨0, 50, 40, 40, 0, 2, [⟨0, 1, 1, false⟩]⟩, ⟨0, 50, 10, 10, 0, 1, []⟩, ⟨0, 50, 40, 40, 1, 4, [⟨0, 1, 4, false⟩]⟩]

theorem exCancel_blocking {solve : Solver} (hs : Optimal solve) :
    (fifoPreemptBlocking solve exCancel 0).ac 1 0 = some 4 ∧ (fifoPreemptBlocking solve exCancel 0).ac 7 4 = some 4 ∧
    (fifoPreemptBlocking solve exCancel 1).ac 1 0 = some 1 ∧ (fifoPreemptBlocking solve exCancel 1).ac 5 1 = some 1 := by
  refine ⟨?_, ?_, ?_, ?_⟩
  · exact solved_certified hs (some (fifoPreemptProgram exCancel .ac 0 1 0 0 false)) 4 [(1, .spin 2 0)]
      [(1, 0), (4, 1), (1, 2), (1, 4)] (by decide +kernel)
  · exact solved_certified hs (some (fifoPreemptProgram exCancel .ac 0 7 4 0 false)) 4 [(1, .spin 2 0)]
      [(1, 0), (4, 1), (1, 2), (1, 4)] (by decide +kernel)
  · exact solved_certified hs (some (fifoPreemptProgram exCancel .ac 1 1 0 0 false)) 1 [(1, .spin 0 0)]
      [(4, 0), (1, 1), (4, 2), (4, 4)] (by decide +kernel)
  · exact solved_certified hs (some (fifoPreemptProgram exCancel .ac 1 5 1 0 false)) 1 [(1, .spin 0 0)]
      [(4, 0), (1, 1), (4, 2), (4, 4)] (by decide +kernel)

theorem exCancel_accepted {solve : Solver} (hs : Optimal solve) :
    fifoPreemptIsSchedulable 20 solve exCancel = some true := by
  obtain ⟨h1, h2, h3, h4⟩ := exCancel_blocking hs
  unfold fifoPreemptIsSchedulable
  have : (splitByCluster exCancel).length = 2 := by decide
  rw [this]
  show allClusters _ [0, 1] = some true
  have e0 : isSchedulable 20 exCancel 0 (fifoPreemptBlocking solve exCancel 0) = some true := by
    have a1 : arrivalCurve exCancel 0 1 = 3 := by decide
    have a2 : arrivalCurve exCancel 0 7 = 3 := by decide
    have m : minDeadline exCancel 0 = 10 := by decide
    have l : lastCheckPointBefore exCancel 0 7 = 0 := by decide
    simp [isSchedulable, scheduleLoop, h1, h2, a1, a2, m, qpa, qpaLoop, l]
  have e1 : isSchedulable 20 exCancel 1 (fifoPreemptBlocking solve exCancel 1) = some true := by
    have a1 : arrivalCurve exCancel 1 1 = 4 := by decide
    have a2 : arrivalCurve exCancel 1 5 = 4 := by decide
    have m : minDeadline exCancel 1 = 40 := by decide
    have l : lastCheckPointBefore exCancel 1 5 = 0 := by decide
    simp [isSchedulable, scheduleLoop, h3, h4, a1, a2, m, qpa, qpaLoop, l]
  simp only [allClusters, e0, e1]

/-- The same tasks, written as functions. -/
def canSys : LockSystem 3 where
  proc := ![0, 0, 1]
  cost := ![2, 1, 4]
  period := ![50, 50, 50]
  deadline := ![40, 10, 40]
  reqs := ![[⟨0, 1, 1⟩], [], [⟨0, 1, 4⟩]]

theorem system_exCancel : system exCancel = canSys := by
  unfold system canSys
  congr 1 <;>
  · funext (i : Fin 3)
    fin_cases i <;> rfl

/-- Task 2 uses the resource until time 4.  The job of task 0 spins in slot 1, is preempted by the job of task 1 and spins
again in slot 3. -/
def canRun : LockRun 3 where
  work := ⟨fun j => (if j.1 = 1 then 2 else 0) + 50 * j.2, fun j => if j.2 = 0 then ![4, 1, 4] j.1 else 0⟩
  sched t := ({(0, 0), (1, 0), (2, 0)} : Finset (Job 3)).filter (fun j =>
    (j.1 = 0 ∧ t ≤ 4 ∧ t ≠ 2) ∨ (j.1 = 1 ∧ t = 2) ∨ (j.1 = 2 ∧ t < 4))
  issued s := s.job.2 = 0 ∧ s.idx = 0 ∧ s.inst = 0 ∧ s.job.1 ≠ 1
  enter s := if s.job.1 = 0 then 1 else 0
  acquire s := if s.job.1 = 0 then 4 else 0
  leave s := if s.job.1 = 0 then 5 else 4

theorem mem_canRun {j : Job 3} {t : ℕ} : j ∈ canRun.sched t ↔
    (j = (0, 0) ∧ t ≤ 4 ∧ t ≠ 2) ∨ (j = (1, 0) ∧ t = 2) ∨ (j = (2, 0) ∧ t < 4) := by
  unfold canRun
  simp only [Finset.mem_filter, Finset.mem_insert, Finset.mem_singleton]
  constructor
  · rintro ⟨rfl | rfl | rfl, h⟩ <;> simp at h ⊢ <;> exact h
  · rintro (⟨rfl, h⟩ | ⟨rfl, h⟩ | ⟨rfl, h⟩) <;> simp [h]

theorem service_canRun (t : ℕ) : service canRun.sched (0, 0) t = (if t ≤ 2 then t else min (t - 1) 4) ∧
    service canRun.sched (1, 0) t = (if t ≤ 2 then 0 else 1) ∧ service canRun.sched (2, 0) t = min t 4 := by
  induction t with
  | zero => simp [service]
  | succ t ih =>
    obtain ⟨h1, h2, h3⟩ := ih
    rw [service_succ, service_succ, service_succ, h1, h2, h3]
    simp only [mem_canRun]
    refine ⟨?_, ?_, ?_⟩
    · simp
      split_ifs <;> omega
    · simp
      split_ifs <;> omega
    · simp
      split_ifs <;> omega

theorem ready_canRun {j : Job 3} {t : ℕ} : Ready canRun.work canRun.sched j t ↔
    (j = (0, 0) ∧ t ≤ 4) ∨ (j = (1, 0) ∧ t = 2) ∨ (j = (2, 0) ∧ t < 4) := by
  obtain ⟨h1, h2, h3⟩ := service_canRun t
  obtain ⟨i, k⟩ := j
  unfold Ready Pending Completed
  by_cases hk : k = 0
  · subst hk
    have e : i = 0 ∨ i = 1 ∨ i = 2 := by fin_cases i <;> simp
    rcases e with rfl | rfl | rfl
    · rw [h1]
      simp [canRun]
      split_ifs <;> omega
    · rw [h2]
      simp [canRun]
      omega
    · rw [h3]
      simp [canRun]
  · simp [canRun, hk]

theorem canRun_since : canRun.since ⟨(0, 0), 0, 0⟩ 1 = 1 ∧ canRun.since ⟨(0, 0), 0, 0⟩ 3 = 3 ∧
    canRun.since ⟨(0, 0), 0, 0⟩ 4 = 3 ∧ canRun.since ⟨(2, 0), 0, 0⟩ 0 = 0 := by
  decide +kernel

theorem issued_canRun {s : Section 3} (h : canRun.issued s) : s = ⟨(0, 0), 0, 0⟩ ∨ s = ⟨(2, 0), 0, 0⟩ := by
  obtain ⟨⟨i, k⟩, x, a⟩ := s
  obtain ⟨h2, h3, h4, h5⟩ := h
  simp only at h2 h3 h4 h5
  subst h2 h3 h4
  fin_cases i
  · exact Or.inl rfl
  · exact absurd rfl h5
  · exact Or.inr rfl

theorem global_canSys : canSys.Global 0 := ⟨0, 2, ⟨⟨0, 1, 1⟩, by simp [canSys], rfl⟩, ⟨⟨0, 1, 4⟩, by simp [canSys], rfl⟩, by decide⟩

theorem req_canRun {s : Section 3} (h : canRun.issued s) {q : Req} (hq : (canSys.reqs s.job.1)[s.idx]? = some q) :
    q.res = 0 ∧ q.num = 1 ∧ q.len = (if s.job.1 = 0 then 1 else 4) := by
  rcases issued_canRun h with rfl | rfl
  · obtain rfl : (⟨0, 1, 1⟩ : Req) = q := Option.some.inj hq
    exact ⟨rfl, rfl, rfl⟩
  · obtain rfl : (⟨0, 1, 4⟩ : Req) = q := Option.some.inj hq
    exact ⟨rfl, rfl, rfl⟩

theorem fifoPreempt_canRun (tie : Fin 3 → ℕ) : FifoPreempt canSys tie canRun where
  separated i k := by
    simp only [canRun, canSys]
    fin_cases i <;> simp <;> omega
  cost j t hc := by
    classical
    obtain ⟨h1, h2, h3⟩ := service_canRun t
    obtain ⟨i, k⟩ := j
    unfold Completed at hc
    by_cases hk : k = 0
    · subst hk
      have e : i = 0 ∨ i = 1 ∨ i = 2 := by fin_cases i <;> simp
      rcases e with rfl | rfl | rfl
      · rw [h1] at hc
        have ht : t ≤ 4 := by
          simp [canRun] at hc
          split_ifs at hc <;> omega
        have hsub : (Finset.range t).filter (fun u => ((0, 0) : Job 3) ∈ canRun.sched u ∧ ¬ canRun.Waiting (0, 0) u) ⊆ {0} := by
          intro u hu
          obtain ⟨hu1, hu2, hu3⟩ := Finset.mem_filter.1 hu
          rw [Finset.mem_range] at hu1
          rw [Finset.mem_singleton]
          by_contra hne
          refine hu3 ⟨⟨(0, 0), 0, 0⟩, ⟨rfl, rfl, rfl, by decide⟩, rfl, ?_, ?_⟩
          · show 1 ≤ u
            omega
          · show u < 4
            omega
        have := Finset.card_le_card hsub
        unfold LockRun.progress
        show _ < 2
        rw [Finset.card_singleton] at this
        omega
      · rw [h2] at hc
        have ht : t ≤ 2 := by
          simp [canRun] at hc
          exact hc
        unfold LockRun.progress
        show _ < 1
        rw [Nat.lt_one_iff, Finset.card_eq_zero, Finset.filter_eq_empty_iff]
        rintro u hu ⟨hu2, _⟩
        rw [Finset.mem_range] at hu
        rw [mem_canRun] at hu2
        simp at hu2
        omega
      · rw [h3] at hc
        have ht : t < 4 := by
          simp [canRun] at hc
          exact hc
        unfold LockRun.progress
        have := Finset.card_filter_le (Finset.range t) (fun u => ((2, 0) : Job 3) ∈ canRun.sched u ∧ ¬ canRun.Waiting (2, 0) u)
        rw [Finset.card_range] at this
        show _ < 4
        omega
    · exfalso
      simp [canRun, hk] at hc
  one t j hj j' hj' hp := by
    rw [mem_canRun] at hj hj'
    rcases hj with ⟨rfl, h⟩ | ⟨rfl, h⟩ | ⟨rfl, h⟩ <;> rcases hj' with ⟨rfl, h'⟩ | ⟨rfl, h'⟩ | ⟨rfl, h'⟩ <;>
      first | rfl | omega | exact absurd hp (by decide)
  ready t j hj := by
    rw [mem_canRun] at hj
    rw [ready_canRun]
    rcases hj with ⟨rfl, h⟩ | h | h
    · exact Or.inl ⟨rfl, h.1⟩
    · exact Or.inr (Or.inl h)
    · exact Or.inr (Or.inr h)
  declared s hs := by
    rcases issued_canRun hs with rfl | rfl
    · exact ⟨_, rfl, by decide⟩
    · exact ⟨_, rfl, by decide⟩
  order s _ := by simp only [canRun]; split_ifs <;> omega
  starts s hs _ := by
    rw [mem_canRun]
    rcases issued_canRun hs with rfl | rfl
    · exact Or.inl ⟨rfl, by decide⟩
    · exact Or.inr (Or.inr ⟨rfl, by decide⟩)
  length s q hs hq := by
    refine (Finset.card_filter_le _ _).trans ?_
    rw [Nat.card_Ico, (req_canRun hs hq).2.2]
    simp only [canRun]
    split_ifs <;> omega
  serial s s' hs hs' hj hne := by
    exfalso
    rcases issued_canRun hs with rfl | rfl <;> rcases issued_canRun hs' with rfl | rfl
    · exact hne rfl
    · exact absurd hj (by decide)
    · exact absurd hj (by decide)
    · exact hne rfl
  immediate s q hs hq hg := by
    rw [(req_canRun hs hq).1] at hg
    exact absurd global_canSys hg
  nonpreemptive s q t hs _ _ h1 h2 := by
    rw [mem_canRun]
    rcases issued_canRun hs with rfl | rfl
    · change 4 ≤ t at h1
      change t < 5 at h2
      exact Or.inl ⟨rfl, by omega, by omega⟩
    · exact Or.inr (Or.inr ⟨rfl, h2⟩)
  fifo s q t hs hq _ h1 h2 hj := by
    rcases issued_canRun hs with rfl | rfl
    · change 1 ≤ t at h1
      change t < 4 at h2
      refine ⟨⟨(2, 0), 0, 0⟩, ⟨0, 1, 4⟩, ⟨rfl, rfl, rfl, by decide⟩, rfl, (req_canRun hs hq).1.symm, ?_, Nat.zero_le t, h2⟩
      show canRun.since _ 0 ≤ _
      rw [canRun_since.2.2.2]
      exact Nat.zero_le _
    · exact absurd h2 (by show ¬ t < 0; omega)
  ceiling s q t hs hq hg := by
    rw [(req_canRun hs hq).1] at hg
    exact absurd global_canSys hg
  edf t j hr hj := by
    rw [ready_canRun] at hr
    rw [mem_canRun] at hj
    rcases hr with ⟨rfl, h⟩ | h | h
    · have ht : t = 2 := by
        by_contra hne
        exact hj (Or.inl ⟨rfl, h, hne⟩)
      subst ht
      exact ⟨(1, 0), mem_canRun.2 (Or.inr (Or.inl ⟨rfl, rfl⟩)), rfl, Or.inl (Or.inl (by decide))⟩
    · exact absurd (Or.inr (Or.inl h)) hj
    · exact absurd (Or.inr (Or.inr h)) hj

open Classical in
/-- The hypotheses of `C130_pedf_fifo_preempt_partial` are met by tasks and a run with a request that is cancelled and issued
again. -/
example : ∃ (solve : Solver) (fuel : ℕ), (∀ P x, solve P = some x → P.Maximum x) ∧
    fifoPreemptIsSchedulable fuel solve exCancel = some true ∧
    (∀ t ∈ exCancel, 0 < t.cost ∧ 0 < t.deadline ∧ t.deadline ≤ t.period ∧ t.period ≤ 2 ^ 64) ∧
    (∀ t ∈ exCancel, (t.requests.map Request.resId).Nodup ∧ ∀ r ∈ t.requests, r.length ≤ t.cost) ∧
    (∀ i k r, (system exCancel).Uses i r → (system exCancel).Uses k r → i ≠ k → (system exCancel).Global r) ∧
    ∀ tie, FifoPreempt (system exCancel) tie canRun ∧ ∃ s u v, canRun.issued s ∧ canRun.enter s ≤ u ∧ u < v ∧
      v < canRun.acquire s ∧ s.job ∈ canRun.sched u ∧ s.job ∈ canRun.sched v ∧ canRun.since s u < canRun.since s v := by
  refine ⟨fun P => if h : ∃ y, P.Maximum y then some h.choose else none, 20, ?_, ?_, by decide, by decide, ?_, ?_⟩
  · intro P x h
    by_cases hm : ∃ y, P.Maximum y
    · beta_reduce at h
      rw [dif_pos hm] at h
      cases h
      exact hm.choose_spec
    · beta_reduce at h
      rw [dif_neg hm] at h
      cases h
  · exact exCancel_accepted (fun P h => ⟨h.choose, dif_pos h, h.choose_spec⟩)
  · rw [system_exCancel]
    rintro i k r ⟨q, hq, rfl⟩ _ _
    change Fin 3 at i
    have : q.res = 0 := by
      fin_cases i <;> simp [canSys] at hq <;> rw [hq]
    rw [this]
    exact global_canSys
  · intro tie
    rw [system_exCancel]
    refine ⟨fifoPreempt_canRun tie, ⟨(0, 0), 0, 0⟩, 1, 3, ⟨rfl, rfl, rfl, by decide⟩, by decide, by decide, by decide,
      by decide, by decide, ?_⟩
    rw [canRun_since.1, canRun_since.2.1]
    decide

end Verif.SR.Pedf
