/-
C120, C121: tasks that the analysis of partitioned EDF with the MSRP accepts although they miss deadlines, and tasks for
which it does not terminate.
-/
import Verif.Lemmas.LpPedfSol
import Verif.Props.MsrpExample

namespace Verif.SR.Pedf
open Verif.Spec
open Verif.SR.Msrp (system)

/-- A solver that finds an optimal solution whenever there is one. -/
def Optimal {V : Type} (solve : Solver V) : Prop := ∀ P : MixedProgram V, (∃ y, P.Maximum y) → ∃ x, solve P = some x ∧ P.Maximum x

open Classical in
/-- There is such a solver. -/
example {V : Type} : ∃ solve : Solver V, Optimal solve :=
  ⟨fun P => if h : ∃ y, P.Maximum y then some h.choose else none, fun P h => ⟨h.choose, dif_pos h, h.choose_spec⟩⟩

/-- If all solutions have the value zero, the bound is zero. -/
theorem solved_zero {V : Type} {solve : Solver V} (hs : Optimal solve) {P : MixedProgram V} {y : V → ℚ} (hy : P.Feasible y)
    (h : ∀ x, P.Feasible x → valueOf x P.objective = 0) : solved solve P = some 0 := by
  obtain ⟨x, hx, hm⟩ := hs P ⟨y, hy, fun z hz => by rw [h z hz, h y hy]⟩
  unfold solved
  rw [hx, Option.map_some, h x hm.feasible]
  rfl

/-! ### Local resources -/

/-- Two tasks of one processor that share a resource. -/
def exLocal : Info :=
  [⟨0, 100, 4, 4, 0, 1, [⟨0, 1, 1, false⟩]⟩, ⟨1, 100, 20, 20, 0, 10, [⟨0, 1, 10, false⟩]⟩]

theorem exLocal_maxLevel {t : ℕ} (h : t < 20) : maxLevel exLocal 0 t = 0 := by
  by_cases h4 : 4 ≤ t
  · simp [maxLevel, localTasks, exLocal, h4, show ¬ 20 ≤ t by omega]
  · simp [maxLevel, localTasks, exLocal, h4, show ¬ 20 ≤ t by omega]

theorem exLocal_zero {mode : Mode} {t : ℕ} {x : Var → ℚ} (h : (msrpProgram exLocal mode 0 t).Feasible x) :
    valueOf x (msrpProgram exLocal mode 0 t).objective = 0 := by
  rw [feasible_iff] at h
  rw [objective_eq]
  have hr : Lp.allResources exLocal = [0] := by decide
  have ht : Lp.tasks exLocal = [(0, exLocal[0]), (1, exLocal[1])] := by decide
  have hl : localIds exLocal 0 = [(0, exLocal[0]), (1, exLocal[1])] := by decide
  have h1 := h.nonneg
  have h2 := h.noSpin
  rw [ht, hr] at h1
  rw [hl] at h2
  simp only [List.forall_mem_cons, List.forall_mem_nil, and_true, List.not_mem_nil, false_imp_iff, implies_true] at h1
  simp [exLocal] at h2
  have h3 : x (.arrival 0 0) = 0 ∧ x (.arrival 1 0) = 0 := by
    by_cases h20 : t < 20
    · have h3 := h.exclude
      rw [exLocal_maxLevel h20] at h3
      have e : (Msrp.localResources exLocal).filter (fun q => Msrp.ceilingOf exLocal q ≥ 0) = [0] := by decide
      rw [e] at h3
      have h4 := h.oneLocal 0 (by rw [hr]; simp)
      rw [hl] at h4
      simp at h3 h4
      constructor <;> linarith
    · have h3 := h.inside
      rw [hl] at h3
      have a := h3 (0, exLocal[0]) (by simp [exLocal]; omega) ⟨0, 1, 1, false⟩ (by simp [exLocal])
      have b := h3 (1, exLocal[1]) (by simp [exLocal]; omega) ⟨0, 1, 10, false⟩ (by simp [exLocal])
      simp only at a b
      constructor <;> linarith
  have h4 : x (.spin 0 0) = 0 ∧ x (.spin 1 0) = 0 := by constructor <;> linarith
  rw [ht, hr]
  simp [h3, h4]

theorem exLocal_blocking {solve : Solver} (hs : Optimal solve) :
    msrpBlocking solve exLocal 0 = ⟨fun _ => some 0, fun _ _ => some 0, fun _ ub _ => some ub⟩ := by
  unfold msrpBlocking
  congr 1
  · funext t
    exact solved_zero hs zero_feasible (fun x hx => exLocal_zero hx)
  · funext t _
    exact solved_zero hs zero_feasible (fun x hx => exLocal_zero hx)

theorem exLocal_accepted {solve : Solver} (hs : Optimal solve) : msrpIsSchedulable 20 solve exLocal = some true := by
  unfold msrpIsSchedulable
  have : (splitByCluster exLocal).length = 1 := by decide
  rw [this]
  show allClusters _ [0] = some true
  unfold allClusters
  rw [exLocal_blocking hs]
  have : isSchedulable 20 exLocal 0 ⟨fun _ => some 0, fun _ _ => some 0, fun _ ub _ => some ub⟩ = some true := by
    decide +kernel
  rw [this]
  rfl

/-- The same tasks, written as functions. -/
def locSys : LockSystem 2 where
  proc := ![0, 0]
  cost := ![1, 10]
  period := ![100, 100]
  deadline := ![4, 20]
  reqs := ![[⟨0, 1, 1⟩], [⟨0, 1, 10⟩]]

theorem system_exLocal : system exLocal = locSys := by
  unfold system locSys
  congr 1 <;>
  · funext (i : Fin 2)
    fin_cases i <;> rfl

/-- Task 1 uses the resource until time 10.  The job of task 0 is released at time 1 and waits. -/
def locRun : LockRun 2 where
  work := ⟨fun j => (if j.1 = 0 then 1 else 0) + 100 * j.2, fun j => if j.2 = 0 then ![1, 10] j.1 else 0⟩
  sched t := ({(0, 0), (1, 0)} : Finset (Job 2)).filter (fun j => (j.1 = 1 ∧ t < 10) ∨ (j.1 = 0 ∧ t = 10))
  issued s := s.job.2 = 0 ∧ s.idx = 0 ∧ s.inst = 0
  enter s := if s.job.1 = 1 then 0 else 10
  acquire s := if s.job.1 = 1 then 0 else 10
  leave s := if s.job.1 = 1 then 10 else 11

theorem mem_locRun {j : Job 2} {t : ℕ} : j ∈ locRun.sched t ↔ (j = (1, 0) ∧ t < 10) ∨ (j = (0, 0) ∧ t = 10) := by
  unfold locRun
  simp only [Finset.mem_filter, Finset.mem_insert, Finset.mem_singleton]
  constructor
  · rintro ⟨rfl | rfl, h⟩ <;> simp at h ⊢ <;> exact h
  · rintro (⟨rfl, h⟩ | ⟨rfl, h⟩) <;> simp [h]

theorem service_locRun (t : ℕ) : service locRun.sched (1, 0) t = min t 10 ∧
    service locRun.sched (0, 0) t = if t ≤ 10 then 0 else 1 := by
  induction t with
  | zero => simp [service]
  | succ t ih =>
    obtain ⟨h1, h3⟩ := ih
    rw [service_succ, service_succ, h1, h3]
    simp only [mem_locRun]
    refine ⟨?_, ?_⟩
    · by_cases h : t < 10 <;> simp [h] <;> omega
    · by_cases h : t = 10
      · simp [h]
      · simp only [h]
        simp
        split_ifs <;> omega

theorem global_locSys (r : ℕ) : ¬ locSys.Global r := by
  rintro ⟨i, k, _, _, h⟩
  fin_cases i <;> fin_cases k <;> exact h rfl

theorem ready_locRun {j : Job 2} {t : ℕ} : Ready locRun.work locRun.sched j t ↔
    (j = (1, 0) ∧ t < 10) ∨ (j = (0, 0) ∧ 1 ≤ t ∧ t ≤ 10) := by
  obtain ⟨h1, h3⟩ := service_locRun t
  obtain ⟨i, k⟩ := j
  unfold Ready Pending Completed
  by_cases hk : k = 0
  · subst hk
    fin_cases i
    · have h1' : service locRun.sched ((⟨0, by decide⟩ : Fin 2), 0) t = if t ≤ 10 then 0 else 1 := h3
      simp [locRun] at h1' ⊢
      simp [h1']
    · have h1' : service locRun.sched ((⟨1, by decide⟩ : Fin 2), 0) t = min t 10 := h1
      simp [locRun] at h1' ⊢
      simp [h1']
  · simp [locRun, hk]

theorem msrp_locRun : Spec.Msrp locSys locRun where
  separated i k := by
    simp only [locRun, locSys]
    fin_cases i <;> simp <;> omega
  cost j := by
    obtain ⟨i, k⟩ := j
    by_cases hk : k = 0
    · subst hk
      fin_cases i <;> exact Nat.le_add_right _ _
    · simp [locRun, hk]
  one t j hj j' hj' _ := by
    rw [mem_locRun] at hj hj'
    rcases hj with ⟨rfl, h⟩ | ⟨rfl, h⟩ <;> rcases hj' with ⟨rfl, h'⟩ | ⟨rfl, h'⟩ <;> first | rfl | omega
  ready t j hj := by
    rw [mem_locRun] at hj
    rw [ready_locRun]
    rcases hj with ⟨rfl, h⟩ | ⟨rfl, h⟩
    · exact Or.inl ⟨rfl, h⟩
    · exact Or.inr ⟨rfl, by omega, by omega⟩
  declared s hs := by
    obtain ⟨⟨i, k⟩, x, a⟩ := s
    obtain ⟨h2, h3, h4⟩ := hs
    simp only at h2 h3 h4
    subst h2 h3 h4
    fin_cases i
    · exact ⟨_, rfl, by decide⟩
    · exact ⟨_, rfl, by decide⟩
  order s _ := by simp only [locRun]; split_ifs <;> omega
  starts s hs _ := by
    obtain ⟨⟨i, k⟩, x, a⟩ := s
    obtain ⟨h2, h3, h4⟩ := hs
    simp only at h2 h3 h4
    subst h2
    rw [mem_locRun]
    fin_cases i
    · exact Or.inr ⟨rfl, rfl⟩
    · exact Or.inl ⟨rfl, Nat.succ_pos 9⟩
  length s q hs hq := by
    obtain ⟨⟨i, k⟩, x, a⟩ := s
    obtain ⟨h2, h3, h4⟩ := hs
    simp only at h2 h3 h4
    subst h2 h3 h4
    refine (Finset.card_filter_le _ _).trans ?_
    rw [Nat.card_Ico]
    fin_cases i
    · obtain rfl : (⟨0, 1, 1⟩ : Req) = q := Option.some.inj hq
      exact le_of_eq rfl
    · obtain rfl : (⟨0, 1, 10⟩ : Req) = q := Option.some.inj hq
      exact le_of_eq rfl
  serial s s' hs hs' hj hne := by
    obtain ⟨j, x, a⟩ := s
    obtain ⟨j', x', a'⟩ := s'
    obtain ⟨_, h3, h4⟩ := hs
    obtain ⟨_, h3', h4'⟩ := hs'
    simp only at hj h3 h4 h3' h4'
    subst hj h3 h4 h3' h4'
    exact absurd rfl hne
  immediate s q hs hq hg := rfl
  nonpreemptive s q t hs hq hg := absurd hg (global_locSys _)
  fifo s q t hs hq hg := absurd hg (global_locSys _)
  ceiling s q t hs hq hg h1 h2 j hj hp hne k hk := by
    exfalso
    obtain ⟨⟨i, k⟩, x, a⟩ := s
    obtain ⟨h3, _⟩ := hs
    simp only at h3
    subst h3
    rw [mem_locRun] at hj
    have e : (i : Fin 2) = 1 ∨ i = 0 := by fin_cases i <;> simp
    rcases e with rfl | rfl
    · change t < 10 at h2
      rcases hj with ⟨rfl, h⟩ | ⟨rfl, h⟩
      · exact hne rfl
      · omega
    · change 10 ≤ t at h1
      rcases hj with ⟨rfl, h⟩ | ⟨rfl, h⟩
      · omega
      · exact hne rfl
  edf t j hr hj := by
    rw [ready_locRun] at hr
    rw [mem_locRun] at hj
    rcases hr with ⟨rfl, h⟩ | ⟨rfl, h, h'⟩
    · exact absurd (Or.inl ⟨rfl, h⟩) hj
    · have h4 : t ≠ 10 := fun h4 => hj (Or.inr ⟨rfl, h4⟩)
      refine ⟨(1, 0), mem_locRun.2 (Or.inl ⟨rfl, by omega⟩), rfl, Or.inr ⟨⟨(1, 0), 0, 0⟩, ⟨0, 1, 10⟩,
        ⟨rfl, rfl, rfl⟩, rfl, rfl, h, ?_, Or.inr ⟨0, ⟨⟨0, 1, 1⟩, by simp [locSys], rfl⟩, le_rfl⟩⟩⟩
      show t < 10
      omega

theorem missed_locRun : ¬ MeetsDeadlines locRun.work locSys.deadline locRun.sched := by
  intro h
  have := h (0, 0)
  change 1 ≤ service locRun.sched (0, 0) 5 at this
  rw [(service_locRun 5).2] at this
  simp at this

/-- **C120**, violated: tasks that share a local resource are accepted, whatever optimal solutions the solver returns,
although a job can miss its deadline.  Resources whose ceiling is equal to the level of a task do not block the task
in the linear program. -/
theorem C120_pedf_msrp_lp_not_safe : ∃ info : Info,
    (∀ t ∈ info, 0 < t.cost ∧ 0 < t.deadline ∧ t.deadline ≤ t.period) ∧
    (∀ a ∈ info, ∀ b ∈ info, a.priority ≤ b.priority ↔ a.deadline ≤ b.deadline) ∧
    (∀ solve, Optimal solve → ∃ fuel, msrpIsSchedulable fuel solve info = some true) ∧
    ∃ R, Spec.Msrp (system info) R ∧ (∀ s, R.issued s → R.acquire s < R.leave s) ∧
      ¬ MeetsDeadlines R.work (system info).deadline R.sched := by
  refine ⟨exLocal, by decide, by decide, fun solve hs => ⟨20, exLocal_accepted hs⟩, ?_⟩
  rw [system_exLocal]
  refine ⟨locRun, msrp_locRun, fun s _ => ?_, missed_locRun⟩
  simp only [locRun]
  split_ifs <;> omega

/-! ### Wrap-around -/

/-- A task and, on another processor, a task that uses a resource. -/
def exWrap : Info := [⟨0, 12, 6, 6, 0, 6, []⟩, ⟨1, 105, 100, 100, 1, 1, [⟨0, 1, 1, false⟩]⟩]

theorem exWrap_zero {mode : Mode} {t : ℕ} {x : Var → ℚ} (h : (msrpProgram exWrap mode 0 t).Feasible x) :
    valueOf x (msrpProgram exWrap mode 0 t).objective = 0 := by
  rw [feasible_iff] at h
  rw [objective_eq]
  have hr : Lp.allResources exWrap = [0] := by decide
  have ht : Lp.tasks exWrap = [(0, exWrap[0]), (1, exWrap[1])] := by decide
  have hl : localIds exWrap 1 = [(1, exWrap[1])] := by decide
  have hc : otherClusters exWrap 0 = [1] := by decide
  have hk : localTasks exWrap 0 = [exWrap[0]] := by decide
  have h1 := h.nonneg (1, exWrap[1]) (by rw [ht]; simp) 0 (by rw [hr]; simp)
  have h2 := h.spin 1 (by rw [hc]; simp) 0 (by rw [hr]; simp)
  have h3 := h.oneRemote 1 (by rw [hc]; simp) 0 (by rw [hr]; simp)
  have h4 := (h.later 0 (by rw [hr]; simp)).2
  rw [hl] at h2 h3
  have e : ((localTasks exWrap 0).map (fun ti => localJobs mode ti t * Lp.numRequests ti 0)).sum = 0 := by
    rw [hk]
    simp [exWrap, Lp.numRequests]
  have e' : laterRequests exWrap 0 t 0 = 0 := by
    unfold laterRequests
    rw [hk, List.filter_cons]
    split_ifs <;> simp [exWrap, Lp.numRequests]
  rw [e] at h2
  rw [e'] at h4
  simp at h1 h2 h3 h4
  have h5 : x (.spin 1 0) = 0 := by linarith
  have h6 : x (.arrival 1 0) = 0 := by linarith
  rw [ht, hr]
  simp [h5, h6, exWrap, requestLength]

/-- The bounds are zero. -/
def noBlocking : Blocking := ⟨fun _ => some 0, fun _ _ => some 0, fun _ ub _ => some ub⟩

theorem exWrap_blocking {solve : Solver} (hs : Optimal solve) : msrpBlocking solve exWrap 0 = noBlocking := by
  unfold msrpBlocking noBlocking
  congr 1
  · funext t
    exact solved_zero hs zero_feasible (fun x hx => exWrap_zero hx)
  · funext t _
    exact solved_zero hs zero_feasible (fun x hx => exWrap_zero hx)

/-- From no check point on, the search ends: it returns to the shortest deadline again and again. -/
theorem exWrap_qpa {b : Blocking} (hb : ∀ t, b.pdc t = some 0) (fuel : ℕ) :
    ∀ cp lbOut found, 6 ≤ cp → qpaLoop exWrap 0 b 6 0 fuel cp lbOut found = none := by
  induction fuel with
  | zero => intro cp lbOut found _; rfl
  | succ fuel ih =>
    intro cp lbOut found hcp
    have hd : dbf exWrap 0 cp = (cp + 6) / 12 * 6 := by
      show ([pdcJobs exWrap[0] cp * exWrap[0].cost] : List ℕ).sum = _
      have e : pdcJobs exWrap[0] cp = (cp + 6) / 12 := by
        unfold pdcJobs
        show wsub (cp + 12) 6 / 12 = _
        rw [wsub_eq (by omega)]
        congr 1
      rw [e]
      show (cp + 6) / 12 * 6 + 0 = _
      omega
    unfold qpaLoop
    rw [if_neg (by omega)]
    rw [hb]
    simp only
    rw [hd, if_neg (by omega), if_neg (by omega)]
    by_cases hlt : (cp + 6) / 12 * 6 + 0 < cp
    · rw [if_pos hlt]
      exact ih _ _ _ (by omega)
    · rw [if_neg hlt]
      have : cp = 6 := by omega
      subst this
      have e : lastCheckPointBefore exWrap 0 6 = 2 ^ 64 - 99 := by decide +kernel
      rw [e]
      exact ih _ _ _ (by decide)

/-- Without blocking, the test does not end. -/
theorem exWrap_none {b : Blocking} (hb : ∀ t, b.pdc t = some 0) (ha : b.ac 1 0 = some 0) (fuel : ℕ) :
    isSchedulable fuel exWrap 0 b = none := by
  unfold isSchedulable
  cases fuel with
  | zero => rfl
  | succ fuel =>
    unfold scheduleLoop
    have e1 : arrivalCurve exWrap 0 1 = 6 := by decide +kernel
    have e2 : minDeadline exWrap 0 = 6 := by decide +kernel
    rw [ha]
    simp only
    rw [e1, e2, if_neg (by decide), if_neg (by decide)]
    have : qpa (fuel + 1) exWrap 0 b 6 (6 + 0) 0 = none := by
      unfold qpa
      have e : lastCheckPointBefore exWrap 0 (6 + 0) = 2 ^ 64 - 99 := by decide +kernel
      rw [e]
      exact exWrap_qpa hb _ _ _ _ (by decide)
    rw [this]

theorem exWrap_diverges {solve : Solver} (hs : Optimal solve) (fuel : ℕ) : msrpIsSchedulable fuel solve exWrap = none := by
  unfold msrpIsSchedulable
  have : (splitByCluster exWrap).length = 2 := by decide
  rw [this]
  show allClusters _ [0, 1] = none
  unfold allClusters
  rw [exWrap_blocking hs]
  rw [exWrap_none (fun _ => rfl) rfl]

/-- **C121**, violated: for some tasks the test does not terminate, whatever optimal solutions the solver
returns, although their processors have a utilization of at most one half.  The step from the check point `T - D + 1`
of a task of another processor to the previous one wraps around. -/
theorem C121_pedf_msrp_lp_diverges : ∃ info : Info,
    (∀ t ∈ info, 0 < t.cost ∧ 2 * t.cost ≤ t.period ∧ t.cost ≤ t.deadline ∧ t.deadline ≤ t.period) ∧
    (info.map TaskInfo.cluster).Nodup ∧ ∀ solve, Optimal solve → ∀ fuel, msrpIsSchedulable fuel solve info = none :=
  ⟨exWrap, by decide, by decide, fun _ hs fuel => exWrap_diverges hs fuel⟩

end Verif.SR.Pedf
