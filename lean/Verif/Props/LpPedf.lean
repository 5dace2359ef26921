/-
C120: tasks without shared local resources that the LP-based analysis of partitioned EDF with the MSRP accepts meet their
deadlines.
-/
import Verif.Lemmas.LpPedfWin
import Verif.Lemmas.FmlpModel
import Verif.Props.LpPedfWitness

namespace Verif.SR.Pedf
open Verif.Spec
open Verif.SR.Msrp (system)

theorem allClusters_true {test : ℕ → Option Bool} : ∀ {l : List ℕ}, allClusters test l = some true →
    ∀ k ∈ l, test k = some true := by
  intro l
  induction l with
  | nil => intro _ k hk; cases hk
  | cons a l ih =>
    intro h k hk
    unfold allClusters at h
    rcases ht : test a with _ | _ | _
    · rw [ht] at h; cases h
    · rw [ht] at h; cases h
    · rw [ht] at h
      rcases List.mem_cons.1 hk with rfl | hk
      · exact ht
      · exact ih h k hk

/-- **C120**, for tasks that do not share local resources: if the test accepts the tasks and the solver returns optimal
solutions only, no deadline is missed in any run in which a job that has waited for a resource also uses it. -/
theorem C120_pedf_msrp_lp_partial {info : Info} {solve : Solver} {fuel : ℕ}
    (hs : ∀ P x, solve P = some x → P.Maximum x)
    (htask : ∀ t ∈ info, 0 < t.cost ∧ 0 < t.deadline ∧ t.deadline ≤ t.period ∧ t.period ≤ 2 ^ 64)
    (hreq : ∀ t ∈ info, (t.requests.map Request.resId).Nodup ∧ ∀ r ∈ t.requests, r.length ≤ t.cost)
    (hshare : ∀ i k r, (system info).Uses i r → (system info).Uses k r → i ≠ k → (system info).Global r)
    (hacc : msrpIsSchedulable fuel solve info = some true) (R : LockRun info.length) (hR : Spec.Msrp (system info) R)
    (huse : ∀ s, R.issued s → R.enter s < R.acquire s → R.acquire s < R.leave s) :
    MeetsDeadlines R.work (system info).deadline R.sched := by
  have hu : Usual info :=
    { one := fun t ht => (hreq t ht).1
      deadline := fun t ht => (htask t ht).2.1
      constrained := fun t ht => (htask t ht).2.2.1
      small := fun t ht => (htask t ht).2.2.2
      cost := fun t ht => (htask t ht).1
      length := fun t ht => (hreq t ht).2 }
  have key : ∀ H, BoundedBefore R.work R.sched (system info).deadline H := by
    intro H
    induction H with
    | zero => intro j hj; omega
    | succ H ih =>
      intro j hj
      rcases Nat.lt_or_ge (R.work.release j + (system info).deadline j.1) H with h1 | h1
      · exact ih j h1
      · have hH : R.work.release j + (info.get j.1).deadline = H := by
          change R.work.release j + (info.get j.1).deadline < H + 1 at hj
          change H ≤ R.work.release j + (info.get j.1).deadline at h1
          omega
        have hq := allClusters_true hacc (info.get j.1).cluster (List.mem_range.2 (cluster_lt_split j.1))
        obtain ⟨L, hL, h2, h3⟩ := accepted hu hs rfl hq
        have := no_miss hR hu huse ih hshare hL h2 h3 rfl hH
        rw [← hH] at this
        exact this
  intro j
  exact key _ j (Nat.lt_succ_self _)

/-! ### An example -/

/-- Two tasks of different processors that share a resource. -/
def exShared : Info :=
  [⟨0, 20, 10, 10, 0, 2, [⟨0, 1, 1, false⟩]⟩, ⟨0, 20, 10, 10, 1, 2, [⟨0, 1, 1, false⟩]⟩]

/-- Each job spins for one request. -/
def exSharedSol (k : ℕ) : Var → ℚ
  | .spin i _ => if i = k then 0 else 1
  | .arrival _ _ => 0
  | .enabled _ => 0
  | .cancelled _ _ => 0

theorem exShared_feasible {k t : ℕ} (hk : k = 0 ∨ k = 1) (ht : t = 1 ∨ t = 3) :
    (msrpProgram exShared .ac k t).Feasible (exSharedSol k) := by
  rw [feasible_iff]
  rcases hk with rfl | rfl <;> rcases ht with rfl | rfl <;>
  · refine ⟨?_, ?_, ?_, ?_, ?_, ?_, ?_, ?_, ?_, ?_, ?_⟩ <;> decide +kernel

theorem exShared_le {k t : ℕ} (hk : k = 0 ∨ k = 1) (ht : t = 1 ∨ t = 3) {x : Var → ℚ}
    (h : (msrpProgram exShared .ac k t).Feasible x) : valueOf x (msrpProgram exShared .ac k t).objective ≤ 1 := by
  rw [feasible_iff] at h
  rw [objective_eq]
  have hr : Lp.allResources exShared = [0] := by decide
  have ht' : Lp.tasks exShared = [(0, exShared[0]), (1, exShared[1])] := by decide
  have l0 : localIds exShared 0 = [(0, exShared[0])] := by decide
  have l1 : localIds exShared 1 = [(1, exShared[1])] := by decide
  have o0 : otherClusters exShared 0 = [1] := by decide
  have o1 : otherClusters exShared 1 = [0] := by decide
  have h1 := h.nonneg
  have h2 := h.noSpin
  have h3 := h.arrivals
  have h4 := h.oneLocal
  rw [ht', hr] at h1
  rw [hr] at h3 h4
  have hn : (((localTasks exShared k).map (fun ti => localJobs .ac ti t * Lp.numRequests ti 0)).sum) = 1 := by
    rcases hk with rfl | rfl <;> rcases ht with rfl | rfl <;> decide
  rw [ht', hr]
  rcases hk with rfl | rfl
  · rw [l0] at h2 h4
    have h5 := h.oneRemote 1 (by rw [o0]; simp) 0 (by rw [hr]; simp)
    have h6 := h.spin 1 (by rw [o0]; simp) 0 (by rw [hr]; simp)
    rw [l1] at h5
    rw [l1, hn] at h6
    simp only [List.map_cons, List.map_nil, List.sum_cons, List.sum_nil, add_zero, Nat.cast_one] at h5 h6
    simp [arrivals, exShared] at h1 h2 h3 h4
    simp [requestLength, exShared]
    linarith [h1.1.1, h1.1.2, h1.2.1, h1.2.2]
  · rw [l1] at h2 h4
    have h5 := h.oneRemote 0 (by rw [o1]; simp) 0 (by rw [hr]; simp)
    have h6 := h.spin 0 (by rw [o1]; simp) 0 (by rw [hr]; simp)
    rw [l0] at h5
    rw [l0, hn] at h6
    simp only [List.map_cons, List.map_nil, List.sum_cons, List.sum_nil, add_zero, Nat.cast_one] at h5 h6
    simp [arrivals, exShared] at h1 h2 h3 h4
    simp [requestLength, exShared]
    linarith [h1.1.1, h1.1.2, h1.2.1, h1.2.2]

theorem exShared_one {solve : Solver} (ho : Optimal solve) {k t : ℕ} (hk : k = 0 ∨ k = 1) (ht : t = 1 ∨ t = 3) (y : ℕ) :
    (msrpBlocking solve exShared k).ac t y = some 1 := by
  have hval : valueOf (exSharedSol k) (msrpProgram exShared .ac k t).objective = 1 := by
    rw [objective_eq]
    rcases hk with rfl | rfl <;> decide +kernel
  have hm : (msrpProgram exShared .ac k t).Maximum (exSharedSol k) :=
    ⟨exShared_feasible hk ht, fun y hy => by rw [hval]; exact exShared_le hk ht hy⟩
  obtain ⟨x, hx, hxm⟩ := ho _ ⟨_, hm⟩
  show solved solve _ = some 1
  unfold solved
  rw [hx, Option.map_some]
  have h1 := hxm.best _ hm.feasible
  have h2 := exShared_le hk ht hxm.feasible
  rw [hval] at h1
  rw [le_antisymm h2 h1]
  rfl

theorem exShared_cluster {b : Blocking} {k : ℕ} (hk : k = 0 ∨ k = 1) (h1 : ∀ y, b.ac 1 y = some 1) (h3 : ∀ y, b.ac 3 y = some 1) :
    isSchedulable 3 exShared k b = some true := by
  have a1 : arrivalCurve exShared k 1 = 2 := by rcases hk with rfl | rfl <;> decide
  have a3 : arrivalCurve exShared k 3 = 2 := by rcases hk with rfl | rfl <;> decide
  have m : minDeadline exShared k = 10 := by rcases hk with rfl | rfl <;> decide
  have l : lastCheckPointBefore exShared k 3 = 0 := by rcases hk with rfl | rfl <;> decide
  simp [isSchedulable, scheduleLoop, h1, h3, a1, a3, m, qpa, qpaLoop, l]

theorem exShared_accepted {solve : Solver} (ho : Optimal solve) : msrpIsSchedulable 3 solve exShared = some true := by
  unfold msrpIsSchedulable
  have : (splitByCluster exShared).length = 2 := by decide
  rw [this]
  show allClusters _ [0, 1] = some true
  simp only [allClusters]
  rw [exShared_cluster (Or.inl rfl) (exShared_one ho (Or.inl rfl) (Or.inl rfl)) (exShared_one ho (Or.inl rfl) (Or.inr rfl)),
    exShared_cluster (Or.inr rfl) (exShared_one ho (Or.inr rfl) (Or.inl rfl)) (exShared_one ho (Or.inr rfl) (Or.inr rfl))]

open Classical in
/-- The hypotheses of `C120_pedf_msrp_lp_partial` are met by tasks that delay each other. -/
example : ∃ (solve : Solver) (fuel : ℕ), (∀ P x, solve P = some x → P.Maximum x) ∧
    msrpIsSchedulable fuel solve exShared = some true ∧
    (∀ t ∈ exShared, 0 < t.cost ∧ 0 < t.deadline ∧ t.deadline ≤ t.period ∧ t.period ≤ 2 ^ 64) ∧
    (∀ t ∈ exShared, (t.requests.map Request.resId).Nodup ∧ ∀ r ∈ t.requests, r.length ≤ t.cost) ∧
    (∀ i k r, (system exShared).Uses i r → (system exShared).Uses k r → i ≠ k → (system exShared).Global r) := by
  refine ⟨fun P => if h : ∃ y, P.Maximum y then some h.choose else none, 3, ?_, ?_, by decide, by decide, ?_⟩
  · intro P x h
    by_cases hm : ∃ y, P.Maximum y
    · beta_reduce at h
      rw [dif_pos hm] at h
      cases h
      exact hm.choose_spec
    · beta_reduce at h
      rw [dif_neg hm] at h
      cases h
  · exact exShared_accepted (fun P h => ⟨h.choose, dif_pos h, h.choose_spec⟩)
  · intro i k r hi hk hne
    refine ⟨i, k, hi, hk, ?_⟩
    change Fin 2 at i k
    have : i ≠ k := hne
    fin_cases i <;> fin_cases k <;> first | exact absurd rfl this | decide

end Verif.SR.Pedf
