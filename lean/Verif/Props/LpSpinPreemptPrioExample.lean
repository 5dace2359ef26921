/-
C151 and C152: task sets for which the bounds for preemptive priority-ordered spin locks exceed those for non-preemptive
ones although a task is not preempted, and a task set that is accepted with these bounds but misses a deadline.
-/
import Verif.Props.LpSpinPreemptPrio
import Verif.Lemmas.LpCover
import Verif.Lemmas.JobTablePreempt
import Verif.Model.Msrp
import Mathlib.Data.Fin.VecNotation
import Mathlib.Tactic.FinCases

namespace Verif.SR.Lp
open Verif.Spec
open Verif.SR.Msrp (system)

/-- Variables that are not integers are at most 1. -/
theorem feasible_ranged {P : Program} {k : Key} (hk : k ∉ P.integers) {x : Key → ℚ} :
    (addInequality P [(1, k)] 1).Feasible x ↔ P.Feasible x := by
  constructor
  · intro h
    have hi := included_addInequality P [(1, k)] 1
    exact ⟨fun c hc => h.eq c (hi.eq c hc), fun c hc => h.le c (hi.le c hc), h.integer, h.binary, h.range⟩
  · intro h
    refine feasible_addInequality h ?_
    have := (h.range k hk).2
    simpa [termSum] using this

theorem maximum_ranged {P : Program} {k : Key} (hk : k ∉ P.integers) {x : Key → ℚ} :
    (addInequality P [(1, k)] 1).Maximum x ↔ P.Maximum x := by
  constructor
  · intro h
    exact ⟨(feasible_ranged hk).1 h.feasible, fun y hy => h.best y ((feasible_ranged hk).2 hy)⟩
  · intro h
    exact ⟨(feasible_ranged hk).2 h.feasible, fun y hy => h.best y ((feasible_ranged hk).1 hy)⟩

/-- A certificate that uses the range of a variable. -/
theorem bind_cover_ranged {o : Option Program} (k : Key) (l : Exp) (cert : List (ℚ × ℕ)) {v : ℕ}
    (h : o.any (fun P => decide (CoverOpt (addInequality P [(1, k)] 1) l cert v ∧ k ∉ P.integers)) = true)
    {solve : Solver} (h1 : ∀ P x, solve P = some x → P.Maximum x) (h2 : ∀ P x, P.Maximum x → (solve P).isSome) :
    o.bind (solved solve) = some v := by
  obtain ⟨P, rfl, hd⟩ := (Option.any_eq_true _ _).1 h
  obtain ⟨hc, hk⟩ := of_decide_eq_true hd
  obtain ⟨hf, hcov, hv, hle, hr⟩ := hc
  have hmax : P.Maximum (listed l) := (maximum_ranged hk).1 ⟨hf.feasible, fun y hy => by
    rw [hv]
    exact (hcov.le hf.1 hy).trans hle⟩
  obtain ⟨x, hx⟩ := Option.isSome_iff_exists.1 (h2 P _ hmax)
  have hm := h1 P x hx
  have hv' : termSum (listed l) P.objective = v := hv
  have e : termSum x P.objective = v := by
    refine le_antisymm ?_ ?_
    · rw [← hv']
      exact hmax.best x hm.feasible
    · rw [← hv']
      exact hm.best _ hmax.feasible
  change Lp.solved solve P = _
  unfold Lp.solved
  rw [hx]
  simp only [Option.map_some, e, hr]

/-- Task 0 uses two resources, each of which is used by one of two tasks on other processors. -/
def wideWait : Info := [⟨0, 100, 100, 50, 0, 2, [⟨0, 1, 1, false⟩, ⟨1, 1, 1, false⟩]⟩,
  ⟨0, 10, 10, 5, 1, 1, [⟨0, 1, 1, false⟩]⟩, ⟨0, 100, 100, 50, 2, 20, [⟨1, 1, 20, false⟩]⟩]

/-- A task with one request is preempted by two tasks.  A task on another processor has three requests. -/
def againInfo : Info := [⟨0, 100, 10, 10, 0, 2, []⟩, ⟨1, 100, 12, 12, 0, 2, []⟩,
  ⟨2, 100, 17, 17, 0, 1, [⟨0, 1, 1, false⟩]⟩, ⟨3, 100, 40, 40, 1, 18, [⟨0, 3, 6, false⟩]⟩]

/-- The request of task 2 has a higher priority than those of task 3. -/
def againPrio : LockPrio := fun t _ => if t = 2 then 0 else 1

def againSys : LockSystem 4 where
  proc := ![0, 0, 0, 1]
  cost := ![2, 2, 1, 18]
  period := ![100, 100, 100, 100]
  deadline := ![10, 12, 17, 40]
  reqs := ![[], [], [⟨0, 1, 1⟩], [⟨0, 3, 6⟩]]

theorem system_again : system againInfo = againSys := by
  unfold system againSys
  congr 1 <;>
  · funext (i : Fin 4)
    fin_cases i <;> rfl

/-- Whenever the job of task 2 is preempted, task 3 releases the resource and acquires it again. -/
def againTable : JTable 4 where
  off := ![5, 11, 1, 0]
  exec := ![[2], [2], [14], [18]]
  slots := [{(3, 0)}, {(2, 0), (3, 0)}, {(2, 0), (3, 0)}, {(2, 0), (3, 0)}, {(2, 0), (3, 0)}, {(0, 0), (3, 0)},
    {(0, 0), (3, 0)}, {(2, 0), (3, 0)}, {(2, 0), (3, 0)}, {(2, 0), (3, 0)}, {(2, 0), (3, 0)}, {(1, 0), (3, 0)},
    {(1, 0), (3, 0)}, {(2, 0), (3, 0)}, {(2, 0), (3, 0)}, {(2, 0), (3, 0)}, {(2, 0), (3, 0)}, {(2, 0), (3, 0)}, {(2, 0)}]
  secs := [⟨(3, 0), 0, 0, 0, 0, 6⟩, ⟨(3, 0), 0, 1, 6, 6, 12⟩, ⟨(3, 0), 0, 2, 12, 12, 18⟩, ⟨(2, 0), 0, 0, 1, 18, 19⟩]

theorem again_run : PreemptPrioFp (system againInfo) (fun i => (againInfo.get i).priority) (fun i r => againPrio i r)
    (againTable.run againSys) := by
  rw [system_again]
  have hp : (fun i : Fin 4 => (againInfo.get i).priority) = ![0, 1, 2, 3] := by
    funext i
    fin_cases i <;> rfl
  change PreemptPrioFp againSys (fun i : Fin 4 => (againInfo.get i).priority) (fun i : Fin 4 => fun r => againPrio i r) _
  rw [hp]
  exact JTable.PreemptOk.preemptPrioFp (by decide +kernel)

theorem again_missed : ¬ MeetsDeadlines (againTable.run againSys).work (system againInfo).deadline
    (againTable.run againSys).sched := by
  intro h
  have := h ((2 : Fin 4), 0)
  revert this
  unfold Completed
  erw [JTable.service_run]
  decide +kernel

section
variable {solve : Solver} (h1 : ∀ P x, solve P = some x → P.Maximum x) (h2 : ∀ P x, P.Maximum x → (solve P).isSome)
include h1 h2

theorem exTwo_preemptPrio : nativePreemptPrioBounds (fun i _ => i) 50 solve exTwo = some [4, 1] := by
  have e0 : (preemptPrioProgram (fun i _ => i) 50 exTwo 0 exTwo[0]).bind (solved solve) = some 4 :=
    bind_cover_ranged (preemptionsOf 0) [(1, preemptionsOf 0), (1, dir 1 0), (1, dir 1 1)] [(2, 5), (2, 6), (2, 7)]
      (by decide +kernel) h1 h2
  have e1 : (preemptPrioProgram (fun i _ => i) 50 exTwo 1 exTwo[1]).bind (solved solve) = some 1 :=
    bind_cover [(1, dir 0 0)] [(1, 0)] (by decide +kernel) h1 h2
  change [(0, exTwo[0]), (1, exTwo[1])].mapM _ = _
  simp only [List.mapM_cons, List.mapM_nil, e0, e1]
  rfl

theorem exTwo_prio : nativePrioBounds (fun i _ => i) 50 solve exTwo = some [2, 1] := by
  have e0 : (prioProgram (fun i _ => i) 50 exTwo 0 exTwo[0]).bind (solved solve) = some 2 :=
    bind_cover [(1, dir 1 0)] [(2, 4), (2, 5), (2, 6)] (by decide +kernel) h1 h2
  have e1 : (prioProgram (fun i _ => i) 50 exTwo 1 exTwo[1]).bind (solved solve) = some 1 :=
    bind_cover [(1, dir 0 0)] [(1, 0)] (by decide +kernel) h1 h2
  change [(0, exTwo[0]), (1, exTwo[1])].mapM _ = _
  simp only [List.mapM_cons, List.mapM_nil, e0, e1]
  rfl

theorem wideWait_preemptPrio (pr : LockPrio) : preemptPrioBounds pr 50 solve wideWait = some [23, 1, 1] := by
  have e0 : (preemptPrioProgram (fun _ _ => 0) 50 wideWait 0 wideWait[0]).bind (solved solve) = some 23 :=
    bind_cover [(1, dir 1 0), (1, dir 1 1), (1, dir 1 2), (1, ⟨.direct, 2, 0, 1⟩)] [(1, 9), (20, 10), (1, 11), (20, 12)]
      (by decide +kernel) h1 h2
  have e1 : (preemptPrioProgram (fun _ _ => 0) 50 wideWait 1 wideWait[1]).bind (solved solve) = some 1 :=
    bind_cover [(1, dir 0 0)] [(1, 0), (1, 5), (20, 6), (1, 8), (20, 9)] (by decide +kernel) h1 h2
  have e2 : (preemptPrioProgram (fun _ _ => 0) 50 wideWait 2 wideWait[2]).bind (solved solve) = some 1 :=
    bind_cover [(1, ⟨.direct, 0, 0, 1⟩)] [(1, 1), (1, 10), (1, 11), (1, 12), (1, 13)] (by decide +kernel) h1 h2
  change [(0, wideWait[0]), (1, wideWait[1]), (2, wideWait[2])].mapM (fun t =>
    (preemptPrioProgram (fun _ _ => 0) 50 wideWait t.1 t.2).bind (solved solve)) = _
  simp only [List.mapM_cons, List.mapM_nil, e0, e1, e2]
  rfl

theorem wideWait_prio (pr : LockPrio) : prioBounds pr 50 solve wideWait = some [21, 1, 1] := by
  have e0 : (prioProgram (fun _ _ => 0) 50 wideWait 0 wideWait[0]).bind (solved solve) = some 21 :=
    bind_cover [(1, dir 1 0), (1, ⟨.direct, 2, 0, 1⟩)] [(20, 8), (1, 9), (20, 10), (1, 11), (20, 12)]
      (by decide +kernel) h1 h2
  have e1 : (prioProgram (fun _ _ => 0) 50 wideWait 1 wideWait[1]).bind (solved solve) = some 1 :=
    bind_cover [(1, dir 0 0)] [(1, 0), (21, 4), (1, 5), (20, 6), (1, 11), (20, 12)] (by decide +kernel) h1 h2
  have e2 : (prioProgram (fun _ _ => 0) 50 wideWait 2 wideWait[2]).bind (solved solve) = some 1 :=
    bind_cover [(1, ⟨.direct, 0, 0, 1⟩)] [(1, 1), (2, 9), (1, 10), (1, 11), (1, 15), (1, 16)] (by decide +kernel) h1 h2
  change [(0, wideWait[0]), (1, wideWait[1]), (2, wideWait[2])].mapM (fun t =>
    (prioProgram (fun _ _ => 0) 50 wideWait t.1 t.2).bind (solved solve)) = _
  simp only [List.mapM_cons, List.mapM_nil, e0, e1, e2]
  rfl

theorem again_bounds : nativePreemptPrioBounds againPrio 50 solve againInfo = some [1, 1, 12, 1] := by
  have e0 : (preemptPrioProgram againPrio 50 againInfo 0 againInfo[0]).bind (solved solve) = some 1 :=
    bind_cover [(1, arrivalEnabled 0), (1, arr 2 0)] [(1, 0), (6, 6), (6, 7)] (by decide +kernel) h1 h2
  have e1 : (preemptPrioProgram againPrio 50 againInfo 1 againInfo[1]).bind (solved solve) = some 1 :=
    bind_cover [(1, arrivalEnabled 0), (1, arr 2 0)] [(1, 0), (6, 6), (6, 7)] (by decide +kernel) h1 h2
  have e2 : (preemptPrioProgram againPrio 50 againInfo 2 againInfo[2]).bind (solved solve) = some 12 :=
    bind_cover_ranged (preemptionsOf 0) [(1, preemptionsOf 0), (1, dir 3 0), (1, dir 3 1)] [(6, 5), (6, 6), (6, 7)]
      (by decide +kernel) h1 h2
  have e3 : (preemptPrioProgram againPrio 50 againInfo 3 againInfo[3]).bind (solved solve) = some 1 :=
    bind_cover [(1, dir 2 0)] [(1, 0)] (by decide +kernel) h1 h2
  change [(0, againInfo[0]), (1, againInfo[1]), (2, againInfo[2]), (3, againInfo[3])].mapM _ = _
  simp only [List.mapM_cons, List.mapM_nil, e0, e1, e2, e3]
  rfl

end

/-- The hypotheses of `C151_le_baseline_partial` hold for two tasks and an optimal solver. -/
example : (∀ P x, best P = some x → P.Maximum x) ∧
    nativePreemptPrioBounds (fun i _ => i) 50 best exTwo = some [4, 1] ∧ baselineBounds best exTwo = some [6, 1] :=
  ⟨best_maximum, exTwo_preemptPrio best_maximum (fun P x h => by
    unfold best
    rw [dif_pos ⟨x, h⟩]
    rfl), exTwo_baseline⟩

/-- **C151** (violated): if a task is not preempted, its bound for preemptive priority-ordered spin locks may exceed that
for non-preemptive ones.  The number of preemptions is a variable without constraints, so that a request of lower priority
is counted for a preemption that does not happen. -/
theorem C151_not_preempted_violated (s s' : Solver) (hs : ∀ P x, s P = some x → P.Maximum x)
    (hs' : ∀ P x, s' P = some x → P.Maximum x) (ha : ∀ P x, P.Maximum x → (s P).isSome)
    (ha' : ∀ P x, P.Maximum x → (s' P).isSome) : ∃ (info : Info) (pr : LockPrio) (fuel i b b' : ℕ) (bs bs' : List ℕ)
    (hi : i < info.length), (∀ j, ∀ hj : j < info.length, info[j].cluster = info[i].cluster → j = i) ∧
    nativePreemptPrioBounds pr fuel s info = some bs ∧ nativePrioBounds pr fuel s' info = some bs' ∧
    bs[i]? = some b ∧ bs'[i]? = some b' ∧ b' < b :=
  ⟨exTwo, fun i _ => i, 50, 0, 4, 2, _, _, by decide, by decide, exTwo_preemptPrio hs ha, exTwo_prio hs' ha', rfl, rfl,
    by decide⟩

/-- **C151** (violated): the same for the bounds that are available in Python.  The wait for a resource includes requests
for all other resources that the task uses. -/
theorem C151_python_violated (s s' : Solver) (hs : ∀ P x, s P = some x → P.Maximum x)
    (hs' : ∀ P x, s' P = some x → P.Maximum x) (ha : ∀ P x, P.Maximum x → (s P).isSome)
    (ha' : ∀ P x, P.Maximum x → (s' P).isSome) (pr : LockPrio) : ∃ (info : Info) (fuel i b b' : ℕ) (bs bs' : List ℕ)
    (hi : i < info.length), (∀ j, ∀ hj : j < info.length, info[j].cluster = info[i].cluster → j = i) ∧
    preemptPrioBounds pr fuel s info = some bs ∧ prioBounds pr fuel s' info = some bs' ∧
    bs[i]? = some b ∧ bs'[i]? = some b' ∧ b' < b :=
  ⟨wideWait, 50, 0, 23, 21, _, _, by decide, by decide, wideWait_preemptPrio hs ha pr, wideWait_prio hs' ha' pr, rfl, rfl,
    by decide⟩

/-- **C152** (violated): the native analysis of preemptive priority-ordered spin locks is not safe.  A job that is preempted
twice is delayed by three requests of lower priority, of which two are counted. -/
theorem C152_preemptions_violated (solve : Solver) (hsolve : ∀ P x, solve P = some x → P.Maximum x)
    (hany : ∀ P x, P.Maximum x → (solve P).isSome) : ∃ (info : Info) (lockPrio : ℕ → ℕ → ℕ) (fuel : ℕ),
    (∀ t ∈ info, 0 < t.period ∧ t.deadline ≤ t.period ∧ t.response = t.deadline ∧
      (t.requests.map Request.resId).Nodup) ∧
    info.Pairwise (fun a b => a.priority < b.priority) ∧
    ∃ bs, nativePreemptPrioBounds lockPrio fuel solve info = some bs ∧
    (∀ t ∈ info, (Fp.boundResponseTimes fuel 1 (afterLpBounds info bs t.cluster)).map Prod.fst = some true) ∧
    ∃ R, PreemptPrioFp (system info) (fun i => (info.get i).priority) (fun i r => lockPrio i r) R ∧
      ¬ MeetsDeadlines R.work (system info).deadline R.sched :=
  ⟨againInfo, againPrio, 50, by decide, by decide, _, again_bounds hsolve hany, by decide +kernel,
    againTable.run againSys, again_run, again_missed⟩

end Verif.SR.Lp
