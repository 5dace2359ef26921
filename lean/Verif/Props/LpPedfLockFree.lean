/-
C131, C132: the LP-based analyses of partitioned EDF scheduling with lock-free synchronisation accept task sets that
miss deadlines.  C133: these analyses and the one of preemptive spin locks do not terminate for some tasks.
-/
import Verif.Model.LpPedfLockFree
import Verif.Spec.LockFree
import Verif.Lemmas.CommitTable
import Verif.Props.LpPedfPreempt

namespace Verif.SR.Pedf.LockFree
open Verif.Spec Verif.Spec.Mixed Verif.SR.Pedf
open Verif.SR.Msrp (system)

/-! ### Non-preemptive commit loops -/

/-- Tasks 0 and 1 are assigned to one processor and task 2 to another one.  Tasks 1 and 2 share an object. -/
def exNp : Info :=
  [⟨0, 100, 3, 3, 0, 1, []⟩, ⟨1, 100, 100, 100, 0, 2, [⟨0, 1, 2, false⟩]⟩, ⟨2, 100, 100, 100, 1, 1, [⟨0, 1, 1, false⟩]⟩]

/-- The bounds for a processor. -/
def npBounds (solve : Solver Var) (k : ℕ) : Blocking := blocking solve exNp k (fun mode => npProgram 10 exNp mode k)

theorem exNp_bounds {solve : Solver Var} (hs : Optimal solve) :
    (npBounds solve 0).ac 1 0 = some 4 ∧ (npBounds solve 0).ac 7 4 = some 4 ∧ (npBounds solve 0).pdc 3 = some 2 ∧
    (npBounds solve 1).ac 1 0 = some 2 ∧ (npBounds solve 1).ac 3 2 = some 2 := by
  refine ⟨?_, ?_, ?_, ?_, ?_⟩
  · exact solved_certified hs (npProgram 10 exNp .ac 0 1 0 0 false) 4 [(2, .remote 1 0)] [(2, 7), (2, 3), (2, 5)]
      (by decide +kernel)
  · exact solved_certified hs (npProgram 10 exNp .ac 0 7 4 0 false) 4 [(2, .remote 1 0)] [(2, 7), (2, 3), (2, 5)]
      (by decide +kernel)
  · exact solved_certified hs (npProgram 10 exNp .pdc 0 3 0 0 true) 2 [(1, .arrival 1 0)] [(2, 7), (2, 3), (2, 5)]
      (by decide +kernel)
  · exact solved_certified hs (npProgram 10 exNp .ac 1 1 0 0 false) 2 [(2, .remote 2 0)] [(1, 1), (1, 2), (1, 4)]
      (by decide +kernel)
  · exact solved_certified hs (npProgram 10 exNp .ac 1 3 2 0 false) 2 [(2, .remote 2 0)] [(1, 1), (1, 2), (1, 4)]
      (by decide +kernel)

theorem exNp_accepted {solve : Solver Var} (hs : Optimal solve) : npIsSchedulable 10 solve exNp = some true := by
  obtain ⟨h1, h2, h3, h4, h5⟩ := exNp_bounds hs
  unfold npIsSchedulable
  have : (splitByCluster exNp).length = 2 := by decide
  rw [this]
  show allClusters _ [0, 1] = some true
  have e0 : isSchedulable 10 exNp 0 (npBounds solve 0) = some true := by
    have a1 : arrivalCurve exNp 0 1 = 3 := by decide
    have a2 : arrivalCurve exNp 0 7 = 3 := by decide
    have m : minDeadline exNp 0 = 3 := by decide
    have l : lastCheckPointBefore exNp 0 7 = 3 := by decide
    have l' : lastCheckPointBefore exNp 0 3 = 1 := by decide
    have d : dbf exNp 0 3 = 1 := by decide
    simp [isSchedulable, scheduleLoop, h1, h2, a1, a2, m, qpa, qpaLoop, l, h3, d, l']
  have e1 : isSchedulable 10 exNp 1 (npBounds solve 1) = some true := by
    have a1 : arrivalCurve exNp 1 1 = 1 := by decide
    have a2 : arrivalCurve exNp 1 3 = 1 := by decide
    have m : minDeadline exNp 1 = 100 := by decide
    have l : lastCheckPointBefore exNp 1 3 = 1 := by decide
    simp [isSchedulable, scheduleLoop, h4, h5, a1, a2, m, qpa, qpaLoop, l]
  unfold npBounds at e0 e1
  simp only [allClusters, e0, e1]

/-- Task 1 retries once, since task 2 commits at time 1.  Task 0, which arrives at time 1, waits until time 4. -/
def npTable : CommitTable exNp.length where
  entries := [⟨((0 : Fin 3), 0), {4}, []⟩, ⟨((1 : Fin 3), 0), {0, 1, 2, 3}, [0, 2, 4]⟩, ⟨((2 : Fin 3), 0), {0}, [0, 1]⟩]
  first i := if i.1 = 0 then 1 else 0

theorem npTable_ok : npTable.Ok (system exNp) (fun _ => 0) (fun j => if j.1.1 = 1 then 2 else 1) where
  req := by
    intro j hj
    have : npTable.jobs = [((0 : Fin 3), 0), ((1 : Fin 3), 0), ((2 : Fin 3), 0)] := rfl
    rw [this] at hj
    fin_cases hj
    · intro h; exact absurd rfl h
    · intro _; rfl
    · intro _; rfl
  cost := by decide +kernel
  one := by decide +kernel
  ready := by decide +kernel
  attempts := by decide +kernel
  conflict := by decide +kernel
  loops := by decide +kernel

/-- **C131**, violated: the analysis of partitioned EDF scheduling with non-preemptive lock-free synchronisation accepts a task set
that misses a deadline, whatever optimal solutions the solver finds. -/
theorem C131_lockfree_np_not_safe : ∃ (info : Info) (R : CommitRun info.length),
    NonPreemptiveCommits (system info) R ∧ ¬ MeetsDeadlines R.work (system info).deadline R.sched ∧
    ∀ solve : Solver Var, Optimal solve → ∃ fuel, npIsSchedulable fuel solve info = some true :=
  ⟨exNp, npTable.run (system exNp), npTable_ok.nonpreemptive (by decide +kernel) (by decide +kernel),
    CommitTable.missed (j := ((0 : Fin 3), 0)) (u := 4) (by decide +kernel) (by decide +kernel),
    fun _ hs => ⟨10, exNp_accepted hs⟩⟩

/-! ### Preemptive commit loops -/

/-- Tasks 0 and 1 are assigned to one processor and use different objects, which they share with tasks 2 and 3,
respectively, of other processors. -/
def exLf : Info :=
  [⟨0, 1000, 24, 24, 0, 2, [⟨0, 1, 2, false⟩]⟩, ⟨1, 1000, 20, 20, 0, 10, [⟨1, 1, 10, false⟩]⟩,
   ⟨2, 18, 4, 4, 1, 1, [⟨0, 1, 1, false⟩]⟩, ⟨3, 1000, 4, 4, 2, 1, [⟨1, 1, 1, false⟩]⟩]

/-- The bounds for a processor. -/
def lfBounds (solve : Solver Var) (k : ℕ) : Blocking := blocking solve exLf k (fun mode => preemptProgram 10 exLf mode k)

theorem exLf_bounds {solve : Solver Var} (hs : Optimal solve) :
    (lfBounds solve 0).ac 1 0 = some 12 ∧ (lfBounds solve 0).ac 24 12 = some 12 ∧ (lfBounds solve 0).pdc 20 = some 10 ∧
    (lfBounds solve 1).ac 1 0 = some 1 ∧ (lfBounds solve 1).ac 2 1 = some 1 ∧
    (lfBounds solve 2).ac 1 0 = some 1 ∧ (lfBounds solve 2).ac 2 1 = some 1 := by
  refine ⟨?_, ?_, ?_, ?_, ?_, ?_, ?_⟩
  · exact solved_certified hs (preemptProgram 10 exLf .ac 0 1 0 0 false) 12 [(1, .remote 0 0), (1, .remote 1 1)]
      [(2, 15), (10, 17), (10, 4), (10, 6), (2, 7), (10, 10)] (by decide +kernel)
  · exact solved_certified hs (preemptProgram 10 exLf .ac 0 24 12 0 false) 12 [(1, .remote 0 0), (1, .remote 1 1)]
      [(2, 15), (10, 17), (10, 4), (10, 6), (2, 7), (10, 10)] (by decide +kernel)
  · exact solved_certified hs (preemptProgram 10 exLf .pdc 0 20 0 0 true) 10 [(1, .remote 1 1)]
      [(2, 15), (10, 17), (10, 4), (10, 6), (2, 7), (10, 10)] (by decide +kernel)
  · exact solved_certified hs (preemptProgram 10 exLf .ac 1 1 0 0 false) 1 [(1, .remote 2 0)] [(1, 2), (1, 4), (1, 7)]
      (by decide +kernel)
  · exact solved_certified hs (preemptProgram 10 exLf .ac 1 2 1 0 false) 1 [(1, .remote 2 0)] [(1, 2), (1, 4), (1, 7)]
      (by decide +kernel)
  · exact solved_certified hs (preemptProgram 10 exLf .ac 2 1 0 0 false) 1 [(1, .remote 3 1)] [(1, 3), (1, 4), (1, 7)]
      (by decide +kernel)
  · exact solved_certified hs (preemptProgram 10 exLf .ac 2 2 1 0 false) 1 [(1, .remote 3 1)] [(1, 3), (1, 4), (1, 7)]
      (by decide +kernel)

theorem exLf_accepted {solve : Solver Var} (hs : Optimal solve) : preemptIsSchedulable 10 solve exLf = some true := by
  obtain ⟨h1, h2, h3, h4, h5, h6, h7⟩ := exLf_bounds hs
  unfold preemptIsSchedulable
  have : (splitByCluster exLf).length = 3 := by decide
  rw [this]
  show allClusters _ [0, 1, 2] = some true
  have e0 : isSchedulable 10 exLf 0 (lfBounds solve 0) = some true := by
    have a1 : arrivalCurve exLf 0 1 = 12 := by decide
    have a2 : arrivalCurve exLf 0 24 = 12 := by decide
    have m : minDeadline exLf 0 = 20 := by decide
    have l : lastCheckPointBefore exLf 0 24 = 20 := by decide
    have l' : lastCheckPointBefore exLf 0 20 = 15 := by decide
    have d : dbf exLf 0 20 = 10 := by decide
    simp [isSchedulable, scheduleLoop, h1, h2, a1, a2, m, qpa, qpaLoop, l, h3, d, l']
  have e1 : isSchedulable 10 exLf 1 (lfBounds solve 1) = some true := by
    have a1 : arrivalCurve exLf 1 1 = 1 := by decide
    have a2 : arrivalCurve exLf 1 2 = 1 := by decide
    have m : minDeadline exLf 1 = 4 := by decide
    have l : lastCheckPointBefore exLf 1 2 = 0 := by decide
    simp [isSchedulable, scheduleLoop, h4, h5, a1, a2, m, qpa, qpaLoop, l]
  have e2 : isSchedulable 10 exLf 2 (lfBounds solve 2) = some true := by
    have a1 : arrivalCurve exLf 2 1 = 1 := by decide
    have a2 : arrivalCurve exLf 2 2 = 1 := by decide
    have m : minDeadline exLf 2 = 4 := by decide
    have l : lastCheckPointBefore exLf 2 2 = 0 := by decide
    simp [isSchedulable, scheduleLoop, h6, h7, a1, a2, m, qpa, qpaLoop, l]
  unfold lfBounds at e0 e1 e2
  simp only [allClusters, e0, e1, e2]

/-- Task 2 commits at times 1 and 19, task 3 at time 4.  The second attempt of task 0 is preempted by task 1. -/
def lfTable : CommitTable exLf.length where
  entries := [⟨((0 : Fin 4), 0), {0, 1, 2, 23, 24, 25}, [0, 2, 24, 26]⟩,
    ⟨((1 : Fin 4), 0), Finset.Ico 3 23, [3, 13, 23]⟩, ⟨((2 : Fin 4), 0), {0}, [0, 1]⟩,
    ⟨((2 : Fin 4), 1), {18}, [18, 19]⟩, ⟨((3 : Fin 4), 0), {3}, [3, 4]⟩]
  first i := if i.1 = 1 ∨ i.1 = 3 then 3 else 0

theorem lfTable_ok : lfTable.Ok (system exLf) (fun j => j.1.1 % 2)
    (fun j => if j.1.1 = 0 then 2 else if j.1.1 = 1 then 10 else 1) where
  req := by
    intro j hj
    have : lfTable.jobs = [((0 : Fin 4), 0), ((1 : Fin 4), 0), ((2 : Fin 4), 0), ((2 : Fin 4), 1), ((3 : Fin 4), 0)] := rfl
    rw [this] at hj
    fin_cases hj <;> (intro _; rfl)
  cost := by decide +kernel
  one := by decide +kernel
  ready := by decide +kernel
  attempts := by decide +kernel
  conflict := by decide +kernel
  loops := by decide +kernel

/-- **C132**, violated: the analysis of partitioned EDF scheduling with preemptive lock-free synchronisation accepts a task set that
misses a deadline, whatever optimal solutions the solver finds. -/
theorem C132_lockfree_preempt_not_safe : ∃ (info : Info) (R : CommitRun info.length),
    PreemptiveCommits (system info) R ∧ ¬ MeetsDeadlines R.work (system info).deadline R.sched ∧
    ∀ solve : Solver Var, Optimal solve → ∃ fuel, preemptIsSchedulable fuel solve info = some true :=
  ⟨exLf, lfTable.run (system exLf), lfTable_ok.preemptive (by decide +kernel),
    CommitTable.missed (j := ((0 : Fin 4), 0)) (u := 25) (by decide +kernel) (by decide +kernel),
    fun _ hs => ⟨10, exLf_accepted hs⟩⟩

/-! ### Wrap-around -/

theorem zeroOk_blockingRange {terms : List (ℚ × Var)} {lp : Program} (h : ZeroOk lp) : ZeroOk (blockingRange terms 0 0 lp) := by
  unfold blockingRange
  rw [if_neg (by decide)]
  exact zeroOk_add h (by decide +kernel)

theorem zeroOk_common {info : Info} {mode : Mode} {k t : ℕ} {relax : Bool} :
    ZeroOk (commonProgram info mode k t 0 0 relax) := by
  have h : ZeroOk (oneRetryPerCommit info k t (notAccessed info k (blockingRange (retryTerms info k) 0 0 {}))) := by
    refine zeroOk_foldl (fun lp q h => zeroOk_add h (Nat.cast_nonneg _)) _ _ (zeroOk_add ?_ le_rfl)
    exact zeroOk_blockingRange (fun c hc => by cases hc)
  cases mode with
  | ac => exact zeroOk_add (b := 0) h le_rfl
  | pdc => exact h

theorem zeroOk_remoteConflicts {info : Info} {mode : Mode} {k t : ℕ} {times : List ((ℕ × TaskInfo) × ℕ × ℕ)}
    {lp : Program} (h : ZeroOk lp) : ZeroOk (remoteConflicts info mode k t times lp) := by
  refine zeroOk_foldl (fun lp c h => ?_) _ _ h
  split_ifs
  · exact h
  · exact zeroOk_add h (Nat.cast_nonneg _)

/-- Zero is a solution of the programs for preemptive commit loops. -/
theorem zeroOk_preempt {fuel : ℕ} {info : Info} {mode : Mode} {k t : ℕ} {relax : Bool} {P : Program}
    (h : preemptProgram fuel info mode k t 0 0 relax = some P) : ZeroOk P := by
  unfold preemptProgram at h
  obtain ⟨times, _, rfl⟩ := Option.map_eq_some_iff.1 h
  refine zeroOk_remoteConflicts ?_
  refine zeroOk_foldl (fun lp j h => zeroOk_foldl (fun lp q h => zeroOk_add h (Nat.cast_nonneg _)) _ _ h) _ _ ?_
  refine zeroOk_foldl (fun lp j h => zeroOk_foldl (fun lp q h => zeroOk_add h (Nat.cast_nonneg _)) _ _ h) _ _ ?_
  exact zeroOk_add (zeroOk_add (zeroOk_add zeroOk_common le_rfl) le_rfl) le_rfl

/-- Zero is a solution of the programs for non-preemptive commit loops. -/
theorem zeroOk_np {fuel : ℕ} {info : Info} {mode : Mode} {k t : ℕ} {relax : Bool} {P : Program}
    (h : npProgram fuel info mode k t 0 0 relax = some P) : ZeroOk P := by
  unfold npProgram at h
  obtain ⟨times, _, rfl⟩ := Option.map_eq_some_iff.1 h
  refine zeroOk_remoteConflicts (zeroOk_add ?_ le_rfl)
  refine zeroOk_foldl (fun lp j h => zeroOk_foldl (fun lp q h => zeroOk_add h le_rfl) _ _ h) _ _ ?_
  refine zeroOk_foldl (fun lp j h => zeroOk_foldl (fun lp q h => zeroOk_add h (Nat.cast_nonneg _)) _ _ h) _ _ ?_
  exact zeroOk_add (zeroOk_add zeroOk_common zero_le_one) le_rfl

theorem obj_add (lp : Program) (e : List (ℚ × Var)) (b : ℚ) : (addInequality lp e b).objective = lp.objective := by
  unfold addInequality
  split_ifs <;> rfl

theorem obj_foldl {α : Type} {f : Program → α → Program} (hf : ∀ lp a, (f lp a).objective = lp.objective)
    (l : List α) : ∀ lp, (l.foldl f lp).objective = lp.objective := by
  induction l with
  | nil => intro lp; rfl
  | cons a l ih => intro lp; rw [List.foldl_cons, ih, hf]

theorem obj_common {info : Info} {mode : Mode} {k t : ℕ} {relax : Bool} :
    (commonProgram info mode k t 0 0 relax).objective = retryTerms info k := by
  have h : (oneRetryPerCommit info k t (notAccessed info k (blockingRange (retryTerms info k) 0 0 {}))).objective = [] := by
    unfold oneRetryPerCommit notAccessed blockingRange
    rw [obj_foldl (fun lp q => obj_add _ _ _), obj_add, if_neg (by decide), obj_add]
  cases mode with
  | ac =>
    show (noArrival info k _).objective ++ _ = _
    unfold noArrival
    rw [obj_add, h, List.nil_append]
  | pdc =>
    show (oneRetryPerCommit info k t _).objective ++ _ = _
    rw [h, List.nil_append]

theorem obj_remoteConflicts {info : Info} {mode : Mode} {k t : ℕ} {times : List ((ℕ × TaskInfo) × ℕ × ℕ)}
    {lp : Program} : (remoteConflicts info mode k t times lp).objective = lp.objective := by
  refine obj_foldl (fun lp c => ?_) _ _
  split_ifs
  · rfl
  · exact obj_add _ _ _

theorem obj_preempt {fuel : ℕ} {info : Info} {mode : Mode} {k t : ℕ} {relax : Bool} {P : Program}
    (h : preemptProgram fuel info mode k t 0 0 relax = some P) : P.objective = retryTerms info k := by
  unfold preemptProgram at h
  obtain ⟨times, _, rfl⟩ := Option.map_eq_some_iff.1 h
  unfold oneRetryPerJob oneRetryPerPreemption noCause noJobs noArrival
  rw [obj_remoteConflicts, obj_foldl (fun lp j => obj_foldl (fun lp q => obj_add _ _ _) _ _),
    obj_foldl (fun lp j => obj_foldl (fun lp q => obj_add _ _ _) _ _), obj_add, obj_add, obj_add, obj_common]

theorem obj_np {fuel : ℕ} {info : Info} {mode : Mode} {k t : ℕ} {relax : Bool} {P : Program}
    (h : npProgram fuel info mode k t 0 0 relax = some P) : P.objective = retryTerms info k := by
  unfold npProgram at h
  obtain ⟨times, _, rfl⟩ := Option.map_eq_some_iff.1 h
  unfold noLocalConflicts transitiveArrival noCommit noArrivalInside oneArrival
  rw [obj_remoteConflicts, obj_add, obj_foldl (fun lp j => obj_foldl (fun lp q => obj_add _ _ _) _ _),
    obj_foldl (fun lp j => obj_foldl (fun lp q => obj_add _ _ _) _ _), obj_add, obj_add, obj_common]

theorem exWrap_terms (x : Var → ℚ) : valueOf x (retryTerms exWrap 0) = 0 := by
  have hr : Lp.allResources exWrap = [0] := by decide
  have hl : localIds exWrap 0 = [(0, exWrap[0])] := by decide
  have hn : requestLength exWrap[0] 0 = 0 := by decide
  unfold retryTerms
  rw [hr, hl]
  simp only [List.flatMap_cons, List.flatMap_nil, List.map_cons, List.map_nil, hn, List.append_nil]
  simp [valueOf]

theorem exWrap_preempt_program {fuel : ℕ} {mode : Mode} {t : ℕ} {relax : Bool} :
    ∃ P, preemptProgram (fuel + 1) exWrap mode 0 t 0 0 relax = some P := by
  have : commitTimes exWrap 0 (preemptTime (fuel + 1) exWrap 0) = some [((0, exWrap[0]), 0, 0)] := rfl
  unfold preemptProgram
  rw [this]
  exact ⟨_, rfl⟩

theorem exWrap_np_program {fuel : ℕ} {mode : Mode} {t : ℕ} {relax : Bool} :
    ∃ P, npProgram (fuel + 1) exWrap mode 0 t 0 0 relax = some P := by
  have : commitTimes exWrap 0 (npTime (fuel + 1) exWrap 0) = some [((0, exWrap[0]), 0, 0)] := rfl
  unfold npProgram
  rw [this]
  exact ⟨_, rfl⟩

theorem exWrap_preempt_diverges {solve : Solver Var} (hs : Optimal solve) (fuel : ℕ) :
    preemptIsSchedulable fuel solve exWrap = none := by
  unfold preemptIsSchedulable
  have : (splitByCluster exWrap).length = 2 := by decide
  rw [this]
  show allClusters _ [0, 1] = none
  unfold allClusters
  cases fuel with
  | zero => rfl
  | succ fuel =>
    have hz : ∀ mode t relax, (preemptProgram (fuel + 1) exWrap mode 0 t 0 0 relax).bind (solved solve) = some 0 := by
      intro mode t relax
      obtain ⟨P, hP⟩ := exWrap_preempt_program (fuel := fuel) (mode := mode) (t := t) (relax := relax)
      rw [hP]
      exact solved_zero hs (zeroOk_preempt hP).feasible (fun x _ => by rw [obj_preempt hP, exWrap_terms])
    rw [exWrap_none (b := blocking solve exWrap 0 (fun mode => preemptProgram (fuel + 1) exWrap mode 0))
      (fun t => hz .pdc t true) (hz .ac 1 false)]

theorem exWrap_np_diverges {solve : Solver Var} (hs : Optimal solve) (fuel : ℕ) :
    npIsSchedulable fuel solve exWrap = none := by
  unfold npIsSchedulable
  have : (splitByCluster exWrap).length = 2 := by decide
  rw [this]
  show allClusters _ [0, 1] = none
  unfold allClusters
  cases fuel with
  | zero => rfl
  | succ fuel =>
    have hz : ∀ mode t relax, (npProgram (fuel + 1) exWrap mode 0 t 0 0 relax).bind (solved solve) = some 0 := by
      intro mode t relax
      obtain ⟨P, hP⟩ := exWrap_np_program (fuel := fuel) (mode := mode) (t := t) (relax := relax)
      rw [hP]
      exact solved_zero hs (zeroOk_np hP).feasible (fun x _ => by rw [obj_np hP, exWrap_terms])
    rw [exWrap_none (b := blocking solve exWrap 0 (fun mode => npProgram (fuel + 1) exWrap mode 0))
      (fun t => hz .pdc t true) (hz .ac 1 false)]

/-- **C133**, violated: for some tasks the tests of preemptive FIFO spin locks and of lock-free synchronisation do not
terminate, whatever optimal solutions the solver returns, although the processors have a utilization of at most one
half. -/
theorem C133_pedf_lp_diverges : ∃ info : Info,
    (∀ t ∈ info, 0 < t.cost ∧ 2 * t.cost ≤ t.period ∧ t.cost ≤ t.deadline ∧ t.deadline ≤ t.period) ∧
    (info.map TaskInfo.cluster).Nodup ∧
    (∀ solve, Optimal solve → ∀ fuel, fifoPreemptIsSchedulable fuel solve info = none) ∧
    (∀ solve, Optimal solve → ∀ fuel, preemptIsSchedulable fuel solve info = none) ∧
    ∀ solve, Optimal solve → ∀ fuel, npIsSchedulable fuel solve info = none :=
  ⟨exWrap, by decide, by decide, fun _ hs fuel => exWrap_fifo_diverges hs fuel,
    fun _ hs fuel => exWrap_preempt_diverges hs fuel, fun _ hs fuel => exWrap_np_diverges hs fuel⟩

end Verif.SR.Pedf.LockFree
