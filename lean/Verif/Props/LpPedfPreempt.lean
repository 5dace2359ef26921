/-
C130: the LP-based analysis of partitioned EDF scheduling with preemptive FIFO spin locks accepts a task set that misses a
deadline.
-/
import Verif.Model.LpPedfPreempt
import Verif.Lemmas.MixedCert
import Verif.Props.LpPedfWitness

namespace Verif.SR.Pedf
open Verif.Spec Verif.Spec.Mixed
open Verif.SR.Msrp (system)

/-- A certified solution of a program determines the result. -/
theorem solved_certified {V : Type} [DecidableEq V] {solve : Solver V} (hs : Optimal solve)
    (P : Option (MixedProgram V)) (v : ℕ) (l : List (ℕ × V))
    (cert : List (ℚ × ℕ)) (h : P.map (fun P => decide (Certified P l cert v)) = some true) :
    P.bind (solved solve) = some v := by
  cases P with
  | none => cases h
  | some P =>
    have h : Certified P l cert v := by simpa using h
    obtain ⟨hm, hv⟩ := h.maximum
    obtain ⟨x, hx, hm'⟩ := hs P ⟨_, hm⟩
    show solved solve P = some v
    unfold solved
    rw [hx, Option.map_some, Maximum.eq hm' hm, hv]
    simp

theorem exLocal_fifo {solve : Solver} (hs : Optimal solve) :
    (fifoPreemptBlocking solve exLocal 0).ac 1 0 = some 0 ∧ (fifoPreemptBlocking solve exLocal 0).ac 11 0 = some 0 ∧
    (fifoPreemptBlocking solve exLocal 0).pdc 4 = some 0 := by
  refine ⟨?_, ?_, ?_⟩
  · exact solved_certified hs (some (fifoPreemptProgram exLocal .ac 0 1 0 0 false)) 0 [] [(10, 0), (10, 3), (10, 4)]
      (by decide +kernel)
  · exact solved_certified hs (some (fifoPreemptProgram exLocal .ac 0 11 0 0 false)) 0 [] [(10, 1), (10, 4), (10, 5)]
      (by decide +kernel)
  · exact solved_certified hs (some (fifoPreemptProgram exLocal .pdc 0 4 0 0 true)) 0 [] [(10, 1), (10, 4), (10, 5)]
      (by decide +kernel)

theorem exLocal_fifo_accepted {solve : Solver} (hs : Optimal solve) :
    fifoPreemptIsSchedulable 20 solve exLocal = some true := by
  obtain ⟨h1, h2, h3⟩ := exLocal_fifo hs
  unfold fifoPreemptIsSchedulable
  have : (splitByCluster exLocal).length = 1 := by decide
  rw [this]
  show allClusters _ [0] = some true
  have e0 : isSchedulable 20 exLocal 0 (fifoPreemptBlocking solve exLocal 0) = some true := by
    have a1 : arrivalCurve exLocal 0 1 = 11 := by decide
    have a2 : arrivalCurve exLocal 0 11 = 11 := by decide
    have m : minDeadline exLocal 0 = 4 := by decide
    have l : lastCheckPointBefore exLocal 0 11 = 4 := by decide
    have d : dbf exLocal 0 4 = 1 := by decide
    simp [isSchedulable, scheduleLoop, h1, h2, a1, a2, m, qpa, qpaLoop, l, h3, d]
  simp only [allClusters, e0]

/-- **C130**, violated: the analysis of preemptive FIFO spin locks accepts tasks of one processor, whatever optimal
solutions the solver returns, although a job can miss its deadline.  The tasks share only a local resource, so that no job
spins and the protocol is the stack resource policy. -/
theorem C130_pedf_fifo_preempt_not_safe : ∃ info : Info,
    (∀ t ∈ info, 0 < t.cost ∧ 0 < t.deadline ∧ t.deadline ≤ t.period) ∧
    (∀ a ∈ info, ∀ b ∈ info, a.priority ≤ b.priority ↔ a.deadline ≤ b.deadline) ∧
    (∀ r, ¬ (system info).Global r) ∧
    (∀ solve, Optimal solve → ∃ fuel, fifoPreemptIsSchedulable fuel solve info = some true) ∧
    ∃ R, Spec.Msrp (system info) R ∧ (∀ s, R.issued s → R.acquire s < R.leave s) ∧
      ¬ MeetsDeadlines R.work (system info).deadline R.sched := by
  refine ⟨exLocal, by decide, by decide, ?_, fun solve hs => ⟨20, exLocal_fifo_accepted hs⟩, ?_⟩
  · rw [system_exLocal]
    exact global_locSys
  · rw [system_exLocal]
    refine ⟨locRun, msrp_locRun, fun s _ => ?_, missed_locRun⟩
    simp only [locRun]
    split_ifs <;> omega

/-! ### Wrap-around -/

theorem zeroOk_add {V : Type} {lp : MixedProgram V} {e : List (ℚ × V)} {b : ℚ} (h : ZeroOk lp) (hb : 0 ≤ b) :
    ZeroOk (addInequality lp e b) := by
  unfold addInequality
  split_ifs
  · exact h
  · intro c hc
    rcases List.mem_append.1 hc with hc | hc
    · exact h c hc
    · obtain rfl := List.mem_singleton.1 hc
      exact hb

theorem zeroOk_foldl {V α : Type} {f : MixedProgram V → α → MixedProgram V} (hf : ∀ lp a, ZeroOk lp → ZeroOk (f lp a))
    (l : List α) : ∀ lp, ZeroOk lp → ZeroOk (l.foldl f lp) := by
  induction l with
  | nil => intro lp h; exact h
  | cons a l ih => intro lp h; exact ih _ (hf _ _ h)

theorem zeroOk_of_feasible {V : Type} {P : MixedProgram V} (h : P.Feasible (fun _ => 0)) : ZeroOk P := by
  intro c hc
  have := h.le c hc
  have e : valueOf (fun _ : V => (0 : ℚ)) c.1 = 0 := by simp [valueOf]
  rwa [e] at this

theorem zeroOk_common {info : Info} {mode : Mode} {k t : ℕ} : ZeroOk (commonProgram info mode k t) := by
  have h := zero_feasible (info := info) (mode := mode) (k := k) (t := t)
  unfold msrpProgram at h
  rw [feas_oneArrivalPerProcessor, feas_spinPerTask, feas_oneSpinPerProcessor] at h
  exact zeroOk_of_feasible h.1.1.1

theorem zeroOk_fifo {info : Info} {mode : Mode} {k t : ℕ} {relax : Bool} :
    ZeroOk (fifoPreemptProgram info mode k t 0 0 relax) := by
  unfold fifoPreemptProgram blockingRange
  rw [if_neg (by decide)]
  refine zeroOk_add ?_ (by decide +kernel)
  refine zeroOk_foldl (fun lp c h => zeroOk_foldl (fun lp q h => zeroOk_add h (Nat.cast_nonneg _)) _ _ h) _ _ ?_
  refine zeroOk_foldl (fun lp i h => zeroOk_add h (Nat.cast_nonneg _)) _ _ ?_
  refine zeroOk_add ?_ le_rfl
  refine zeroOk_foldl (fun lp i h => ?_) _ _ ?_
  · exact zeroOk_add (fun c hc => h c hc) (Nat.cast_nonneg _)
  exact zeroOk_add zeroOk_common le_rfl

theorem exWrap_fifo_zero {mode : Mode} {t : ℕ} {relax : Bool} {x : Var → ℚ}
    (h : (fifoPreemptProgram exWrap mode 0 t 0 0 relax).Feasible x) :
    valueOf x (fifoPreemptProgram exWrap mode 0 t 0 0 relax).objective = 0 := by
  have hr : Lp.allResources exWrap = [0] := by decide
  have ht : Lp.tasks exWrap = [(0, exWrap[0]), (1, exWrap[1])] := by decide
  have hl : localIds exWrap 1 = [(1, exWrap[1])] := by decide
  have hl0 : localIds exWrap 0 = [(0, exWrap[0])] := by decide
  have hm : remoteIds exWrap 0 = [(1, exWrap[1])] := by decide
  have hc : otherClusters exWrap 0 = [1] := by decide
  have hk : localTasks exWrap 0 = [exWrap[0]] := by decide
  have hs : shorterTasks exWrap 0 exWrap[0].deadline = [] := by decide
  have hn : Lp.numRequests exWrap[0] 0 = 0 := by decide
  unfold fifoPreemptProgram blockingRange at h ⊢
  rw [if_neg (by decide)] at h ⊢
  rw [objective_add]
  unfold oneSpinOrCancellation maxPreemptions maxCancellations noTransitiveArrival at h ⊢
  simp only [hr, hc, hl, hl0, hm, hk, List.foldl_cons, List.foldl_nil, List.map_cons, List.map_nil, List.flatMap_cons, List.flatMap_nil,
    List.append_nil, List.cons_append, List.nil_append, objective_add, hs, hn, List.sum_nil, List.sum_cons, Nat.mul_zero, Nat.zero_mul,
    Nat.add_zero, Nat.cast_zero] at h ⊢
  rw [feas_add (by decide +kernel), feas_add le_rfl, feas_add le_rfl] at h
  rw [feas_add le_rfl, feas_add le_rfl] at h
  obtain ⟨⟨⟨⟨⟨h1, h2⟩, _⟩, _⟩, h3⟩, _⟩ := h
  have h4 := h1.le ([(1, .arrival 1 0)], 0) (List.mem_append_right _ (List.mem_singleton_self _))
  have hcom : (commonProgram exWrap mode 0 t).Feasible x := by
    refine ⟨fun c hc => h1.le c (List.mem_append_left _ hc), fun v hv => h1.nonneg v (List.mem_cons_of_mem _ hv),
      h1.binary, fun v hv => h1.integer v ?_⟩
    show v ∈ (if relax = true then (commonProgram exWrap mode 0 t).integers
      else Var.cancelled 0 0 :: (commonProgram exWrap mode 0 t).integers)
    split_ifs
    · exact hv
    · exact List.mem_cons_of_mem _ hv
  unfold commonProgram at hcom
  rw [feas_setObjective] at hcom
  have h5 := hcom.2 (1, exWrap[1]) (by rw [ht]; simp) 0 (by rw [hr]; simp)
  simp [valueOf_cons, valueOf_nil] at h2 h3 h4 h5
  have h6 : x (.spin 1 0) = 0 := by linarith
  have h7 : x (.arrival 1 0) = 0 := by linarith
  rw [objective_common, ht, hr]
  simp [h6, h7, exWrap, requestLength, valueOf_cons, valueOf_nil]

theorem exWrap_fifo_diverges {solve : Solver} (hs : Optimal solve) (fuel : ℕ) :
    fifoPreemptIsSchedulable fuel solve exWrap = none := by
  unfold fifoPreemptIsSchedulable
  have : (splitByCluster exWrap).length = 2 := by decide
  rw [this]
  show allClusters _ [0, 1] = none
  unfold allClusters
  rw [exWrap_none (fun _ => solved_zero hs zeroOk_fifo.feasible (fun x hx => exWrap_fifo_zero hx))
    (solved_zero hs zeroOk_fifo.feasible (fun x hx => exWrap_fifo_zero hx))]

end Verif.SR.Pedf
