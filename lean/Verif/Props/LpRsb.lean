/-
C146, C147: the LP-based response-time analyses of global fixed-priority scheduling with restricted segment boosting
(`lp_global_fmlpp_bounds` and `lp_prsb_bounds`, used by `apply_global_fmlpp_bounds` and `apply_prsb_bounds` in
`schedcat/locking/bounds.py`).
-/
import Verif.Lemmas.LpRsb
import Verif.Spec.Conserving
import Verif.Props.LpGlobalPrio
import Verif.Props.LpGlobalEnd

namespace Verif.SR.Lp.Glob
open Verif.Spec Finset
open Verif.SR.Msrp (system)

variable {info : Info}

/-! ### C146: the programs -/

/-- **C146**: for every number of processors, the coefficients of the programs are numbers, and a bound is computed for
each task.  (The loops for priority queues end after at most `D + 2` iterations if no deadline exceeds `D`.) -/
def RsbDefined : Prop :=
  ∀ (info : Info) (m : ℕ) (solve : Solver), 0 < m →
    (∀ (i : ℕ) (t : TaskInfo), info[i]? = some t → t.priority = i) → (∀ t ∈ info, t.cost ≤ t.response) →
    ∀ (D fuel : ℕ), (∀ t ∈ info, t.deadline ≤ D) → D + 2 ≤ fuel →
    (∃ bs, fmlppBounds solve info m = some bs) ∧ (∃ bs, prsbBounds solve fuel info m = some bs)

theorem rsbConstraints_one (hlen : 2 ≤ info.length) (ti : TaskInfo) (P : Program) :
    rsbConstraints info 0 ti 1 P = none := by
  unfold rsbConstraints
  have h2 : (((1 : ℕ), info.get ⟨1, by omega⟩) : ℕ × TaskInfo) ∈ others info 0 :=
    mem_others (k := ⟨0, by omega⟩).2 ⟨⟨1, by omega⟩, by simp, rfl⟩
  have h3 : ∀ P, rsbTotalConstraint info 0 ti 1 P = none := by
    intro P
    unfold rsbTotalConstraint
    rw [if_pos]
    exact ⟨List.any_eq_true.2 ⟨_, h2, by simp⟩, rfl⟩
  dsimp only
  rw [h3]
  rfl

/-- **C146**: on one processor, no program is ever formulated without an infinite coefficient if there are at least two
tasks. -/
theorem C146_one_processor_violated (solve : Solver) (fuel : ℕ) (info : Info) (hlen : 2 ≤ info.length) :
    fmlppBounds solve info 1 = none ∧ prsbBounds solve fuel info 1 = none := by
  constructor
  · by_contra hne
    obtain ⟨bs, h⟩ := Option.ne_none_iff_exists'.1 hne
    obtain ⟨_, P, _, hP, _⟩ := bounds_get h ⟨0, by omega⟩
    unfold fmlppProgram at hP
    rw [rsbConstraints_one hlen] at hP
    cases hP
  · by_contra hne
    obtain ⟨bs, h⟩ := Option.ne_none_iff_exists'.1 hne
    obtain ⟨_, P, _, hP, _⟩ := bounds_get h ⟨0, by omega⟩
    unfold prsbProgram at hP
    dsimp only at hP
    rw [rsbConstraints_one hlen] at hP
    cases hP

/-- Two tasks without requests. -/
def exPair : Info := [⟨0, 10, 10, 1, 0, 1, []⟩, ⟨1, 10, 10, 2, 0, 1, []⟩]

theorem exPair_priority : ∀ (i : ℕ) (t : TaskInfo), exPair[i]? = some t → t.priority = i := by
  intro i t h
  rcases i with _ | _ | i
  · cases h; rfl
  · cases h; rfl
  · simp [exPair] at h

theorem C146_defined_violated : ¬ RsbDefined := by
  intro h
  obtain ⟨⟨bs, h1⟩, _⟩ := h exPair 1 (fun _ => none) (by omega) exPair_priority (by decide) 10 12 (by decide) (by omega)
  rw [(C146_one_processor_violated _ 12 exPair (by decide)).1] at h1
  cases h1

theorem inversePred_ne {m : ℕ} (hm : 2 ≤ m) : inversePred m ≠ none := by
  unfold inversePred
  rw [if_neg (by omega)]
  simp

theorem rsbConstraints_isSome {m : ℕ} (hm : 2 ≤ m) (i : ℕ) (ti : TaskInfo) (P : Program) :
    ∃ P', rsbConstraints info i ti m P = some P' := by
  unfold rsbConstraints rsbTotalConstraint rsbTotalCoBoostingConstraint
  dsimp only
  rw [if_neg (fun h => inversePred_ne hm h.2), Option.bind_some, if_neg (fun h => inversePred_ne hm h.2)]
  exact ⟨_, rfl⟩

theorem directBlockingLoop_isSome {ti : TaskInfo} {wait : ℕ → Option ℕ} (hw : ∀ q, (wait q).isSome) :
    ∀ (l : List ℕ) (total : ℕ), (directBlockingLoop info ti wait l total).isSome := by
  intro l
  induction l with
  | nil => intro total; rfl
  | cons q l ih =>
    intro total
    obtain ⟨w, h⟩ := Option.isSome_iff_exists.1 (hw q)
    rw [directBlockingLoop, h, Option.bind_some]
    split_ifs
    · rfl
    · exact ih _

/-- **C146**: on two or more processors, a bound is computed for each task. -/
theorem C146_defined_partial (info : Info) (m : ℕ) (solve : Solver) (hm : 2 ≤ m)
    (hprio : ∀ (i : ℕ) (t : TaskInfo), info[i]? = some t → t.priority = i) (hT : ∀ t ∈ info, t.cost ≤ t.response)
    (D fuel : ℕ) (hD : ∀ t ∈ info, t.deadline ≤ D) (hfuel : D + 2 ≤ fuel) :
    (∃ bs, fmlppBounds solve info m = some bs) ∧ (∃ bs, prsbBounds solve fuel info m = some bs) := by
  constructor
  · rw [← Option.isSome_iff_exists]
    apply bounds_isSome hprio hT
    intro i t _
    obtain ⟨P, hP⟩ := rsbConstraints_isSome (info := info) hm i t (generic info i t m)
    unfold fmlppProgram
    rw [hP]
    rfl
  · rw [← Option.isSome_iff_exists]
    apply bounds_isSome hprio hT
    intro i t ht
    have h1 := hD t ht
    obtain ⟨P, hP⟩ := rsbConstraints_isSome (info := info) hm i t (generic info i t m)
    unfold prsbProgram
    dsimp only
    rw [hP, Option.bind_some]
    have h2 : (prsbIndirectConstraints info t fuel (fun tx q => some (rsbHold info i tx q))
        (prioLowerConstraints info t P)).isSome := by
      unfold prsbIndirectConstraints
      rw [Option.isSome_map]
      exact directBlockingLoop_isSome (fun q => waitTime_isSome (fun _ _ => rfl) (by omega)) _ _
    obtain ⟨P2, h3⟩ := Option.isSome_iff_exists.1 h2
    rw [h3, Option.bind_some]
    exact prioHigherConstraints_isSome (fun _ _ _ => rfl) (by omega) _

example : (∀ (i : ℕ) (t : TaskInfo), exPair[i]? = some t → t.priority = i) ∧ (∀ t ∈ exPair, t.cost ≤ t.response) ∧
    ∀ t ∈ exPair, t.deadline ≤ 10 := ⟨exPair_priority, by decide, by decide⟩

/-! ### C147: safety -/

section
variable {R : LockRun info.length} {k : Fin info.length} {m q : ℕ}

/-- The program for FIFO queues admits the delays of a job that is delayed only directly and by higher-priority jobs. -/
theorem fmlpp_step (h : SuspendRun m (system info) R) (hg : Good info) (hm : 0 < m) (hl : Late info R k q)
    (hs : Split info k m R (lostDirect info R k q) (lostFull info R k q) (waitsFor R k q) (fun _ _ => False))
    (hN : ∀ x, k < x → plainSlots R (lostFull info R k q) (fun _ _ => False) x = 0)
    (hc : ∀ (x : Fin info.length), ∀ a ∈ (info.get x).requests,
      ((bucket (allSections k R (lostDirect info R k q ∪ lostFull info R k q)) x a.resId).filter
        (fun z => 0 < directSlots (lostDirect info R k q) (waitsFor R k q) z)).card ≤ numRequests (info.get k) a.resId)
    {P : Program} (hP : fmlppProgram info m k (info.get k) = some P) :
    ∃ y, P.Feasible y ∧ termSum y P.objective = ((lost info R k q).card : ℕ) := by
  have hD := hs.delay h hg hl.before (by
    intro t ht
    rw [lost_union] at ht
    exact (mem_lost.1 ht).1)
  have hI := plain_indirect (info := info) (lostFull info R k q)
  obtain ⟨P1, h1, rfl⟩ := Option.map_eq_some_iff.1 hP
  obtain ⟨h2, h3⟩ := hD.rsbConstraints hg.entry hI hN hg.prio (hD.generic hg.entry hm hg.prio) h1
  refine ⟨_, indirect_feasible hI hg.prio _ (hD.directIndirectConstraints hg.entry hc hI
    (hD.segmentConstraints hg.entry hc hI (hD.fifoConstraints hg.entry hc h2))), ?_⟩
  unfold fmlppIndirectConstraints directIndirectConstraints segmentConstraints
  rw [objective_foldl _ _ _ (fun P t => objective_addInequality _ _ _),
    objective_foldl _ _ _ (fun P t => objective_addInequality _ _ _),
    objective_foldl _ _ _ (fun P t => objective_addInequality _ _ _), objective_fifo, h3, objective_generic,
    hD.objective hg.entry hm, hs.direct_total h, lost_card]

/-- The program for priority queues admits the delays of such a job. -/
theorem prsb_step (h : SuspendRun m (system info) R) (hg : Good info) (hm : 0 < m) (hl : Late info R k q)
    (hs : Split info k m R (lostDirect info R k q) (lostFull info R k q) (waitsFor R k q) (fun _ _ => False))
    (hN : ∀ x, k < x → plainSlots R (lostFull info R k q) (fun _ _ => False) x = 0) {fuel : ℕ}
    (hlow : ∀ r, ((allSections k R (lostDirect info R k q ∪ lostFull info R k q)).filter (fun z => k < z.job.1 ∧
      resOf z = r ∧ 0 < directSlots (lostDirect info R k q) (waitsFor R k q) z)).card ≤ numRequests (info.get k) r)
    (hhigh : ∀ (x : Fin info.length), x < k → ∀ a ∈ (info.get x).requests, ∀ W,
      waitTime info (info.get k) fuel (fun tx q => some (rsbHold info k tx q)) a.resId = some W → W ≠ Msrp.uintMax →
      ((bucket (allSections k R (lostDirect info R k q ∪ lostFull info R k q)) x a.resId).filter
        (fun z => 0 < directSlots (lostDirect info R k q) (waitsFor R k q) z)).card ≤
        (info.get x).maxNumJobs W * numRequests (info.get x) a.resId * numRequests (info.get k) a.resId)
    {P : Program} (hP : prsbProgram fuel info m k (info.get k) = some P) :
    ∃ y, P.Feasible y ∧ termSum y P.objective = ((lost info R k q).card : ℕ) := by
  have hD := hs.delay h hg hl.before (by
    intro t ht
    rw [lost_union] at ht
    exact (mem_lost.1 ht).1)
  have hI := plain_indirect (info := info) (lostFull info R k q)
  unfold prsbProgram at hP
  dsimp only at hP
  obtain ⟨P1, h1, hP⟩ := Option.bind_eq_some_iff.1 hP
  obtain ⟨P2, h4, hP⟩ := Option.bind_eq_some_iff.1 hP
  obtain ⟨h2, h3⟩ := hD.rsbConstraints hg.entry hI hN hg.prio (hD.generic hg.entry hm hg.prio) h1
  have h5 := hD.prioLowerConstraints hg.entry hg.prio hlow h2
  unfold prsbIndirectConstraints at h4
  obtain ⟨total, _, rfl⟩ := Option.map_eq_some_iff.1 h4
  cases total with
  | none =>
    have key := hD.prioHigherConstraints hg.entry hg.prio hhigh hP h5
    refine ⟨_, key.1, ?_⟩
    rw [key.2, objective_prioLower, h3, objective_generic, hD.objective hg.entry hm, hs.direct_total h, lost_card]
  | some total =>
    have key := hD.prioHigherConstraints hg.entry hg.prio hhigh hP (indirect_feasible hI hg.prio (fun _ => total) h5)
    refine ⟨_, key.1, ?_⟩
    rw [key.2]
    dsimp only
    rw [objective_foldl _ _ _ (fun P t => objective_addInequality _ _ _), objective_prioLower, h3, objective_generic,
      hD.objective hg.entry hm, hs.direct_total h, lost_card]

/-! #### No requests -/

theorem no_direct (hno : ∀ s, ¬ R.issued s) : lostDirect info R k q = ∅ := by
  apply eq_empty_of_forall_notMem
  intro t ht
  obtain ⟨s, _, hw, _⟩ := waitsFor_spec ht
  exact hno s hw.1

theorem no_stalling (h : PlainLocks m (system info) R) (hno : ∀ s, ¬ R.issued s) (hl : Late info R k q)
    (x : Fin info.length) (hx : k < x) : plainSlots R (lostFull info R k q) (fun _ _ => False) x = 0 := by
  classical
  unfold plainSlots
  rw [card_eq_zero, filter_eq_empty_iff]
  rintro t ht ⟨⟨p, hp⟩, _⟩
  rcases (plain_cases h hl ht).2 _ hp with hc | ⟨s, z, r, hw, _⟩
  · exact absurd hx (not_lt.2 hc.le)
  · exact hno s hw.1

theorem directSlots_empty (f : ℕ → Section info.length) (z : Section info.length) : directSlots ∅ f z = 0 := by
  simp [directSlots]

/-! #### Few tasks -/

theorem conserving_executes (h : ConservingLocks m (system info) R) (hn : info.length ≤ m) {j : Job info.length} {t : ℕ}
    (hr : Ready R.work R.sched j t) (hw : ∀ s, R.Waits s t → s.job ≠ j) : j ∈ R.sched t := by
  classical
  by_contra hj
  have h1 := h.dispatch t j hr hj hw
  have h2 : (insert j (R.sched t)).card ≤ (univ : Finset (Fin info.length)).card := by
    apply card_le_card_of_injOn (fun j => j.1) (fun _ _ => mem_coe.2 (mem_univ _))
    intro a ha b hb e
    have ready : ∀ x ∈ insert j (R.sched t), Ready R.work R.sched x t := by
      intro x hx
      rcases mem_insert.1 hx with rfl | hx
      · exact hr
      · exact h.valid.ready t x hx
    exact ready_eq (ready a (mem_coe.1 ha)) (ready b (mem_coe.1 hb)) e
  rw [card_insert_of_notMem hj, card_univ, Fintype.card_fin] at h2
  omega

theorem few_full (h : ConservingLocks m (system info) R) (hn : info.length ≤ m) (hl : Late info R k q) :
    lostFull info R k q = ∅ := by
  classical
  apply eq_empty_of_forall_notMem
  intro t ht
  obtain ⟨ht, hno⟩ := mem_filter.1 ht
  by_cases hw : ∃ s, R.Waits s t ∧ s.job = (k, q)
  · obtain ⟨s, hw, hsj⟩ := hw
    obtain ⟨a, ha, _⟩ := h.declared s hw.1
    have hf : (system info).For s a.res := ⟨a, ha, rfl⟩
    obtain ⟨z, ho, hf'⟩ := h.owned s _ t hw hf
    exact hno ⟨z, s, _, hw, hsj, hf, ho, hf', conserving_executes h hn (h.owns_ready ho)
      (fun s2 hw2 => h.owns_not_waits ho hw2)⟩
  · push Not at hw
    exact (mem_lost.1 ht).2 (conserving_executes h hn (hl.ready ht) hw)

theorem few_split (h : ConservingLocks m (system info) R) (hn : info.length ≤ m) (hl : Late info R k q) :
    Split info k m R (lostDirect info R k q) (lostFull info R k q) (waitsFor R k q) (fun _ _ => False) := by
  have e := few_full h hn hl
  refine hl.split h.toSuspendRun _ ?_ ?_ ?_ <;> (intro t ht; rw [e] at ht; exact absurd ht (notMem_empty t))

theorem few_plain (h : ConservingLocks m (system info) R) (hn : info.length ≤ m) (hl : Late info R k q)
    (x : Fin info.length) : plainSlots R (lostFull info R k q) (fun _ _ => False) x = 0 := by
  unfold plainSlots
  rw [few_full h hn hl]
  simp

theorem le_rsbHold (k : ℕ) (tx : ℕ × TaskInfo) (r : ℕ) : Pedf.requestLength tx.2 r ≤ rsbHold info k tx r := by
  unfold rsbHold
  dsimp only
  split_ifs with h0
  · omega
  · have : ∀ (l : List (ℕ × TaskInfo)) (s : ℕ),
        s ≤ l.foldl (fun s t => if t.1 ≠ tx.1 then s + longestOther t.2 r else s) s := by
      intro l
      induction l with
      | nil => intro s; exact le_refl _
      | cons a l ih =>
        intro s
        rw [List.foldl_cons]
        refine le_trans ?_ (ih _)
        split_ifs <;> omega
    exact this _ _

theorem few_held (h : ConservingLocks m (system info) R) (hn : info.length ≤ m) (hg : Good info) {E r : ℕ}
    {s z : Section info.length} (hs : R.issued s) (hz : R.issued z) (hf : (system info).For z r) :
    (heldSlots R E s z).card ≤ rsbHold info k ((z.job.1 : ℕ), info.get z.job.1) r := by
  obtain ⟨a, ha, haq, _⟩ := waits_request h.toRequestRun hz hf
  have hlen := h.length z _ hz (lock_req' ha)
  simp only at hlen
  have hrl := requestLength_eq hg.entry (x := z.job.1) (List.mem_of_getElem? ha)
  have h1 := le_rsbHold (info := info) k ((z.job.1 : ℕ), info.get z.job.1) r
  simp only at h1
  rw [← haq, hrl] at h1
  rw [← haq]
  refine le_trans (card_le_card ?_) (hlen.trans h1)
  intro t ht
  obtain ⟨_, _, ho⟩ := (mem_heldSlots hs hz).1 ht
  exact mem_filter.2 ⟨mem_Ico.2 ⟨ho.2.1, ho.2.2⟩, conserving_executes h hn (h.owns_ready ho)
    (fun s2 hw2 => h.owns_not_waits ho hw2)⟩

end

/-- **C147**, partial: the LP-based analysis of the global FMLP+ is safe in runs in which no job issues a request.  If the
response-time bounds assumed for the tasks, which may not exceed deadlines and periods, are confirmed, that is, if for
each task the cost and the bound by the analysis are together no more than the response time assumed, then every job
completes within the response time assumed.  (Not proved: runs with requests and more tasks than processors.) -/
theorem C147_fmlpp_no_requests_partial (info : Info) (m : ℕ) (hm : 0 < m) (solve : Solver)
    (hsolve : ∀ P x, solve P = some x → P.Maximum x)
    (hT : ∀ t ∈ info, 0 < t.period ∧ t.response ≤ t.deadline ∧ t.response ≤ t.period ∧ t.response < 2 ^ 64 - 1)
    (hnd : ∀ t ∈ info, (t.requests.map (·.resId)).Nodup)
    (bs : List ℕ) (h : fmlppBounds solve info m = some bs)
    (hbs : ∀ i : Fin info.length, ∀ b, bs[(i : ℕ)]? = some b → (info.get i).cost + b ≤ (info.get i).response)
    (run : LockRun info.length) (hrun : PlainLocks m (system info) run) (hno : ∀ s, ¬ run.issued s)
    (j : Job info.length) :
    Completed run.work run.sched j (run.work.release j + (info.get j.1).response) := by
  refine safe_core hsolve hT hnd h hbs hrun.toSuspendRun ?_ j
  intro k q hg hl P hP
  refine fmlpp_step hrun.toSuspendRun hg hm hl (plain_split hrun hl) (no_stalling hrun hno hl) ?_ hP
  intro x a _
  simp [no_direct hno, directSlots_empty]

/-- **C147**, partial: the same for the LP-based analysis of P-RSB (priority queues). -/
theorem C147_prsb_no_requests_partial (info : Info) (m : ℕ) (hm : 0 < m) (solve : Solver)
    (hsolve : ∀ P x, solve P = some x → P.Maximum x)
    (hT : ∀ t ∈ info, 0 < t.period ∧ t.response ≤ t.deadline ∧ t.response ≤ t.period ∧ t.response < 2 ^ 64 - 1)
    (hnd : ∀ t ∈ info, (t.requests.map (·.resId)).Nodup)
    (fuel : ℕ) (bs : List ℕ) (h : prsbBounds solve fuel info m = some bs)
    (hbs : ∀ i : Fin info.length, ∀ b, bs[(i : ℕ)]? = some b → (info.get i).cost + b ≤ (info.get i).response)
    (run : LockRun info.length) (hrun : PlainLocks m (system info) run) (hno : ∀ s, ¬ run.issued s)
    (j : Job info.length) :
    Completed run.work run.sched j (run.work.release j + (info.get j.1).response) := by
  refine safe_core hsolve hT hnd h hbs hrun.toSuspendRun ?_ j
  intro k q hg hl P hP
  refine prsb_step hrun.toSuspendRun hg hm hl (plain_split hrun hl) (no_stalling hrun hno hl) ?_ ?_ hP
  · intro r
    simp [no_direct hno, directSlots_empty]
  · intro x _ a _ W _ _
    simp [no_direct hno, directSlots_empty]

/-- **C147**, partial: the LP-based analysis of the global FMLP+ is safe for at most as many tasks as processors, in every
run of a work-conserving scheduler with FIFO queues.  (Not proved: more tasks than processors.) -/
theorem C147_fmlpp_few_tasks_partial (info : Info) (m : ℕ) (hm : 0 < m) (hn : info.length ≤ m) (solve : Solver)
    (hsolve : ∀ P x, solve P = some x → P.Maximum x)
    (hT : ∀ t ∈ info, 0 < t.period ∧ t.response ≤ t.deadline ∧ t.response ≤ t.period ∧ t.response < 2 ^ 64 - 1)
    (hnd : ∀ t ∈ info, (t.requests.map (·.resId)).Nodup)
    (bs : List ℕ) (h : fmlppBounds solve info m = some bs)
    (hbs : ∀ i : Fin info.length, ∀ b, bs[(i : ℕ)]? = some b → (info.get i).cost + b ≤ (info.get i).response)
    (run : LockRun info.length) (hrun : ConservingLocks m (system info) run) (hq : FifoQueues (system info) run)
    (j : Job info.length) :
    Completed run.work run.sched j (run.work.release j + (info.get j.1).response) := by
  refine safe_core hsolve hT hnd h hbs hrun.toSuspendRun ?_ j
  intro k q hg hl P hP
  exact fmlpp_step hrun.toSuspendRun hg hm hl (few_split hrun hn hl) (fun x _ => few_plain hrun hn hl x)
    (fun x a ha => fifo_count hrun.toSuspendRun hg.entry hq ha) hP

/-- **C147**, partial: the same for the LP-based analysis of P-RSB with priority queues. -/
theorem C147_prsb_few_tasks_partial (info : Info) (m : ℕ) (hm : 0 < m) (hn : info.length ≤ m) (solve : Solver)
    (hsolve : ∀ P x, solve P = some x → P.Maximum x)
    (hT : ∀ t ∈ info, 0 < t.period ∧ t.response ≤ t.deadline ∧ t.response ≤ t.period ∧ t.response < 2 ^ 64 - 1)
    (hword : ∀ t ∈ info, t.deadline < 2 ^ 32)
    (hnd : ∀ t ∈ info, (t.requests.map (·.resId)).Nodup)
    (fuel : ℕ) (bs : List ℕ) (h : prsbBounds solve fuel info m = some bs)
    (hbs : ∀ i : Fin info.length, ∀ b, bs[(i : ℕ)]? = some b → (info.get i).cost + b ≤ (info.get i).response)
    (run : LockRun info.length) (hrun : ConservingLocks m (system info) run) (hq : PriorityQueues (system info) run)
    (j : Job info.length) :
    Completed run.work run.sched j (run.work.release j + (info.get j.1).response) := by
  refine safe_core hsolve hT hnd h hbs hrun.toSuspendRun ?_ j
  intro k q hg hl P hP
  refine prsb_step hrun.toSuspendRun hg hm hl (few_split hrun hn hl) (fun x _ => few_plain hrun hn hl x)
    (prio_lower_count hrun.toSuspendRun hg.entry hq) ?_ hP
  intro x _ a ha W hW hne
  refine prio_higher_count hrun.toSuspendRun hg hq hl ha (hword _ (List.get_mem info k)) ?_ hW hne
  intro s z hi _ _ hz hfz H hH _
  cases hH
  exact few_held hrun hn hg hi hz hfz

end Verif.SR.Lp.Glob
