/-
C155: a task set that is accepted with the native bounds for preemptive priority-ordered spin locks with FIFO tie-breaking
but misses a deadline.
-/
import Verif.Props.LpSpinPreemptPrioFifoViolated

namespace Verif.SR.Lp
open Verif.Spec
open Verif.SR.Msrp (system)

/-- Task 0 preempts task 1 while it spins and waits long for a resource that task 1 does not use. -/
def longInfo : Info := [⟨0, 100, 22, 22, 0, 1, [⟨1, 1, 1, false⟩]⟩, ⟨1, 100, 25, 25, 0, 1, [⟨0, 1, 1, false⟩]⟩,
  ⟨2, 23, 4, 4, 1, 2, [⟨0, 1, 2, false⟩]⟩, ⟨3, 100, 40, 40, 2, 10, [⟨1, 1, 10, false⟩]⟩,
  ⟨4, 100, 40, 40, 3, 10, [⟨1, 1, 10, false⟩]⟩]

/-- The requests of tasks 0 and 1 have a lower priority than those of other processors. -/
def longPrio : LockPrio := fun t _ => if t ≤ 1 then 1 else 0

def longSys : LockSystem 5 where
  proc := ![0, 0, 1, 2, 3]
  cost := ![1, 1, 2, 10, 10]
  period := ![100, 100, 23, 100, 100]
  deadline := ![22, 25, 4, 40, 40]
  reqs := ![[⟨1, 1, 1⟩], [⟨0, 1, 1⟩], [⟨0, 1, 2⟩], [⟨1, 1, 10⟩], [⟨1, 1, 10⟩]]

theorem system_long : system longInfo = longSys := by
  unfold system longSys
  congr 1 <;>
  · funext (i : Fin 5)
    fin_cases i <;> rfl

/-- Task 1 is delayed by two jobs of task 2, as it is preempted for 21 time units in between. -/
def longTable : JTable 5 where
  off := ![2, 0, 0, 2, 2]
  exec := ![[21], [5], [2, 2], [10], [20]]
  slots := [{(1, 0), (2, 0)}, {(1, 0), (2, 0)}] ++ List.replicate 10 {(0, 0), (3, 0), (4, 0)} ++
    List.replicate 10 {(0, 0), (4, 0)} ++ [{(0, 0)}, {(1, 0), (2, 1)}, {(1, 0), (2, 1)}, {(1, 0)}]
  secs := [⟨(2, 0), 0, 0, 0, 0, 2⟩, ⟨(1, 0), 0, 0, 0, 25, 26⟩, ⟨(3, 0), 0, 0, 2, 2, 12⟩, ⟨(4, 0), 0, 0, 2, 12, 22⟩,
    ⟨(0, 0), 0, 0, 2, 22, 23⟩, ⟨(2, 1), 0, 0, 23, 23, 25⟩]

theorem long_run : PreemptPrioFifoFp (system longInfo) (fun i => (longInfo.get i).priority) (fun i r => longPrio i r)
    (longTable.run longSys) := by
  rw [system_long]
  have hp : (fun i : Fin 5 => (longInfo.get i).priority) = ![0, 1, 2, 3, 4] := by
    funext i
    fin_cases i <;> rfl
  change PreemptPrioFifoFp longSys (fun i : Fin 5 => (longInfo.get i).priority) (fun i : Fin 5 => fun r => longPrio i r) _
  rw [hp]
  exact JTable.PreemptOk.preemptPrioFifoFp (by decide +kernel) (by decide +kernel)

theorem long_missed : ¬ MeetsDeadlines (longTable.run longSys).work (system longInfo).deadline
    (longTable.run longSys).sched := by
  intro h
  have := h ((1 : Fin 5), 0)
  revert this
  unfold Completed
  erw [JTable.service_run]
  decide +kernel

theorem le_termSum {y : Key → ℚ} (hy : ∀ k, 0 ≤ y k) {e : Exp} (he : ∀ t ∈ e, 0 ≤ t.1) {k : Key} (hk : ((1 : ℚ), k) ∈ e) :
    y k ≤ termSum y e := by
  induction e with
  | nil => simp at hk
  | cons a e ih =>
    have h0 : 0 ≤ termSum y e := by
      refine List.sum_nonneg fun z hz => ?_
      obtain ⟨t, ht, rfl⟩ := List.mem_map.1 hz
      exact mul_nonneg (he t (List.mem_cons_of_mem _ ht)) (hy _)
    have h1 : termSum y (a :: e) = a.1 * y a.2 + termSum y e := by
      simp [termSum]
    rw [h1]
    rcases List.mem_cons.1 hk with rfl | hk
    · simpa using h0
    · have := ih (fun t ht => he t (List.mem_cons_of_mem _ ht)) hk
      have h2 := mul_nonneg (he a List.mem_cons_self) (hy a.2)
      linarith

/-- The program without integrality, with each equality as an inequality as well. -/
def lpRelaxed (P : Program) : Program := { P with integers := [], inequalities := P.inequalities ++ P.equalities }

/-- A certificate for programs in which all integer variables are at most 1 and 0 in the solution. -/
theorem bind_cover_small {o : Option Program} (l : Exp) (cert : List (ℚ × ℕ)) {v : ℕ}
    (h : o.any (fun P => decide (CoverOpt (lpRelaxed P) l cert v ∧
      ∀ k ∈ P.integers, (∃ c ∈ P.inequalities, ((1 : ℚ), k) ∈ c.1 ∧ (∀ t ∈ c.1, 0 ≤ t.1) ∧ c.2 ≤ 1) ∧
        coeff l k = 0)) = true)
    {solve : Solver} (h1 : ∀ P x, solve P = some x → P.Maximum x) (h2 : ∀ P x, P.Maximum x → (solve P).isSome) :
    o.bind (solved solve) = some v := by
  obtain ⟨P, rfl, hd⟩ := (Option.any_eq_true _ _).1 h
  obtain ⟨⟨hf, hcov, hv, hle, hr⟩, hk⟩ := of_decide_eq_true hd
  have hl := hf.feasible
  have hrel : ∀ y, P.Feasible y → (lpRelaxed P).Feasible y := by
    intro y hy
    refine ⟨hy.eq, fun c hc => (List.mem_append.1 hc).elim (hy.le c) (fun hc => (hy.eq c hc).le),
      (fun v hv => absurd hv (List.not_mem_nil)), hy.binary, fun v _ => ?_⟩
    by_cases hm : v ∈ P.integers
    · obtain ⟨⟨c, hc, hvc, hpos, hc1⟩, -⟩ := hk v hm
      exact ⟨feasible_nonneg hy v, (le_termSum (feasible_nonneg hy) hpos hvc).trans ((hy.le _ hc).trans hc1)⟩
    · exact hy.range v hm
  have hmax : P.Maximum (listed l) := by
    refine ⟨⟨hl.eq, fun c hc => hl.le c (List.mem_append_left _ hc), fun k hm => ⟨0, ?_⟩, hl.binary,
      fun k _ => hl.range k (by simp [lpRelaxed])⟩, fun y hy => ?_⟩
    · simpa [listed] using (hk k hm).2
    · have h3 : termSum (listed l) P.objective = v := hv
      rw [h3]
      exact (hcov.le rfl (hrel y hy)).trans hle
  obtain ⟨x, hx⟩ := Option.isSome_iff_exists.1 (h2 P _ hmax)
  have hm := h1 P x hx
  have hv' : termSum (listed l) P.objective = v := hv
  have e : termSum x P.objective = v := by
    refine le_antisymm ?_ ?_
    · rw [← hv']
      exact hmax.best x hm.feasible
    · rw [← hv']
      exact hm.best _ hmax.feasible
  change Lp.solved solve P = _
  unfold Lp.solved
  rw [hx]
  simp only [Option.map_some, e, hr]

section
variable {solve : Solver} (h1 : ∀ P x, solve P = some x → P.Maximum x) (h2 : ∀ P x, P.Maximum x → (solve P).isSome)
include h1 h2

theorem long_bounds : nativePreemptPrioFifoBounds longPrio 50 solve longInfo = some [21, 22, 1, 11, 11] := by
  have e0 : (preemptPrioFifoProgram longPrio 50 longInfo 0 longInfo[0]).bind (solved solve) = some 21 :=
    bind_cover_small [(1, ⟨.indirect, 1, 0, 0⟩), (1, ⟨.preempt, 0, 0, 0⟩), (1, ⟨.direct, 3, 0, 1⟩), (1, ⟨.direct, 4, 0, 1⟩)]
      [(1, 0), (2, 8), (2, 9), (10, 3), (10, 4)] (by decide +kernel) h1 h2
  have e1 : (preemptPrioFifoProgram longPrio 50 longInfo 1 longInfo[1]).bind (solved solve) = some 22 :=
    bind_cover_small [(1, ⟨.direct, 2, 0, 0⟩), (1, ⟨.direct, 3, 0, 1⟩), (1, ⟨.direct, 4, 0, 1⟩)]
      [(1, 7), (2, 10), (2, 14), (10, 3), (10, 4), (1, 17)] (by decide +kernel) h1 h2
  have e2 : (preemptPrioFifoProgram longPrio 50 longInfo 2 longInfo[2]).bind (solved solve) = some 1 :=
    bind_cover_small [(1, ⟨.direct, 1, 0, 0⟩)]
      [(1, 1), (1, 6), (10, 7), (10, 8), (1, 10), (10, 11), (10, 12)] (by decide +kernel) h1 h2
  have e3 : (preemptPrioFifoProgram longPrio 50 longInfo 3 longInfo[3]).bind (solved solve) = some 11 :=
    bind_cover_small [(1, ⟨.direct, 0, 0, 1⟩), (1, ⟨.direct, 4, 0, 1⟩)]
      [(1, 0), (10, 4), (1, 7), (2, 8), (1, 9), (2, 10)] (by decide +kernel) h1 h2
  have e4 : (preemptPrioFifoProgram longPrio 50 longInfo 4 longInfo[4]).bind (solved solve) = some 11 :=
    bind_cover_small [(1, ⟨.direct, 0, 0, 1⟩), (1, ⟨.direct, 3, 0, 1⟩)]
      [(1, 0), (10, 4), (1, 7), (2, 8), (1, 9), (2, 10)] (by decide +kernel) h1 h2
  change [(0, longInfo[0]), (1, longInfo[1]), (2, longInfo[2]), (3, longInfo[3]), (4, longInfo[4])].mapM (fun t =>
    (preemptPrioFifoProgram longPrio 50 longInfo t.1 t.2).bind (solved solve)) = _
  simp only [List.mapM_cons, List.mapM_nil, e0, e1, e2, e3, e4]
  rfl

end

/-- **C155** (violated, native function): even if the priorities of the requests reach the analysis, a task set is accepted in
which a task misses a deadline.  The task is preempted while it waits, and the preempting task waits for requests to another
resource, which the bound on the waiting time does not count. -/
theorem C155_native_preempt_prio_fifo_violated (solve : Solver) (hsolve : ∀ P x, solve P = some x → P.Maximum x)
    (hany : ∀ P x, P.Maximum x → (solve P).isSome) : ∃ (info : Info) (lockPrio : ℕ → ℕ → ℕ) (fuel : ℕ),
    (∀ t ∈ info, 0 < t.period ∧ t.deadline ≤ t.period ∧ t.response = t.deadline ∧
      (t.requests.map Request.resId).Nodup) ∧
    info.Pairwise (fun a b => a.priority < b.priority) ∧
    ∃ bs, nativePreemptPrioFifoBounds lockPrio fuel solve info = some bs ∧
    (∀ t ∈ info, (Fp.boundResponseTimes fuel 1 (afterLpBounds info bs t.cluster)).map Prod.fst = some true) ∧
    ∃ R, PreemptPrioFifoFp (system info) (fun i => (info.get i).priority) (fun i r => lockPrio i r) R ∧
      ¬ MeetsDeadlines R.work (system info).deadline R.sched :=
  ⟨longInfo, longPrio, 50, by decide, by decide, _, long_bounds hsolve hany, by decide +kernel,
    longTable.run longSys, long_run, long_missed⟩

/-- The bound on the wait for a resource used in C155 is the response-time bound of the task, or 0, or a fixed point except for
the interference of tasks of its processor of higher priority, which is that in the initial interval `w₀`, and the requests
`rs` of other processors, whose priority is compared with those of requests for `res`, whatever resource they are for. -/
theorem C155_wait_fixed_point (pr : LockPrio) (fuel : ℕ) (info : Info) (ti : TaskInfo) (res prio w : ℕ)
    (h : preemptPrioFifoWait pr fuel info ti res prio = some w) :
    let spin := fun r p => spinLowerSame pr info r p ti.cluster
    let higher : TaskInfo → Prop := fun t => t.cluster = ti.cluster ∧ t.priority < ti.priority
    w = ti.response ∨ w = 0 ∨ ∃ (rs : List (TaskInfo × Request)) (f w₀ c l : ℕ),
      (∀ t r, (t, r) ∈ rs ↔ ∃ i, info[i]? = some t ∧ t.cluster ≠ ti.cluster ∧ r ∈ t.requests ∧
        ((r.resId = res ∧ pr i r.resId < prio) ∨
          ((r.resId = res ∨ r.resId ∈ localHpResources info ti) ∧ pr i r.resId < l))) ∧
      (∀ j t, info[j]? = some t → higher t → ∀ r ∈ t.requests, r.resId = res → pr j res ≤ l) ∧
      (l = 0 ∨ ∃ j t, info[j]? = some t ∧ higher t ∧ ∃ r ∈ t.requests, r.resId = res ∧ pr j res = l) ∧
      spin res prio ≤ c ∧
      (∀ j t, info[j]? = some t → higher t → ∀ r ∈ t.requests, 0 < r.num → spin r.resId (pr j r.resId) ≤ c) ∧
      (c = spin res prio ∨ ∃ j t, info[j]? = some t ∧ higher t ∧ ∃ r ∈ t.requests, 0 < r.num ∧
        c = spin r.resId (pr j r.resId)) ∧
      f = (rs.map (fun r => r.2.length * r.2.num)).sum + spinOfHigher pr info ti (fun _ => 1) + spin res prio ∧
      w₀ = f + hpInterference info ti f + c * maxPreemptions info ti ∧
      w = (rs.map (fun r => r.2.length * (r.1.maxNumJobs w * r.2.num))).sum + spin res prio +
        spinOfHigher pr info ti (fun t => t.maxNumJobs w) + c * maxPreemptions info ti + hpInterference info ti w₀ + 1 := by
  intro spin higher
  have htask : ∀ j t, (j, t) ∈ tasks info ↔ info[j]? = some t := by
    intro j t
    unfold tasks
    rw [List.mem_map]
    constructor
    · rintro ⟨x, hx, he⟩
      obtain ⟨rfl, rfl⟩ := Prod.mk.inj he
      exact List.mem_zipIdx_iff_getElem?.1 hx
    · intro hx
      exact ⟨(t, j), List.mem_zipIdx_iff_getElem?.2 hx, rfl⟩
  have hloc : ∀ j t, (j, t) ∈ localHigher info ti ↔ info[j]? = some t ∧ higher t := by
    intro j t
    unfold localHigher
    rw [List.mem_filter, htask]
    simp [higher]
  have hmax : ∀ (l : List ℕ) (x : ℕ), x ∈ l → x ≤ l.foldl max 0 := by
    have hge : ∀ (l : List ℕ) (b x : ℕ), x ≤ b ∨ x ∈ l → x ≤ l.foldl max b := by
      intro l
      induction l with
      | nil => intro b x h; simpa using h
      | cons a l ih =>
        intro b x h
        refine ih _ _ ?_
        rcases h with h | h
        · exact Or.inl (h.trans (le_max_left _ _))
        · rcases List.mem_cons.1 h with rfl | h
          · exact Or.inl (le_max_right _ _)
          · exact Or.inr h
    exact fun l x hx => hge l 0 x (Or.inr hx)
  have hfold : ∀ (l : List ℕ) (b : ℕ), l.foldl max b = b ∨ l.foldl max b ∈ l := by
    intro l
    induction l with
    | nil => intro b; exact Or.inl rfl
    | cons a l ih =>
      intro b
      rw [List.foldl_cons]
      rcases ih (max b a) with h | h
      · rcases max_choice b a with h' | h' <;> rw [h, h']
        · exact Or.inl rfl
        · exact Or.inr List.mem_cons_self
      · exact Or.inr (List.mem_cons_of_mem _ h)
  unfold preemptPrioFifoWait at h
  simp only [Option.map_eq_some_iff] at h
  obtain ⟨e, he, hw⟩ := h
  by_cases hp : e ≤ ti.period
  swap
  · rw [if_neg hp] at hw
    exact Or.inl hw.symm
  rw [if_pos hp] at hw
  subst hw
  right
  cases fuel with
  | zero => simp [prioLoop] at he
  | succ n =>
    rw [prioLoop] at he
    split_ifs at he with h0
    swap
    · exact Or.inl (Option.some.inj he).symm
    rcases prioLoop_fixed _ _ he with hlt | hfix
    · omega
    right
    refine ⟨overtaking pr info ti res prio, _, _, costPerPreemptionFifo pr info ti res prio, localMinPrio pr info ti res,
      ?_, ?_, ?_, ?_, ?_, ?_, rfl, rfl, hfix⟩
    · intro t r
      unfold overtaking
      simp only [List.mem_flatMap, List.mem_filter, List.mem_map, decide_eq_true_eq, Prod.mk.injEq, Prod.exists]
      constructor
      · rintro ⟨j, t', ⟨ht, hc⟩, r', ⟨hr, hq, hl⟩, rfl, rfl⟩
        refine ⟨j, (htask _ _).1 ht, hc, hr, ?_⟩
        rcases lt_max_iff.1 hl with hl | hl
        · by_cases hres : r'.resId = res
          · rw [if_pos hres] at hl
            exact Or.inl ⟨hres, hl⟩
          · rw [if_neg hres] at hl
            omega
        · exact Or.inr ⟨hq.symm, hl⟩
      · rintro ⟨j, ht, hc, hr, hor⟩
        refine ⟨j, t, ⟨(htask _ _).2 ht, hc⟩, r, ⟨hr, ?_⟩, rfl, rfl⟩
        rcases hor with ⟨hres, hl⟩ | ⟨hq, hl⟩
        · exact ⟨Or.inr hres, lt_max_iff.2 (Or.inl (by rw [if_pos hres]; exact hl))⟩
        · exact ⟨hq.symm, lt_max_iff.2 (Or.inr hl)⟩
    · intro j t ht hh r hr hres
      refine hmax _ _ (List.mem_flatMap.2 ⟨(j, t), (hloc j t).2 ⟨ht, hh⟩, List.mem_map.2 ⟨r, ?_, by rw [hres]⟩⟩)
      simpa using ⟨hr, hres⟩
    · rcases hfold ((localHigher info ti).flatMap (fun t =>
        (t.2.requests.filter (fun r => r.resId = res)).map (fun r => pr t.1 r.resId))) 0 with h | h
      · exact Or.inl h
      · obtain ⟨⟨j, t⟩, ht, hx⟩ := List.mem_flatMap.1 h
        obtain ⟨r, hr, hx⟩ := List.mem_map.1 hx
        obtain ⟨hr, hres⟩ := List.mem_filter.1 hr
        obtain ⟨h3, h4⟩ := (hloc j t).1 ht
        have hres := of_decide_eq_true hres
        refine Or.inr ⟨j, t, h3, h4, r, hr, hres, ?_⟩
        rw [← hres]
        exact hx.trans (by rw [← hres]; rfl)
    · exact le_max_left _ _
    · intro j t ht hh r hr hn
      refine le_trans ?_ (le_max_right _ _)
      refine hmax _ _ (List.mem_flatMap.2 ⟨(j, t), (hloc j t).2 ⟨ht, hh⟩, List.mem_map.2 ⟨r, ?_, ?_⟩⟩)
      · simpa using ⟨hr, hn⟩
      · simp only [spin, hh.1]
    · unfold costPerPreemptionFifo
      rcases hfold ((localHigher info ti).flatMap (fun t => (t.2.requests.filter (fun r => r.num > 0)).map (fun r =>
        spinLowerSame pr info r.resId (pr t.1 r.resId) t.2.cluster))) 0 with h | h
      · rw [h]
        exact Or.inl (max_eq_left (Nat.zero_le _))
      · rcases max_choice (spinLowerSame pr info res prio ti.cluster) (((localHigher info ti).flatMap (fun t =>
          (t.2.requests.filter (fun r => r.num > 0)).map (fun r =>
            spinLowerSame pr info r.resId (pr t.1 r.resId) t.2.cluster))).foldl max 0) with hm | hm
        · exact Or.inl hm
        · right
          rw [hm]
          obtain ⟨⟨j, t⟩, ht, hx⟩ := List.mem_flatMap.1 h
          obtain ⟨r, hr, hx⟩ := List.mem_map.1 hx
          obtain ⟨hr, hn⟩ := List.mem_filter.1 hr
          obtain ⟨h3, h4⟩ := (hloc j t).1 ht
          refine ⟨j, t, h3, h4, r, hr, of_decide_eq_true hn, hx.symm.trans ?_⟩
          simp only [spin, h4.1]

/-- The hypothesis of `C155_wait_fixed_point` holds for the task that misses its deadline; the wait is neither 0 nor its
response-time bound. -/
example : preemptPrioFifoWait longPrio 50 longInfo ⟨1, 100, 25, 25, 0, 1, [⟨0, 1, 1, false⟩]⟩ 0 1 = some 4 := by
  decide +kernel

/-- The spinning of a request that is counted in C155 for requests of the same or a lower priority is due to other processors
only, and at least the length of each of their requests. -/
theorem C155_spin_remote (pr : LockPrio) (info : Info) (res prio pa : ℕ) :
    (∀ i t, info[i]? = some t → t.cluster ≠ pa → ∀ r ∈ t.requests, r.resId = res → prio ≤ pr i res →
      r.length ≤ spinLowerSame pr info res prio pa) ∧
    ((∀ i t, info[i]? = some t → t.cluster ≠ pa → ∀ r ∈ t.requests, r.resId = res → pr i res < prio) →
      spinLowerSame pr info res prio pa = 0) := by
  have htask : ∀ x : ℕ × TaskInfo, x ∈ tasks info ↔ info[x.1]? = some x.2 := by
    rintro ⟨j, t⟩
    unfold tasks
    rw [List.mem_map]
    constructor
    · rintro ⟨x, hx, he⟩
      obtain ⟨rfl, rfl⟩ := Prod.mk.inj he
      exact List.mem_zipIdx_iff_getElem?.1 hx
    · intro hx
      exact ⟨(t, j), List.mem_zipIdx_iff_getElem?.2 hx, rfl⟩
  have hge : ∀ (l : List ℕ) (b x : ℕ), x ≤ b ∨ x ∈ l → x ≤ l.foldl max b := by
    intro l
    induction l with
    | nil => intro b x h; simpa using h
    | cons a l ih =>
      intro b x h
      refine ih _ _ ?_
      rcases h with h | h
      · exact Or.inl (h.trans (le_max_left _ _))
      · rcases List.mem_cons.1 h with rfl | h
        · exact Or.inl (le_max_right _ _)
        · exact Or.inr h
  constructor
  · intro i t ht hc r hr hres hp
    unfold spinLowerSame
    rcases hp.eq_or_lt with hp | hp
    · refine le_trans (hge _ 0 _ (Or.inr ?_)) (le_max_left _ _)
      refine List.mem_flatMap.2 ⟨(i, t), List.mem_filter.2 ⟨(htask _).2 ht, by simpa using hc⟩, List.mem_map.2 ⟨r, ?_, rfl⟩⟩
      exact List.mem_filter.2 ⟨hr, by simp [hres, hp]⟩
    · have hlen : t.cluster < (splitByCluster info).length := by
        by_contra hn
        have hm : (i, t) ∈ (splitByCluster info).getD t.cluster [] := by
          rw [cluster_tasks]
          exact List.mem_filter.2 ⟨(htask _).2 ht, by simp⟩
        rw [List.getD_eq_getElem?_getD, List.getElem?_eq_none (not_lt.1 hn)] at hm
        exact List.not_mem_nil hm
      refine le_trans ?_ ((hge _ 0 _ (Or.inr (List.mem_map.2 ⟨t.cluster, List.mem_filter.2
        ⟨List.mem_range.2 hlen, by simpa using hc⟩, rfl⟩))).trans (le_max_right _ _))
      unfold spinLowerFrom
      refine le_trans (hge _ 0 _ (Or.inr ?_)) (Nat.le_add_right _ _)
      refine List.mem_flatMap.2 ⟨(i, t), List.mem_filter.2 ⟨(htask _).2 ht, by simp⟩, List.mem_map.2 ⟨r, ?_, rfl⟩⟩
      exact List.mem_filter.2 ⟨hr, by simp [hres, hp]⟩
  · intro h
    have hsame : ∀ c : List (ℕ × TaskInfo), (∀ x ∈ c, info[x.1]? = some x.2 ∧ x.2.cluster ≠ pa) →
        longestSameOn pr res prio c = 0 := by
      intro c hc
      refine foldl_max_zero _ fun a ha => ?_
      obtain ⟨x, hx, ha⟩ := List.mem_flatMap.1 ha
      obtain ⟨r, hr, rfl⟩ := List.mem_map.1 ha
      obtain ⟨hr, hd⟩ := List.mem_filter.1 hr
      obtain ⟨h1, h2⟩ := of_decide_eq_true hd
      have := h _ _ (hc x hx).1 (hc x hx).2 r hr h1
      rw [h1] at h2
      omega
    unfold spinLowerSame
    rw [hsame _ (fun x hx => ⟨(htask x).1 (List.mem_filter.1 hx).1, by simpa using (List.mem_filter.1 hx).2⟩),
      foldl_max_zero, max_self]
    intro a ha
    obtain ⟨c, hc, rfl⟩ := List.mem_map.1 ha
    have hcp : c ≠ pa := by simpa using (List.mem_filter.1 hc).2
    unfold spinLowerFrom
    have h1 : maxLowerFrom pr info res prio c = 0 := by
      refine foldl_max_zero _ fun a ha => ?_
      obtain ⟨x, hx, ha⟩ := List.mem_flatMap.1 ha
      obtain ⟨r, hr, rfl⟩ := List.mem_map.1 ha
      obtain ⟨hr, hd⟩ := List.mem_filter.1 hr
      obtain ⟨h1, h2⟩ := of_decide_eq_true hd
      obtain ⟨hx, hxc⟩ := List.mem_filter.1 hx
      have hxc : x.2.cluster = c := of_decide_eq_true hxc
      have := h _ _ ((htask x).1 hx) (hxc ▸ hcp) r hr h1
      rw [h1] at h2
      omega
    rw [h1, zero_add]
    refine List.sum_eq_zero fun a ha => ?_
    obtain ⟨⟨l, k⟩, hk, rfl⟩ := List.mem_map.1 ha
    obtain ⟨hk, hd⟩ := List.mem_filter.1 hk
    obtain ⟨h2, -⟩ := of_decide_eq_true hd
    refine hsame l fun x hx => ?_
    have hl : (splitByCluster info).getD k [] = l := by
      rw [List.getD_eq_getElem?_getD, List.mem_zipIdx_iff_getElem?.1 hk]
      rfl
    rw [← hl, cluster_tasks] at hx
    obtain ⟨hx, hxc⟩ := List.mem_filter.1 hx
    have hxc : x.2.cluster = k := by simpa using hxc
    exact ⟨(htask x).1 hx, hxc ▸ h2⟩

/-- Both parts of `C155_spin_remote` apply: the request of task 1 delays that of task 2, and not that of task 0. -/
example : spinLowerSame longPrio longInfo 0 0 1 = 1 ∧ spinLowerSame longPrio longInfo 0 1 0 = 0 := by
  decide +kernel

end Verif.SR.Lp
