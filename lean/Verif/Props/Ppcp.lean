/-
C93: the bounds for the parallel priority ceiling protocol (`native/src/blocking/ppcp.cpp`, used by
`apply_classic_ppcp_bounds` of `schedcat/locking/bounds.py`) with the response-time analysis of
`schedcat/sched/fp/bertogna.py`.
-/
import Verif.Props.PipExample
import Verif.Lemmas.Ppcp

namespace Verif.SR.Pip
open Verif.Spec Verif.SR.Msrp

theorem shiftLoop_empty (info : Info) (tsk : TaskInfo) (st : ShiftState) (h : st.considered = [])
    (hf : st.found = false) :
    (shiftLoop info tsk st).considered = [] ∧ (shiftLoop info tsk st).found = false := by
  unfold shiftLoop
  generalize lowerTasks info tsk = l
  induction l generalizing st with
  | nil => exact ⟨h, hf⟩
  | cons x l ih =>
    rw [List.foldl_cons]
    apply ih
    · simp [h]
    · simp [h, hf]

theorem shiftRounds_empty (info : Info) (tsk : TaskInfo) (m : ℕ) : shiftRounds info tsk m = ([], 0) := by
  induction m with
  | zero => rfl
  | succ m ih =>
    rw [shiftRounds, ih]
    obtain ⟨h1, h2⟩ := shiftLoop_empty info tsk ⟨[], uintMax, false, 0⟩ rfl rfl
    simp only
    rw [h1, h2]
    rfl

theorem ilpPpcp_eq_zero (info : Info) (tsk : TaskInfo) (m : ℕ) : ilpPpcp info tsk m = 0 := by
  unfold ilpPpcp
  rw [shiftRounds_empty]
  simp only
  have : ∀ l : List (ℕ × TaskInfo), ∀ a, l.foldl (fun sum tl =>
      if ([] : List ℕ).contains tl.1 then sum + workload (tsk.response - minCsl info tsk) tl.2
        (higherCeilingTime info tsk tl.2) else sum) a = a := by
    intro l
    induction l with
    | nil => intro a; rfl
    | cons x l ih => intro a; rw [List.foldl_cons]; simpa using ih a
  rw [this]
  simp [Native.divideWithCeil]

/-- **C93**: if the priority assignment is "reasonable", a task without requests of its own is
assumed not to be blocked at all, whatever the other tasks do.  (The loops look for tasks in a set
that is empty.) -/
theorem C93_indirect_blocking_ignored (info : Info) (m : ℕ) (tsk : TaskInfo) (h : tsk.requests = []) :
    ppcpBounds info m true tsk = (0, 0) := by
  have h1 : directLower info tsk = 0 := by unfold directLower; rw [h]; rfl
  have h2 : sus info tsk m = 0 := by unfold sus; rw [h]; rfl
  have h3 : ihpDsr info tsk = 0 := by
    unfold ihpDsr
    have hc : ∀ t, commonSrTime tsk t = 0 := by intro t; unfold commonSrTime; rw [h]; rfl
    have hw : ∀ t, workload tsk.response t 0 = 0 := by intro t; unfold workload; simp
    rw [foldl_add_if', zero_add]
    apply List.sum_eq_zero
    intro x hx
    obtain ⟨t, -, rfl⟩ := List.mem_map.1 hx
    rw [hc, hw, ite_self]
  unfold ppcpBounds
  simp [h1, h2, h3, ilpPpcp_eq_zero]

/-- Tasks 3 and 4 share resources with the two highest-priority tasks. -/
def ppInfo : Info :=
  [⟨0, 20, 20, 20, 0, 1, [⟨0, 1, 1, false⟩]⟩, ⟨1, 20, 20, 20, 0, 1, [⟨1, 1, 1, false⟩]⟩,
    ⟨2, 20, 5, 5, 0, 1, []⟩, ⟨3, 20, 20, 20, 0, 5, [⟨0, 1, 5, false⟩]⟩,
    ⟨4, 20, 20, 20, 0, 5, [⟨1, 1, 5, false⟩]⟩]

/-- The same tasks, written as functions. -/
def ppSys : LockSystem 5 where
  proc := ![0, 0, 0, 0, 0]
  cost := ![1, 1, 1, 5, 5]
  period := ![20, 20, 20, 20, 20]
  deadline := ![20, 20, 5, 20, 20]
  reqs := ![[⟨0, 1, 1⟩], [⟨1, 1, 1⟩], [], [⟨0, 1, 5⟩], [⟨1, 1, 5⟩]]

theorem system_ppInfo : system ppInfo = ppSys := by
  unfold system ppSys
  congr 1 <;>
  · funext (i : Fin 5)
    fin_cases i <;> rfl

/-- Tasks 3 and 4 acquire both resources at time 0.  The other jobs are released at time 1; tasks 0
and 1 wait for the resources until time 5, and task 2 is delayed until time 6. -/
def ppTable : Table 5 where
  off := ![1, 1, 1, 0, 0]
  exec := ![1, 1, 1, 5, 5]
  slots := [{3, 4}, {3, 4}, {3, 4}, {3, 4}, {3, 4}, {0, 1}, {2}]
  secs := [⟨3, 0, 0, 0, 0, 5⟩, ⟨4, 0, 0, 0, 0, 5⟩, ⟨0, 0, 0, 1, 5, 6⟩, ⟨1, 0, 0, 1, 5, 6⟩]

/-- **C93** is violated: tasks with deadline-monotonic priorities (below the highest two) and
constrained deadlines are accepted for two processors, although a deadline can be missed. -/
theorem C93_violated : ∃ (info : Info) (m fuel : ℕ) (rs : List (GFp.FTask × ℤ)),
    (∀ i : Fin info.length, (info.get i).priority = i) ∧
    (∀ t ∈ info, 0 < t.period ∧ t.deadline ≤ t.period ∧ t.deadline ≤ t.response) ∧
    (∀ t ∈ info, (t.requests.map (fun q => q.num * q.length)).sum ≤ t.cost) ∧
    (∀ t ∈ info, (t.requests.map (·.resId)).Nodup) ∧
    GFp.bertogna fuel m (afterPpcp info m) = some (true, rs) ∧
    ∃ run, UnlimitedPpcp m (system info) run ∧
      ¬ MeetsDeadlines run.work (system info).deadline run.sched := by
  refine ⟨ppInfo, 2, 10, ((GFp.bertogna 10 2 (afterPpcp ppInfo 2)).getD (true, [])).2, by decide, by decide,
    by decide, by decide, by decide +kernel, ?_⟩
  have h : ∃ run, UnlimitedPpcp 2 ppSys run ∧ ¬ MeetsDeadlines run.work ppSys.deadline run.sched := by
    refine ⟨ppTable.run ppSys, (show ppTable.Ok 2 ppSys by decide +kernel).ppcp (by decide +kernel)
      (by decide +kernel), fun hm => ?_⟩
    have := hm (2, 0)
    unfold Completed at this
    rw [Table.service_run] at this
    revert this
    decide +kernel
  rw [← system_ppInfo] at h
  exact h

theorem ppcp_unreasonable (info : Info) (m : ℕ) (hm : 1 ≤ m) (fuel : ℕ) (noSlack : Bool)
    (hprio : ∀ i : Fin info.length, (info.get i).priority = i)
    (hT : ∀ t ∈ info, 0 < t.period ∧ t.deadline ≤ t.period)
    (hcost : ∀ t ∈ info, (t.requests.map (fun q => q.num * q.length)).sum ≤ t.cost)
    (hnd : ∀ t ∈ info, (t.requests.map (·.resId)).Nodup)
    (hun : ∃ i, ∃ a b, m ≤ i ∧ info[i]? = some a ∧ info[i + 1]? = some b ∧ b.deadline < a.deadline)
    (rs : List (GFp.FTask × ℤ))
    (h : GFp.bertogna fuel m (afterPpcp info m) noSlack = some (true, rs))
    (hresp : ∀ i : Fin info.length, ∀ t r, rs[i.1]? = some (t, r) → r ≤ (info.get i).response)
    (i : Fin info.length) :
    ∃ t, ∃ R : ℕ, rs[i.1]? = some (t, (R : ℤ)) ∧ R ≤ (info.get i).deadline ∧
      ∀ run, Spec.Pip m (system info) run → ∀ q,
        Completed run.work run.sched (i, q) (run.work.release (i, q) + R) := by
  have hun' : isReasonable m info = false := by
    obtain ⟨i, a, b, hi, ha, hb, hlt⟩ := hun
    unfold isReasonable
    rw [List.all_eq_false]
    refine ⟨(a, b), ?_, by simpa using hlt⟩
    rw [List.mem_iff_getElem?]
    refine ⟨i - m, ?_⟩
    rw [List.getElem?_zip_eq_some]
    simp only [List.getElem?_drop]
    rw [show m + (i - m) = i by omega, show m + (1 + (i - m)) = i + 1 by omega]
    exact ⟨ha, hb⟩
  obtain ⟨t, R, h1, h2, h3⟩ := pip_core (fun t => (ppcpBounds info m (isReasonable m info) t).1) info m hm fuel
    noSlack hprio hT hcost hnd (by
      intro t _
      rw [hun']
      unfold pipBounds ppcpBounds
      simp only
      by_cases hp : t.priority ≥ m
      · rw [if_pos hp, if_pos hp, if_neg (by simp)]; omega
      · rw [if_neg hp, if_neg hp]) rs h hresp i
  exact ⟨t, R, h1, h2, h3⟩

/-- **C93**, partial: if the priority assignment is not "reasonable", the bounds hold in all runs in
which the limits of the protocol have no effect.  (Not proved: runs in which free resources are
withheld.) -/
theorem C93_unreasonable_partial (info : Info) (m : ℕ) (hm : 1 ≤ m) (fuel : ℕ) (noSlack : Bool)
    (hprio : ∀ i : Fin info.length, (info.get i).priority = i)
    (hT : ∀ t ∈ info, 0 < t.period ∧ t.deadline ≤ t.period)
    (hcost : ∀ t ∈ info, (t.requests.map (fun q => q.num * q.length)).sum ≤ t.cost)
    (hnd : ∀ t ∈ info, (t.requests.map (·.resId)).Nodup)
    (hun : ∃ i, ∃ a b, m ≤ i ∧ info[i]? = some a ∧ info[i + 1]? = some b ∧ b.deadline < a.deadline)
    (rs : List (GFp.FTask × ℤ))
    (h : GFp.bertogna fuel m (afterPpcp info m) noSlack = some (true, rs))
    (hresp : ∀ i : Fin info.length, ∀ t r, rs[i.1]? = some (t, r) → r ≤ (info.get i).response)
    (i : Fin info.length) :
    ∃ t, ∃ R : ℕ, rs[i.1]? = some (t, (R : ℤ)) ∧ R ≤ (info.get i).deadline ∧
      ∀ run, UnlimitedPpcp m (system info) run → ∀ q,
        Completed run.work run.sched (i, q) (run.work.release (i, q) + R) := by
  obtain ⟨t, R, h1, h2, h3⟩ := ppcp_unreasonable info m hm fuel noSlack hprio hT hcost hnd hun rs h hresp i
  exact ⟨t, R, h1, h2, fun run hrun => h3 run hrun.toPip⟩

/-- **C93**, partial: if the priority assignment is not "reasonable", the bounds hold in all runs of the P-PCP with
parameter `α`, provided that no task has `α` lower-priority tasks that share resources with tasks of higher priority.
(Not proved: other task sets, and "reasonable" priority assignments.) -/
theorem C93_few_sharing_partial (info : Info) (m : ℕ) (hm : 1 ≤ m) (fuel : ℕ) (noSlack : Bool)
    (hprio : ∀ i : Fin info.length, (info.get i).priority = i)
    (hT : ∀ t ∈ info, 0 < t.period ∧ t.deadline ≤ t.period)
    (hcost : ∀ t ∈ info, (t.requests.map (fun q => q.num * q.length)).sum ≤ t.cost)
    (hnd : ∀ t ∈ info, (t.requests.map (·.resId)).Nodup)
    (hun : ∃ i, ∃ a b, m ≤ i ∧ info[i]? = some a ∧ info[i + 1]? = some b ∧ b.deadline < a.deadline)
    (α : ℕ) (hfew : ∀ (i : Fin info.length) (F : Finset (Fin info.length)),
      (∀ x ∈ F, i < x ∧ ∃ q ∈ (info.get x).requests, ∃ y < i, ∃ q' ∈ (info.get y).requests, q'.resId = q.resId) →
        F.card < α)
    (rs : List (GFp.FTask × ℤ))
    (h : GFp.bertogna fuel m (afterPpcp info m) noSlack = some (true, rs))
    (hresp : ∀ i : Fin info.length, ∀ t r, rs[i.1]? = some (t, r) → r ≤ (info.get i).response)
    (i : Fin info.length) :
    ∃ t, ∃ R : ℕ, rs[i.1]? = some (t, (R : ℤ)) ∧ R ≤ (info.get i).deadline ∧
      ∀ run, Spec.Ppcp m α (system info) run → ∀ q,
        Completed run.work run.sched (i, q) (run.work.release (i, q) + R) := by
  obtain ⟨t, R, h1, h2, h3⟩ := ppcp_unreasonable info m hm fuel noSlack hprio hT hcost hnd hun rs h hresp i
  refine ⟨t, R, h1, h2, fun run hrun => h3 run (hrun.pip fun i F hF => hfew i F fun x hx => ?_)⟩
  obtain ⟨hlt, q, hq, y, hy, q', hq', he⟩ := hF x hx
  obtain ⟨r, hr, rfl⟩ := List.mem_map.1 hq
  obtain ⟨r', hr', rfl⟩ := List.mem_map.1 hq'
  exact ⟨hlt, r, hr, y, hy, r', hr', he⟩

/-- **C93**, partial: if there are at most `m + 1` tasks, the bounds hold in all runs of the P-PCP in which every task has
parameter `m`, the number of processors.  (Not proved: more tasks, for which the property is violated.) -/
theorem C93_few_tasks_partial (info : Info) (m : ℕ) (hm : 1 ≤ m) (hn : info.length ≤ m + 1) (fuel : ℕ) (noSlack : Bool)
    (hprio : ∀ i : Fin info.length, (info.get i).priority = i)
    (hT : ∀ t ∈ info, 0 < t.period ∧ t.deadline ≤ t.period)
    (hcost : ∀ t ∈ info, (t.requests.map (fun q => q.num * q.length)).sum ≤ t.cost)
    (hnd : ∀ t ∈ info, (t.requests.map (·.resId)).Nodup)
    (rs : List (GFp.FTask × ℤ))
    (h : GFp.bertogna fuel m (afterPpcp info m) noSlack = some (true, rs))
    (hresp : ∀ i : Fin info.length, ∀ t r, rs[i.1]? = some (t, r) → r ≤ (info.get i).response)
    (i : Fin info.length) :
    ∃ t, ∃ R : ℕ, rs[i.1]? = some (t, (R : ℤ)) ∧ R ≤ (info.get i).deadline ∧
      ∀ run, Spec.Ppcp m m (system info) run → ∀ q,
        Completed run.work run.sched (i, q) (run.work.release (i, q) + R) := by
  obtain ⟨t, R, h1, h2, h3⟩ := pip_core (fun t => (ppcpBounds info m (isReasonable m info) t).1) info m hm fuel
    noSlack hprio hT hcost hnd (by
      intro t ht
      unfold pipBounds ppcpBounds
      simp only
      by_cases hp : t.priority ≥ m
      · rw [if_pos hp, if_pos hp]
        have h0 : ilp info t m = 0 := by
          unfold ilp
          have : info.foldl (fun sum tl => if tl.priority > t.priority then
              sum + workload t.response tl (higherCeilingTime info t tl) else sum) 0 = 0 := by
            apply List.foldlRecOn (motive := fun s => s = 0) _ _ rfl
            intro s hs tl htl
            rw [if_neg, hs]
            obtain ⟨x, rfl⟩ := List.mem_iff_get.1 htl
            have := hprio x
            have := x.2
            omega
          rw [this]
          simp [Native.divideWithCeil]
        rw [h0]
        omega
      · rw [if_neg hp, if_neg hp]) rs h hresp i
  exact ⟨t, R, h1, h2, fun run hrun => h3 run (hrun.pip (few_of_card hn hm))⟩

/-- Four tasks, of which the last two are not in the order of their deadlines. -/
def unInfo : Info :=
  [⟨0, 20, 20, 20, 0, 2, [⟨0, 1, 1, false⟩]⟩, ⟨1, 20, 20, 20, 0, 2, []⟩, ⟨2, 20, 20, 20, 0, 1, []⟩,
    ⟨3, 20, 19, 19, 0, 3, [⟨0, 1, 3, false⟩]⟩]

example : (GFp.bertogna 10 2 (afterPpcp unInfo 2)).map (fun r => (r.1, r.2.map (·.2))) =
      some (true, [5, 2, 6, 6]) ∧
    ∀ R, UnlimitedPpcp 2 (system unInfo) R → MeetsDeadlines R.work (system unInfo).deadline R.sched := by
  refine ⟨by decide +kernel, fun R hR j => ?_⟩
  obtain ⟨t, r, h1, h2, h3⟩ := C93_unreasonable_partial unInfo 2 (by decide) 10 false (by decide) (by decide)
    (by decide) (by decide) ⟨2, _, _, le_rfl, rfl, rfl, by decide⟩
    ((GFp.bertogna 10 2 (afterPpcp unInfo 2)).getD (true, [])).2 (by decide +kernel) (by
      intro i t r hr
      have hall : ∀ x ∈ ((GFp.bertogna 10 2 (afterPpcp unInfo 2)).getD (true, [])).2, x.2 ≤ 19 := by
        decide +kernel
      have h1 := hall _ (List.mem_of_getElem? hr)
      have h2 : ∀ i, 19 ≤ (unInfo.get i).response := by decide
      have := h2 i
      simp only at h1
      omega) j.1
  exact (h3 R hR j.2).mono (Nat.add_le_add_left h2 _)

/-- Only the last of these tasks shares a resource with a task of higher priority than another one. -/
example : (GFp.bertogna 10 2 (afterPpcp unInfo 2)).isSome ∧
    ∀ R, Spec.Ppcp 2 2 (system unInfo) R → MeetsDeadlines R.work (system unInfo).deadline R.sched := by
  refine ⟨by decide +kernel, fun R hR j => ?_⟩
  obtain ⟨t, r, h1, h2, h3⟩ := C93_few_sharing_partial unInfo 2 (by decide) 10 false (by decide) (by decide)
    (by decide) (by decide) ⟨2, _, _, le_rfl, rfl, rfl, by decide⟩ 2 (by
      intro i F hF
      have hx : ∀ i x : Fin unInfo.length, (i < x ∧ ∃ q ∈ (unInfo.get x).requests, ∃ y < i,
          ∃ q' ∈ (unInfo.get y).requests, q'.resId = q.resId) →
          x ∈ ({⟨3, by decide⟩} : Finset (Fin unInfo.length)) := by decide
      have := Finset.card_le_card (fun x hxF => hx i x (hF x hxF))
      exact lt_of_le_of_lt this (by decide))
    ((GFp.bertogna 10 2 (afterPpcp unInfo 2)).getD (true, [])).2 (by decide +kernel) (by
      intro i t r hr
      have hall : ∀ x ∈ ((GFp.bertogna 10 2 (afterPpcp unInfo 2)).getD (true, [])).2, x.2 ≤ 19 := by
        decide +kernel
      have h1 := hall _ (List.mem_of_getElem? hr)
      have h2 : ∀ i, 19 ≤ (unInfo.get i).response := by decide
      have := h2 i
      simp only at h1
      omega) j.1
  exact (h3 R hR j.2).mono (Nat.add_le_add_left h2 _)

/-- These are no more than four tasks. -/
example : (GFp.bertogna 10 3 (afterPpcp unInfo 3)).isSome ∧
    ∀ R, Spec.Ppcp 3 3 (system unInfo) R → MeetsDeadlines R.work (system unInfo).deadline R.sched := by
  refine ⟨by decide +kernel, fun R hR j => ?_⟩
  obtain ⟨t, r, h1, h2, h3⟩ := C93_few_tasks_partial unInfo 3 (by decide) (by decide) 10 false (by decide) (by decide)
    (by decide) (by decide)
    ((GFp.bertogna 10 3 (afterPpcp unInfo 3)).getD (true, [])).2 (by decide +kernel) (by
      intro i t r hr
      have hall : ∀ x ∈ ((GFp.bertogna 10 3 (afterPpcp unInfo 3)).getD (true, [])).2, x.2 ≤ 19 := by
        decide +kernel
      have h1 := hall _ (List.mem_of_getElem? hr)
      have h2 : ∀ i, 19 ≤ (unInfo.get i).response := by decide
      have := h2 i
      simp only at h1
      omega) j.1
  exact (h3 R hR j.2).mono (Nat.add_le_add_left h2 _)

end Verif.SR.Pip
