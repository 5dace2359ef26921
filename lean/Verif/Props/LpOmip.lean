/-
C134: the LP-based analysis of the OMIP (`lp_omip_bounds`, used by `apply_omip_bounds` in
`schedcat/locking/bounds.py`).
-/
import Verif.Model.LpOmip
import Verif.Model.Msrp
import Verif.Lemmas.LockTableOmip
import Verif.Lemmas.LpOmip
import Verif.Lemmas.LpDual
import Verif.Lemmas.LpExample
import Mathlib.Data.Fin.VecNotation
import Mathlib.Tactic.FinCases

namespace Verif.SR.Lp.Omip
open Verif.Spec Finset
open Verif.SR.Msrp (system)

/-- If all variables may be 1, this is optimal. -/
theorem maximum_ones {P : Program} (hi : P.integers = []) (hb : P.binaries = []) (he : P.equalities = [])
    (hle : ∀ c ∈ P.inequalities, termSum (fun _ => 1) c.1 ≤ c.2) (hc : ∀ t ∈ P.objective, 0 ≤ t.1) :
    P.Maximum (fun _ => 1) where
  feasible := ⟨by rw [he]; simp, hle, by rw [hi]; simp, by rw [hb]; simp, fun _ _ => by norm_num⟩
  best := by
    intro y hy
    unfold termSum
    apply List.sum_le_sum
    intro t ht
    exact mul_le_mul_of_nonneg_left (hy.range t.2 (by rw [hi]; simp)).2 (hc t ht)

theorem solved_optimal {solve : Solver} (hs : ∀ P x, P.Maximum x → ∃ y, solve P = some y ∧ P.Maximum y) {P : Program}
    {x : Key → ℚ} {v : ℕ} (h : P.Maximum x) (hv : (lrint (termSum x P.objective)).toNat = v) :
    solved solve P = some v := by
  obtain ⟨y, hy, hm⟩ := hs P x h
  unfold solved
  rw [hy, Option.map_some, ← hv, le_antisymm (h.best y hm.feasible) (hm.best x h.feasible)]

/-- Four tasks that share one resource. -/
def exInfo : Info :=
  [⟨0, 100, 40, 40, 0, 21, [⟨0, 2, 10, false⟩]⟩, ⟨1, 100, 40, 40, 0, 2, [⟨0, 1, 1, false⟩]⟩,
   ⟨2, 100, 40, 40, 0, 2, [⟨0, 1, 1, false⟩]⟩, ⟨3, 100, 40, 40, 0, 3, [⟨0, 1, 2, false⟩]⟩]

theorem exInfo_bounds {solve : Solver} (hs : ∀ P x, P.Maximum x → ∃ y, solve P = some y ∧ P.Maximum y) :
    bounds solve exInfo 2 2 = some [4, 13, 13, 12] := by
  have h0 : solved solve (program exInfo 0 exInfo[0] 2 2) = some 4 :=
    solved_optimal hs (maximum_ones (by decide +kernel) (by decide +kernel) (by decide +kernel) (by decide +kernel)
      (by decide +kernel)) (by decide +kernel)
  have h1 : solved solve (program exInfo 1 exInfo[1] 2 2) = some 13 :=
    solved_optimal hs (maximum_listed (l := [(1, ⟨.direct, 0, 0, 0⟩), (1, ⟨.direct, 2, 0, 0⟩), (1, ⟨.direct, 3, 0, 0⟩)])
      [(10, 1), (1, 2), (2, 3)] (by decide +kernel)) (by decide +kernel)
  have h2 : solved solve (program exInfo 2 exInfo[2] 2 2) = some 13 :=
    solved_optimal hs (maximum_listed (l := [(1, ⟨.direct, 0, 0, 0⟩), (1, ⟨.direct, 1, 0, 0⟩), (1, ⟨.direct, 3, 0, 0⟩)])
      [(10, 1), (1, 2), (2, 3)] (by decide +kernel)) (by decide +kernel)
  have h3 : solved solve (program exInfo 3 exInfo[3] 2 2) = some 12 :=
    solved_optimal hs (maximum_listed (l := [(1, ⟨.direct, 0, 0, 0⟩), (1, ⟨.direct, 1, 0, 0⟩), (1, ⟨.direct, 2, 0, 0⟩)])
      [(10, 1), (1, 2), (1, 3)] (by decide +kernel)) (by decide +kernel)
  unfold bounds
  rw [if_neg (by decide)]
  show [(0, exInfo[0]), (1, exInfo[1]), (2, exInfo[2]), (3, exInfo[3])].mapM _ = _
  simp [h0, h1, h2, h3]

/-- The tasks of `exInfo`, written as functions. -/
def exSys : LockSystem 4 where
  proc := ![0, 0, 0, 0]
  cost := ![21, 2, 2, 3]
  period := ![100, 100, 100, 100]
  deadline := ![40, 40, 40, 40]
  reqs := ![[⟨0, 2, 10⟩], [⟨0, 1, 1⟩], [⟨0, 1, 1⟩], [⟨0, 1, 2⟩]]

theorem system_exInfo : system exInfo = exSys := by
  unfold system exSys
  congr 1 <;>
  · funext (i : Fin 4)
    fin_cases i <;> rfl

/-- Task 2 requests the resource at time 2, while task 0 owns it and task 3 waits in the FIFO queue.  Task 1 issues its
request at time 9, and task 0 its second one at time 11: both overtake task 2. -/
def exTable : Table 4 where
  off := ![0, 8, 1, 0]
  exec := ![21, 2, 2, 3]
  slots := [{0, 3}, {0, 2}, {0}, {0}, {0}, {0}, {0}, {0}, {0, 1}, {0}, {0, 3}, {3}, {1}, {0}, {0}, {0}, {0}, {0},
    {0}, {0}, {0}, {0}, {0}, {2}]
  secs := [⟨0, 0, 0, 0, 0, 10⟩, ⟨3, 0, 0, 1, 10, 12⟩, ⟨2, 0, 0, 2, 23, 24⟩, ⟨1, 0, 0, 9, 12, 13⟩, ⟨0, 0, 1, 11, 13, 23⟩]

/-- When the requests enter the FIFO queue. -/
def exQueued (c : Sec 4) : ℕ :=
  if c.task = 0 then (if c.inst = 0 then 0 else 12) else if c.task = 1 then 10 else if c.task = 2 then 13 else 1

/-- **C134**, violated: the LP-based analysis of the OMIP is not safe.  Although all jobs complete within their response times, a job
is blocked longer than the bound, whatever optimal solutions the solver finds. -/
theorem C134_omip_not_safe : ∃ (info : Info) (R : LockRun info.length) (queued : Section info.length → ℕ)
    (j : Job info.length), (∀ t ∈ info, t.cluster = 0 ∧ 0 < t.period ∧ (t.requests.map Request.resId).Nodup) ∧
    Omip 2 (system info) R queued ∧
    (∀ j, Completed R.work R.sched j (R.work.release j + (info.get j.1).response)) ∧
    ∀ solve : Solver, (∀ P x, P.Maximum x → ∃ y, solve P = some y ∧ P.Maximum y) →
      ∃ bs b, bounds solve info 2 2 = some bs ∧ bs[(j.1 : ℕ)]? = some b ∧ ∃ t, b < obliviousBlocking 2 R j t := by
  have hok : exTable.Ok 2 exSys := by decide +kernel
  refine ⟨exInfo, exTable.run exSys, exTable.queued exQueued, ((2 : Fin 4), 0), by decide, ?_, ?_, ?_⟩
  · rw [system_exInfo]
    exact hok.omip (hok.inherit_of (by decide +kernel)) (by decide +kernel)
  · have key : ∀ i : Fin 4, exTable.exec i ≤ exTable.svc i (exTable.off i + 40) := by decide +kernel
    rintro ⟨(i : Fin 4), q⟩
    unfold Completed
    by_cases hq : q = 0
    · subst hq
      have e : ((exTable.run exSys).work.release (i, 0) + (exInfo.get i).response) = exTable.off i + 40 := by
        revert i; decide
      show exTable.exec i ≤ service (exTable.run exSys).sched (i, 0)
        ((exTable.run exSys).work.release (i, 0) + (exInfo.get i).response)
      rw [e, Table.service_run]
      exact key i
    · show (if q = 0 then _ else 0) ≤ _
      rw [if_neg hq]
      exact Nat.zero_le _
  · intro solve hs
    refine ⟨_, 13, exInfo_bounds hs, rfl, 24, ?_⟩
    show 13 < obliviousBlocking 2 (exTable.run exSys) ((2 : Fin 4), 0) 24
    rw [Table.obliviousBlocking_run]
    decide +kernel

/-- **C134**, partial: the LP-based analysis of the OMIP bounds the suspension-oblivious blocking of every job, for a
single cluster of `m` processors, if each resource is used by at most `m` tasks or by more than `2 * m` tasks. -/
theorem C134_omip_partial {info : Info} {m : ℕ} {R : LockRun info.length} {queued : Section info.length → ℕ}
    (hT : ∀ t ∈ info, 0 < t.period) (hnd : ∀ t ∈ info, (t.requests.map Request.resId).Nodup)
    {c : ℕ} (hc : ∀ t ∈ info, t.cluster = c)
    (hfew : ∀ r, (info.filter (fun t => t.requests.any (fun a => a.resId = r))).length ≤ m ∨
      2 * m < (info.filter (fun t => t.requests.any (fun a => a.resId = r))).length)
    (h : Omip m (system info) R queued)
    (hb : ∀ j : Job info.length, Completed R.work R.sched j (R.work.release j + (info.get j.1).response))
    {solve : Solver} (hs : ∀ P x, solve P = some x → P.Maximum x) {bs : List ℕ}
    (hbs : bounds solve info m m = some bs) {j : Job info.length} {b : ℕ} (hj : bs[(j.1 : ℕ)]? = some b) (t : ℕ) :
    obliviousBlocking m R j t ≤ b :=
  bounds_safe h hnd hT hc hfew hb hs hbs hj t

/-- Two tasks that share a resource, and an independent one. -/
def exFew : Info :=
  [⟨0, 100, 40, 40, 0, 10, []⟩, ⟨1, 100, 40, 40, 0, 2, [⟨0, 1, 1, false⟩]⟩, ⟨2, 100, 40, 40, 0, 5, [⟨0, 1, 4, false⟩]⟩]

theorem exFew_bounds {solve : Solver} (hs : ∀ P x, P.Maximum x → ∃ y, solve P = some y ∧ P.Maximum y) :
    bounds solve exFew 2 2 = some [0, 4, 1] := by
  have h0 : solved solve (program exFew 0 exFew[0] 2 2) = some 0 :=
    solved_optimal hs (maximum_listed (l := []) [(1, 1), (4, 2)] (by decide +kernel)) (by decide +kernel)
  have h1 : solved solve (program exFew 1 exFew[1] 2 2) = some 4 :=
    solved_optimal hs (maximum_ones (by decide +kernel) (by decide +kernel) (by decide +kernel) (by decide +kernel)
      (by decide +kernel)) (by decide +kernel)
  have h2 : solved solve (program exFew 2 exFew[2] 2 2) = some 1 :=
    solved_optimal hs (maximum_ones (by decide +kernel) (by decide +kernel) (by decide +kernel) (by decide +kernel)
      (by decide +kernel)) (by decide +kernel)
  unfold bounds
  rw [if_neg (by decide)]
  show [(0, exFew[0]), (1, exFew[1]), (2, exFew[2])].mapM _ = _
  simp [h0, h1, h2]

/-- The tasks of `exFew`, written as functions. -/
def exFewSys : LockSystem 3 where
  proc := ![0, 0, 0]
  cost := ![10, 2, 5]
  period := ![100, 100, 100]
  deadline := ![40, 40, 40]
  reqs := ![[], [⟨0, 1, 1⟩], [⟨0, 1, 4⟩]]

theorem system_exFew : system exFew = exFewSys := by
  unfold system exFewSys
  congr 1 <;>
  · funext (i : Fin 3)
    fin_cases i <;> rfl

/-- Task 1 waits for task 2. -/
def exFewTable : Table 3 where
  off := ![0, 1, 0]
  exec := ![10, 2, 5]
  slots := [{0, 2}, {0, 2}, {0, 2}, {0, 2}, {0, 1}, {0, 1}, {0, 2}, {0}, {0}, {0}]
  secs := [⟨2, 0, 0, 0, 0, 4⟩, ⟨1, 0, 0, 1, 4, 5⟩]

/-- When the requests enter the FIFO queue. -/
def exFewQueued (c : Sec 3) : ℕ := if c.task = 2 then 0 else 1

/-- The hypotheses are met by a run in which a job is blocked for three slots, for a bound of four. -/
example {solve : Solver} (hs : ∀ P x, P.Maximum x → ∃ y, solve P = some y ∧ P.Maximum y) :
    ∃ (R : LockRun exFew.length) (queued : Section exFew.length → ℕ),
    (∀ t ∈ exFew, 0 < t.period) ∧ (∀ t ∈ exFew, (t.requests.map Request.resId).Nodup) ∧
    (∀ t ∈ exFew, t.cluster = 0) ∧
    (∀ r, (exFew.filter (fun t => t.requests.any (fun a => a.resId = r))).length ≤ 2) ∧
    Omip 2 (system exFew) R queued ∧
    (∀ j : Job exFew.length, Completed R.work R.sched j (R.work.release j + (exFew.get j.1).response)) ∧
    bounds solve exFew 2 2 = some [0, 4, 1] ∧ obliviousBlocking 2 R (⟨1, by decide⟩, 0) 10 = 3 := by
  have hok : exFewTable.Ok 2 exFewSys := by decide +kernel
  refine ⟨exFewTable.run exFewSys, exFewTable.queued exFewQueued, by decide, by decide, by decide, ?_, ?_, ?_,
    exFew_bounds hs, ?_⟩
  · intro r
    by_cases hr : 0 = r
    · subst hr; decide
    · simp [exFew, hr]
  · rw [system_exFew]
    exact hok.omip (hok.inherit_of (by decide +kernel)) (by decide +kernel)
  · have key : ∀ i : Fin 3, exFewTable.exec i ≤ exFewTable.svc i (exFewTable.off i + 40) := by decide +kernel
    rintro ⟨(i : Fin 3), q⟩
    unfold Completed
    by_cases hq : q = 0
    · subst hq
      have e : ((exFewTable.run exFewSys).work.release (i, 0) + (exFew.get i).response) = exFewTable.off i + 40 := by
        revert i; decide
      show exFewTable.exec i ≤ service (exFewTable.run exFewSys).sched (i, 0)
        ((exFewTable.run exFewSys).work.release (i, 0) + (exFew.get i).response)
      rw [e, Table.service_run]
      exact key i
    · show (if q = 0 then _ else 0) ≤ _
      rw [if_neg hq]
      exact Nat.zero_le _
  · show obliviousBlocking 2 (exFewTable.run exFewSys) ((1 : Fin 3), 0) 10 = 3
    rw [Table.obliviousBlocking_run]
    decide +kernel

end Verif.SR.Lp.Omip
