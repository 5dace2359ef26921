/-
Specification: sporadic workloads and schedules on identical processors, in
discrete time.  Slot `t` is the interval from time `t` to time `t + 1`.  This
file does not depend on the model.
-/
import Mathlib.Data.Finset.Card
import Mathlib.Data.Fintype.Basic
import Mathlib.Data.Finset.Range
import Mathlib.Data.Finset.Prod
import Mathlib.Data.Prod.Basic

namespace Verif.Spec

/-- Job `k` of task `i`. -/
abbrev Job (n : ℕ) := Fin n × ℕ

/-- When each job is released and how long it actually executes.  A task with
finitely many jobs is one whose later jobs execute for 0 time units. -/
structure Workload (n : ℕ) where
  release : Job n → ℕ
  exec : Job n → ℕ

/-- Consecutive jobs of task `i` are released at least `T i` apart and execute
for at most `C i`. -/
structure Workload.Sporadic {n : ℕ} (w : Workload n) (C T : Fin n → ℕ) : Prop where
  separated : ∀ i k, w.release (i, k) + T i ≤ w.release (i, k + 1)
  wcet : ∀ i k, w.exec (i, k) ≤ C i

/-- The set of jobs executing in each slot. -/
abbrev Schedule (n : ℕ) := ℕ → Finset (Job n)

/-- Processor time received by job `j` before time `t`. -/
def service {n : ℕ} (σ : Schedule n) (j : Job n) (t : ℕ) : ℕ :=
  ((Finset.range t).filter (fun s => j ∈ σ s)).card

/-- Job `j` has finished by time `t`. -/
def Completed {n : ℕ} (w : Workload n) (σ : Schedule n) (j : Job n) (t : ℕ) : Prop :=
  w.exec j ≤ service σ j t

/-- Job `j` is released and unfinished at time `t`. -/
def Pending {n : ℕ} (w : Workload n) (σ : Schedule n) (j : Job n) (t : ℕ) : Prop :=
  w.release j ≤ t ∧ ¬ Completed w σ j t

/-- Job `j` is pending and all earlier jobs of the same task are finished: the
jobs of a task execute one after the other. -/
def Ready {n : ℕ} (w : Workload n) (σ : Schedule n) (j : Job n) (t : ℕ) : Prop :=
  Pending w σ j t ∧ ∀ k < j.2, Completed w σ (j.1, k) t

/-- At most `m` jobs execute at a time, and only ready ones. -/
structure ValidSchedule {n : ℕ} (m : ℕ) (w : Workload n) (σ : Schedule n) : Prop where
  procs : ∀ t, (σ t).card ≤ m
  ready : ∀ t, ∀ j ∈ σ t, Ready w σ j t

/-- Global preemptive priority scheduling on `m` processors: a ready job waits
only while `m` jobs of no later priority point execute.  Ties may be broken in any
way. -/
def PriorityDriven {n : ℕ} (m : ℕ) (w : Workload n) (prio : Job n → ℕ) (σ : Schedule n) : Prop :=
  ∀ t j, Ready w σ j t → j ∉ σ t → (σ t).card = m ∧ ∀ j' ∈ σ t, prio j' ≤ prio j

/-- Absolute deadline of a job, for relative deadlines `D`. -/
def Workload.deadline {n : ℕ} (w : Workload n) (D : Fin n → ℕ) (j : Job n) : ℕ :=
  w.release j + D j.1

/-- Preemptive global EDF (uniprocessor EDF if `m = 1`). -/
def EDF {n : ℕ} (m : ℕ) (w : Workload n) (D : Fin n → ℕ) (σ : Schedule n) : Prop :=
  PriorityDriven m w (w.deadline D) σ

/-- Every job finishes by its deadline. -/
def MeetsDeadlines {n : ℕ} (w : Workload n) (D : Fin n → ℕ) (σ : Schedule n) : Prop :=
  ∀ j : Job n, Completed w σ j (w.deadline D j)

/-- The sporadic tasks never miss a deadline under (global) EDF: for every legal
arrival sequence, every behaviour and every tie-breaking. -/
def EdfSchedulable {n : ℕ} (m : ℕ) (C T D : Fin n → ℕ) : Prop :=
  ∀ (w : Workload n) (σ : Schedule n), w.Sporadic C T → ValidSchedule m w σ → EDF m w D σ →
    MeetsDeadlines w D σ

end Verif.Spec
