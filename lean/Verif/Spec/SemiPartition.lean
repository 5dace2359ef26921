/-
Specification: what it means to partition a task set onto processors, with tasks
possibly split into parts.  Only the type of tasks is taken from the model.
-/
import Verif.Model.Apa
import Verif.Spec.Schedule

namespace Verif.Apa
open Verif.Spec

/-- A task that can meet its deadline on a processor of its own. -/
def Proper (t : ATask) : Prop := 0 < t.cost ∧ (t.cost : ℤ) ≤ t.deadline ∧ t.cost ≤ t.period

/-- The tasks of a processor never miss a deadline under EDF, for all legal arrival
sequences and all tie-breaking. -/
def CoreSchedulable (ts : List ATask) : Prop :=
  EdfSchedulable 1 (fun i : Fin ts.length => (ts.get i).cost) (fun i => (ts.get i).period)
    (fun i => (ts.get i).deadline.toNat)

/-- A part of a task and its processor; `none` if it is not assigned. -/
abbrev Part := Option ℕ × ATask

/-- The parts `l` make up the task `t`: they have its id and period, their costs and
their deadlines add up to those of `t`, all parts are assigned to processors allowed for
`t`, except possibly the last one, all parts but the last have no laxity, and if there
are several parts then each has a cost of at least `minChunk`. -/
def IsSplitOf (minChunk : ℕ) (t : ATask) (l : List Part) : Prop :=
  ∃ (init : List Part) (last : Part), l = init ++ [last] ∧
    (∀ p ∈ init, (∃ c ∈ t.affinity, p.1 = some c) ∧ p.2.deadline = p.2.cost) ∧
    ((∃ c ∈ t.affinity, last.1 = some c) ∨ (last.1 = none ∧ last.2.affinity = t.affinity)) ∧
    (∀ p ∈ l, p.2.id = t.id ∧ p.2.period = t.period ∧ 0 < p.2.cost) ∧
    (l.map (fun p => p.2.cost)).sum = t.cost ∧
    (l.map (fun p => p.2.deadline)).sum = t.deadline ∧
    (init ≠ [] → ∀ p ∈ l, minChunk ≤ p.2.cost)

/-- The tasks in `l` on processor `c`, or the unassigned ones. -/
def partsOn (l : List Part) (c : Option ℕ) : List ATask := (l.filter (fun p => p.1 = c)).map Prod.snd

/-- Nothing is lost and nothing is added: there is a way to split the tasks such that
the unassigned parts are exactly `un` and each processor has exactly its parts and the
tasks that were there before. -/
def Accounted (minChunk : ℕ) (tasks : List ATask) (pre : Assign) (un : List ATask) (asg : Assign) :
    Prop :=
  ∃ parts : List (List Part), List.Forall₂ (IsSplitOf minChunk) tasks parts ∧
    un.Perm (partsOn parts.flatten none) ∧
    ∀ c, (asg c).Perm (pre c ++ partsOn parts.flatten (some c))

end Verif.Apa
