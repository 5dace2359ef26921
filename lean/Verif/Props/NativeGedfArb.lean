/-
Property C85: the native tests that are documented for arbitrary deadlines accept task
sets that miss deadlines.
-/
import Verif.Props.NativeGedf
import Verif.Lemmas.Witness
import Verif.Lemmas.Necessary
import Mathlib.Data.Fin.VecNotation

namespace Verif.Native
open Verif.Spec

/-- Three tasks of which the second one has a deadline larger than its period, and uses
a whole processor. -/
def backlogSet : TaskSet := [.init 1 8 3, .init 4 4 8, .init 1 8 3]

/-- The backlog of the second task grows by one every eight time units. -/
theorem backlog_misses : ¬ Safe 2 backlogSet :=
  miss_of_table (n := 3) ![8, 4, 8] ![5, 9, 5]
    [[(2, 0), (0, 0)], [(1, 0)], [(1, 0)], [(1, 0)], [(1, 0)], [(1, 1)], [(1, 1)], [(1, 1)],
      [(2, 1), (0, 1)], [(1, 1)], [(1, 2)], [(1, 2)], [(1, 2)], [(1, 2)], [(1, 3)], [(1, 3)],
      [(2, 2), (0, 2)], [(1, 3)], [(1, 3)], [(1, 4)], [(1, 4)], [(1, 4)], [(1, 4)], [(1, 5)],
      [(2, 3), (0, 3)], [(1, 5)], [(1, 5)], [(1, 5)], [(1, 6)], [(1, 6)], [(1, 6)], [(1, 6)],
      [(2, 4), (0, 4)], [(1, 7)], [(1, 7)], [(1, 7)], [(1, 7)], [(1, 8)], [(1, 8)], [(1, 8)],
      [(1, 8)]]
    (1, 7) (by decide +kernel)

/-- Three tasks of which the first one has a deadline larger than its period. -/
def carrySet : TaskSet := [.init 4 4 13, .init 1 5 3, .init 1 2 2]

theorem carry_misses : ¬ Safe 2 carrySet :=
  miss_of_table (n := 3) ![4, 5, 5] ![13, 10, 10]
    [[(2, 0), (1, 0)], [(0, 0)], [(0, 0)], [(0, 0)], [(0, 0)], [(2, 1), (1, 1)], [(0, 1)],
      [(0, 1)], [(0, 1)], [(0, 1)], [(2, 2), (1, 2)], [(0, 2)], [(0, 2)], [(0, 2)], [(0, 2)],
      [(2, 3), (1, 3)], [(0, 3)], [(0, 3)], [(0, 3)], [(0, 3)], [(2, 4), (1, 4)], [(0, 4)],
      [(0, 4)], [(0, 4)], [(0, 4)], [(2, 5), (1, 5)], [(0, 5)], [(0, 5)], [(0, 5)], [(0, 5)],
      [(2, 6), (1, 6)], [(0, 6)], [(0, 6)], [(0, 6)], [(0, 6)], [(2, 7), (1, 7)], [(0, 7)],
      [(0, 7)], [(0, 7)], [(0, 7)], [(2, 8), (1, 8)], [(0, 8)], [(0, 8)], [(0, 8)], [(0, 8)],
      [(2, 9), (1, 9)], [(0, 9)], [(0, 9)], [(0, 9)], [(0, 9)], [(0, 10)], [(0, 10)], [(0, 10)],
      [(0, 10)], [(0, 11)], [(0, 11)], [(0, 11)], [(0, 11)], [(0, 12)], [(0, 12)], [(0, 12)],
      [(0, 12)]]
    (0, 9) (by decide +kernel)

/-- Two tasks for one processor: the demand of the second one, which has a deadline
larger than its period, exceeds its density. -/
def densitySet : TaskSet := [.init 100 1000 200, .init 9 10 18]

theorem density_misses : ¬ Safe 1 densitySet := by
  intro h
  obtain ⟨σ, hv, he⟩ := exists_edf 1 (periodic_sporadic (fun i => (densitySet.get i).wcet)
    (fun i => (densitySet.get i).period)) (by decide) (fun i => (densitySet.get i).deadline)
  exact multi_necessary (t := 200) (by decide +kernel) hv (h _ _ (periodic_sporadic _ _) hv he)

/-- C85 is violated: the tests of Baker and of Liu and Anderson, the load test, and the
combined test on one and on several processors all accept a task set that misses a
deadline under global EDF. -/
theorem C85_violated :
    (∃ ts, baker 2 ts = true ∧ ¬ Safe 2 ts) ∧
    (∃ ts, la firstMin (fun _ _ _ => false) 100 2 ts = some true ∧ ¬ Safe 2 ts) ∧
    (∃ ts, load 1 ts = true ∧ ¬ Safe 1 ts) ∧
    (∃ ts, gedf firstMin (fun _ => false) (fun _ _ _ => false) 100 1 {} ts = some true ∧ ¬ Safe 1 ts) ∧
    (∃ ts, gedf firstMin (fun _ => false) (fun _ _ _ => false) 100 2 {} ts = some true ∧ ¬ Safe 2 ts) :=
  ⟨⟨backlogSet, by decide +kernel, backlog_misses⟩, ⟨carrySet, by decide +kernel, carry_misses⟩,
    ⟨densitySet, by decide +kernel, density_misses⟩, ⟨densitySet, by decide +kernel, density_misses⟩,
    ⟨backlogSet, by decide +kernel, backlog_misses⟩⟩

end Verif.Native
