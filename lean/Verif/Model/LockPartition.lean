/-
Model of `schedcat/locking/partition.py`.  Tasks and resources are represented by numbers.
-/
import Mathlib.Data.Finset.Lattice.Basic
import Mathlib.Data.Finset.Insert
import Mathlib.Logic.Function.Basic

namespace Verif.Part

/-- The dictionary `by_res` maps ids to set *objects* (`ref`), which are shared and
mutated (`heap`); `partition.py:7`. -/
structure ByRes where
  ref : ℕ → Option ℕ
  heap : ℕ → Finset ℕ
  next : ℕ

/-- `by_res[r]` of a `defaultdict(set)`: creates an empty set on first access. -/
def ByRes.get (g : ByRes) (r : ℕ) : ByRes × ℕ :=
  match g.ref r with
  | some x => (g, x)
  | none => ({ ref := Function.update g.ref r (some g.next),
               heap := Function.update g.heap g.next ∅, next := g.next + 1 }, g.next)

/-- `by_res[r].add(t)`, `partition.py:14`. -/
def ByRes.add (g : ByRes) (r t : ℕ) : ByRes :=
  let (g, x) := g.get r
  { g with heap := Function.update g.heap x (insert t (g.heap x)) }

/-- `by_res[r].update(by_res[other]); by_res[other] = by_res[r]`, `partition.py:17-18`. -/
def ByRes.merge (g : ByRes) (r other : ℕ) : ByRes :=
  let (g, x) := g.get r
  let (g, y) := g.get other
  { g with heap := Function.update g.heap x (g.heap x ∪ g.heap y),
           ref := Function.update g.ref other (some x) }

/-- The body of the first loop, `partition.py:9-21`.  `acc t` lists the resources the task
accesses, in the order in which the dictionary `t.resmodel` is iterated; the second
component is `by_task`. -/
def visit (acc : ℕ → List ℕ) (st : ByRes × (ℕ → Option (Finset ℕ))) (t : ℕ) :
    ByRes × (ℕ → Option (Finset ℕ)) :=
  match acc t with
  | [] => (st.1, Function.update st.2 t (some {t}))
  | r :: others => (others.foldl (fun g other => g.merge r other) (st.1.add r t), st.2)

/-- The inner loop `for t in c`, `partition.py:24-27`; the list is the set in the order in
which it is iterated. -/
def assign (c : Finset ℕ) : List ℕ → (ℕ → Option (Finset ℕ)) → (ℕ → Option (Finset ℕ))
  | [], byTask => byTask
  | t :: l, byTask =>
    if (byTask t).isSome then byTask
    else assign c l (Function.update byTask t (some c))

/-- `find_connected_components`, `partition.py:5-29`: the resulting `by_task`.  `keys` is
the order in which the dictionary `by_res` is iterated and `enum` the order in which sets
are. -/
def byTask (acc : ℕ → List ℕ) (keys : List ℕ) (enum : Finset ℕ → List ℕ) (tasks : List ℕ) :
    ℕ → Option (Finset ℕ) :=
  let st := tasks.foldl (visit acc) (⟨fun _ => none, fun _ => ∅, 0⟩, fun _ => none)
  (keys.filterMap (fun r => (st.1.ref r).map st.1.heap)).foldl (fun bt c => assign c (enum c) bt) st.2

/-- The loop of `find_independent_tasksubsets`, `partition.py:33-39`; `order` is the order
in which the dictionary `by_task` is iterated. -/
def subsetsLoop (bt : ℕ → Option (Finset ℕ)) : Finset ℕ → List ℕ → List (Finset ℕ)
  | _, [] => []
  | done, t :: l =>
    match bt t with
    | none => subsetsLoop bt done l
    | some c => if t ∈ done then subsetsLoop bt done l else c :: subsetsLoop bt (done ∪ c) l

/-- `find_independent_tasksubsets`, `partition.py:31-41`; `order` lists the tasks. -/
def independentSubsets (acc : ℕ → List ℕ) (keys : List ℕ) (enum : Finset ℕ → List ℕ)
    (order tasks : List ℕ) : List (Finset ℕ) :=
  subsetsLoop (byTask acc keys enum tasks) ∅ order

end Verif.Part
