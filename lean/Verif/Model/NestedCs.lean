/-
Model of the nested critical sections of `native/include/nested_cs.h` and
`native/src/blocking/nested_cs.cpp`.

* Resource identifiers, lengths and indices are natural numbers; the index
  `NO_PARENT = -1` is `none`.
* `none` as the result of a computation stands for undefined behaviour (an index out
  of range) or for a loop that has not ended within the given number of rounds.
* `LockSet` is a list (only membership is observable through it), hash sets are
  `Finset`s, and hash maps are functions into `Option`.  The unspecified order of
  iteration over hash maps and hash sets is a parameter.
-/
import Mathlib.Data.Finset.Basic
import Mathlib.Data.List.Basic
import Mathlib.Logic.Function.Basic

namespace Verif.Nested

/-- `native/include/nested_cs.h:16-25`: `struct CriticalSection`. -/
structure CritSec where
  res : ℕ
  len : ℕ
  outer : Option ℕ
deriving DecidableEq, Repr

/-- `native/include/nested_cs.h:66-68`: `CriticalSectionsOfTask::cs`. -/
abbrev TaskCs := List CritSec

/-- `native/include/nested_cs.h:80-86`: `CriticalSectionsOfTask::add`; `none` is a
failed assertion. -/
def add (cs : TaskCs) (res len : ℕ) (outer : Option ℕ) : Option TaskCs :=
  match outer with
  | none => some (cs ++ [⟨res, len, none⟩])
  | some o => if o < cs.length then some (cs ++ [⟨res, len, some o⟩]) else none

/-- `native/include/nested_cs.h:33-41`: `is_nested`. -/
def CritSec.isNested (c : CritSec) : Bool := c.outer.isSome

/-- `native/include/nested_cs.h:33-41`: `is_outermost`. -/
def CritSec.isOutermost (c : CritSec) : Bool := c.outer.isNone

/-- `native/src/blocking/nested_cs.cpp:68-76`: the loop of `get_outer_locks`; `held`
is the variable of the same name and `acc` the set `already_held`. -/
def outerLoop (cs : TaskCs) : ℕ → Option ℕ → List ℕ → Option (List ℕ)
  | _, none, acc => some acc
  | 0, some _, _ => none
  | n + 1, some held, acc =>
    match cs[held]? with
    | none => none
    | some parent => outerLoop cs n parent.outer (acc ++ [parent.res])

/-- `native/src/blocking/nested_cs.cpp:63-76`: `get_outer_locks`, for at most as many
rounds as there are critical sections. -/
def outerLocks (c : CritSec) (task : TaskCs) : Option (List ℕ) :=
  outerLoop task task.length c.outer []

/-- `native/src/blocking/nested_cs.cpp:82-92`: the loop of `has_common_outer`. -/
def commonLoop (cs : TaskCs) (other : List ℕ) : ℕ → Option ℕ → Option Bool
  | _, none => some false
  | 0, some _ => none
  | n + 1, some held =>
    match cs[held]? with
    | none => none
    | some parent =>
      if parent.res ∈ other then some true else commonLoop cs other n parent.outer

/-- `native/src/blocking/nested_cs.cpp:78-95`: `has_common_outer` with the set of
locks held by the other task. -/
def hasCommonWith (c : CritSec) (thisTask : TaskCs) (other : List ℕ) : Option Bool :=
  commonLoop thisTask other thisTask.length c.outer

/-- `native/include/nested_cs.h:47-58`: `has_common_outer` with another critical
section.  As in the code, the second call is made on `other_cs`, not on this critical
section. -/
def hasCommonOuter (c : CritSec) (thisTask : TaskCs) (otherCs : CritSec)
    (otherTask : TaskCs) : Option Bool :=
  if c.isOutermost || otherCs.isOutermost then some false
  else
    match outerLocks otherCs otherTask with
    | none => none
    | some held => hasCommonWith otherCs thisTask held

/-- `native/include/nested_cs.h:88-94`: `has_nested_requests`. -/
def hasNestedRequests (cs : TaskCs) (i : ℕ) : Bool :=
  (cs.drop (i + 1)).any fun c => c.outer = some i

/-- `native/include/nested_cs.h:96-104`: `get_outermost`. -/
def outermost (cs : TaskCs) : ℕ → ℕ → Option ℕ
  | 0, _ => none
  | n + 1, cur =>
    match cs[cur]? with
    | none => none
    | some c =>
      match c.outer with
      | none => some cur
      | some o => outermost cs n o

/-- The hash maps of `native/src/blocking/nested_cs.cpp`. -/
abbrev Rel := ℕ → Option (Finset ℕ)

/-- `native/src/blocking/nested_cs.cpp:43-55`: one critical section of task `t` in the
construction of `directly_nested`. -/
def addDirect (t : TaskCs) (d : Rel) (c : CritSec) : Option Rel :=
  let d := if (d c.res).isNone then Function.update d c.res (some ∅) else d
  match c.outer with
  | none => some d
  | some o =>
    match t[o]? with
    | none => none
    | some p => some (Function.update d p.res (some (insert c.res ((d p.res).getD ∅))))

/-- `native/src/blocking/nested_cs.cpp:39-56`: the relation `directly_nested`. -/
def directlyNested (tsks : List TaskCs) : Option Rel :=
  tsks.foldlM (fun d t => t.foldlM (addDirect t) d) (fun _ => none)

/-- The order of iteration over a hash set of resources. -/
abbrev Enum := Finset ℕ → List ℕ

/-- `native/src/blocking/nested_cs.cpp:23-28`: the loop over the resources nested
directly in `res`; `call` is the nested call of `build_trans_nest_rel`. -/
def buildLoop (call : Rel → ℕ → Option Rel) (res : ℕ) : List ℕ → Rel → Option Rel
  | [], m => some m
  | nres :: rest, m =>
    match call m nres with
    | none => none
    | some m =>
      buildLoop call res rest
        (Function.update m res
          (some (insert nres ((m res).getD ∅) ∪ (m nres).getD ∅)))

/-- `native/src/blocking/nested_cs.cpp:8-31`: `build_trans_nest_rel`, for at most `n`
nested calls. -/
def build (en : Enum) (d : Rel) : ℕ → Rel → ℕ → Option Rel
  | 0, m, res => if (m res).isSome then some m else none
  | n + 1, m, res =>
    if (m res).isSome then some m
    else buildLoop (build en d n) res (en ((d res).getD ∅)) (Function.update m res (some ∅))

/-- `native/src/blocking/nested_cs.cpp:58-62`: the nesting relation, with the resources
visited in the order `order`. -/
def transNested (en : Enum) (order : List ℕ) (n : ℕ) (tsks : List TaskCs) : Option Rel :=
  match directlyNested tsks with
  | none => none
  | some d => order.foldlM (build en d n) (fun _ => none)

end Verif.Nested
