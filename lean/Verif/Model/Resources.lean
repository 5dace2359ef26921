/-
Model of `schedcat/model/resources.py`: resource requirements, nested critical sections
and group locks.
-/
import Mathlib.Data.Rat.Defs
import Mathlib.Algebra.Order.Ring.Rat
import Mathlib.Data.Finset.Max
import Mathlib.Data.Finset.Insert
import Mathlib.Data.Finset.Lattice.Basic
import Mathlib.Logic.Function.Basic

namespace Verif.Res

/-! ### Requirements -/

/-- `ResourceRequirement`, `resources.py:4-12`. -/
structure Req where
  resId : ℤ
  writes : ℕ := 1
  writeLength : ℚ := 1
  reads : ℕ := 0
  readLength : ℚ := 0
  priority : ℤ := 0
deriving DecidableEq

namespace Req

/-- `max_requests`, `resources.py:14-17`. -/
def maxRequests (r : Req) : ℕ := r.writes + r.reads

/-- `max_length`, `resources.py:19-22`. -/
def maxLength (r : Req) : ℚ := max r.writeLength r.readLength

/-- `add_request`, `resources.py:24-32`. -/
def addRequest (r : Req) (length : ℚ) (read : Bool := false) (priority : ℤ := 0) : Req :=
  let r := { r with priority := min r.priority priority }
  if read then { r with reads := r.reads + 1, readLength := max r.readLength length }
  else { r with writes := r.writes + 1, writeLength := max r.writeLength length }

/-- `convert_reads_to_writes`, `resources.py:41-45`. -/
def convertReadsToWrites (r : Req) : Req :=
  let r := { r with writes := r.maxRequests }
  let r := { r with writeLength := r.maxLength }
  { r with reads := 0, readLength := 0 }

end Req

/-- `ResourceRequirements`, `resources.py:48-51`: a dictionary that creates empty
requirements on first access. -/
abbrev Reqs := ℤ → Option Req

/-- `__missing__`, `resources.py:49-51`: the value of `model[key]`. -/
def Reqs.get (m : Reqs) (key : ℤ) : Req :=
  match m key with
  | some r => r
  | none => { resId := key, writes := 0, writeLength := 0, reads := 0, readLength := 0 }

/-! ### Nested critical sections -/

/-- A list of critical sections (`CriticalSection`, `resources.py:61-68`), each with its
list `nested`.  The attribute `outer` is determined by the place of a section.  Sections
are assumed to form a forest, i.e. no object is put in two places. -/
inductive Sections where
  | nil
  | cons (res : ℤ) (length : ℚ) (nested rest : Sections)

/-- A section as seen while iterating: the place of the object (a path of list
positions, which serves as the identity of the object), its attributes, the place of the
object `outer` points to, and the `res_id`s of the chain of `outer` pointers. -/
structure Node where
  path : List ℕ
  res : ℤ
  length : ℚ
  nested : Sections
  outer : Option (List ℕ)
  held : List ℤ

namespace Sections

/-- `list.append`. -/
def append : Sections → Sections → Sections
  | nil, s => s
  | cons r l n rest, s => cons r l n (rest.append s)

/-- The sections visited by `chain(*self)` on a list, `resources.py:102-103,122-124`:
each section and then its nested ones.  `pre` is the place of the enclosing section and
`k` the position in the list. -/
def iter (pre : List ℕ) (outer : Option (List ℕ)) (held : List ℤ) : ℕ → Sections → List Node
  | _, nil => []
  | k, cons r l nested rest =>
    ⟨pre ++ [k], r, l, nested, outer, held⟩ ::
      (iter (pre ++ [k]) (some (pre ++ [k])) (r :: held) 0 nested ++ iter pre outer held (k + 1) rest)

/-- `OutermostCriticalSections.all`, `resources.py:122-124`. -/
def all (s : Sections) : List Node := iter [] none [] 0 s

/-- Sum of `total_length` over a list of sections; `total_length` is
`resources.py:75-77`. -/
def totalLengths : Sections → ℚ
  | nil => 0
  | cons _ l nested rest => (l + nested.totalLengths) + rest.totalLengths

/-- The `res_id`s and total lengths of the sections of a list itself. -/
def top : Sections → List (ℤ × ℚ)
  | nil => []
  | cons r l nested rest => (r, l + nested.totalLengths) :: rest.top

/-- The loop of `is_nesting_well_ordered`, `resources.py:94-100`. -/
def nestingOrdered (res : ℤ) : Sections → Bool
  | nil => true
  | cons r _ _ rest => if r ≤ res then false else nestingOrdered res rest

/-- `all_nesting_well_ordered`, `resources.py:118-120`. -/
def allNestingWellOrdered (s : Sections) : Bool :=
  s.all.all (fun n => n.nested.nestingOrdered n.res)

/-- `all_flat`, `resources.py:140-146`: `idx` holds the attributes `flat_index` set so
far; `none` is an `AttributeError`. -/
def flatLoop : ℕ → (List ℕ → Option ℕ) → List Node → Option (List (ℤ × ℚ × ℤ))
  | _, _, [] => some []
  | i, idx, n :: l =>
    let idx := Function.update idx n.path (some i)
    match n.outer with
    | none => (flatLoop (i + 1) idx l).map ((n.res, n.length, -1) :: ·)
    | some o =>
      match idx o with
      | none => none
      | some j => (flatLoop (i + 1) idx l).map ((n.res, n.length, (j : ℤ)) :: ·)

/-- `all_flat`, `resources.py:140-146`. -/
def allFlat (s : Sections) : Option (List (ℤ × ℚ × ℤ)) := flatLoop 0 (fun _ => none) s.all

/-- The loop of `is_reentrant`, `resources.py:85-92`: walks along the `outer` pointers. -/
def isReentrant (res : ℤ) : List ℤ → Bool
  | [] => false
  | o :: rest => if o = res then true else isReentrant res rest

/-- `CriticalSection.add_nested`, `resources.py:79-83`, called on the section at the given
place with a section that has nested sections of its own; with an empty place, appends to
the outermost sections (`add_outermost`, `resources.py:108-111`).  `none`: an
`AssertionError`, or no such place. -/
def attach (held : List ℤ) (s : Sections) (place : List ℕ) (r : ℤ) (l : ℚ) (sub : Sections) :
    Option Sections :=
  match s, place with
  | s, [] => if isReentrant r held then none else some (s.append (cons r l sub nil))
  | nil, _ => none
  | cons r' l' n' rest, 0 :: p =>
    (attach (r' :: held) n' p r l sub).map (fun n => cons r' l' n rest)
  | cons r' l' n' rest, (k + 1) :: p =>
    (attach held rest (k :: p) r l sub).map (fun rest => cons r' l' n' rest)

/-- `OutermostCriticalSections.add_outermost` and `.add_nested`, `resources.py:108-116`. -/
def add (s : Sections) (place : List ℕ) (r : ℤ) (l : ℚ) : Option Sections :=
  attach [] s place r l nil

end Sections

/-! ### Group locks -/

/-- The dictionary `groups` of `identify_group_locks`: it maps ids to set *objects*
(`ref`), which are shared and mutated (`heap`). -/
structure Groups where
  ref : ℤ → Option ℕ
  heap : ℕ → Finset ℤ
  next : ℕ

/-- One round of the loop, `resources.py:158-173`; `none` is a `KeyError`. -/
def Groups.visit (g : Groups) (n : Node) : Option Groups :=
  let g := if (g.ref n.res).isNone then
      { ref := Function.update g.ref n.res (some g.next),
        heap := Function.update g.heap g.next {n.res}, next := g.next + 1 : Groups }
    else g
  match n.held with
  | [] => some g
  | o :: _ =>
    match g.ref o, g.ref n.res with
    | some r1, some r2 =>
      if g.heap r1 ≠ g.heap r2 then
        let heap := Function.update g.heap r1 (g.heap r1 ∪ g.heap r2)
        some { g with heap := heap, ref := fun s => if s ∈ heap r2 then some r1 else g.ref s }
      else some g
    | _, _ => none

/-- `identify_group_locks`, `resources.py:156-174`; the result maps each id to the
contents of its set. -/
def identifyGroupLocks (tasks : List Sections) : Option (ℤ → Option (Finset ℤ)) :=
  ((tasks.flatMap Sections.all).foldlM Groups.visit ⟨fun _ => none, fun _ => ∅, 0⟩).map
    (fun g r => (g.ref r).map g.heap)

/-- The loop of `get_group_lock_model`, `resources.py:130-138`. -/
def groupLoop (groups : ℤ → Option (Finset ℤ)) (m : Reqs) : List (ℤ × ℚ) → Option Reqs
  | [] => some m
  | (res, len) :: l =>
    match groups res with
    | none => none
    | some g =>
      match g.min with
      | ⊤ => none
      | (gid : ℤ) => groupLoop groups (Function.update m gid (some ((m.get gid).addRequest len))) l

/-- `get_group_lock_model`, `resources.py:130-138`; `none` is a `KeyError`. -/
def groupLockModel (groups : ℤ → Option (Finset ℤ)) (s : Sections) : Option Reqs :=
  groupLoop groups (fun _ => none) s.top

/-- `convert_to_group_locks`, `resources.py:176-179`. -/
def convertToGroupLocks (tasks : List Sections) : Option (List Reqs) :=
  (identifyGroupLocks tasks).bind (fun g => tasks.mapM (groupLockModel g))

end Verif.Res
