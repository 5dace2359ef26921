/-
Model of `schedcat/model/serialize.py`.  XML documents are forests of elements;
writing a document to a file and reading it is the identity on them.

Simplifications: the text of an attribute is not a sequence of characters but one of
an integer literal, a decimal literal and any other text; `str` of a float is exact
(it has 12 significant digits in the code).  The attributes `xml` and `task` that tie
tasks and elements together are not modelled.
-/
import Mathlib.Algebra.Order.Floor.Ring
import Mathlib.Data.Rat.Floor
import Mathlib.Data.Nat.Log

namespace Verif.Ser

/-- Text in a document.  `word` is text that `float` does not accept. -/
inductive Text where
  | int (z : ℤ)
  | dec (q : ℚ)
  | word (s : String)
deriving DecidableEq

/-- Python values of attributes. -/
inductive Val where
  | null
  | int (z : ℤ)
  | flt (q : ℚ)
  | str (t : Text)
deriving DecidableEq

/-- `str(x)`. -/
def Val.text : Val → Text
  | .null => .word "None"
  | .int z => .int z
  | .flt q => .dec q
  | .str t => t

/-- `float(text)` of an integer literal: the nearest number with 53 significant bits,
ties to even.  Overflow to infinity (from `2^1024` on) is not modelled. -/
def toDouble (z : ℤ) : ℤ :=
  let a := z.natAbs
  if a ≤ 2 ^ 53 then z
  else
    let u := 2 ^ (Nat.log 2 a - 52)
    let q := a / u
    let r := a % u
    let q := if 2 * r > u ∨ (2 * r = u ∧ q % 2 = 1) then q + 1 else q
    z.sign * (q * u : ℕ)

/-- `int(x)` of a float. -/
def truncQ (x : ℚ) : ℤ := if 0 ≤ x then ⌊x⌋ else ⌈x⌉

/-- `maybe_int` of a float, `serialize.py:13-14`. -/
def maybeIntF (q : ℚ) : Val :=
  if Int.fract |q| ≤ 1 / 10000000 then .int (truncQ q) else .flt q

/-- `maybe_int` of a text, `serialize.py:15-19`. -/
def maybeIntT : Text → Val
  | .int z => .int (toDouble z)
  | .dec q => maybeIntF q
  | .word s => .str (.word s)

/-- `int(text)`; `none` is a `ValueError`. -/
def pyInt : Text → Option ℤ
  | .int z => some z
  | _ => none

/-- The number that a value stands for. -/
def Val.num : Val → Option ℚ
  | .int z => some z
  | .flt q => some q
  | _ => none

/-- `a == b`. -/
def Val.eqv (a b : Val) : Bool :=
  match a.num, b.num with
  | some x, some y => decide (x = y)
  | _, _ => decide (a = b)

/-- Elements of a document and what follows them. -/
inductive Xml where
  | nil
  | cons (tag : String) (attrs : List (String × Text)) (children rest : Xml)

/-- An element. -/
structure Elem where
  tag : String
  attrs : List (String × Text)
  children : Xml

/-- `append` and `SubElement` with a complete element. -/
def Xml.append : Xml → Elem → Xml
  | .nil, e => .cons e.tag e.attrs e.children .nil
  | .cons t a c r, e => .cons t a c (r.append e)

/-- `findall`. -/
def Xml.findall (name : String) : Xml → List Elem
  | .nil => []
  | .cons t a c r => if t = name then ⟨t, a, c⟩ :: r.findall name else r.findall name

/-- `find`. -/
def Xml.find (name : String) (x : Xml) : Option Elem := (x.findall name).head?

/-- `get`. -/
def Elem.get (e : Elem) (name : String) : Option Text := e.attrs.lookup name

/-- `ResourceRequirement`, `resources.py:4-12`. -/
structure Req where
  resId : Val
  writes : Val
  writeLength : Val
  reads : Val
  readLength : Val
  priority : Val := .int 0
deriving DecidableEq

/-- Nested critical sections: the first section, what is nested in it, and the
sections that follow it. -/
inductive Secs where
  | nil
  | cons (res length : Val) (nested rest : Secs)
deriving DecidableEq

/-- A task with the attributes that may be missing.  A dictionary is the list of its
items and a set the list of its elements, in the order of iteration. -/
structure Task where
  cost : Val
  period : Val
  deadline : Val
  id : Val := .null
  partition : Option Val := none
  responseTime : Option Val := none
  wss : Option Val := none
  resmodel : Option (List (Val × Req)) := none
  affinity : Option (List Val) := none
  sections : Option Secs := none
deriving DecidableEq

/-! ### Writing -/

/-- `set_attribute`, `serialize.py:23-28`, of an attribute that may be missing. -/
def setAttribute (attrs : List (String × Text)) (name : String) (v : Option Val) :
    List (String × Text) :=
  match v with
  | some v => attrs ++ [(name, v.text)]
  | none => attrs

/-- `res_requirement`, `serialize.py:38-50`. -/
def resRequirement (r : Req) : Elem :=
  ⟨"requirement", [("res_id", r.resId.text), ("max_reads", r.reads.text),
    ("max_writes", r.writes.text), ("max_read_length", r.readLength.text),
    ("max_write_length", r.writeLength.text)], .nil⟩

/-- `nested_res_requirement`, `serialize.py:52-64`, for a list of sections. -/
def nestedResRequirements : Secs → Xml
  | .nil => .nil
  | .cons res length nested rest =>
    .cons "critical_section" [("res_id", res.text), ("length", length.text)]
      (nestedResRequirements nested) (nestedResRequirements rest)

/-- Elements one after the other. -/
def elems : List Elem → Xml
  | [] => .nil
  | e :: es => .cons e.tag e.attrs e.children (elems es)

/-- `implicit_deadline`, `tasks.py:28-29`. -/
def Task.implicitDeadline (t : Task) : Bool := t.deadline.eqv t.period

/-- The attributes set in `task`, `serialize.py:68-77`. -/
def taskAttrs (t : Task) : List (String × Text) :=
  let a := if t.id = .null then [] else [("id", t.id.text)]
  let a := a ++ [("period", t.period.text), ("wcet", t.cost.text)]
  let a := if t.implicitDeadline then a else a ++ [("deadline", t.deadline.text)]
  let a := setAttribute a "partition" t.partition
  let a := setAttribute a "response_time" t.responseTime
  setAttribute a "wss" t.wss

/-- The element `cpu` of `serialize.py:86-88`. -/
def cpuElem (cpu : Val) : Elem := ⟨"cpu", [("id", cpu.text)], .nil⟩

/-- The subelements made in `task`, `serialize.py:79-93`. -/
def taskChildren (t : Task) : List Elem :=
  (match t.resmodel with
    | some m => [⟨"resources", [], elems (m.map (fun p => resRequirement p.2))⟩]
    | none => []) ++
  (match t.affinity with
    | some a => [⟨"affinity", [], elems (a.map cpuElem)⟩]
    | none => []) ++
  (match t.sections with
    | some s => [⟨"critical_sections", [], nestedResRequirements s⟩]
    | none => [])

/-- `task`, `serialize.py:66-97`. -/
def task (t : Task) : Elem := ⟨"task", taskAttrs t, elems (taskChildren t)⟩

/-! ### Reading -/

/-- `set.add`. -/
def setAdd (s : List Val) (v : Val) : List Val := if s.any (fun x => x.eqv v) then s else s ++ [v]

/-- The loop body of `parse_affinity`, `serialize.py:105-107`. -/
def addCpu (s : List Val) (n : Elem) : List Val :=
  match n.get "id" with
  | some x => setAdd s (maybeIntT x)
  | none => s

/-- `parse_affinity`, `serialize.py:100-110`. -/
def parseAffinity (node : Elem) : Option (List Val) :=
  (node.children.find "affinity").map fun aff => (aff.children.findall "cpu").foldl addCpu []

/-- `maybe_int(node.get(name, default))` with an integer default. -/
def getMaybe (node : Elem) (name : String) (dflt : ℤ) : Val :=
  match node.get name with
  | some x => maybeIntT x
  | none => .int dflt

/-- `int(node.get(name, default))`; `none` is a `ValueError`. -/
def getInt (node : Elem) (name : String) (dflt : ℤ) : Option Val :=
  match node.get name with
  | some x => (pyInt x).map .int
  | none => some (.int dflt)

/-- `parse_request`, `serialize.py:112-119`. -/
def parseRequest (node : Elem) : Option Req := do
  let writes ← getInt node "max_writes" 1
  let writeLength ← getInt node "max_write_length" 1
  let reads ← getInt node "max_reads" 0
  let readLength ← getInt node "max_read_length" 0
  return ⟨getMaybe node "res_id" 0, writes, writeLength, reads, readLength, .int 0⟩

/-- `d[key] = value`. -/
def dictSet (d : List (Val × Req)) (key : Val) (value : Req) : List (Val × Req) :=
  if d.any (fun p => p.1.eqv key) then
    d.map (fun p => if p.1.eqv key then (p.1, value) else p)
  else d ++ [(key, value)]

/-- `parse_resmodel`, `serialize.py:121-129`: the outer `none` is an exception. -/
def parseResmodel (node : Elem) : Option (Option (List (Val × Req))) :=
  match node.children.find "resources" with
  | none => some none
  | some resmodel =>
    ((resmodel.children.findall "requirement").mapM parseRequest).map
      (fun reqs => some (reqs.foldl (fun d r => dictSet d r.resId r) []))

/-- The attribute of a section, `serialize.py:132-133`. -/
def attrMaybe (attrs : List (String × Text)) (name : String) : Val :=
  match attrs.lookup name with
  | some x => maybeIntT x
  | none => .int 0

/-- `parse_cs`, `serialize.py:131-140`, for all elements of a list; `held` are the
resources of the enclosing sections (`is_reentrant`, `resources.py:84-91`).  `none` is
the failed assertion in `resources.py:80-81`. -/
def parseCs (held : List Val) : Xml → Option Secs
  | .nil => some .nil
  | .cons _ attrs children rest =>
    let res := attrMaybe attrs "res_id"
    if held.any (fun h => h.eqv res) then none
    else
      match parseCs (res :: held) children, parseCs held rest with
      | some nested, some rest => some (.cons res (attrMaybe attrs "length") nested rest)
      | _, _ => none

/-- `parse_critical_sections`, `serialize.py:142-150`: the outer `none` is an
exception. -/
def parseCriticalSections (node : Elem) : Option (Option Secs) :=
  match node.children.find "critical_sections" with
  | none => some none
  | some all => (parseCs [] (elems (all.children.findall "critical_section"))).map some

/-- `get_attribute`, `serialize.py:153-161`, with `maybe_int`. -/
def getAttribute (node : Elem) (name : String) : Option Val := (node.get name).map maybeIntT

/-- `maybe_int(node.get(name))`. -/
def getRequired (node : Elem) (name : String) : Val := (getAttribute node name).getD .null

/-- `if affinity:` in `serialize.py:182-183`: an empty set counts as false. -/
def keepAffinity : Option (List Val) → Option (List Val)
  | some [] => none
  | a => a

/-- `parse_task`, `serialize.py:163-187`; `none` is an exception. -/
def parseTask (node : Elem) : Option Task :=
  match parseResmodel node, parseCriticalSections node with
  | some resmodel, some sections => some
    { cost := getRequired node "wcet"
      period := getRequired node "period"
      deadline := (getAttribute node "deadline").getD (getRequired node "period")
      id := (getAttribute node "id").getD .null
      partition := getAttribute node "partition"
      responseTime := none
      wss := getAttribute node "wss"
      resmodel := resmodel
      affinity := keepAffinity (parseAffinity node)
      sections := sections }
  | _, _ => none

/-! ### Task sets and test points -/

/-- Whether the `properties` of a task set can be computed, `serialize.py:192-200`:
`Fraction` needs integers and a denominator other than 0. -/
def propertiesOk (t : Task) : Bool :=
  match t.cost, t.period, t.deadline with
  | .int _, .int p, .int d => decide (p ≠ 0) && decide (min p d ≠ 0)
  | _, _, _ => false

/-- `taskset`, `serialize.py:189-204`; `none` is an exception.  The attributes of the
element `properties` are left out. -/
def taskset (ts : List Task) : Option Elem :=
  if ts.all propertiesOk then some ⟨"taskset", [], elems (⟨"properties", [], .nil⟩ :: ts.map task)⟩
  else none

/-- `testpoint`, `serialize.py:206-214`. -/
def testpoint (tss : List (List Task)) (params : List (String × Val)) : Option Elem :=
  (tss.mapM taskset).map fun es =>
    ⟨"testpoint", [], elems (⟨"config", params.map (fun p => (p.1, p.2.text)), .nil⟩ :: es)⟩

/-- `parse_taskset`, `serialize.py:216-218`. -/
def parseTaskset (node : Elem) : Option (List Task) :=
  (node.children.findall "task").mapM parseTask

/-- `parse_testpoint`, `serialize.py:220-227`. -/
def parseTestpoint (node : Elem) : Option (List (String × Val) × List (List Task)) :=
  let params := match node.children.find "config" with
    | some config => config.attrs.map (fun p => (p.1, maybeIntT p.2))
    | none => []
  ((node.children.findall "taskset").mapM parseTaskset).map (fun tss => (params, tss))

/-- What `load` returns. -/
inductive Loaded where
  | taskset (ts : List Task)
  | testpoint (params : List (String × Val)) (tss : List (List Task))
  | task (t : Task)
  | nothing

/-- `load`, `serialize.py:241-257`; `none` is an exception. -/
def load (root : Elem) : Option Loaded :=
  if root.tag = "taskset" then (parseTaskset root).map .taskset
  else if root.tag = "testpoint" then (parseTestpoint root).map (fun p => .testpoint p.1 p.2)
  else if root.tag = "task" then (parseTask root).map .task
  else some .nothing

end Verif.Ser
