/-
Model of the loading of overhead files: `schedcat/util/csv.py` and `schedcat/overheads/model.py`.

A file is given by the labels of its first row, without surrounding white space, and its other rows.  A file without
any row (which raises an exception) is not a case of the model.  Numbers are exact.  A dictionary is a list of keys with
their values; no key occurs twice.
-/
import Verif.Model.PwLin

namespace Verif.Oh

/-- The exceptions. -/
inductive LoadError where
  /-- `IOError`. -/
  | io
  /-- `UnboundLocalError`: the first row is empty, `csv.py:30-33`. -/
  | unbound
  /-- An entry is missing, or cannot be converted. -/
  | entry
  /-- `NameError`: an unknown function is called. -/
  | name
  /-- `IndexError`: there is no sample. -/
  | samples
deriving DecidableEq

/-- `d[key] = value`. -/
def dictSet {α : Type} (d : List (String × α)) (key : String) (value : α) : List (String × α) :=
  if d.any (fun p => p.1 = key) then d.map (fun p => if p.1 = key then (key, value) else p) else d ++ [(key, value)]

/-- The result of `load_columns`, `csv.py:58-59`; in `byIdx`, `none` is the initial value 0 of `csv.py:52`. -/
structure Columns (α : Type) where
  columns : List (String × ℕ)
  byName : List (String × List α)
  byIdx : List (Option (List α))

/-- The column labels, `csv.py:28-31`. -/
def colIdx (header : List String) : List (String × ℕ) := header.zipIdx.foldl (fun d p => dictSet d p.1 p.2) []

/-- `col`, `csv.py:46-49`: empty rows are skipped. -/
def column {α β : Type} (convert : β → Option α) (data : List (List β)) (i : ℕ) : Option (List α) :=
  (data.filter (fun row => !row.isEmpty)).mapM (fun row => (row[i]?).bind convert)

/-- `load_columns`, `csv.py:7-59`; `convert` is `none` if it raises an exception. -/
def loadColumns {α β : Type} (convert : β → Option α) (expectUniform : Bool) (header : List String)
    (data : List (List β)) : Except LoadError (Columns α) :=
  if header = [] then .error .unbound
  else if expectUniform && data.any (fun row => row.length ≠ header.length) then .error .io
  else
    match (colIdx header).mapM (fun p => (column convert data p.2).map (fun c => (p, c))) with
    | none => .error .entry
    | some cols => .ok
        { columns := colIdx header
          byName := cols.map (fun c => (c.1.1, c.2))
          byIdx := (List.range header.length).map (fun i => (cols.find? (fun c => c.1.2 = i)).map Prod.snd) }

/-- The approximation of a column, `model.py:57-63` and `116-120`.  The module does not import `piece_wise_linear`
(`model.py:3-4`). -/
def approximation (nonDecreasing : Bool) (points : List (ℚ × ℚ)) : Except LoadError OhFun :=
  if nonDecreasing then
    match monotonicPwlin points with
    | some f => .ok f
    | none => .error .samples
  else .error .name

/-- The loop over the columns, `model.py:55-63` and `114-121`: `o` maps the names of fields to functions. -/
def loadFields (nonDecreasing : Bool) (byName : List (String × List ℚ)) (xs : List ℚ) :
    List (String × String) → (String → OhFun) → Except LoadError (String → OhFun)
  | [], o => .ok o
  | (name, field) :: rest, o =>
    match byName.lookup name with
    | none => loadFields nonDecreasing byName xs rest o
    | some ys =>
      match approximation nonDecreasing (xs.zip ys) with
      | .error e => .error e
      | .ok f => loadFields nonDecreasing byName xs rest (fun g => if g = field then f else o g)

/-- `FIELD_MAPPING`, `model.py:12-28`. -/
def fieldMapping : List (String × String) :=
  [("IPI-LATENCY", "ipi_latency"), ("SCHEDULE", "schedule"), ("RELEASE", "release"), ("CXS", "ctx_switch"),
   ("TICK", "tick"), ("RELEASE-LATENCY", "release_latency"), ("LOCK", "lock"), ("UNLOCK", "unlock"),
   ("READ-LOCK", "read_lock"), ("READ-UNLOCK", "read_unlock"), ("SYSCALL-IN", "syscall_in"),
   ("SYSCALL-OUT", "syscall_out")]

/-- `Overheads.from_file`, `model.py:65-70`, with `load_approximations`, `42-63`.  The task counts are multiplied by
`scale`, which is the number of processors if counts are given per processor, and 1 otherwise.  The result maps the
names of fields to functions; a field that does not exist is not distinguished from a zero overhead. -/
def overheadsFromFile {β : Type} (toFloat : β → Option ℚ) (nonDecreasing : Bool) (custom : List (String × String))
    (scale : ℚ) (header : List String) (data : List (List β)) : Except LoadError (String → OhFun) :=
  match loadColumns toFloat true header data with
  | .error e => .error e
  | .ok cols =>
    match cols.byName.lookup "TASK-COUNT" with
    | none => .error .io
    | some counts =>
      loadFields nonDecreasing cols.byName (counts.map (fun x => scale * x)) (fieldMapping ++ custom)
        (fun _ => .lin ⟨0, 0⟩)

/-- `CacheDelay.MAPPING`, `model.py:77-78`; the names of levels are also those of the fields. -/
def levelMapping : List (String × String) := [("MEM", "MEM"), ("L1", "L1"), ("L2", "L2"), ("L3", "L3")]

/-- `CacheDelay.from_file`, `model.py:106-122`. -/
def cacheDelayFromFile {β : Type} (toFloat : β → Option ℚ) (nonDecreasing : Bool) (header : List String)
    (data : List (List β)) : Except LoadError (String → OhFun) :=
  match loadColumns toFloat true header data with
  | .error e => .error e
  | .ok cols =>
    match cols.byName.lookup "WSS" with
    | none => .error .io
    | some sizes => loadFields nonDecreasing cols.byName sizes levelMapping (fun _ => .lin ⟨0, 0⟩)

/-- `CacheDelay.max_cost` and `__call__`, `model.py:93-97`. -/
def maxCost (levels : String → OhFun) (wss : ℚ) : ℚ :=
  max (max ((levels "MEM").eval wss) ((levels "L1").eval wss)) (max ((levels "L2").eval wss) ((levels "L3").eval wss))

/-- `LinearEqu.is_constant`, `util/math.py:52-53`. -/
def LinearEqu.isConstant (f : LinearEqu) : Bool := f.b = 0

/-- `seg[1].is_constant()`: segments cannot be indexed, which raises an exception. -/
def segmentItem (_ : LinearEqu) : Option LinearEqu := none

/-- `PieceWiseLinearEqu.is_constant`, `util/math.py:89-90`; `none` if an exception is raised. -/
def PieceWiseLinearEqu.isConstant (f : PieceWiseLinearEqu) : Option Bool :=
  (f.segments.mapM (fun seg => (segmentItem seg).map LinearEqu.isConstant)).map (fun l => l.all id)

end Verif.Oh
