/-
Model of `schedcat/util/time.py` and `schedcat/util/storage.py`.
-/
import Mathlib.Data.Rat.Floor
import Mathlib.Algebra.Order.Floor.Ring

namespace Verif.Util

/-- `us2ms`, `util/time.py:8-9`, with exact numbers. -/
def us2ms (us : ℚ) : ℚ := us / 1000

/-- `ms2us`, `util/time.py:11-12`, with exact numbers. -/
def ms2us (ms : ℚ) : ℚ := ms * 1000

/-- `sec2us`, `util/time.py:14-15`, with exact numbers. -/
def sec2us (sec : ℚ) : ℚ := sec * 1000000

/-- `ms2us_ru`, `util/time.py:17-19`, with exact numbers. -/
def ms2usRu (ms : ℚ) : ℤ := ⌈ms * 1000⌉

/-- `ms2us_rd`, `util/time.py:21-23`, with exact numbers. -/
def ms2usRd (ms : ℚ) : ℤ := ⌊ms * 1000⌋

/-- The contents of a `Storage`, a subclass of `dict`, `util/storage.py:2`.  The order of keys is not modelled. -/
abbrev Store (V : Type) := String → Option V

/-- What an access evaluates to: a value, an attribute of the class, nothing, or an exception. -/
inductive Outcome (V : Type)
  | value (v : V)
  | member (name : String)
  | done
  | keyError (key : String)
  | attributeError (key : String)
deriving DecidableEq

/-- The attributes of the class `dict` of Python 2 and of the class `Storage`.  Attribute access finds these first and calls
`__getattr__` only for other names. -/
def members : List String := ["clear", "copy", "fromkeys", "get", "has_key", "items", "iteritems", "iterkeys", "itervalues",
  "keys", "pop", "popitem", "setdefault", "update", "values", "viewitems", "viewkeys", "viewvalues", "__class__", "__cmp__",
  "__contains__", "__delattr__", "__delitem__", "__dict__", "__doc__", "__eq__", "__format__", "__ge__", "__getattr__",
  "__getattribute__", "__getitem__", "__gt__", "__hash__", "__init__", "__iter__", "__le__", "__len__", "__lt__",
  "__module__", "__ne__", "__new__", "__reduce__", "__reduce_ex__", "__repr__", "__setattr__", "__setitem__",
  "__sizeof__", "__str__", "__subclasshook__", "__weakref__"]

variable {V : Type}

/-- `o[key]`, inherited from `dict`, `util/storage.py:2`. -/
def getItem (s : Store V) (key : String) : Outcome V :=
  match s key with
  | some v => .value v
  | none => .keyError key

/-- `o[key] = value`, inherited from `dict`, `util/storage.py:2`. -/
def setItem (s : Store V) (key : String) (v : V) : Store V × Outcome V :=
  (fun k => if k = key then some v else s k, .done)

/-- `del o[key]`, inherited from `dict`, `util/storage.py:2`. -/
def delItem (s : Store V) (key : String) : Store V × Outcome V :=
  match s key with
  | some _ => (fun k => if k = key then none else s k, .done)
  | none => (s, .keyError key)

/-- A `KeyError` is replaced by an `AttributeError`, `util/storage.py:23-24,32-33`. -/
def asAttribute : Outcome V → Outcome V
  | .keyError k => .attributeError k
  | o => o

/-- `o.key`: `__getattr__`, `util/storage.py:20-24`, unless the class has an attribute of this name. -/
def getAttr (s : Store V) (key : String) : Outcome V :=
  if key ∈ members then .member key else asAttribute (getItem s key)

/-- `o.key = value`: `__setattr__`, `util/storage.py:26-27`. -/
def setAttr (s : Store V) (key : String) (v : V) : Store V × Outcome V := setItem s key v

/-- `del o.key`: `__delattr__`, `util/storage.py:29-33`. -/
def delAttr (s : Store V) (key : String) : Store V × Outcome V :=
  ((delItem s key).1, asAttribute (delItem s key).2)

/-- The operations that change a `Storage`. -/
inductive Op (V : Type)
  | setAttr (key : String) (v : V)
  | setItem (key : String) (v : V)
  | delAttr (key : String)
  | delItem (key : String)

/-- One operation, `util/storage.py:26-33`. -/
def apply (s : Store V) : Op V → Store V × Outcome V
  | .setAttr k v => setAttr s k v
  | .setItem k v => setItem s k v
  | .delAttr k => delAttr s k
  | .delItem k => delItem s k

/-- The contents after a history of operations on an empty `Storage`, in which exceptions are caught. -/
def after (h : List (Op V)) : Store V := h.foldl (fun s o => (apply s o).1) (fun _ => none)

end Verif.Util
