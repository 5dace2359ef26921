/-
Model of `schedcat/sched/run.py`: the reduction tree of the RUN scheduler.

Rates are exact rationals (the callers pass `Fraction`s).  `best_fit` adds the
rates up starting from `0.0`, i.e. with floats, and `ensure_integer_rate`
passes the total through `math.ceil`, i.e. through a float; both are modelled
exactly.  Python objects are compared by identity, here a server is a value;
nothing below depends on the identity of servers.
-/
import Verif.Model.Binpack
import Mathlib.Data.Rat.Floor
import Mathlib.Data.Finset.Union

namespace Verif.Run
open Verif

/-- The `id` attribute: any number or text given by the user or by `pack`, or
the text `'%s*' % id` of another identifier. -/
inductive Ident where
  | num (n : ℕ)
  | text (s : String)
  | star (i : Ident)
deriving DecidableEq, Repr

/-- Python truth value of an identifier: `0` and `''` are false. -/
def Ident.truthy : Ident → Bool
  | .num n => n ≠ 0
  | .text s => s ≠ ""
  | .star _ => true

/-- `run.py:7-19`. -/
inductive Server where
  | mk (rate : ℚ) (deadlines : Finset ℚ) (clients : List Server) (id : Option Ident)
      (createdFrom : Option Server)

namespace Server

/-- `self.rate`. -/
def rate : Server → ℚ
  | mk r _ _ _ _ => r
/-- `self.deadlines`. -/
def deadlines : Server → Finset ℚ
  | mk _ d _ _ _ => d
/-- `self.clients`. -/
def clients : Server → List Server
  | mk _ _ c _ _ => c
/-- `self.id`. -/
def id : Server → Option Ident
  | mk _ _ _ i _ => i
/-- `self.created_from`. -/
def createdFrom : Server → Option Server
  | mk _ _ _ _ f => f

/-- `run.py:21-28`. -/
def aggregate (servers : List Server) (id : Option Ident) : Server :=
  mk (servers.map rate).sum
    (servers.foldl (fun acc s => acc ∪ s.deadlines) ∅) servers id none

/-- `run.py:30-35`; `'%s*' % self.id if self.id else None`. -/
def dual (s : Server) : Server :=
  mk (1 - s.rate) s.deadlines s.clients
    (match s.id with
      | some i => if i.truthy then some (.star i) else none
      | none => none)
    (some s)

/-- `run.py:37-38`. -/
def isUnit (s : Server) : Bool := s.rate = 1

/-- `run.py:40-41`. -/
def isNull (s : Server) : Bool := s.rate = 0

end Server

/-- `run.py:53-54`. -/
def findPacking (servers : List Server) : List (List Server) :=
  (Binpack.bestFitDecreasing servers 0 1 Server.rate).sets

/-- `run.py:56-57`. -/
def duals (servers : List Server) : List Server := servers.map Server.dual

/-- `not next_id` is true of `None` and of `0` (`run.py:60, 96`). -/
def idTruthy : Option ℕ → Bool
  | some n => n ≠ 0
  | none => false

/-- `run.py:59-64`. -/
def pack (packing : List (List Server)) (nextId : Option ℕ) : List Server :=
  match nextId with
  | some n =>
    if n ≠ 0 then packing.zipIdx.map (fun p => Server.aggregate p.1 (some (.num (n + p.2))))
    else packing.map (fun bin => Server.aggregate bin none)
  | none => packing.map (fun bin => Server.aggregate bin none)

/-- `run.py:66-69`. -/
def reductionStep (servers : List Server) (nextId : Option ℕ) : List Server :=
  duals (pack (findPacking servers) nextId)

/-- `run.py:71-72`. -/
def totalRate (servers : List Server) : ℚ := (servers.map Server.rate).sum

/-- `run.py:74-75`. -/
def allUnit (servers : List Server) : Bool := servers.all Server.isUnit

/-- `run.py:77-83`. -/
def ensureIntegerRate (servers : List Server) : List Server :=
  let r := totalRate servers
  let nextInt : ℚ := (⌈r⌉ : ℤ)
  if nextInt ≠ r then
    servers ++ [Server.mk (nextInt - r) ∅ [] (some (.text "slack")) none]
  else servers

/-- `run.py:87-97`; the levels built so far are `init ++ [last]`.  `none`: the
loop has not ended within `fuel` rounds. -/
def reduceLoop : (fuel : ℕ) → (init : List (List Server)) → (last : List Server) →
    (nextId : Option ℕ) → Option (List Server × List (List Server))
  | 0, _, _, _ => none
  | fuel + 1, init, last, nextId =>
    let packed := pack (findPacking last) nextId
    if allUnit packed then some (packed, init ++ [last])
    else
      reduceLoop fuel (init ++ [last]) (duals packed)
        (if idTruthy nextId then nextId.map (· + packed.length) else nextId)

/-- `run.py:85-97`. -/
def reduce (fuel : ℕ) (servers : List Server) (nextId : Option ℕ) :
    Option (List Server × List (List Server)) :=
  reduceLoop fuel [] (ensureIntegerRate servers) nextId

/-- `run.py:99-101`. -/
def maxPreemptions (levels : List (List Server)) : ℕ := (⌈(levels.length : ℚ) / 2⌉).toNat

end Verif.Run
