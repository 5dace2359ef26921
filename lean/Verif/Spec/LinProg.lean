/-
Specification: meaning of a linear program over non-negative variables.  This file
does not depend on the model.
-/
import Mathlib.Data.Rat.Defs
import Mathlib.Algebra.Order.Ring.Rat
import Mathlib.Algebra.BigOperators.Group.List.Basic

namespace Verif.Spec

/-- Variables are named by strings of characters. -/
abbrev Var := List Char

/-- A sum of terms. -/
abbrev Terms := List (ℚ × Var)

/-- Value of a sum of terms under an assignment. -/
def value (x : Var → ℚ) (v : Terms) : ℚ := (v.map (fun t => t.1 * x t.2)).sum

/-- The assignment satisfies the constraints `lhs = rhs` and `lhs ≤ rhs`. -/
def Satisfies (x : Var → ℚ) (eqs ineqs : List (Terms × ℚ)) : Prop :=
  (∀ c ∈ eqs, value x c.1 = c.2) ∧ (∀ c ∈ ineqs, value x c.1 ≤ c.2)

/-- All variables are at least 0 (the default of the solver). -/
def NonNeg (x : Var → ℚ) : Prop := ∀ v, 0 ≤ x v

/-! ### The solver's text format -/

/-- The lexical elements of a linear program in text form. -/
inductive Tok where
  | num (q : ℚ)
  | name (v : Var)
  | plus | minus | newline | equals | atMost
  | word (s : String)
deriving DecidableEq

/-- Further terms, each with a sign; and what follows them. -/
def readTerms : List Tok → Terms × List Tok
  | .plus :: .num c :: .name v :: r => ((c, v) :: (readTerms r).1, (readTerms r).2)
  | .minus :: .num c :: .name v :: r => ((-c, v) :: (readTerms r).1, (readTerms r).2)
  | r => ([], r)

/-- A sum of terms, or the number 0; and what follows it. -/
def readSum : List Tok → Option (Terms × List Tok)
  | .num c :: .name v :: r => some ((c, v) :: (readTerms r).1, (readTerms r).2)
  | .num c :: r => if c = 0 then some ([], r) else none
  | _ => none

/-- Constraints up to the word `End`: equations and inequations, in order.  The
first argument bounds their number. -/
def readConstraints : ℕ → List Tok → Option (List (Terms × ℚ) × List (Terms × ℚ))
  | 0, _ => none
  | fuel + 1, toks =>
    if toks = [.word "End"] then some ([], [])
    else match readSum toks with
      | some (v, .equals :: .num b :: r) =>
        (readConstraints fuel r).map (fun p => ((v, b) :: p.1, p.2))
      | some (v, .atMost :: .num b :: r) =>
        (readConstraints fuel r).map (fun p => (p.1, (v, b) :: p.2))
      | _ => none

/-- A linear program as text: goal, objective, equations, inequations.  Line breaks
do not matter. -/
def readProgram (text : List Tok) : Option (String × Terms × List (Terms × ℚ) × List (Terms × ℚ)) :=
  match text.filter (fun t => decide (t ≠ .newline)) with
  | .word goal :: toks =>
    match readSum toks with
    | some (obj, .word sep :: r) =>
      if sep = "Subject To" then
        (readConstraints (r.length + 1) r).map (fun p => (goal, obj, p.1, p.2))
      else none
    | _ => none
  | _ => none

end Verif.Spec
