/-
Model of `schedcat/util/linprog.py`.  Numbers are exact rationals, variable names
are lists of characters.  Calls of the solver are not modelled.
-/
import Verif.Spec.LinProg
import Mathlib.Algebra.Order.Floor.Ring
import Mathlib.Data.Rat.Floor

namespace Verif.LinProg
open Verif.Spec

/-- `filter_vars`, `linprog.py:37-38`; the set of removed names as a list. -/
def filterVars (removed : List Var) (sum : Terms) : Terms :=
  sum.filter (fun t => !removed.contains t.2)

/-- `apply_prefix`, `linprog.py:40-42`. -/
def applyPrefix (vector : Terms) (pre : Var) : Terms :=
  vector.map (fun t => (t.1, pre ++ '_' :: t.2))

/-- `Solution`, `linprog.py:45-57`: a dictionary from names to values. -/
abbrev Solution := List (Var × ℚ)

/-- The loop body of `evaluate`, `linprog.py:51-53`. -/
def step (sol : Solution) (acc : ℚ) (t : ℚ × Var) : ℚ :=
  match sol.lookup t.2 with
  | some y => acc + t.1 * y
  | none => acc

/-- `Solution.evaluate`, `linprog.py:49-54`. -/
def Solution.evaluate (sol : Solution) (vector : Terms) : ℚ := vector.foldl (step sol) 0

/-- `LinearProgram`, `linprog.py:60-67`; `localObjective` is the optional attribute
that `kill_non_positive_vars` looks for. -/
structure LP where
  equalities : List (Terms × ℚ) := []
  inequalities : List (Terms × ℚ) := []
  objective : Option Terms := none
  localObjective : Option Terms := none
  goal : String := "Maximize"

/-- `add_inequality`, `linprog.py:71-72`. -/
def LP.addInequality (lp : LP) (vector : Terms) (upperBound : ℚ) : LP :=
  { lp with inequalities := lp.inequalities ++ [(vector, upperBound)] }

/-- `add_equality`, `linprog.py:74-75`. -/
def LP.addEquality (lp : LP) (vector : Terms) (v : ℚ) : LP :=
  { lp with equalities := lp.equalities ++ [(vector, v)] }

/-- `set_objective`, `linprog.py:77-78`. -/
def LP.setObjective (lp : LP) (vector : Terms) : LP := { lp with objective := some vector }

/-- `apply_variable_prefix`, `linprog.py:80-85`; `none` is the type error if no
objective has been set. -/
def LP.applyVariablePrefix (lp : LP) (pre : Var) : Option LP :=
  match lp.objective with
  | none => none
  | some obj => some
    { lp with
      inequalities := lp.inequalities.map (fun c => (applyPrefix c.1 pre, c.2))
      equalities := lp.equalities.map (fun c => (applyPrefix c.1 pre, c.2))
      objective := some (applyPrefix obj pre) }

/-- `merge`, `linprog.py:87-96`, for two different objects; `none` is the failed
assertion or the type error if the other program has no objective. -/
def LP.merge (self other : LP) : Option LP :=
  if other.goal = self.goal then
    match other.objective with
    | none => none
    | some obj => some
      { self with
        inequalities := self.inequalities ++ other.inequalities
        equalities := self.equalities ++ other.equalities
        objective := some (self.objective.getD [] ++ obj) }
  else none

/-- The variables found in `kill_non_positive_vars`, `linprog.py:153-161`. -/
def killed (cs : List (Terms × ℚ)) : List Var :=
  (cs.filter (fun c => decide (c.2 ≤ 0))).flatMap (fun c => c.1.map Prod.snd)

/-- The constraints that remain, `linprog.py:166-171`. -/
def remaining (dead : List Var) (cs : List (Terms × ℚ)) : List (Terms × ℚ) :=
  ((cs.filter (fun c => decide (c.2 > 0))).map (fun c => (filterVars dead c.1, c.2))).filter
    (fun c => !c.1.isEmpty)

/-- `kill_non_positive_vars`, `linprog.py:148-171`; `none` is the type error if no
objective has been set. -/
def LP.killNonPositiveVars (lp : LP) : Option LP :=
  let dead := killed lp.equalities ++ killed lp.inequalities
  match lp.objective with
  | none => none
  | some obj => some
    { lp with
      objective := some (filterVars dead obj)
      localObjective := lp.localObjective.map (filterVars dead)
      equalities := remaining dead lp.equalities
      inequalities := remaining dead lp.inequalities }

/-! ### The text given to the solver -/

/- The pieces of text that are written are `Tok`s, without blanks.  A number printed
with `%s` is taken to be exact, which holds for integers; `str` of a float has 12
significant digits. -/

/-- The number that is denoted by `'%f' % q`: six decimals (a tie is rounded up
here). -/
def sixDecimals (q : ℚ) : ℚ := (⌊q * 1000000 + 1 / 2⌋ : ℚ) / 1000000

/-- `write_cplex_terms`, `linprog.py:17-22`. -/
def writeTerms (vector : Terms) : List Tok :=
  vector.flatMap (fun t => if t.1 < 0 then [.minus, .num (-t.1), .name t.2]
    else [.plus, .num t.1, .name t.2])

/-- The loop of `write_cplex_sum`, `linprog.py:33-35`: the chunks that start at
`i`, `i + per_line`, …; `fuel` bounds their number. -/
def writeChunks (perLine : ℕ) : (fuel : ℕ) → Terms → List Tok
  | 0, _ => []
  | _, [] => []
  | fuel + 1, rest =>
    .newline :: writeTerms (rest.take perLine) ++ writeChunks perLine fuel (rest.drop perLine)

/-- `write_cplex_sum`, `linprog.py:24-35`, with `per_line` given. -/
def writeSum (perLine : ℕ) : Terms → List Tok
  | [] => [.num 0]
  | t :: rest =>
    .num t.1 :: .name t.2 :: writeTerms (rest.take (perLine - 1)) ++
      writeChunks perLine rest.length (rest.drop (perLine - 1))

/-- One line for each constraint, `linprog.py:138-143`. -/
def writeConstraints (rel : Tok) (cs : List (Terms × ℚ)) : List Tok :=
  cs.flatMap (fun c => writeSum 7 c.1 ++ [rel, .num (sixDecimals c.2), .newline])

/-- `write_cplex_lp_format`, `linprog.py:134-145`; `none` is the type error if no
objective has been set. -/
def LP.writeCplex (lp : LP) : Option (List Tok) :=
  lp.objective.map fun obj =>
    [.word lp.goal, .newline] ++ writeSum 7 obj ++ [.newline, .word "Subject To", .newline] ++
      writeConstraints .equals lp.equalities ++ writeConstraints .atMost lp.inequalities ++
      [.word "End", .newline]

end Verif.LinProg
