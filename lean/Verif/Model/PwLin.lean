/-
Model of the overhead interpolation in `schedcat/util/math.py`.  Numbers are exact.
-/
import Verif.Model.Overheads

namespace Verif.Oh

/-- `bisect.bisect_left(a, x, lo, hi)` (`schedcat/util/math.py:3`, `:82`), the binary
search of the Python library. -/
def bisectLeft (a : List ℚ) (x : ℚ) (lo hi : ℕ) : ℕ :=
  if _h : lo < hi then
    let mid := (lo + hi) / 2
    if a.getD mid 0 < x then bisectLeft a x (mid + 1) hi else bisectLeft a x lo mid
  else lo
termination_by hi - lo
decreasing_by all_goals omega

/-- `slope(i)`, `math.py:58-67`, from the two end points. -/
def slope (p q : ℚ × ℚ) : ℚ :=
  let dy := q.2 - p.2
  let dx := q.1 - p.1
  if dx ≠ 0 then dy / dx else 0

/-- The segment between two points, `math.py:69-75`. -/
def segment (p q : ℚ × ℚ) : LinearEqu := ⟨p.2 - slope p q * p.1, slope p q⟩

/-- `schedcat/util/math.py:53-78` (`PieceWiseLinearEqu.__init__`). -/
structure PieceWiseLinearEqu where
  segments : List LinearEqu
  lookup : List ℚ
  hi : ℕ

/-- `schedcat/util/math.py:54-78`; a failed assertion is `none`. -/
def PieceWiseLinearEqu.ofPoints (points : List (ℚ × ℚ)) : Option PieceWiseLinearEqu :=
  if points.length ≥ 2 then
    some
      { segments := List.zipWith segment points points.tail
        lookup := points.tail.map Prod.fst
        hi := points.length - 2 }
  else none

/-- `schedcat/util/math.py:80-86` (`PieceWiseLinearEqu.__call__`). -/
def PieceWiseLinearEqu.eval (f : PieceWiseLinearEqu) (x : ℚ) : ℚ :=
  let i := bisectLeft f.lookup x 0 f.hi
  max 0 ((f.segments.getD i ⟨0, 0⟩).eval x)

/-- The loop of `make_monotonic`, `schedcat/util/math.py:107-114`; `filtered` is kept in
reverse. -/
def makeMonotonicLoop (filtered : List (ℚ × ℚ)) (prevprev : Option ℚ) (prev : ℚ) :
    List (ℚ × ℚ) → List (ℚ × ℚ)
  | [] => filtered
  | (x, y) :: rest =>
    let y := max prev y
    let filtered := if prevprev = some y then filtered.tail else filtered
    makeMonotonicLoop ((x, y) :: filtered) (some prev) y rest

/-- `schedcat/util/math.py:103-120` (`make_monotonic`); an empty list raises
`IndexError` (`none`). -/
def makeMonotonic : List (ℚ × ℚ) → Option (List (ℚ × ℚ))
  | [] => none
  | p :: rest =>
    match makeMonotonicLoop [p] none p.2 rest with
    | [q, r] => if q.2 = r.2 then some [r] else some [r, q]
    | l => some l.reverse

/-- The functions that `monotonic_pwlin` returns. -/
inductive OhFun where
  | lin (f : LinearEqu)
  | pw (f : PieceWiseLinearEqu)

/-- Calling an overhead function. -/
def OhFun.eval : OhFun → ℚ → ℚ
  | .lin f, x => f.eval x
  | .pw f, x => f.eval x

/-- `schedcat/util/math.py:131-138` (`monotonic_pwlin`); `none` if an exception is
raised. -/
def monotonicPwlin (points : List (ℚ × ℚ)) : Option OhFun :=
  match makeMonotonic points with
  | none => none
  | some asc =>
    if asc.length > 1 then (PieceWiseLinearEqu.ofPoints asc).map OhFun.pw
    else
      match asc with
      | p :: _ => some (.lin ⟨p.2, 0⟩)
      | [] => some (.lin ⟨0, 0⟩)

end Verif.Oh
