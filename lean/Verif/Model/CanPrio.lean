/-
Model of `schedcat/sched/canbus/prio_assign.py` and of `powerset` in
`schedcat/sched/canbus/prob_success.py:57-67`.
-/
import Verif.Model.Can

namespace Verif.Can

/-- `powerset`, `prob_success.py:57-67`.  `none`: unbounded recursion, which Python ends
with a `RuntimeError`. -/
def powerset {α : Type} : List α → Option (List (List α))
  | [] => none
  | [x] => some [[x], []]
  | x :: y :: l => (powerset (y :: l)).map (fun items => items.flatMap (fun item => [item, x :: item]))

/-- The binary search of `prio_assign.py:49-54`; `fuel` iterations at most. -/
def bsearch (ok : ℕ → Bool) : ℕ → ℕ → ℕ → ℕ
  | 0, lo, _ => lo
  | fuel + 1, lo, hi =>
    if hi - lo > 1 then
      let mid := (lo + hi) / 2
      if ok mid then bsearch ok fuel mid hi else bsearch ok fuel lo mid
    else lo

/-- How `set_priorities_david_and_burns` can end. -/
inductive PrioResult (n : ℕ) where
  | ok (ids : Fin n → ℤ)
  /-- `AssertionError`, `prio_assign.py:46`. -/
  | assertion
  /-- `Exception("Priority Assignment Failed")`, `prio_assign.py:62-63`. -/
  | failed

variable {n : ℕ}

/-- The body of the inner loop for an unassigned message, `prio_assign.py:33-60`.
`test ids m f` stands for `is_schedulable(msgs, m, f)` on a message set whose memos are
reset; the trial id 0 is set before and -1 is restored after.  The state is
`(alpha_global, candidate_msg)`; `none` is an `AssertionError`. -/
def tryMsg (test : (Fin n → ℤ) → Fin n → ℕ → Bool) (alphaMax : Fin n → ℕ) (ids : Fin n → ℤ)
    (best : Option (ℕ × Fin n)) (m : Fin n) : Option (Option (ℕ × Fin n)) :=
  if ids m > 0 then some best
  else
    let trial := Function.update ids m 0
    if test trial m 0 = false then some best
    else if test trial m (alphaMax m) = true then none
    else
      let alpha := bsearch (test trial m) (alphaMax m) 0 (alphaMax m)
      match best with
      | none => some (some (alpha, m))
      | some (g, c) => if alpha > g then some (some (alpha, m)) else some (some (g, c))

/-- The loop `for m in reversed(msgs)`, `prio_assign.py:33-60`. -/
def tryAll (test : (Fin n → ℤ) → Fin n → ℕ → Bool) (alphaMax : Fin n → ℕ) (ids : Fin n → ℤ) :
    Option (Option (ℕ × Fin n)) :=
  (List.finRange n).reverse.foldlM (tryMsg test alphaMax ids) none

/-- The loop over the levels, `prio_assign.py:29-66`; the first argument is the number
of levels still to assign. -/
def assignLevels (test : (Fin n → ℤ) → Fin n → ℕ → Bool) (alphaMax : Fin n → ℕ) :
    ℕ → (Fin n → ℤ) → PrioResult n
  | 0, ids => .ok ids
  | level + 1, ids =>
    match tryAll test alphaMax ids with
    | none => .assertion
    | some none => .failed
    | some (some (_, c)) => assignLevels test alphaMax level (Function.update ids c (level + 1 : ℕ))

/-- `set_priorities_david_and_burns`, `prio_assign.py:7-66`. -/
def setPriorities (test : (Fin n → ℤ) → Fin n → ℕ → Bool) (alphaMax : Fin n → ℕ) : PrioResult n :=
  assignLevels test alphaMax n (fun _ => -1)

/-- `int(math.ceil(m.deadline / msgs.max_error_frame_size))`, `prio_assign.py:45`, for
numbers that are not both `int`. -/
def Bus.alphaMax (b : Bus n) (i : Fin n) : ℕ := ⌈(b.msg i).deadline / b.maxErrorFrameSize⌉.toNat

/-- The timing part of `is_schedulable`, `broster.py:39,50-54,85-89`: the message
tolerates the given number of faults.  The probability computed there is then not 0
unless the fault rate is 0 or arithmetic underflows. -/
def Bus.tolerates (b : Bus n) (fuel : ℕ) (ids : Fin n → ℤ) (i : Fin n) (faults : ℕ) : Bool :=
  match b.wctt ids fuel i faults with
  | some w => decide (w + (b.msg i).jitter ≤ (b.msg i).deadline)
  | none => false

end Verif.Can
