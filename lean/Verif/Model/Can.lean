/-
Model of the CAN bus analysis: `schedcat/model/canbus.py`.

Times are exact rationals instead of floats.  A message set with `n` messages is a
function on `Fin n`; the field `id` of the messages (the priorities) is a separate
function because priority assignment changes it.
-/
import Mathlib.Algebra.Order.Ring.Rat
import Mathlib.Data.Rat.Floor
import Mathlib.Data.List.FinRange
import Mathlib.Algebra.BigOperators.Fin

namespace Verif.Can

/-- `CANMessage`, `canbus.py:7-26`. -/
structure Msg where
  length : ℕ
  period : ℚ
  deadline : ℚ
  jitter : ℚ := 0

/-- `max_framesize`, `canbus.py:22-24` (an `int` length, so `floor` of the quotient). -/
def Msg.framesize (m : Msg) : ℕ := 44 + 8 * m.length + (33 + 8 * m.length) / 4

/-- `CANMessageSet`, `canbus.py:41-44`, with the attributes set by the user. -/
structure Bus (n : ℕ) where
  msg : Fin n → Msg
  tau : ℚ
  interFrameSpace : ℚ
  maxErrorFrameSize : ℚ

variable {n : ℕ} (b : Bus n) (ids : Fin n → ℤ)

/-- `get_transfer_delay`, `canbus.py:76-84`. -/
def Bus.transferDelay (i : Fin n) : ℚ := (b.msg i).framesize * b.tau

/-- The loops of `canbus.py:92-95` and `105-108`: the largest transfer delay, at least
0, of the messages selected by `p`. -/
def Bus.maxDelay (p : Fin n → Bool) : ℚ :=
  (List.finRange n).foldl (fun d k => if p k then max d (b.transferDelay k) else d) 0

/-- `get_blocking_delay`, `canbus.py:86-97`. -/
def Bus.blockingDelay (i : Fin n) : ℚ :=
  b.maxDelay (fun k => decide (k ≠ i) && decide (ids i < ids k)) + b.interFrameSpace

/-- `get_retran_delay_per_fault`, `canbus.py:99-110`. -/
def Bus.retranDelay (i : Fin n) : ℚ :=
  b.maxDelay (fun k => decide (ids k ≤ ids i)) + b.maxErrorFrameSize

/-- `get_inter_delay`, `canbus.py:112-122`. -/
def Bus.interDelay (i : Fin n) (t : ℚ) : ℚ :=
  ∑ k, if ids k < ids i then
    (⌈(t - b.transferDelay i + (b.msg k).jitter + b.tau) / (b.msg k).period⌉ : ℚ)
      * (b.transferDelay k + b.interFrameSpace)
  else 0

/-- The right-hand side of the recurrence, `canbus.py:142-144`. -/
def Bus.step (i : Fin n) (faults : ℕ) (t : ℚ) : ℚ :=
  b.blockingDelay ids i + b.transferDelay i + b.interDelay ids i t
    + faults * b.retranDelay ids i

/-- The loop of `get_wctt`, `canbus.py:141-152`.  `none`: not ended within `fuel`
iterations. -/
def Bus.wcttLoop (i : Fin n) (faults : ℕ) : ℕ → ℚ → Option ℚ
  | 0, _ => none
  | fuel + 1, old =>
    let new := b.step ids i faults old
    if new = old then some new
    else if new + (b.msg i).jitter > (b.msg i).deadline then some new
    else Bus.wcttLoop i faults fuel new

/-- `get_wctt`, `canbus.py:124-152`. -/
def Bus.wctt (fuel : ℕ) (i : Fin n) (faults : ℕ) : Option ℚ :=
  b.wcttLoop ids i faults fuel (b.transferDelay i)

/-- `get_wctt_fast`, `canbus.py:154-160`: the value and the new memo `wctt_vec` of the
message.  `get` stands for `self.get_wctt(mi, ·)`. -/
def wcttFast (get : ℕ → Option ℚ) (vec : List ℚ) (faults : ℕ) : Option (ℚ × List ℚ) :=
  if h : faults < vec.length then some (vec[faults], vec)
  else
    ((List.range' vec.length (faults + 1 - vec.length)).foldlM
        (fun v i => (get i).map (fun w => v ++ [w])) vec).bind
      (fun v => v[faults]?.map (fun w => (w, v)))

/-- A message set with its attribute `max_wcrt` (`none`: not set). -/
structure CanSet where
  n : ℕ
  bus : Bus n
  ids : Fin n → ℤ
  maxWcrt : Option ℚ := none

/-- `get_max_wcrt`, `canbus.py:165-171`: computed from the messages.  Outer `none`: out of
fuel; inner `none`: the assertion of line 170 fails. -/
def CanSet.computeMaxWcrt (fuel : ℕ) (s : CanSet) : Option (Option ℚ) :=
  ((List.finRange s.n).foldlM (fun d i =>
      (s.bus.wctt s.ids fuel i 0).map (fun w =>
        let wcrt := w + (s.bus.msg i).jitter
        if wcrt > d then wcrt else d)) 0).map
    (fun r => if r = 0 then none else some r)

/-- `get_max_wcrt`, `canbus.py:162-171`: a value stored earlier is returned as it is. -/
def CanSet.getMaxWcrt (fuel : ℕ) (s : CanSet) : Option (Option (ℚ × CanSet)) :=
  match s.maxWcrt with
  | some r => some (some (r, s))
  | none => (s.computeMaxWcrt fuel).map (·.map (fun r => (r, { s with maxWcrt := some r })))

/-- `add_replicas`, `canbus.py:173-180`.  The id `None` of a replica sorts before every
number in Python 2; it is written as -1 here, for sets whose ids are not negative.
`reset` (`canbus.py:46-55`) clears the memos of the messages but not `max_wcrt`. -/
def CanSet.addReplicas (s : CanSet) (i : Fin s.n) (r : ℕ) : CanSet where
  n := s.n + r
  bus := { s.bus with msg := Fin.append s.bus.msg (fun _ => s.bus.msg i) }
  ids := Fin.append s.ids (fun _ => -1)
  maxWcrt := s.maxWcrt

end Verif.Can
