/-
Specification: what a CAN bus does.  Periodic messages compete for a bus that transmits one
frame at a time; this file describes which sequences of observations are legal.  It does not
depend on the model.
-/
import Mathlib.Data.Fin.Basic

namespace Verif.Spec

/-- Periodic messages: job `k` (counted from 1) of message `i` is released at
`(k - 1) * period i` and occupies the bus for `length i`.  A lower number `prio i` is a
higher priority.  Only the hosts of critical messages fail. -/
structure BusMessages (n : ℕ) where
  length : Fin n → ℕ
  period : Fin n → ℕ
  prio : Fin n → ℕ
  critical : Fin n → Bool

/-- Observations, each with the message, the number of the job, and the time: a transmission
starts, succeeds, or fails; the host omits a job. -/
inductive BusEvent (n : ℕ)
  | start (i : Fin n) (k t : ℕ)
  | sent (i : Fin n) (k t : ℕ)
  | failed (i : Fin n) (k t : ℕ)
  | omitted (i : Fin n) (k t : ℕ)
deriving DecidableEq, Repr

variable {n : ℕ}

/-- The last job of message `i` that was transmitted or omitted (0: none). -/
def lastDone (L : List (BusEvent n)) (i : Fin n) : ℕ :=
  L.foldl (fun d e => match e with
    | .sent j k _ => if j = i then k else d
    | .omitted j k _ => if j = i then k else d
    | _ => d) 0

/-- The transmission that is under way: message, job, and when it started. -/
def transmitting (L : List (BusEvent n)) : Option (Fin n × ℕ × ℕ) :=
  L.foldl (fun d e => match e with
    | .start i k t => some (i, k, t)
    | .sent _ _ _ => none
    | .failed _ _ _ => none
    | .omitted _ _ _ => d) none

/-- The time from which on the bus may be used after the last transmission: 3 bit times
(interframe space) after a success, 29 bit times (error frame) after a failure. -/
def usableFrom (L : List (BusEvent n)) : ℕ :=
  L.foldl (fun d e => match e with
    | .sent _ _ t => t + 3
    | .failed _ _ t => t + 29
    | _ => d) 0

/-- After the observations `L`, message `i` has a job that was released by time `t` and is
not yet done. -/
def Waiting (M : BusMessages n) (L : List (BusEvent n)) (i : Fin n) (t : ℕ) : Prop :=
  lastDone L i * M.period i ≤ t

/-- Is observation `e` legal after the observations `L`, if bus faults occur at the times
`faults`? -/
def LegalEvent (M : BusMessages n) (faults : List ℕ) (L : List (BusEvent n)) :
    BusEvent n → Prop
  -- The bus is free, the message is waiting for it and has the highest priority of all waiting
  -- messages, a job is not transmitted again, and no message was waiting earlier while the bus
  -- was free.
  | .start i k t => transmitting L = none ∧ usableFrom L ≤ t ∧ Waiting M L i t ∧
      (∀ j, Waiting M L j t → M.prio i ≤ M.prio j) ∧ lastDone L i < k ∧
      ∀ t', usableFrom L ≤ t' → t' < t → ∀ j, ¬ Waiting M L j t'
  -- Transmissions take as long as the frame is and succeed unless there is a bus fault.
  | .sent i k t => ∃ t₀, transmitting L = some (i, k, t₀) ∧ t = t₀ + M.length i ∧
      ∀ f ∈ faults, ¬ (t₀ ≤ f ∧ f ≤ t)
  | .failed i k t => ∃ t₀, transmitting L = some (i, k, t₀) ∧ t = t₀ + M.length i ∧
      ∃ f ∈ faults, t₀ ≤ f ∧ f ≤ t
  -- Only the next job of a critical message is omitted, not before its release.
  | .omitted i k t => (∀ k' t₀, transmitting L ≠ some (i, k', t₀)) ∧ k = lastDone L i + 1 ∧
      (k - 1) * M.period i ≤ t ∧ M.critical i = true

/-- Every observation is legal after those before it. -/
def LegalLog (M : BusMessages n) (faults : List ℕ) (L : List (BusEvent n)) : Prop :=
  ∀ L₁ e L₂, L = L₁ ++ e :: L₂ → LegalEvent M faults L₁ e

/-- Nothing is missing from the observations up to time `T`: a transmission under way ends
later, and if there is none, no message is waiting for the free bus. -/
def CompleteLog (M : BusMessages n) (L : List (BusEvent n)) (T : ℕ) : Prop :=
  (∀ i k t₀, transmitting L = some (i, k, t₀) → T < t₀ + M.length i) ∧
  (transmitting L = none → ∀ t, usableFrom L ≤ t → t ≤ T → ∀ j, ¬ Waiting M L j t)

end Verif.Spec
