/-
C62: queries for the probability of meeting deadlines, and the memo they share.
-/
import Verif.Model.Broster
import Mathlib.Data.List.GetD
import Mathlib.Tactic.Linarith
import Mathlib.Tactic.Ring
import Mathlib.Tactic.IntervalCases
import Mathlib.Tactic.NormNum

namespace Verif.Can.Broster

open Finset

variable {w : ℕ → ℚ} {P : ℕ → ℚ → ℚ} {jitter deadline : ℚ}

/-! ### Specification -/

/-- `p f` is the probability of exactly `f` retransmissions: Broster's recurrence. -/
def Recurrence (w : ℕ → ℚ) (P : ℕ → ℚ → ℚ) (p : ℕ → ℚ) : Prop :=
  ∀ f, p f = P f (w f) - ∑ j ∈ range f, p j * P (f - j) (w f - w j)

/-- The deadline is met with up to `f` retransmissions. -/
def Meets (w : ℕ → ℚ) (jitter deadline : ℚ) (f : ℕ) : Prop := ∀ k ≤ f, w k + jitter ≤ deadline

/-! ### Proof -/

theorem foldl_sum (g : ℕ → ℚ) (n : ℕ) (e : ℚ) :
    (List.range n).foldl (fun e i => e + g i) e = e + ∑ i ∈ range n, g i := by
  induction n with
  | zero => simp
  | succ n ih => rw [List.range_succ, List.foldl_append, ih, sum_range_succ]; simp; ring

theorem prob_eq {p : ℕ → ℚ} (hp : Recurrence w P p) (n : ℕ) :
    prob w P ((List.range n).map p) n = p n := by
  unfold prob
  rw [foldl_sum, hp n, zero_add]
  congr 1
  apply sum_congr rfl
  intro i hi
  rw [mem_range] at hi
  rw [List.getD_eq_getElem _ _ (by simpa using hi)]
  simp

theorem map_range_succ (p : ℕ → ℚ) (n : ℕ) :
    (List.range n).map p ++ [p n] = (List.range (n + 1)).map p := by
  rw [List.range_succ, List.map_append]; rfl

/-- Starting from a memo with the first `n` probabilities. -/
theorem loop_eq {p : ℕ → ℚ} (hp : Recurrence w P p) (h1 : ∀ f, Meets w jitter deadline f → p f ≤ 1)
    (m : ℕ) : ∀ (fuel n : ℕ), m + 2 ≤ fuel + n → (∀ k < n, w k + jitter ≤ deadline) → n ≤ m + 1 →
    ∃ n', loop w P jitter deadline (some m) fuel n ((List.range n).map p) = some ((List.range n').map p) ∧
      n ≤ n' ∧ n' ≤ m + 1 ∧ (∀ k < n', w k + jitter ≤ deadline) ∧ (n' ≤ m → deadline < w n' + jitter) := by
  intro fuel
  induction fuel with
  | zero => intro n h _ h'; omega
  | succ fuel ih =>
    intro n hf hk hn
    rw [loop]
    by_cases hm : n ≤ m
    · rw [if_pos (by simp [hm])]
      by_cases hd : w n + jitter > deadline
      · rw [if_pos hd]
        exact ⟨n, rfl, le_rfl, by omega, hk, fun _ => hd⟩
      · rw [if_neg hd]
        have hk' : ∀ k < n + 1, w k + jitter ≤ deadline := by
          intro k hkn
          rcases Nat.lt_succ_iff_lt_or_eq.mp hkn with h | rfl
          · exact hk k h
          · exact not_lt.mp hd
        simp only [prob_eq hp]
        rw [if_pos (h1 n (fun k hkn => hk' k (by omega))), map_range_succ]
        obtain ⟨n', a, b, c, d, e⟩ := ih (n + 1) (by omega) hk' (by omega)
        exact ⟨n', a, by omega, c, d, e⟩
    · rw [if_neg (by simp; omega)]
      exact ⟨n, rfl, le_rfl, hn, hk, fun h => absurd h hm⟩

theorem query_eq {p : ℕ → ℚ} (hp : Recurrence w P p) (h1 : ∀ f, Meets w jitter deadline f → p f ≤ 1)
    (m n fuel : ℕ) (hf : m + 2 ≤ fuel) (hk : ∀ k < n, w k + jitter ≤ deadline) :
    ∃ n', (∀ k < n', w k + jitter ≤ deadline) ∧ ∃ r,
      query w P jitter deadline fuel ((List.range n).map p) (some m) = some (r, (List.range n').map p) ∧
      (Meets w jitter deadline m → r = p m) ∧ (¬ Meets w jitter deadline m → r = 0) := by
  unfold query
  simp only [List.length_map, List.length_range]
  by_cases hn : n > m + 1
  · rw [if_pos hn]
    refine ⟨n, hk, _, rfl, ?_, ?_⟩
    · intro _
      rw [List.getD_eq_getElem _ _ (by simp; omega)]; simp
    · intro h; exact absurd (fun k hkm => hk k (by omega)) h
  · rw [if_neg hn]
    obtain ⟨n', a, b, c, d, e⟩ := loop_eq hp h1 m fuel n (by omega) hk (by omega)
    rw [a]
    simp only [Option.bind_some, result, List.length_map, List.length_range]
    by_cases hn' : n' ≥ m + 1
    · rw [if_pos hn']
      have hm : Meets w jitter deadline m := fun k hkm => d k (by omega)
      have hg : ((List.range n').map p).getD m 0 = p m := by
        rw [List.getD_eq_getElem _ _ (by simp; omega)]; simp
      rw [hg, if_pos (h1 m hm), min_eq_left (h1 m hm)]
      exact ⟨n', d, p m, rfl, fun _ => rfl, fun h => absurd hm h⟩
    · rw [if_neg hn', if_pos (by norm_num)]
      refine ⟨n', d, _, rfl, ?_, fun _ => by norm_num⟩
      intro hm
      have h2 := e (by omega)
      have h3 := hm n' (by omega)
      linarith

/-- **C62**, partial: on a new message, queries that give a number of faults return the
probability of exactly that many retransmissions, or zero if the deadline is not met then,
whatever queries of this kind come before.  Missing: queries without a number of faults,
after which it is violated. -/
theorem C62_faults_partial (p : ℕ → ℚ) (hp : Recurrence w P p)
    (h1 : ∀ f, Meets w jitter deadline f → p f ≤ 1) (ms : List ℕ) (fuel : ℕ) (hf : ∀ m ∈ ms, m + 2 ≤ fuel) :
    ∃ rs, queries w P jitter deadline fuel [] (ms.map some) = some rs ∧
      List.Forall₂ (fun m r => (Meets w jitter deadline m → r = p m) ∧
        (¬ Meets w jitter deadline m → r = 0)) ms rs := by
  have : ∀ (n : ℕ), (∀ k < n, w k + jitter ≤ deadline) →
      ∃ rs, queries w P jitter deadline fuel ((List.range n).map p) (ms.map some) = some rs ∧
        List.Forall₂ (fun m r => (Meets w jitter deadline m → r = p m) ∧
          (¬ Meets w jitter deadline m → r = 0)) ms rs := by
    induction ms with
    | nil => intro n _; exact ⟨[], rfl, List.Forall₂.nil⟩
    | cons m ms ih =>
      intro n hk
      obtain ⟨n', hk', r, h2, h3, h4⟩ := query_eq hp h1 m n fuel (hf m List.mem_cons_self) hk
      obtain ⟨rs, h5, h6⟩ := ih (fun m hm => hf m (List.mem_cons_of_mem _ hm)) n' hk'
      refine ⟨r :: rs, ?_, List.Forall₂.cons ⟨h3, h4⟩ h6⟩
      rw [List.map_cons, queries, h2]
      simp [h5]
  exact this 0 (by omega)

theorem cumulate_eq (p : ℕ → ℚ) (n : ℕ) : ∀ k, (∀ j, k ≤ j → j ≤ k + n → ∑ f ∈ range j, p f ≤ 1) →
    cumulate (∑ f ∈ range k, p f) ((List.range' k n).map p) = ∑ f ∈ range (k + n), p f := by
  induction n with
  | zero => intro k _; simp [cumulate]
  | succ n ih =>
    intro k h
    rw [List.range'_succ, List.map_cons, cumulate, ← sum_range_succ]
    rw [if_pos (h (k + 1) (by omega) (by omega)), ih (k + 1) (fun j h1 h2 => h j (by omega) (by omega))]
    congr 2; omega

theorem loop_none_eq {p : ℕ → ℚ} (hp : Recurrence w P p) (h1 : ∀ f, Meets w jitter deadline f → p f ≤ 1)
    (K : ℕ) (hlt : ∀ k < K, w k + jitter ≤ deadline) (hK : deadline < w K + jitter) :
    ∀ (fuel n : ℕ), n ≤ K → K + 1 ≤ fuel + n →
      loop w P jitter deadline none fuel n ((List.range n).map p) = some ((List.range K).map p) := by
  intro fuel
  induction fuel with
  | zero => intro n h1 h2; omega
  | succ fuel ih =>
    intro n hn hf
    rw [loop, if_pos (by simp)]
    by_cases hnK : n = K
    · subst hnK; rw [if_pos hK]
    · have hd : w n + jitter ≤ deadline := hlt n (by omega)
      rw [if_neg (not_lt.mpr hd)]
      simp only [prob_eq hp]
      rw [if_pos (h1 n (fun k hk => hlt k (by omega))), map_range_succ]
      exact ih (n + 1) (by omega) (by omega)

/-- **C62**, partial: on a new message, the query without a number of faults returns the sum
of the probabilities of up to as many retransmissions as the deadline allows. -/
theorem C62_total_partial (p : ℕ → ℚ) (hp : Recurrence w P p)
    (h1 : ∀ f, Meets w jitter deadline f → p f ≤ 1) (K : ℕ) (hlt : ∀ k < K, w k + jitter ≤ deadline)
    (hK : deadline < w K + jitter) (hsum : ∀ j ≤ K, ∑ f ∈ range j, p f ≤ 1) (fuel : ℕ) (hf : K + 1 ≤ fuel) :
    queries w P jitter deadline fuel [] [none] = some [∑ f ∈ range K, p f] := by
  have h := loop_none_eq hp h1 K hlt hK fuel 0 (by omega) (by omega)
  simp only [List.range_zero, List.map_nil] at h
  have hc := cumulate_eq p K 0 (fun j _ h => hsum j (by omega))
  rw [← List.range_eq_range', sum_range_zero, Nat.zero_add] at hc
  simp only [queries, query, h, Option.bind_some, result, hc]
  rw [if_pos (hsum K le_rfl), min_eq_left (hsum K le_rfl)]
  rfl

/-- **C62 is violated.** Whenever a message meets its deadline only without retransmissions,
with probability at most one half, asking twice gives twice the probability; and after that,
the probability of one retransmission is no longer zero, so that `is_schedulable` accepts a
number of faults with which the deadline is missed. -/
theorem C62_violated (h0 : w 0 + jitter ≤ deadline) (h1 : deadline < w 1 + jitter) (hp : 0 < P 0 (w 0))
    (hhalf : P 0 (w 0) ≤ 1 / 2) :
    queries w P jitter deadline 3 [] [none, none, some 1] =
        some [P 0 (w 0), 2 * P 0 (w 0), P 0 (w 0)] ∧
      queries w P jitter deadline 3 [] [some 1] = some [0] ∧ P 0 (w 0) ≠ 0 := by
  have hl : ∀ vec, loop w P jitter deadline none 3 0 vec = some (vec ++ [P 0 (w 0)]) := by
    intro vec
    have e : prob w P vec 0 = P 0 (w 0) := by simp [prob]
    rw [loop, if_pos (by simp), if_neg (not_lt.mpr h0)]
    simp only [e]
    rw [if_pos (by linarith), loop, if_pos (by simp), if_pos h1]
  have hn : loop w P jitter deadline (some 1) 3 0 [] = some [P 0 (w 0)] := by
    have e : prob w P [] 0 = P 0 (w 0) := by simp [prob]
    rw [loop, if_pos (by simp), if_neg (not_lt.mpr h0)]
    simp only [e]
    rw [if_pos (by linarith), loop, if_pos (by simp), if_pos h1]
    rfl
  generalize P 0 (w 0) = q at *
  refine ⟨?_, ?_, hp.ne'⟩
  · have c1 : cumulate 0 [q] = q := by
      rw [cumulate, if_pos (by linarith), cumulate]; ring
    have c2 : cumulate 0 [q, q] = 2 * q := by
      rw [cumulate, if_pos (by linarith), cumulate, if_pos (by linarith), cumulate]; ring
    have hs : loop w P jitter deadline (some 1) 3 2 [q, q] = some [q, q] := by
      rw [loop, if_neg (by simp)]
    have q1 : query w P jitter deadline 3 [] none = some (q, [q]) := by
      simp only [query, hl, List.nil_append, Option.bind_some, result, c1]
      rw [if_pos (by linarith), min_eq_left (by linarith)]; rfl
    have q2 : query w P jitter deadline 3 [q] none = some (2 * q, [q, q]) := by
      simp only [query, hl, Option.bind_some, result, List.cons_append, List.nil_append, c2]
      rw [if_pos (by linarith), min_eq_left (by linarith)]; rfl
    have q3 : query w P jitter deadline 3 [q, q] (some 1) = some (q, [q, q]) := by
      simp only [query, List.length_cons, List.length_nil]
      rw [if_neg (by omega), hs]
      simp only [Option.bind_some, result, List.length_cons, List.length_nil]
      have e : (if 0 + 1 + 1 ≥ 1 + 1 then [q, q].getD 1 0 else 0) = q := rfl
      rw [e, if_pos (by linarith), min_eq_left (by linarith)]; rfl
    simp [queries, q1, q2, q3]
  · have q1 : query w P jitter deadline 3 [] (some 1) = some (0, [q]) := by
      simp only [query, List.length_nil]
      rw [if_neg (by omega), hn]
      simp [result]
    simp [queries, q1]

/-- The hypotheses are met, e.g. by these times and (rounded) probabilities. -/
example : ∃ (w : ℕ → ℚ) (P : ℕ → ℚ → ℚ) (p : ℕ → ℚ), Recurrence w P p ∧
    (∀ f, Meets w 0 10 f → p f ≤ 1) ∧ (∀ k < 2, w k + 0 ≤ 10) ∧ 10 < w 2 + 0 ∧
    (∀ j ≤ 2, ∑ f ∈ range j, p f ≤ 1) ∧ p 0 = 1 / 2 ∧ p 1 = 1 / 4 := by
  refine ⟨fun f => 4 * (f + 1), fun k _ => if k ≤ 1 then 1 / 2 else 0,
    fun f => if f = 0 then 1 / 2 else 1 / 4 * (-1 / 2) ^ (f - 1), ?_, ?_, ?_, by norm_num, ?_, by norm_num, by norm_num⟩
  · intro f
    rcases f with _ | _ | f
    · simp
    · norm_num
    · rw [sum_range_succ, sum_eq_zero]
      · have e : f + 1 + 1 - (f + 1) = 1 := by omega
        simp only [e, Nat.add_sub_cancel]
        rw [if_neg (by omega), if_neg (by omega), if_neg (by omega)]
        norm_num
        ring
      · intro j hj
        rw [mem_range] at hj
        simp only
        rw [if_neg (show ¬ (f + 1 + 1 - j ≤ 1) by omega), mul_zero]
  · intro f hf
    have : f ≤ 1 := by
      have := hf f le_rfl
      by_contra h
      have h2 : (2 : ℚ) ≤ f := by exact_mod_cast (by omega : 2 ≤ f)
      linarith
    interval_cases f <;> norm_num
  · intro k hk
    interval_cases k <;> norm_num
  · intro j hj
    interval_cases j <;> simp [sum_range_succ] <;> norm_num

end Verif.Can.Broster
