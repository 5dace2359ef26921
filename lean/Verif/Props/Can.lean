/-
C44: CAN worst-case transmission times.
-/
import Verif.Model.Can
import Mathlib.Tactic.Linarith
import Mathlib.Tactic.Positivity
import Mathlib.Algebra.Order.BigOperators.Group.Finset
import Mathlib.Order.Bounds.Basic

namespace Verif.Can

open Finset

variable {n : ℕ} {b : Bus n} {ids : Fin n → ℤ}

/-- A message set with sensible attributes. -/
structure Bus.Sane (b : Bus n) : Prop where
  period : ∀ k, 0 < (b.msg k).period
  jitter : ∀ k, 0 ≤ (b.msg k).jitter
  tau : 0 ≤ b.tau
  ifs : 0 ≤ b.interFrameSpace
  err : 0 ≤ b.maxErrorFrameSize

theorem transferDelay_nonneg (h : b.Sane) (i : Fin n) : 0 ≤ b.transferDelay i := by
  have := h.tau
  unfold Bus.transferDelay; positivity

theorem foldl_max_le_iff {β : Type} (l : List β) (p : β → Bool) (f : β → ℚ) (d x : ℚ) :
    l.foldl (fun d k => if p k then max d (f k) else d) d ≤ x ↔
      d ≤ x ∧ ∀ k ∈ l, p k = true → f k ≤ x := by
  induction l generalizing d with
  | nil => simp
  | cons a l ih =>
    rw [List.foldl_cons, ih]
    by_cases hp : p a = true
    · rw [if_pos hp]
      simp only [max_le_iff, List.mem_cons, forall_eq_or_imp, hp, forall_true_left]
      tauto
    · rw [if_neg hp]
      simp only [List.mem_cons, forall_eq_or_imp, hp]
      tauto

/-- The maximum of the selected transfer delays. -/
theorem maxDelay_le_iff (p : Fin n → Bool) (x : ℚ) :
    b.maxDelay p ≤ x ↔ 0 ≤ x ∧ ∀ k, p k = true → b.transferDelay k ≤ x := by
  unfold Bus.maxDelay
  rw [foldl_max_le_iff]
  simp

theorem maxDelay_nonneg (p : Fin n → Bool) : 0 ≤ b.maxDelay p :=
  ((maxDelay_le_iff p _).1 le_rfl).1

theorem le_maxDelay {p : Fin n → Bool} {k : Fin n} (h : p k = true) :
    b.transferDelay k ≤ b.maxDelay p := ((maxDelay_le_iff p _).1 le_rfl).2 k h

/-- Number of interfering frames of `k`. -/
def frames (b : Bus n) (i k : Fin n) (t : ℚ) : ℤ :=
  ⌈(t - b.transferDelay i + (b.msg k).jitter + b.tau) / (b.msg k).period⌉

theorem frames_mono (h : b.Sane) (i k : Fin n) {s t : ℚ} (hst : s ≤ t) :
    frames b i k s ≤ frames b i k t := by
  apply Int.ceil_mono
  exact div_le_div_of_nonneg_right (by linarith) (h.period k).le

theorem frames_nonneg (h : b.Sane) (i k : Fin n) {t : ℚ} (ht : b.transferDelay i ≤ t) :
    0 ≤ frames b i k t := by
  apply Int.ceil_nonneg
  have := h.jitter k
  have := h.tau
  exact div_nonneg (by linarith) (h.period k).le

theorem mul_nonneg' (h : b.Sane) (k : Fin n) : 0 ≤ b.transferDelay k + b.interFrameSpace :=
  add_nonneg (transferDelay_nonneg h k) h.ifs

theorem interDelay_mono (h : b.Sane) (i : Fin n) {s t : ℚ} (hst : s ≤ t) :
    b.interDelay ids i s ≤ b.interDelay ids i t := by
  apply sum_le_sum
  intro k _
  split_ifs
  · apply mul_le_mul_of_nonneg_right _ (mul_nonneg' h k)
    exact_mod_cast frames_mono h i k hst
  · exact le_rfl

theorem interDelay_nonneg (h : b.Sane) (i : Fin n) {t : ℚ} (ht : b.transferDelay i ≤ t) :
    0 ≤ b.interDelay ids i t := by
  apply sum_nonneg
  intro k _
  split_ifs
  · apply mul_nonneg _ (mul_nonneg' h k)
    exact_mod_cast frames_nonneg h i k ht
  · exact le_rfl

theorem blockingDelay_nonneg (h : b.Sane) (i : Fin n) : 0 ≤ b.blockingDelay ids i :=
  add_nonneg (maxDelay_nonneg _) h.ifs

theorem retranDelay_nonneg (h : b.Sane) (i : Fin n) : 0 ≤ b.retranDelay ids i :=
  add_nonneg (maxDelay_nonneg _) h.err

theorem step_mono (h : b.Sane) (i : Fin n) (f : ℕ) {s t : ℚ} (hst : s ≤ t) :
    b.step ids i f s ≤ b.step ids i f t := by
  unfold Bus.step
  have := interDelay_mono (ids := ids) h i hst
  linarith

theorem le_step (h : b.Sane) (i : Fin n) (f : ℕ) {t : ℚ} (ht : b.transferDelay i ≤ t) :
    b.transferDelay i ≤ b.step ids i f t := by
  unfold Bus.step
  have h1 := interDelay_nonneg (ids := ids) h i ht
  have h2 := blockingDelay_nonneg (ids := ids) h i
  have h3 : 0 ≤ (f : ℚ) * b.retranDelay ids i :=
    mul_nonneg (by positivity) (retranDelay_nonneg h i)
  linarith

theorem wcttLoop_spec (h : b.Sane) (i : Fin n) (f fuel : ℕ) (old : ℚ)
    (hold : old ≤ b.step ids i f old) (r : ℚ) (hr : b.wcttLoop ids i f fuel old = some r) :
    old ≤ r ∧ (∀ x, old ≤ x → b.step ids i f x ≤ x → r ≤ x) ∧
      (r = b.step ids i f r ∨ (b.msg i).deadline < r + (b.msg i).jitter) := by
  induction fuel generalizing old with
  | zero => simp [Bus.wcttLoop] at hr
  | succ fuel ih =>
    unfold Bus.wcttLoop at hr
    simp only at hr
    by_cases h1 : b.step ids i f old = old
    · rw [if_pos h1] at hr
      simp only [Option.some.injEq] at hr
      rw [h1] at hr
      subst hr
      exact ⟨le_rfl, fun x hx _ => hx, Or.inl h1.symm⟩
    · rw [if_neg h1] at hr
      by_cases h2 : b.step ids i f old + (b.msg i).jitter > (b.msg i).deadline
      · rw [if_pos h2] at hr
        simp only [Option.some.injEq] at hr
        subst hr
        exact ⟨hold, fun x hx hxs => (step_mono h i f hx).trans hxs, Or.inr h2⟩
      · rw [if_neg h2] at hr
        obtain ⟨g1, g2, g3⟩ := ih _ (step_mono h i f hold) hr
        exact ⟨hold.trans g1, fun x hx hxs => g2 x ((step_mono h i f hx).trans hxs) hxs, g3⟩

/-- **C44**, meaning of the result of `get_wctt`.  If it meets the deadline (with
jitter), it is the least fixed point, not below the transfer delay, of blocking plus
transfer delay plus interference plus retransmissions; if it does not, then no fixed
point meets the deadline. -/
theorem C44_wctt (h : b.Sane) (i : Fin n) (faults fuel : ℕ) (r : ℚ)
    (hr : b.wctt ids fuel i faults = some r) :
    (r + (b.msg i).jitter ≤ (b.msg i).deadline →
      IsLeast {x | b.transferDelay i ≤ x ∧ x = b.blockingDelay ids i + b.transferDelay i
        + b.interDelay ids i x + faults * b.retranDelay ids i} r) ∧
    ((b.msg i).deadline < r + (b.msg i).jitter →
      ∀ x, b.transferDelay i ≤ x → x = b.blockingDelay ids i + b.transferDelay i
        + b.interDelay ids i x + faults * b.retranDelay ids i →
        (b.msg i).deadline < x + (b.msg i).jitter) := by
  obtain ⟨h1, h2, h3⟩ := wcttLoop_spec h i faults fuel _ (le_step h i faults le_rfl) r hr
  constructor
  · intro hd
    have hfix : r = b.step ids i faults r := by
      rcases h3 with h3 | h3
      · exact h3
      · exact absurd hd (not_le.2 h3)
    exact ⟨⟨h1, hfix⟩, fun x hx => h2 x hx.1 hx.2.symm.le⟩
  · intro hd x hx hfix
    have := h2 x hx hfix.symm.le
    linarith

/-- Number of interfering frames. -/
def totalFrames (b : Bus n) (ids : Fin n → ℤ) (i : Fin n) (t : ℚ) : ℤ :=
  ∑ k, if ids k < ids i then frames b i k t else 0

theorem totalFrames_mono (h : b.Sane) (i : Fin n) {s t : ℚ} (hst : s ≤ t) :
    totalFrames b ids i s ≤ totalFrames b ids i t := by
  apply sum_le_sum
  intro k _
  split_ifs
  · exact frames_mono h i k hst
  · exact le_rfl

theorem step_eq_of_frames (h : b.Sane) (i : Fin n) (f : ℕ) {s t : ℚ} (hst : s ≤ t)
    (heq : totalFrames b ids i s = totalFrames b ids i t) :
    b.step ids i f s = b.step ids i f t := by
  have hle : ∀ k ∈ (univ : Finset (Fin n)), (if ids k < ids i then frames b i k s else 0)
      ≤ (if ids k < ids i then frames b i k t else 0) := by
    intro k _
    split_ifs
    · exact frames_mono h i k hst
    · exact le_rfl
  have hall := (sum_eq_sum_iff_of_le hle).1 heq
  have : b.interDelay ids i s = b.interDelay ids i t := by
    unfold Bus.interDelay
    apply sum_congr rfl
    intro k hk
    have hk := hall k hk
    by_cases hid : ids k < ids i
    · rw [if_pos hid, if_pos hid] at hk
      rw [if_pos hid, if_pos hid]
      unfold frames at hk
      rw [hk]
    · rw [if_neg hid, if_neg hid]
  unfold Bus.step
  rw [this]

theorem wcttLoop_ends (h : b.Sane) (i : Fin n) (f k : ℕ) :
    ∀ old, old ≤ b.step ids i f old →
      totalFrames b ids i ((b.msg i).deadline - (b.msg i).jitter) - totalFrames b ids i old ≤ k →
      ∃ r, b.wcttLoop ids i f (k + 2) old = some r := by
  induction k with
  | zero =>
    intro old hold hk
    unfold Bus.wcttLoop
    simp only
    by_cases h1 : b.step ids i f old = old
    · rw [if_pos h1]; exact ⟨_, rfl⟩
    rw [if_neg h1]
    by_cases h2 : b.step ids i f old + (b.msg i).jitter > (b.msg i).deadline
    · rw [if_pos h2]; exact ⟨_, rfl⟩
    rw [if_neg h2]
    have h3 := totalFrames_mono (ids := ids) h i
      (by linarith : b.step ids i f old ≤ (b.msg i).deadline - (b.msg i).jitter)
    have h4 := totalFrames_mono (ids := ids) h i hold
    have h5 := step_eq_of_frames h i f hold (ids := ids) (by push_cast at hk; omega)
    unfold Bus.wcttLoop
    simp only
    rw [if_pos h5.symm]
    exact ⟨_, rfl⟩
  | succ k ih =>
    intro old hold hk
    unfold Bus.wcttLoop
    simp only
    by_cases h1 : b.step ids i f old = old
    · rw [if_pos h1]; exact ⟨_, rfl⟩
    rw [if_neg h1]
    by_cases h2 : b.step ids i f old + (b.msg i).jitter > (b.msg i).deadline
    · rw [if_pos h2]; exact ⟨_, rfl⟩
    rw [if_neg h2]
    have h4 := totalFrames_mono (ids := ids) h i hold
    by_cases h6 : totalFrames b ids i old = totalFrames b ids i (b.step ids i f old)
    · have h5 := step_eq_of_frames h i f hold (ids := ids) h6
      unfold Bus.wcttLoop
      simp only
      rw [if_pos h5.symm]
      exact ⟨_, rfl⟩
    · exact ih _ (step_mono h i f hold) (by push_cast at hk; omega)

theorem wcttLoop_fuel {i : Fin n} {f fuel fuel' : ℕ} {old r : ℚ} (hf : fuel ≤ fuel')
    (hr : b.wcttLoop ids i f fuel old = some r) : b.wcttLoop ids i f fuel' old = some r := by
  induction fuel generalizing fuel' old with
  | zero => simp [Bus.wcttLoop] at hr
  | succ fuel ih =>
    obtain ⟨m, rfl⟩ : ∃ m, fuel' = m + 1 := ⟨fuel' - 1, by omega⟩
    unfold Bus.wcttLoop at hr ⊢
    simp only at hr ⊢
    by_cases h1 : b.step ids i f old = old
    · rw [if_pos h1] at hr ⊢; exact hr
    rw [if_neg h1] at hr ⊢
    by_cases h2 : b.step ids i f old + (b.msg i).jitter > (b.msg i).deadline
    · rw [if_pos h2] at hr ⊢; exact hr
    rw [if_neg h2] at hr ⊢
    exact ih (by omega) hr

/-- **C44**, termination: `get_wctt` ends for every message, number of faults and
priority assignment, also on an overloaded bus. -/
theorem C44_terminates (h : b.Sane) (ids : Fin n → ℤ) (i : Fin n) (faults : ℕ) :
    ∃ N r, ∀ fuel ≥ N, b.wctt ids fuel i faults = some r := by
  obtain ⟨r, hr⟩ := wcttLoop_ends (ids := ids) h i faults
    (totalFrames b ids i ((b.msg i).deadline - (b.msg i).jitter)
      - totalFrames b ids i (b.transferDelay i)).toNat _ (le_step h i faults le_rfl)
    (Int.self_le_toNat _)
  exact ⟨_, r, fun fuel hf => wcttLoop_fuel hf hr⟩

/-- **C44**, monotonicity: if a number of faults is tolerated, then any smaller number
is, with a response time that is not larger. -/
theorem C44_monotone (h : b.Sane) (i : Fin n) {f f' : ℕ} (hf : f ≤ f') {fuel fuel' : ℕ} {r r' : ℚ}
    (hr : b.wctt ids fuel i f = some r) (hr' : b.wctt ids fuel' i f' = some r')
    (hok : r' + (b.msg i).jitter ≤ (b.msg i).deadline) : r ≤ r' := by
  obtain ⟨_, h2, _⟩ := wcttLoop_spec h i f fuel _ (le_step h i f le_rfl) r hr
  have hl := (C44_wctt h i f' fuel' r' hr').1 hok
  apply h2 _ hl.1.1
  have h3 : b.step ids i f r' ≤ b.step ids i f' r' := by
    unfold Bus.step
    have : (f : ℚ) * b.retranDelay ids i ≤ f' * b.retranDelay ids i :=
      mul_le_mul_of_nonneg_right (by exact_mod_cast hf) (retranDelay_nonneg h i)
    linarith
  exact h3.trans hl.1.2.symm.le

/-! ### Memoisation -/

theorem foldlM_memo (get : ℕ → Option ℚ) (c : ℕ) : ∀ (vec v : List ℚ),
    (List.range' vec.length c).foldlM (fun v i => (get i).map (fun w => v ++ [w])) vec = some v →
    v.length = vec.length + c ∧ vec <+: v ∧
      ∀ i (hi : i < v.length), vec.length ≤ i → get i = some v[i] := by
  induction c with
  | zero =>
    intro vec v h
    simp at h
    subst h
    exact ⟨by simp, List.prefix_rfl, fun i hi hle => by omega⟩
  | succ c ih =>
    intro vec v h
    rw [List.range'_succ, List.foldlM_cons] at h
    cases hg : get vec.length with
    | none => rw [hg] at h; simp at h
    | some w =>
      rw [hg] at h
      simp only [Option.map_some, Option.bind_eq_bind, Option.bind_some] at h
      have hlen : (vec ++ [w]).length = vec.length + 1 := by simp
      rw [← hlen] at h
      obtain ⟨h1, h2, h3⟩ := ih _ _ h
      refine ⟨by rw [h1, hlen]; omega, (List.prefix_append _ _).trans h2, fun i hi hle => ?_⟩
      rcases Nat.lt_or_ge vec.length i with hlt | hge
      · exact h3 i hi (by rw [hlen]; omega)
      · have : i = vec.length := by omega
        subst this
        rw [hg]
        obtain ⟨t, rfl⟩ := h2
        simp

/-- **C44**, memoisation: if the memo of a message only holds values of `get_wctt`, then
`get_wctt_fast` returns the value of `get_wctt`, and the new memo again only holds
values of `get_wctt`. -/
theorem C44_memo (get : ℕ → Option ℚ) (vec : List ℚ)
    (hinv : ∀ i (hi : i < vec.length), get i = some vec[i]) (faults : ℕ) (w : ℚ) (vec' : List ℚ)
    (h : wcttFast get vec faults = some (w, vec')) :
    get faults = some w ∧ ∀ i (hi : i < vec'.length), get i = some vec'[i] := by
  unfold wcttFast at h
  by_cases hf : faults < vec.length
  · rw [dif_pos hf] at h
    simp only [Option.some.injEq, Prod.mk.injEq] at h
    obtain ⟨rfl, rfl⟩ := h
    exact ⟨hinv _ hf, hinv⟩
  · rw [dif_neg hf, Option.bind_eq_some_iff] at h
    obtain ⟨v, hv, h⟩ := h
    rw [Option.map_eq_some_iff] at h
    obtain ⟨w', hw', h⟩ := h
    simp only [Prod.mk.injEq] at h
    obtain ⟨rfl, rfl⟩ := h
    obtain ⟨h1, h2, h3⟩ := foldlM_memo get _ _ _ hv
    obtain ⟨hlt, hget⟩ := List.getElem?_eq_some_iff.1 hw'
    have hall : ∀ i (hi : i < v.length), get i = some v[i] := by
      intro i hi
      rcases Nat.lt_or_ge i vec.length with hlti | hge
      · obtain ⟨t, rfl⟩ := h2
        rw [hinv i hlti]
        simp [List.getElem_append_left hlti]
      · exact h3 i hi hge
    refine ⟨?_, hall⟩
    rw [hall _ hlt, hget]

theorem foldlM_memo_some (get : ℕ → Option ℚ) (htot : ∀ f, ∃ w, get f = some w) (l : List ℕ)
    (vec : List ℚ) :
    ∃ v, l.foldlM (fun v i => (get i).map (fun w => v ++ [w])) vec = some v := by
  induction l generalizing vec with
  | nil => exact ⟨vec, rfl⟩
  | cons a l ih =>
    obtain ⟨w, hw⟩ := htot a
    obtain ⟨v, hv⟩ := ih (vec ++ [w])
    exact ⟨v, by rw [List.foldlM_cons, hw]; exact hv⟩

/-- **C44**, memoisation: any sequence of calls of `get_wctt_fast` after a `reset`
returns what `get_wctt` returns, in every order of the numbers of faults. -/
theorem C44_memo_history (get : ℕ → Option ℚ) (htot : ∀ f, ∃ w, get f = some w)
    (queries : List ℕ) :
    ∃ ws vec, queries.foldlM (fun (s : List ℚ × List ℚ) f =>
        (wcttFast get s.2 f).map (fun r => (s.1 ++ [r.1], r.2))) ([], []) = some (ws, vec) ∧
      ws.map some = queries.map get := by
  suffices h : ∀ (queries : List ℕ) (acc vec : List ℚ),
      (∀ i (hi : i < vec.length), get i = some vec[i]) →
      ∃ ws vec', queries.foldlM (fun (s : List ℚ × List ℚ) f =>
        (wcttFast get s.2 f).map (fun r => (s.1 ++ [r.1], r.2))) (acc, vec) = some (acc ++ ws, vec') ∧
      ws.map some = queries.map get by
    obtain ⟨ws, vec, h1, h2⟩ := h queries [] [] (by simp)
    exact ⟨ws, vec, by simpa using h1, h2⟩
  intro queries
  induction queries with
  | nil => intro acc vec _; exact ⟨[], vec, by simp, rfl⟩
  | cons f queries ih =>
    intro acc vec hinv
    have hsome : ∃ w vec', wcttFast get vec f = some (w, vec') := by
      unfold wcttFast
      by_cases hf : f < vec.length
      · rw [dif_pos hf]; exact ⟨_, _, rfl⟩
      · rw [dif_neg hf]
        obtain ⟨v, hv⟩ := foldlM_memo_some get htot (List.range' vec.length (f + 1 - vec.length)) vec
        obtain ⟨h1, _, _⟩ := foldlM_memo get _ _ _ hv
        rw [hv]
        simp only [Option.bind_some]
        have hlt : f < v.length := by omega
        rw [List.getElem?_eq_getElem hlt]
        exact ⟨_, _, rfl⟩
    obtain ⟨w, vec', hw⟩ := hsome
    obtain ⟨h1, h2⟩ := C44_memo get vec hinv f w vec' hw
    obtain ⟨ws, vec'', h3, h4⟩ := ih (acc ++ [w]) vec' h2
    refine ⟨w :: ws, vec'', ?_, by simp [h1, h4]⟩
    rw [List.foldlM_cons, hw]
    simpa using h3

/-- Three messages of 8, 8 and 1 bytes. -/
def exampleBus : Bus 3 where
  msg := ![⟨8, 400, 400, 0⟩, ⟨8, 800, 700, 5⟩, ⟨1, 1000, 900, 0⟩]
  tau := 1
  interFrameSpace := 3
  maxErrorFrameSize := 31

/-- Non-vacuity: sensible attributes, a response time within the deadline with several
interfering frames, and one beyond the deadline. -/
example : exampleBus.Sane := by
  refine ⟨?_, ?_, ?_, ?_, ?_⟩ <;> decide +kernel
example : exampleBus.wctt ![1, 2, 3] 10 2 1 = some 633 ∧
    exampleBus.wctt ![1, 2, 3] 10 2 3 = some 959 ∧ exampleBus.wctt ![1, 2, 3] 10 1 0 = some 332 := by
  decide +kernel

/-- C44 is violated by `get_max_wcrt`: `add_replicas` resets the memos of the messages
but not the largest response time, so after replicas are added the value returned is not
that of the message set. -/
theorem C44_max_wcrt_violated :
    ¬ ∀ (fuel : ℕ) (s s' s'' : CanSet) (i : Fin s'.n) (r r' : ℚ),
      s.maxWcrt = none → s.getMaxWcrt fuel = some (some (r, s')) →
      (s'.addReplicas i 1).getMaxWcrt fuel = some (some (r', s'')) →
      (s'.addReplicas i 1).computeMaxWcrt fuel = some (some r') := by
  intro h
  have := h 10 ⟨1, ⟨![⟨8, 1000, 1000, 0⟩], 1, 3, 31⟩, ![1], none⟩
    ⟨1, ⟨![⟨8, 1000, 1000, 0⟩], 1, 3, 31⟩, ![1], some 135⟩
    _ 0 135 135 rfl (by
      unfold CanSet.getMaxWcrt
      have : CanSet.computeMaxWcrt 10 ⟨1, ⟨![⟨8, 1000, 1000, 0⟩], 1, 3, 31⟩, ![1], none⟩
        = some (some 135) := by decide +kernel
      simp only [this]
      rfl) rfl
  revert this
  decide +kernel

/-- `get_max_wcrt` is right on a set that has no stored value, and the stored value is
returned by later calls. -/
theorem C44_max_wcrt_partial (fuel : ℕ) (s s' : CanSet) (r : ℚ) (hs : s.maxWcrt = none)
    (h : s.getMaxWcrt fuel = some (some (r, s'))) :
    s.computeMaxWcrt fuel = some (some r) ∧ s'.getMaxWcrt fuel = some (some (r, s')) := by
  unfold CanSet.getMaxWcrt at h
  rw [hs] at h
  simp only at h
  rw [Option.map_eq_some_iff] at h
  obtain ⟨o, ho, h⟩ := h
  rw [Option.map_eq_some_iff] at h
  obtain ⟨x, rfl, h⟩ := h
  simp only [Prod.mk.injEq] at h
  obtain ⟨rfl, rfl⟩ := h
  exact ⟨ho, rfl⟩

end Verif.Can
