/-
Quantum-based overhead accounting (C29, C30).
-/
import Verif.Model.Quanta
import Mathlib.Tactic.Linarith
import Mathlib.Tactic.FieldSimp
import Mathlib.Tactic.Ring
import Mathlib.Tactic.NormNum

namespace Verif.Oh

/-! ### Specification -/

/-- `x` is an integral multiple of the quantum `q`. -/
def MultipleOf (q x : ℚ) : Prop := ∃ k : ℤ, x = k * q

/-- The largest multiple of `q` that does not exceed `x`. -/
def IsRoundedDown (q x y : ℚ) : Prop := MultipleOf q y ∧ y ≤ x ∧ x < y + q

/-- `c'` is the time of the least number of quanta of length `q` that provide `c`
units of service if each provides `e`. -/
def IsQuantizedCost (q e c c' : ℚ) : Prop :=
  ∃ k : ℤ, c' = k * q ∧ c ≤ k * e ∧ (k - 1) * e < c

/-- Density below one, with a denominator other than zero. -/
def LightTask (t : QTask) : Prop :=
  min t.period.val t.deadline.val ≠ 0 ∧ t.cost / min t.period.val t.deadline.val < 1

/-! ### Lemmas -/

theorem density_lt {t : QTask} {d : ℚ} (h : t.density = some d) (hd : d < 1) : LightTask t := by
  unfold QTask.density at h
  simp only at h
  by_cases h0 : min t.period.val t.deadline.val = 0
  · rw [if_pos h0] at h; exact absurd h (by simp)
  · rw [if_neg h0] at h
    simp only [Option.some.injEq] at h
    exact ⟨h0, by rw [h]; exact hd⟩

theorem sweep_accepted {f : QTask → Option QTask} {ts ts' : List QTask}
    (h : sweep f ts = .accepted ts') :
    List.Forall₂ (fun t t' => f t = some t' ∧ LightTask t') ts ts' := by
  induction ts generalizing ts' with
  | nil => simp only [sweep, Outcome.accepted.injEq] at h; subst h; exact .nil
  | cons t ts ih =>
    unfold sweep at h
    cases hf : f t with
    | none => rw [hf] at h; exact absurd h (by simp)
    | some t' =>
      rw [hf] at h
      simp only at h
      cases hd : t'.density with
      | none => rw [hd] at h; exact absurd h (by simp)
      | some d =>
        rw [hd] at h
        simp only at h
        by_cases h1 : d ≥ 1
        · rw [if_pos h1] at h; exact absurd h (by simp)
        · rw [if_neg h1] at h
          cases hs : sweep f ts with
          | raised => rw [hs] at h; exact absurd h (by simp)
          | rejected => rw [hs] at h; exact absurd h (by simp)
          | accepted us =>
            rw [hs] at h
            simp only [Outcome.accepted.injEq] at h
            subst h
            exact .cons ⟨hf, density_lt hd (not_le.mp h1)⟩ (ih hs)

/-- Conversely, light results are accepted. -/
theorem sweep_of_forall {f : QTask → Option QTask} {ts ts' : List QTask}
    (h : List.Forall₂ (fun t t' => f t = some t' ∧ LightTask t') ts ts') :
    sweep f ts = .accepted ts' := by
  induction h with
  | nil => rfl
  | cons hab _ ih =>
    obtain ⟨hf, h0, h1⟩ := hab
    unfold sweep
    rw [hf]
    simp only [QTask.density, if_neg h0, ih]
    rw [if_neg (not_le.mpr h1)]

theorem quantizeCost_spec {q e c : ℚ} (he : 0 < e) :
    IsQuantizedCost q e c ((⌈c / e⌉ : ℤ) * q) := by
  refine ⟨⌈c / e⌉, rfl, ?_, ?_⟩
  · have := Int.le_ceil (c / e)
    rwa [div_le_iff₀ he] at this
  · have := Int.ceil_lt_add_one (c / e)
    have : ((⌈c / e⌉ : ℤ) : ℚ) - 1 < c / e := by linarith
    rwa [lt_div_iff₀ he] at this

/-- A cost quantized with an effective quantum of at most the quantum length is
not below the original. -/
theorem IsQuantizedCost.le {q e c c' : ℚ} (h : IsQuantizedCost q e c c') (he : 0 < e)
    (heq : e ≤ q) (hc : 0 ≤ c) : c ≤ c' := by
  obtain ⟨k, rfl, h1, h2⟩ := h
  have hk : (0 : ℚ) ≤ k := by
    by_contra hk
    push Not at hk
    have := mul_neg_of_neg_of_pos hk he
    linarith
  have := mul_le_mul_of_nonneg_left heq hk
  linarith

/-- The value of a rounded parameter: unchanged in the case that the code takes
for a multiple, otherwise rounded down. -/
theorem roundParam_spec {qlen v v' : PyNum} (hq : 0 < qlen.val)
    (h : roundParam qlen v = some v') :
    (v' = v ∧ ∃ q z : ℤ, qlen = .int q ∧ v = .int z ∧ q % z = 0) ∨
      IsRoundedDown qlen.val v.val v'.val := by
  unfold roundParam at h
  cases hm : isQuantumMultiple v qlen with
  | none => rw [hm] at h; exact absurd h (by simp)
  | some b =>
    rw [hm] at h
    cases b with
    | true =>
      simp only [Option.some.injEq] at h
      left
      refine ⟨h.symm, ?_⟩
      unfold isQuantumMultiple at hm
      split at hm
      · rename_i a b
        by_cases h0 : b = 0
        · rw [if_pos h0] at hm; exact absurd hm (by simp)
        · rw [if_neg h0] at hm
          simp only [Option.some.injEq, decide_eq_true_eq] at hm
          exact ⟨a, b, rfl, rfl, hm⟩
      · by_cases h0 : v.val = 0
        · rw [if_pos h0] at hm; exact absurd hm (by simp)
        · rw [if_neg h0] at hm; exact absurd hm (by simp)
    | false =>
      right
      simp only at h
      rw [if_neg hq.ne'] at h
      simp only [Option.some.injEq] at h
      have hv : v'.val = (⌊v.val / qlen.val⌋ : ℤ) * qlen.val := by
        rw [← h]
        cases qlen <;> simp [PyNum.nmul, PyNum.val]
      refine ⟨⟨_, hv⟩, ?_, ?_⟩
      · rw [hv]
        have := Int.floor_le (v.val / qlen.val)
        rwa [le_div_iff₀ hq] at this
      · rw [hv]
        have := Int.lt_floor_add_one (v.val / qlen.val)
        rw [div_lt_iff₀ hq] at this
        linarith

/-- The parameters that `quantize_period` overlooks: `int`s that properly divide an
`int` quantum. -/
def Overlooked (qlen v : PyNum) : Prop :=
  ∃ q z : ℤ, qlen = .int q ∧ v = .int z ∧ z ∣ q ∧ z ≠ q ∧ z ≠ -q

theorem roundParam_rounded {qlen v v' : PyNum} (hq : 0 < qlen.val) (ho : ¬ Overlooked qlen v)
    (h : roundParam qlen v = some v') : IsRoundedDown qlen.val v.val v'.val := by
  rcases roundParam_spec hq h with ⟨rfl, q, z, rfl, rfl, hd⟩ | h
  · have : z = q ∨ z = -q := by
      by_contra hc
      push Not at hc
      exact ho ⟨q, z, rfl, rfl, Int.dvd_of_emod_eq_zero hd, hc.1, hc.2⟩
    simp only [PyNum.val] at hq ⊢
    rcases this with rfl | rfl
    · exact ⟨⟨1, by ring⟩, le_refl _, by linarith⟩
    · exact ⟨⟨-1, by push_cast; ring⟩, le_refl _, by linarith⟩
  · exact h

/-! ### C29 -/

/-- `quantize_wcet` replaces each cost by the least sufficient number of quanta,
leaves all else alone, and the resulting densities are below one. -/
theorem C29_wcet {qlen eff : ℚ} {ts ts' : List QTask}
    (h : quantizeWcet qlen ts eff = .accepted ts') :
    List.Forall₂ (fun t t' =>
      t'.period = t.period ∧ t'.deadline = t.deadline ∧
      IsQuantizedCost qlen eff t.cost t'.cost ∧ MultipleOf qlen t'.cost ∧
      (eff ≤ qlen → 0 ≤ t.cost → t.cost ≤ t'.cost) ∧ LightTask t') ts ts' := by
  unfold quantizeWcet at h
  by_cases he : eff > 0
  · rw [if_neg (not_not.mpr he)] at h
    by_cases hq : qlen > 0
    · rw [if_neg (not_not.mpr hq)] at h
      refine (sweep_accepted h).imp ?_
      rintro t t' ⟨hf, hl⟩
      simp only [Option.some.injEq] at hf
      subst hf
      have hs := quantizeCost_spec (q := qlen) (c := t.cost) he
      exact ⟨rfl, rfl, hs, ⟨_, rfl⟩, fun h1 h2 => hs.le he h1 h2, hl⟩
    · rw [if_pos hq] at h; exact absurd h (by simp)
  · rw [if_pos he] at h; exact absurd h (by simp)

/-- A successful run that rounds a cost up. -/
example : quantizeWcet 1000 [⟨2500, .int 10000, .int 10000⟩, ⟨1, .int 2000, .int 1500⟩] 900
    = .accepted [⟨3000, .int 10000, .int 10000⟩, ⟨1000, .int 2000, .int 1500⟩] := by
  decide +kernel

/-- C29 fails for `quantize_period`: the test for multiples has its arguments
swapped, so a period of half a quantum stays as it is. -/
theorem C29_violated : ∃ ts', quantizePeriod (.int 1000) [⟨100, .int 500, .int 500⟩] true
      = .accepted ts' ∧ ∃ t ∈ ts', ¬ MultipleOf 1000 t.period.val ∧
        ¬ MultipleOf 1000 t.deadline.val := by
  have hn : ¬ MultipleOf 1000 (PyNum.int 500).val := by
    rintro ⟨k, hk⟩
    simp only [PyNum.val] at hk
    have : (500 : ℤ) = k * 1000 := by exact_mod_cast hk
    omega
  exact ⟨[⟨100, .int 500, .int 500⟩], by decide +kernel, _, List.mem_singleton_self _, hn, hn⟩

/-- Part of C29 for `quantize_period`: parameters are never increased (if
positive), and they are rounded down to a multiple unless they are integers
that properly divide the quantum.  Missing: that excluded case, which the code
gets wrong (`C29_violated`). -/
theorem C29_period_partial {qlen : PyNum} {ts ts' : List QTask} {dl : Bool}
    (hq : 0 < qlen.val) (h : quantizePeriod qlen ts dl = .accepted ts') :
    List.Forall₂ (fun t t' =>
      t'.cost = t.cost ∧ LightTask t' ∧ t'.period.val ≤ t.period.val ∧
      t'.deadline.val ≤ t.deadline.val ∧
      (¬ Overlooked qlen t.period → IsRoundedDown qlen.val t.period.val t'.period.val) ∧
      (dl = false → t'.deadline = t.deadline) ∧
      (dl = true → ¬ Overlooked qlen t.deadline →
        IsRoundedDown qlen.val t.deadline.val t'.deadline.val)) ts ts' := by
  have hle : ∀ {v v' : PyNum}, roundParam qlen v = some v' → v'.val ≤ v.val := by
    intro v v' hv
    rcases roundParam_spec hq hv with ⟨rfl, _⟩ | h
    · exact le_refl _
    · exact h.2.1
  unfold quantizePeriod at h
  refine (sweep_accepted h).imp ?_
  rintro t t' ⟨hf, hl⟩
  unfold quantizeParams1 at hf
  cases hp : roundParam qlen t.period with
  | none => rw [hp] at hf; exact absurd hf (by simp)
  | some p =>
    rw [hp] at hf
    simp only at hf
    cases dl with
    | false =>
      simp only [Bool.false_eq_true, if_false, Option.some.injEq] at hf
      subst hf
      exact ⟨rfl, hl, hle hp, le_refl _, fun ho => roundParam_rounded hq ho hp,
        fun _ => rfl, fun h => absurd h (by simp)⟩
    | true =>
      simp only [if_true] at hf
      cases hd : roundParam qlen t.deadline with
      | none => rw [hd] at hf; exact absurd hf (by simp)
      | some d =>
        rw [hd] at hf
        simp only [Option.some.injEq] at hf
        subst hf
        exact ⟨rfl, hl, hle hp, hle hd, fun ho => roundParam_rounded hq ho hp,
          fun h => absurd h (by simp), fun _ ho => roundParam_rounded hq ho hd⟩

/-- A successful run that rounds a period and a deadline down. -/
example : quantizePeriod (.int 1000) [⟨100, .int 2500, .float 1999⟩] true
    = .accepted [⟨100, .int 2000, .int 1000⟩] := by
  decide +kernel

/-! ### C30 -/

/-- The delay due to staggered quanta on `m` processors, `(m - 1)/m` of a quantum. -/
def staggerDelay (m : ℕ) (qlen : ℚ) : ℚ := ((m : ℚ) - 1) / m * qlen

/-- The release delay that the documentation describes: a quantum plus the latency
and cost of release interrupts for sporadic releases, and the staggering delay. -/
def documentedDelay (o : PfairOheads) (m : ℕ) (staggered aligned : Bool) : ℚ :=
  (if aligned then 0 else o.quantum.val + o.releaseLatency.val + o.release.val) +
  (if staggered then staggerDelay m o.quantum.val else 0)

theorem PyNum.val_int (z : ℤ) : (PyNum.int z).val = z := rfl

theorem PyNum.val_float (q : ℚ) : (PyNum.float q).val = q := rfl

theorem PyNum.val_add (a b : PyNum) : (a.add b).val = a.val + b.val := by
  cases a <;> cases b <;> simp [PyNum.add, PyNum.val]

theorem PyNum.val_sub (a b : PyNum) : (a.sub b).val = a.val - b.val := by
  cases a <;> cases b <;> simp [PyNum.sub, PyNum.val]

theorem delayed_spec {delay : PyNum} {ts ts' : List QTask}
    (h : accountForDelayedRelease delay ts = .accepted ts') :
    List.Forall₂ (fun t t' => t'.cost = t.cost ∧ t'.period = t.period.sub delay ∧
      t'.deadline = t.deadline.sub delay ∧ LightTask t') ts ts' := by
  refine (sweep_accepted h).imp ?_
  rintro t t' ⟨hf, hl⟩
  simp only [Option.some.injEq] at hf
  subst hf
  exact ⟨rfl, rfl, rfl, hl⟩

/-- Stand-alone staggering (`account_for_staggering`) subtracts exactly `(m-1)/m` of a
quantum from period and deadline and keeps the density below one. -/
theorem C30_account_for_staggering {qlen : ℚ} {m : ℕ} {ts ts' : List QTask}
    (h : accountForStaggering qlen m ts = .accepted ts') :
    List.Forall₂ (fun t t' => t'.cost = t.cost ∧
      t'.period.val = t.period.val - staggerDelay m qlen ∧
      t'.deadline.val = t.deadline.val - staggerDelay m qlen ∧ LightTask t') ts ts' := by
  unfold accountForStaggering staggerLatency at h
  by_cases hm : (m : ℚ) = 0
  · rw [if_pos hm] at h; exact absurd h (by simp)
  · rw [if_neg hm] at h
    refine (delayed_spec h).imp ?_
    rintro t t' ⟨h1, h2, h3, h4⟩
    refine ⟨h1, ?_, ?_, h4⟩
    · rw [h2, PyNum.val_sub]; rfl
    · rw [h3, PyNum.val_sub]; rfl

example : accountForStaggering 1000 4 [⟨1000, .int 5000, .int 5000⟩]
    = .accepted [⟨1000, .float 4250, .float 4250⟩] := by
  decide +kernel

/-- The release delay that PFair accounting subtracts in staggered mode:
`stagger_latency` is called with its arguments swapped, so the surplus is
`(qlen - 1) / qlen * m`. -/
theorem releaseDelay_val {o : PfairOheads} {m : ℕ} {st al : Bool} {total : Option ℕ}
    {d : PyNum} (h : o.releaseDelay m st total al = some d) :
    d.val = (if al then 0 else o.quantum.val + o.releaseLatency.val + o.release.val) +
      (if st then (o.quantum.val - 1) / o.quantum.val * (total.getD m : ℕ) else 0) := by
  unfold PfairOheads.releaseDelay staggerLatency at h
  simp only at h
  cases st with
  | false =>
    simp only [Bool.false_eq_true, if_false, Option.some.injEq] at h
    subst h
    cases al <;> simp [PyNum.val_add, PyNum.val_int]
  | true =>
    simp only [if_true] at h
    by_cases hq : o.quantum.val = 0
    · rw [if_pos hq] at h; exact absurd h (by simp)
    · rw [if_neg hq] at h
      simp only [Option.some.injEq] at h
      subst h
      rw [PyNum.val_add]
      cases al <;> simp [PyNum.val_add, PyNum.val_int, PyNum.val_float]

/-- What an accepted PFair task set looks like for a given release delay. -/
def PfairResult (o : PfairOheads) (qeff delay : ℚ) (t t' : QTask) : Prop :=
  IsQuantizedCost o.quantum.val qeff t.cost t'.cost ∧ LightTask t' ∧
  t'.period.val ≤ t.period.val - delay ∧ t'.deadline.val ≤ t.deadline.val - delay ∧
  t.period.val - delay < t'.period.val + o.quantum.val ∧
  t.deadline.val - delay < t'.deadline.val + o.quantum.val

theorem roundParam_lt {qlen v v' : PyNum} (hq : 0 < qlen.val)
    (h : roundParam qlen v = some v') : v.val < v'.val + qlen.val := by
  rcases roundParam_spec hq h with ⟨rfl, _⟩ | h
  · linarith
  · exact h.2.2

/-- Composition of relations along lists. -/
theorem forall₂_trans {α β γ : Type} {R : α → β → Prop} {S : β → γ → Prop}
    {l : List α} {m : List β} {n : List γ} (h₁ : List.Forall₂ R l m)
    (h₂ : List.Forall₂ S m n) : List.Forall₂ (fun a c => ∃ b, R a b ∧ S b c) l n := by
  induction h₁ generalizing n with
  | nil => cases h₂; exact .nil
  | cons h _ ih => cases h₂ with
    | cons h' t' => exact .cons ⟨_, h, h'⟩ (ih t')

/-- Every element of the second list is related to one of the first. -/
theorem forall₂_left {α β : Type} {R : α → β → Prop} {l : List α} {m : List β}
    (h : List.Forall₂ R l m) : ∀ b ∈ m, ∃ a ∈ l, R a b := by
  induction h with
  | nil => simp
  | cons hab _ ih =>
    intro b hb
    rcases List.mem_cons.mp hb with rfl | hb
    · exact ⟨_, List.mem_cons_self, hab⟩
    · obtain ⟨a, ha, hr⟩ := ih b hb
      exact ⟨a, List.mem_cons_of_mem _ ha, hr⟩

theorem quantizePeriod_true_spec {qlen : PyNum} {ts ts' : List QTask} (hq : 0 < qlen.val)
    (h : quantizePeriod qlen ts true = .accepted ts') :
    List.Forall₂ (fun t t' => t'.cost = t.cost ∧ LightTask t' ∧
      t'.period.val ≤ t.period.val ∧ t'.deadline.val ≤ t.deadline.val ∧
      t.period.val < t'.period.val + qlen.val ∧
      t.deadline.val < t'.deadline.val + qlen.val) ts ts' := by
  have hle : ∀ {v v' : PyNum}, roundParam qlen v = some v' → v'.val ≤ v.val := by
    intro v v' hv
    rcases roundParam_spec hq hv with ⟨rfl, _⟩ | h
    · exact le_refl _
    · exact h.2.1
  unfold quantizePeriod at h
  refine (sweep_accepted h).imp ?_
  rintro t t' ⟨hf, hl⟩
  unfold quantizeParams1 at hf
  cases hp : roundParam qlen t.period with
  | none => rw [hp] at hf; exact absurd hf (by simp)
  | some p =>
    rw [hp] at hf
    simp only [if_true] at hf
    cases hd : roundParam qlen t.deadline with
    | none => rw [hd] at hf; exact absurd hf (by simp)
    | some d =>
      rw [hd] at hf
      simp only [Option.some.injEq] at hf
      subst hf
      exact ⟨rfl, hl, hle hp, hle hd, roundParam_lt hq hp, roundParam_lt hq hd⟩

/-- What PFair accounting does if it accepts. -/
theorem pfair_accepted {o : PfairOheads} {m : ℕ} {irq st al : Bool} {total : Option ℕ}
    {ts ts' : List QTask} (hne : ts ≠ [])
    (h : pfairCharge o m irq ts st total al = .accepted ts') :
    0 < o.qeff irq ts.length ∧ ∃ d, o.releaseDelay m st total al = some d ∧
      List.Forall₂ (PfairResult o (o.qeff irq ts.length) d.val) ts ts' := by
  unfold pfairCharge at h
  rw [if_neg hne] at h
  simp only at h
  by_cases hq : o.qeff irq ts.length ≤ 0
  · rw [if_pos hq] at h; exact absurd h (by simp)
  · rw [if_neg hq] at h
    refine ⟨not_le.mp hq, ?_⟩
    cases h1 : quantizeWcet o.quantum.val ts (o.qeff irq ts.length) with
    | raised => rw [h1] at h; exact absurd h (by simp)
    | rejected => rw [h1] at h; exact absurd h (by simp)
    | accepted ts₁ =>
      rw [h1] at h
      simp only at h
      have hqp : 0 < o.quantum.val := by
        unfold quantizeWcet at h1
        rw [if_neg (not_not.mpr (not_le.mp hq))] at h1
        by_contra hc
        rw [if_pos hc] at h1
        exact absurd h1 (by simp)
      cases hd : o.releaseDelay m st total al with
      | none => rw [hd] at h; exact absurd h (by simp)
      | some d =>
        rw [hd] at h
        simp only at h
        refine ⟨d, rfl, ?_⟩
        cases h2 : accountForDelayedRelease d ts₁ with
        | raised => rw [h2] at h; exact absurd h (by simp)
        | rejected => rw [h2] at h; exact absurd h (by simp)
        | accepted ts₂ =>
          rw [h2] at h
          simp only at h
          refine (forall₂_trans (C29_wcet h1) (forall₂_trans (delayed_spec h2)
            (quantizePeriod_true_spec hqp h))).imp ?_
          rintro a c ⟨b, ⟨b1, b2, b3, -, -, -⟩, b', ⟨c1, c2, c3, -⟩, e1, e2, e3, e4, e5, e6⟩
          refine ⟨by rw [e1, c1]; exact b3, e2, ?_, ?_, ?_, ?_⟩
          · rw [c2, PyNum.val_sub, b1] at e3; exact e3
          · rw [c3, PyNum.val_sub, b2] at e4; exact e4
          · rw [c2, PyNum.val_sub, b1] at e5; exact e5
          · rw [c3, PyNum.val_sub, b2] at e6; exact e6

/-- Part of C30: without staggering, an accepted task set has costs quantized with
the effective quantum, the documented release delay subtracted, and density
below one.  Missing: staggered mode, which the code gets wrong (`C30_violated`). -/
theorem C30_unstaggered_partial {o : PfairOheads} {m : ℕ} {irq al : Bool} {total : Option ℕ}
    {ts ts' : List QTask} (hne : ts ≠ [])
    (h : pfairCharge o m irq ts false total al = .accepted ts') :
    List.Forall₂ (PfairResult o (o.qeff irq ts.length) (documentedDelay o m false al))
      ts ts' := by
  obtain ⟨_, d, hd, hr⟩ := pfair_accepted hne h
  have := releaseDelay_val hd
  simp only [Bool.false_eq_true, if_false] at this
  unfold documentedDelay
  simp only [Bool.false_eq_true, if_false]
  rw [← this]
  exact hr

/-- An overhead object without overheads and a quantum of 1000. -/
def noOheads : PfairOheads := ⟨.int 1000, .int 0, .int 0, 0, 0, 0, 0⟩

example : pfairCharge noOheads 4 false [⟨2500, .int 10000, .int 9500⟩]
    = .accepted [⟨3000, .int 9000, .int 8000⟩] := by
  decide +kernel

/-- C30 fails: with four staggered processors and a quantum of 1000 the delay to be
subtracted is 1750, but an accepted task keeps a deadline above what that delay
leaves, even though deadlines are rounded down. -/
theorem C30_violated : ∃ ts', pfairCharge noOheads 4 false [⟨1000, .int 9500, .int 9500⟩] true
      = .accepted ts' ∧ ∃ t ∈ ts',
        9500 - documentedDelay noOheads 4 true false < t.deadline.val := by
  refine ⟨[⟨1000, .int 8000, .int 8000⟩], by decide +kernel, _, List.mem_singleton_self _, ?_⟩
  unfold documentedDelay staggerDelay noOheads PyNum.val
  norm_num

/-- In staggered mode the delay that is subtracted is too small whenever there are
at least two processors and the quantum is longer than the number of processors
(in the time unit used). -/
theorem C30_too_small {o : PfairOheads} {m : ℕ} {al : Bool} {d : PyNum}
    (hm : 2 ≤ m) (hq : (m : ℚ) < o.quantum.val)
    (h : o.releaseDelay m true none al = some d) : d.val < documentedDelay o m true al := by
  have := releaseDelay_val h
  rw [this]
  unfold documentedDelay staggerDelay
  simp only [if_true, Option.getD_none]
  have hm' : (2 : ℚ) ≤ m := by exact_mod_cast hm
  have hm0 : (m : ℚ) ≠ 0 := by intro h0; rw [h0] at hm'; norm_num at hm'
  have hq0 : 0 < o.quantum.val := by linarith
  have key : (o.quantum.val - 1) / o.quantum.val * (m : ℚ)
      < ((m : ℚ) - 1) / m * o.quantum.val := by
    have hnum : 0 < (m - 1 : ℚ) * o.quantum.val * o.quantum.val
        - (o.quantum.val - 1) * m * m := by
      nlinarith [mul_pos (sub_pos.mpr hq) (by linarith : (0 : ℚ) < o.quantum.val),
        mul_nonneg (sub_nonneg.mpr hm') (sub_pos.mpr hq).le]
    have e2 : ((m : ℚ) - 1) / m * o.quantum.val - (o.quantum.val - 1) / o.quantum.val * m
        = ((m - 1 : ℚ) * o.quantum.val * o.quantum.val - (o.quantum.val - 1) * m * m)
          / (m * o.quantum.val) := by
      field_simp
    have : 0 < ((m - 1 : ℚ) * o.quantum.val * o.quantum.val - (o.quantum.val - 1) * m * m)
          / (m * o.quantum.val) := by
      apply div_pos hnum
      have : (0 : ℚ) < m := by linarith
      positivity
    linarith
  linarith

/-! ### C59 (PFair part) -/

/-- Positive period and deadline, and the cost fits. -/
def FeasibleTask (t : QTask) : Prop :=
  0 < t.period.val ∧ 0 < t.deadline.val ∧ t.cost ≤ min t.period.val t.deadline.val

/-- C59 fails for PFair accounting: the release delay may exceed the period, the
density is then negative and passes the check. -/
theorem C59_pfair_violated : ∃ ts', pfairCharge ⟨.int 1000, .int 400, .int 200, 0, 0, 0, 0⟩ 1
      false [⟨10, .int 1500, .int 1500⟩] = .accepted ts' ∧
      ∃ t ∈ ts', t.period.val < 0 ∧ t.deadline.val < 0 := by
  refine ⟨[⟨1000, .int (-100), .int (-100)⟩], by decide +kernel, _,
    List.mem_singleton_self _, ?_⟩
  simp only [PyNum.val_int]
  norm_num

/-- Part of C59 for PFair accounting.  Missing: tasks whose period or deadline does
not exceed the release delay (`C59_pfair_violated`). -/
theorem C59_pfair_partial {o : PfairOheads} {m : ℕ} {irq st al : Bool} {total : Option ℕ}
    {ts ts' : List QTask} {d : PyNum} (hd : o.releaseDelay m st total al = some d)
    (hlong : ∀ t ∈ ts, d.val < min t.period.val t.deadline.val)
    (h : pfairCharge o m irq ts st total al = .accepted ts') :
    ∀ t ∈ ts', FeasibleTask t := by
  by_cases hne : ts = []
  · subst hne
    simp only [pfairCharge, if_true, Outcome.accepted.injEq] at h
    subst h
    simp
  · unfold pfairCharge at h
    rw [if_neg hne] at h
    simp only at h
    by_cases hq : o.qeff irq ts.length ≤ 0
    · rw [if_pos hq] at h; exact absurd h (by simp)
    rw [if_neg hq] at h
    cases h1 : quantizeWcet o.quantum.val ts (o.qeff irq ts.length) with
    | raised => rw [h1] at h; exact absurd h (by simp)
    | rejected => rw [h1] at h; exact absurd h (by simp)
    | accepted ts₁ =>
      rw [h1] at h
      simp only at h
      have hqp : 0 < o.quantum.val := by
        unfold quantizeWcet at h1
        rw [if_neg (not_not.mpr (not_le.mp hq))] at h1
        by_contra hc
        rw [if_pos hc] at h1
        exact absurd h1 (by simp)
      rw [hd] at h
      simp only at h
      cases h2 : accountForDelayedRelease d ts₁ with
      | raised => rw [h2] at h; exact absurd h (by simp)
      | rejected => rw [h2] at h; exact absurd h (by simp)
      | accepted ts₂ =>
        rw [h2] at h
        simp only at h
        have hnn : ∀ {v v' : PyNum}, 0 < v.val → roundParam o.quantum v = some v' →
            0 ≤ v'.val := by
          intro v v' hv hr
          rcases roundParam_spec hqp hr with ⟨rfl, _⟩ | ⟨⟨k, hk⟩, _, h3⟩
          · exact hv.le
          · rw [hk] at h3 ⊢
            have : (0 : ℚ) < (k + 1) * o.quantum.val := by linarith
            have hk1 : (0 : ℚ) < (k : ℚ) + 1 := pos_of_mul_pos_left this hqp.le
            have : (0 : ℤ) < k + 1 := by exact_mod_cast hk1
            have : (0 : ℚ) ≤ k := by exact_mod_cast (by omega : (0 : ℤ) ≤ k)
            positivity
        have hall := forall₂_trans (C29_wcet h1) (forall₂_trans (delayed_spec h2)
          (sweep_accepted h))
        have : ∀ t' ∈ ts', ∃ t ∈ ts, ∃ t₁ : QTask, (t₁.period = t.period ∧ t₁.deadline = t.deadline) ∧
            ∃ t₂ : QTask, (t₂.period = t₁.period.sub d ∧ t₂.deadline = t₁.deadline.sub d) ∧
              quantizeParams1 o.quantum true t₂ = some t' ∧ LightTask t' := by
          intro t' ht'
          obtain ⟨t, ht, t₁, ⟨a1, a2, -⟩, t₂, ⟨-, b1, b2, -⟩, c⟩ := forall₂_left hall t' ht'
          exact ⟨t, ht, t₁, ⟨a1, a2⟩, t₂, ⟨b1, b2⟩, c⟩
        intro t' ht'
        obtain ⟨t, ht, t₁, ⟨a1, a2⟩, t₂, ⟨b1, b2⟩, c1, c2⟩ := this t' ht'
        have hl := hlong t ht
        rw [lt_min_iff] at hl
        have hp2 : 0 < t₂.period.val := by rw [b1, PyNum.val_sub, a1]; linarith [hl.1]
        have hd2 : 0 < t₂.deadline.val := by rw [b2, PyNum.val_sub, a2]; linarith [hl.2]
        unfold quantizeParams1 at c1
        cases hp : roundParam o.quantum t₂.period with
        | none => rw [hp] at c1; exact absurd c1 (by simp)
        | some p =>
          rw [hp] at c1
          simp only [if_true] at c1
          cases hdd : roundParam o.quantum t₂.deadline with
          | none => rw [hdd] at c1; exact absurd c1 (by simp)
          | some dd =>
            rw [hdd] at c1
            simp only [Option.some.injEq] at c1
            subst c1
            have hp0 := hnn hp2 hp
            have hd0 := hnn hd2 hdd
            obtain ⟨hne0, hlt⟩ := c2
            simp only at hne0 hlt
            have hmin : 0 < min p.val dd.val :=
              lt_of_le_of_ne (le_min hp0 hd0) (Ne.symm hne0)
            refine ⟨lt_of_lt_of_le hmin (min_le_left _ _),
              lt_of_lt_of_le hmin (min_le_right _ _), ?_⟩
            rw [div_lt_one hmin] at hlt
            exact hlt.le

example : noOheads.releaseDelay 4 false none false = some (.int 1000) ∧
    pfairCharge noOheads 4 false [⟨2500, .int 10000, .int 9500⟩]
      = .accepted [⟨3000, .int 9000, .int 8000⟩] := by
  decide +kernel

end Verif.Oh
