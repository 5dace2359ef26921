/-
Properties C11-C14 of `schedcat/sched/fp/rta.py`.
-/
import Verif.Model.FpRta
import Verif.Lemmas.FixedPriority
import Mathlib.Algebra.Order.Floor.Ring
import Mathlib.Algebra.BigOperators.Fin
import Mathlib.Algebra.Order.BigOperators.Group.List
import Mathlib.Tactic.FieldSimp
import Mathlib.Tactic.Positivity
import Mathlib.Tactic.FinCases

namespace Verif.Fp
open Spec Finset

/-! ### The iteration -/

section Loop
variable {own : ℚ} {hp : List (FpTask × ℚ)} {hpJ : FpTask × ℚ → ℚ}

/-- Higher-priority tasks with sensible parameters. -/
def Good (hp : List (FpTask × ℚ)) (hpJ : FpTask × ℚ → ℚ) : Prop :=
  ∀ t ∈ hp, 0 < t.1.period ∧ 0 ≤ t.1.cost ∧ 0 ≤ hpJ t

theorem list_sum_le {α : Type} (l : List α) (f g : α → ℚ) (h : ∀ x ∈ l, f x ≤ g x) :
    (l.map f).sum ≤ (l.map g).sum := by
  induction l with
  | nil => simp
  | cons a as ih =>
    simp only [List.map_cons, List.sum_cons]
    exact add_le_add (h a (by simp)) (ih (fun x hx => h x (by simp [hx])))

theorem demandAt_mono (hg : Good hp hpJ) {x y : ℚ} (h : x ≤ y) :
    demandAt own hp hpJ x ≤ demandAt own hp hpJ y := by
  unfold demandAt
  have : (hp.map (fun t => t.1.cost * (⌈(x + hpJ t) / t.1.period⌉ : ℤ))).sum ≤
      (hp.map (fun t => t.1.cost * (⌈(y + hpJ t) / t.1.period⌉ : ℤ))).sum := by
    apply list_sum_le
    intro t ht
    obtain ⟨h1, h2, _⟩ := hg t ht
    apply mul_le_mul_of_nonneg_left _ h2
    exact_mod_cast Int.ceil_le_ceil (div_le_div_of_nonneg_right (by linarith) h1.le)
  linarith

/-- The start of the iteration. -/
def startAt (own : ℚ) (hp : List (FpTask × ℚ)) : ℚ := (hp.map (fun t => t.1.cost)).sum + own

theorem sum_cost_le (hg : Good hp hpJ) {x : ℚ} (hx : 0 < x) : startAt own hp ≤ demandAt own hp hpJ x := by
  unfold startAt demandAt
  have : (hp.map (fun t => t.1.cost)).sum
      ≤ (hp.map (fun t => t.1.cost * (⌈(x + hpJ t) / t.1.period⌉ : ℤ))).sum := by
    apply list_sum_le
    intro t ht
    obtain ⟨h1, h2, h3⟩ := hg t ht
    have : (1 : ℤ) ≤ ⌈(x + hpJ t) / t.1.period⌉ := Int.one_le_ceil_iff.2 (div_pos (by linarith) h1)
    have : (1 : ℚ) ≤ (⌈(x + hpJ t) / t.1.period⌉ : ℤ) := by exact_mod_cast this
    nlinarith
  linarith

theorem start_nonneg (hown : 0 ≤ own) (hg : Good hp hpJ) : 0 ≤ startAt own hp := by
  unfold startAt
  have : 0 ≤ (hp.map (fun t => t.1.cost)).sum :=
    List.sum_nonneg (by intro x hx; obtain ⟨t, ht, rfl⟩ := List.mem_map.1 hx; exact (hg t ht).2.1)
  linarith

theorem start_le_demandAt (hown : 0 ≤ own) (hg : Good hp hpJ) :
    startAt own hp ≤ demandAt own hp hpJ (startAt own hp) := by
  rcases (start_nonneg hown hg).lt_or_eq with h | h
  · exact sum_cost_le hg h
  · rw [← h]
    unfold demandAt
    have : 0 ≤ (hp.map (fun t => t.1.cost * (⌈(0 + hpJ t) / t.1.period⌉ : ℤ))).sum := by
      apply List.sum_nonneg
      intro x hx
      obtain ⟨t, ht, rfl⟩ := List.mem_map.1 hx
      obtain ⟨h1, h2, h3⟩ := hg t ht
      apply mul_nonneg h2
      have : (0 : ℤ) ≤ ⌈(0 + hpJ t) / t.1.period⌉ := Int.ceil_nonneg (div_nonneg (by linarith) h1.le)
      exact_mod_cast this
    linarith

theorem rtaLoop_succ (D own : ℚ) (hp : List (FpTask × ℚ)) (hpJ : FpTask × ℚ → ℚ) (fuel : ℕ) (d : ℚ) :
    rtaLoop D own hp hpJ (fuel + 1) d = if d ≤ D then
      (if demandAt own hp hpJ d = d then some (some d)
        else rtaLoop D own hp hpJ fuel (demandAt own hp hpJ d)) else some none := rfl

/-- Partial correctness: a result is the least fixed point, a failure means there
is no fixed point within the deadline. -/
theorem rtaLoop_spec (hg : Good hp hpJ) (D : ℚ) (fuel : ℕ) :
    ∀ delta, delta ≤ demandAt own hp hpJ delta →
    ∀ r, rtaLoop D own hp hpJ fuel delta = some r →
      (∀ x, r = some x → delta ≤ x ∧ x ≤ D ∧ demandAt own hp hpJ x = x) ∧
      (∀ y, delta ≤ y → demandAt own hp hpJ y ≤ y → y ≤ D → ∃ x, r = some x ∧ x ≤ y) := by
  induction fuel with
  | zero => intro d _ r h; simp [rtaLoop] at h
  | succ fuel ih =>
    intro d hd r h
    rw [rtaLoop_succ] at h
    split_ifs at h with h1 h2
    · rw [Option.some.injEq] at h
      subst h
      refine ⟨fun x hx => ?_, fun y hy _ _ => ⟨d, rfl, hy⟩⟩
      rw [Option.some.injEq] at hx
      subst hx
      exact ⟨le_rfl, h1, h2⟩
    · obtain ⟨i1, i2⟩ := ih _ (demandAt_mono hg hd) r h
      refine ⟨fun x hx => ?_, fun y hy hfy hyD => ?_⟩
      · obtain ⟨j1, j2, j3⟩ := i1 x hx
        exact ⟨hd.trans j1, j2, j3⟩
      · exact i2 y ((demandAt_mono hg hy).trans hfy) hfy hyD
    · rw [Option.some.injEq] at h
      subst h
      refine ⟨fun x hx => by simp at hx, fun y hy _ hyD => ?_⟩
      exact absurd (hy.trans hyD) h1

/-- Number of higher-priority jobs counted at `x`. -/
def jobCount (hp : List (FpTask × ℚ)) (hpJ : FpTask × ℚ → ℚ) (x : ℚ) : ℤ :=
  (hp.map (fun t => ⌈(x + hpJ t) / t.1.period⌉)).sum

theorem jobCount_mono (hg : Good hp hpJ) {x y : ℚ} (h : x ≤ y) : jobCount hp hpJ x ≤ jobCount hp hpJ y := by
  unfold jobCount
  induction hp with
  | nil => simp
  | cons t ts ih =>
    simp only [List.map_cons, List.sum_cons]
    obtain ⟨h1, _, _⟩ := hg t (by simp)
    exact add_le_add (Int.ceil_le_ceil (div_le_div_of_nonneg_right (by linarith) h1.le))
      (ih (fun s hs => hg s (by simp [hs])))

theorem demandAt_congr (hg : Good hp hpJ) {x y : ℚ} (h : x ≤ y)
    (he : jobCount hp hpJ x = jobCount hp hpJ y) : demandAt own hp hpJ x = demandAt own hp hpJ y := by
  unfold demandAt
  congr 1
  unfold jobCount at he
  induction hp with
  | nil => rfl
  | cons t ts ih =>
    simp only [List.map_cons, List.sum_cons] at he ⊢
    obtain ⟨h1, _, _⟩ := hg t (by simp)
    have hg' : Good ts hpJ := fun s hs => hg s (by simp [hs])
    have e1 : ⌈(x + hpJ t) / t.1.period⌉ ≤ ⌈(y + hpJ t) / t.1.period⌉ :=
      Int.ceil_le_ceil (div_le_div_of_nonneg_right (by linarith) h1.le)
    have e2 := jobCount_mono hg' h
    unfold jobCount at e2
    have e3 : ⌈(x + hpJ t) / t.1.period⌉ = ⌈(y + hpJ t) / t.1.period⌉ := by omega
    rw [e3, ih hg' (by omega)]

theorem rtaLoop_terminates (hg : Good hp hpJ) (D : ℚ) (fuel : ℕ) :
    ∀ delta, delta ≤ demandAt own hp hpJ delta →
    jobCount hp hpJ D - jobCount hp hpJ delta + 2 ≤ fuel → 1 ≤ fuel →
    ∃ r, rtaLoop D own hp hpJ fuel delta = some r := by
  induction fuel with
  | zero => intro d _ _ h; omega
  | succ fuel ih =>
    intro d hd hf _
    rw [rtaLoop_succ]
    split_ifs with h1 h2
    · exact ⟨_, rfl⟩
    · have hlt : d ≤ demandAt own hp hpJ d := hd
      have hmono := jobCount_mono hg hlt
      have hfuel : 1 ≤ fuel := by
        have := jobCount_mono hg h1; omega
      rcases eq_or_lt_of_le hmono with he | hlt'
      · have := demandAt_congr (own := own) hg hlt he
        obtain ⟨f, rfl⟩ : ∃ f, fuel = f + 1 := ⟨fuel - 1, by omega⟩
        rw [rtaLoop_succ, ← this]
        rw [if_pos rfl]
        split_ifs with h3
        · exact ⟨_, rfl⟩
        · exact ⟨_, rfl⟩
      · exact ih _ (demandAt_mono hg hd) (by omega) hfuel
    · exact ⟨_, rfl⟩

theorem rtaLoop_mono_fuel {D : ℚ} {fuel : ℕ} : ∀ {d r}, rtaLoop D own hp hpJ fuel d = some r →
    ∀ {fuel'}, fuel ≤ fuel' → rtaLoop D own hp hpJ fuel' d = some r := by
  induction fuel with
  | zero => intro d r h; simp [rtaLoop] at h
  | succ fuel ih =>
    intro d r h fuel' hf
    obtain ⟨f', rfl⟩ : ∃ f', fuel' = f' + 1 := ⟨fuel' - 1, by omega⟩
    rw [rtaLoop_succ] at h ⊢
    split_ifs at h ⊢ with h1 h2
    · exact h
    · exact ih h (by omega)
    · exact h

end Loop

/-- **C12**, termination: the iteration of a task ends. -/
theorem C12_terminates (t : FpTask) (own : ℚ) (hp : List (FpTask × ℚ)) (hpJ : FpTask × ℚ → ℚ)
    (hown : 0 ≤ own) (hg : ∀ s ∈ hp, 0 < s.1.period ∧ 0 ≤ s.1.cost ∧ 0 ≤ hpJ s) :
    ∃ N r, ∀ fuel ≥ N, rtaTask fuel t own hp hpJ = some r := by
  have hg' : Good hp hpJ := hg
  set N := (jobCount hp hpJ t.deadline - jobCount hp hpJ (startAt own hp) + 2).toNat + 1 with hN
  obtain ⟨r, hr⟩ := rtaLoop_terminates hg' t.deadline N (startAt own hp) (start_le_demandAt hown hg')
    (by omega) (by omega)
  refine ⟨N, r.map (fun d => d + t.jitter), fun fuel hf => ?_⟩
  unfold rtaTask
  have := rtaLoop_mono_fuel hr hf
  unfold startAt at this
  rw [this]; rfl

/-- **C12**, exactness: if the iteration succeeds, the response time minus the
jitter is the smallest positive solution of the response-time equation, and it is
within the deadline; if it fails, no solution is within the deadline.  (The
tasks have positive own demand.) -/
theorem C12_least_fixpoint (fuel : ℕ) (t : FpTask) (own : ℚ) (hp : List (FpTask × ℚ))
    (hpJ : FpTask × ℚ → ℚ) (hown : 0 < own)
    (hg : ∀ s ∈ hp, 0 < s.1.period ∧ 0 ≤ s.1.cost ∧ 0 ≤ hpJ s) (r : Option ℚ)
    (h : rtaTask fuel t own hp hpJ = some r) :
    let solves := fun delta : ℚ => 0 < delta ∧
      own + (hp.map (fun s => s.1.cost * (⌈(delta + hpJ s) / s.1.period⌉ : ℤ))).sum = delta
    (∀ R, r = some R → solves (R - t.jitter) ∧ R - t.jitter ≤ t.deadline ∧ own ≤ R - t.jitter ∧
        ∀ delta, solves delta → R - t.jitter ≤ delta) ∧
    (r = none → ∀ delta, solves delta → t.deadline < delta) := by
  have hg' : Good hp hpJ := hg
  unfold rtaTask at h
  rw [Option.map_eq_some_iff] at h
  obtain ⟨a, ha, hr⟩ := h
  obtain ⟨s1, s2⟩ := rtaLoop_spec hg' t.deadline fuel _ (start_le_demandAt hown.le hg') a ha
  have hpos : ∀ y, 0 < y → demandAt own hp hpJ y = y → startAt own hp ≤ y := by
    intro y hy he
    have := sum_cost_le (own := own) hg' hy
    rwa [he] at this
  have hcs : own ≤ startAt own hp := by
    unfold startAt
    have : 0 ≤ (hp.map (fun t => t.1.cost)).sum :=
      List.sum_nonneg (by intro x hx; obtain ⟨t, ht, rfl⟩ := List.mem_map.1 hx; exact (hg t ht).2.1)
    linarith
  refine ⟨fun R hR => ?_, fun hnone delta hd => ?_⟩
  · subst hR
    rw [Option.map_eq_some_iff] at hr
    obtain ⟨x, hx, rfl⟩ := hr
    obtain ⟨x1, x2, x3⟩ := s1 x hx
    rw [add_sub_cancel_right]
    refine ⟨⟨by linarith, x3⟩, x2, by linarith, fun delta hd => ?_⟩
    by_cases hdD : delta ≤ t.deadline
    · obtain ⟨x', hx', hle⟩ := s2 delta (hpos delta hd.1 hd.2) hd.2.le hdD
      rw [hx, Option.some.injEq] at hx'
      rw [hx']; exact hle
    · linarith
  · by_contra hc
    obtain ⟨x', hx', _⟩ := s2 delta (hpos delta hd.1 hd.2) hd.2.le (not_lt.1 hc)
    rw [hx'] at hr
    simp only [Option.map_some] at hr
    rw [hnone] at hr
    simp at hr

/-- Non-vacuity of C12: a task with two higher-priority tasks. -/
example : rtaTask 10 { cost := 3, period := 20, deadline := 20 } 3
    [({ cost := 1, period := 4, deadline := 4 }, 1), ({ cost := 2, period := 6, deadline := 6 }, 3)]
    getJitter = some (some 10) := by decide +kernel

/-! ### The analysis of a task set -/

theorem boundLoop_spec {rta : FpTask → List (FpTask × ℚ) → Option (Option ℚ)} (ts : List FpTask) :
    ∀ (done res : List (FpTask × ℚ)), boundLoop rta done ts = some (true, res) →
      res.take done.length = done ∧ res.map Prod.fst = done.map Prod.fst ++ ts ∧
      ∀ k (hk : k < res.length), done.length ≤ k →
        rta res[k].1 (res.take k) = some (some res[k].2) := by
  induction ts with
  | nil =>
    intro done res h
    simp only [boundLoop, Option.some.injEq, Prod.mk.injEq, true_and] at h
    subst h
    exact ⟨List.take_length, by simp, fun k hk hle => by omega⟩
  | cons t ts ih =>
    intro done res h
    rw [boundLoop] at h
    split at h
    · simp at h
    · simp at h
    · rename_i r hr
      obtain ⟨h1, h2, h3⟩ := ih _ _ h
      have hlen : res.length = done.length + 1 + ts.length := by
        have := congrArg List.length h2; simp at this; omega
      have htake : res.take done.length = done := by
        have := congrArg (List.take done.length) h1
        rw [List.take_take] at this
        simpa using this
      refine ⟨htake, by rw [h2]; simp, fun k hk hle => ?_⟩
      rcases Nat.lt_or_ge done.length k with hlt | hge
      · exact h3 k hk (by simpa using hlt)
      · have : k = done.length := by omega
        subst this
        have hget : res[done.length] = (t, r) := by
          have h4 : (res.take (done ++ [(t, r)]).length)[done.length]'(by simp; omega) = (t, r) := by
            simp only [h1]
            simp
          rw [List.getElem_take] at h4
          exact h4
        rw [hget, htake]
        exact hr

/-- The attributes of the tasks are the given natural-number parameters.  If the
task set uses the legacy attribute `blocked`, that attribute covers both the
priority inversion and the self-suspension. -/
structure Matches (ts : List FpTask) (p : FpParams ts.length) : Prop where
  cost : ∀ i, (ts.get i).cost = p.C i
  period : ∀ i, (ts.get i).period = p.T i
  jitter : ∀ i, (ts.get i).jitter = p.J i
  suspended : ∀ i, (ts.get i).suspended = p.S i
  inversion : (∀ i, (ts.get i).blocked = none) → ∀ i, (ts.get i).prioInversion = p.B i
  legacy : (∃ j b, (ts.get j).blocked = some b) → ∀ i, ∃ bl : ℕ,
    ((ts.get i).blocked = some (bl : ℚ) ∨ (ts.get i).blocked = none ∧ bl = 0) ∧
    p.B i + p.S i ≤ bl

theorem ceil_eq_cdiv (a : ℕ) {b : ℕ} (hb : 0 < b) : ⌈((a : ℚ)) / (b : ℚ)⌉ = (cdiv a b : ℤ) := by
  have hbq : (0 : ℚ) < b := by exact_mod_cast hb
  apply le_antisymm
  · rw [Int.ceil_le, div_le_iff₀ hbq]
    push_cast
    exact_mod_cast le_cdiv_mul a hb
  · have h0 : (0 : ℤ) ≤ ⌈((a : ℚ)) / (b : ℚ)⌉ := Int.ceil_nonneg (by positivity)
    obtain ⟨c, hc⟩ := Int.eq_ofNat_of_zero_le h0
    have h1 := Int.le_ceil (((a : ℚ)) / (b : ℚ))
    rw [hc] at h1 ⊢
    rw [div_le_iff₀ hbq] at h1
    have h2 : a ≤ c * b := by exact_mod_cast h1
    have := (cdiv_le_iff hb).2 h2
    exact_mod_cast this

/-- Own demand in the chosen analysis. -/
theorem chooseRta_eq (ts : List FpTask) (p : FpParams ts.length) (hm : Matches ts p) :
    ∃ own : Fin ts.length → ℕ, (∀ i, p.B i + p.C i + p.S i ≤ own i) ∧
      ∃ hpJ : FpTask × ℚ → ℚ, ((∀ i, p.S i = 0) ∧ hpJ = getJitter ∨ hpJ = suspensionJitter) ∧
      ∀ fuel i hp, chooseRta ts fuel (ts.get i) hp = rtaTask fuel (ts.get i) (own i) hp hpJ := by
  have hS : hasSelfSuspensions ts = false → ∀ i, p.S i = 0 := by
    intro h i
    have h1 : ∀ t ∈ ts, t.suspended = 0 := by
      intro t ht
      have := List.any_eq_false.1 h t ht
      simpa using this
    have := h1 _ (List.get_mem ts i)
    rw [hm.suspended i] at this
    exact_mod_cast this
  by_cases hl : usesLegacyBlockedField ts = true
  · have hl' : ∃ j b, (ts.get j).blocked = some b := by
      obtain ⟨t, ht, hb⟩ := List.any_eq_true.1 hl
      obtain ⟨j, rfl⟩ := List.get_of_mem ht
      obtain ⟨b, hb⟩ := Option.isSome_iff_exists.1 hb
      exact ⟨j, b, hb⟩
    choose bl hbl0 hbl2 using hm.legacy hl'
    have hbl1 : ∀ i, (ts.get i).getBlocked = bl i := by
      intro i
      unfold FpTask.getBlocked
      rcases hbl0 i with h | ⟨h, h0⟩
      · rw [h]; rfl
      · rw [h, h0]; rfl
    refine ⟨fun i => bl i + p.C i, fun i => by have := hbl2 i; simp only; omega, ?_⟩
    by_cases hs : hasSelfSuspensions ts = true
    · refine ⟨suspensionJitter, Or.inr rfl, fun fuel i hp => ?_⟩
      unfold chooseRta legacyRtaSuspensionAware
      simp only [hl, hs, Bool.and_self, if_true]
      rw [hbl1 i, hm.cost i]; push_cast; rfl
    · simp only [Bool.not_eq_true] at hs
      refine ⟨getJitter, Or.inl ⟨hS hs, rfl⟩, fun fuel i hp => ?_⟩
      unfold chooseRta legacyRtaJitterAware
      simp only [hl, hs, Bool.and_false, if_true, Bool.false_eq_true, if_false]
      rw [hbl1 i, hm.cost i]; push_cast; rfl
  · simp only [Bool.not_eq_true] at hl
    have hinv := hm.inversion (fun i => by
      have := List.any_eq_false.1 hl _ (List.get_mem ts i)
      simpa using this)
    by_cases hs : hasSelfSuspensions ts = true
    · refine ⟨fun i => p.B i + p.C i + p.S i, fun i => le_rfl, suspensionJitter, Or.inr rfl,
        fun fuel i hp => ?_⟩
      unfold chooseRta rtaSuspensionAware
      simp only [hl, hs, Bool.false_and, if_true, Bool.false_eq_true, if_false]
      rw [hinv i, hm.cost i, hm.suspended i]; push_cast; rfl
    · simp only [Bool.not_eq_true] at hs
      refine ⟨fun i => p.B i + p.C i, fun i => by have := hS hs i; simp only; omega, getJitter,
        Or.inl ⟨hS hs, rfl⟩, fun fuel i hp => ?_⟩
      unfold chooseRta rtaJitterAware
      simp only [hl, hs, Bool.and_false, Bool.false_eq_true, if_false]
      rw [hinv i, hm.cost i]; push_cast; rfl

/-- The accepted analysis as natural-number inequalities: `W i` is the fixed point
of task `i`. -/
theorem accepted_bounds {fuel : ℕ} {ts : List FpTask} {p : FpParams ts.length} (hm : Matches ts p)
    (hT : ∀ i, 0 < p.T i) {done : List (FpTask × ℚ)}
    (h : boundResponseTimes fuel 1 ts = some (true, done)) :
    ∃ W : Fin ts.length → ℕ,
      done = List.ofFn (fun i => (ts.get i, (W i : ℚ) + p.J i)) ∧
      ∀ k, (W k : ℚ) ≤ (ts.get k).deadline ∧ W k ≤ p.T k ∧ p.B k + (p.C k + p.S k) +
        ∑ i ∈ univ.filter (· < k),
          cdiv (W k + (if p.S i = 0 then p.J i else W i + p.J i - p.C i)) (p.T i) * p.C i ≤ W k := by
  unfold boundResponseTimes at h
  split_ifs at h with hpre
  · simp at h
  simp only [decide_true, Bool.true_and, Bool.not_eq_true', Bool.not_eq_false] at hpre
  obtain ⟨own, hown, hpJ, hpJc, hrta⟩ := chooseRta_eq ts p hm
  obtain ⟨_, hfst, hloop⟩ := boundLoop_spec ts [] done h
  simp only [List.map_nil, List.nil_append] at hfst
  have hlen : done.length = ts.length := by
    have := congrArg List.length hfst; simpa using this
  have hgetfst : ∀ k (hk : k < done.length), done[k].1 = ts.get ⟨k, by omega⟩ := by
    intro k hk
    have h1 : (done.map Prod.fst)[k]'(by simpa using hk) = done[k].1 := by simp
    rw [← h1]
    simp only [hfst]
    rfl
  -- sums over the prefix
  have hsum : ∀ (k : ℕ) (hk : k ≤ ts.length) (f : FpTask × ℚ → ℚ), ((done.take k).map f).sum
      = ∑ i : Fin ts.length with i.val < k, f (done[i.val]'(by omega)) := by
    intro k hk f
    have e : done = List.ofFn (fun i : Fin ts.length => done[i.val]'(by omega)) := by
      apply List.ext_getElem
      · simp [hlen]
      · intro i h1 h2; simp
    conv_lhs => rw [e, List.map_take, List.map_ofFn]
    rw [List.sum_take_ofFn]
    rfl
  -- every fixed point, by induction
  have key : ∀ k (hk : k < ts.length), ∃ W : ℕ, done[k]'(by omega) = (ts.get ⟨k, hk⟩, (W : ℚ) + p.J ⟨k, hk⟩) ∧
      (W : ℚ) ≤ (ts.get ⟨k, hk⟩).deadline ∧ own ⟨k, hk⟩ ≤ W ∧
      demandAt (own ⟨k, hk⟩) (done.take k) hpJ W = W := by
    intro k
    induction k using Nat.strong_induction_on with
    | _ k ih =>
      intro hk
      have hr := hloop k (by omega) (by simp)
      rw [hgetfst k (by omega), hrta] at hr
      unfold rtaTask at hr
      rw [Option.map_eq_some_iff] at hr
      obtain ⟨a, ha, hr⟩ := hr
      rw [Option.map_eq_some_iff] at hr
      obtain ⟨x, rfl, hr⟩ := hr
      have hg : Good (done.take k) hpJ := by
        intro s hs
        obtain ⟨i, hi, rfl⟩ := List.mem_take_iff_getElem.1 hs
        have hik : i < k := by omega
        obtain ⟨Wi, hWi, _, hWi2, _⟩ := ih i hik (by omega)
        rw [hWi]
        refine ⟨?_, ?_, ?_⟩
        · simp only; rw [hm.period]; exact_mod_cast hT _
        · simp only; rw [hm.cost]; positivity
        · rcases hpJc with ⟨_, rfl⟩ | rfl
          · unfold getJitter; simp only; rw [hm.jitter]; positivity
          · unfold suspensionJitter
            simp only
            split_ifs
            · rw [hm.cost]
              have h1 := hown ⟨i, by omega⟩
              have h2 : (p.C ⟨i, by omega⟩ : ℚ) ≤ Wi := by exact_mod_cast (by omega : p.C ⟨i, by omega⟩ ≤ Wi)
              have h3 : (0 : ℚ) ≤ p.J ⟨i, by omega⟩ := by positivity
              linarith
            · rw [hm.jitter]; positivity
      have hown0 : (0 : ℚ) ≤ (own ⟨k, hk⟩ : ℚ) := by positivity
      obtain ⟨s1, _⟩ := rtaLoop_spec hg _ fuel _ (start_le_demandAt hown0 hg) _ ha
      obtain ⟨x1, x2, x3⟩ := s1 x rfl
      -- integrality
      have hint : ∃ z : ℤ, x = z := by
        rw [← x3]
        unfold demandAt
        rw [hsum k (by omega)]
        have : ∀ i : Fin ts.length, ∃ c : ℕ, (done[i.val]'(by omega)).1.cost = c := by
          intro i
          refine ⟨p.C i, ?_⟩
          rw [hgetfst i.val (by omega)]
          exact hm.cost i
        choose c hc using this
        refine ⟨(own ⟨k, hk⟩ : ℤ) + ∑ i : Fin ts.length with i.val < k, (c i : ℤ) *
          ⌈(x + hpJ (done[i.val]'(by omega))) / (done[i.val]'(by omega)).1.period⌉, ?_⟩
        push_cast
        congr 1
        apply sum_congr rfl
        intro i _
        rw [hc i]
      obtain ⟨z, hz⟩ := hint
      have hownx : ((own ⟨k, hk⟩ : ℕ) : ℚ) ≤ x := by
        refine le_trans ?_ x1
        have hn : 0 ≤ (List.map (fun t => t.1.cost) (List.take k done)).sum := by
          apply List.sum_nonneg
          intro y hy
          obtain ⟨t, ht, rfl⟩ := List.mem_map.1 hy
          exact (hg t ht).2.1
        unfold startAt
        linarith
      have hz0 : 0 ≤ z := by
        have : (0 : ℚ) ≤ z := by rw [← hz]; linarith
        exact_mod_cast this
      obtain ⟨W, rfl⟩ := Int.eq_ofNat_of_zero_le hz0
      have hz' : x = (W : ℚ) := by rw [hz]; simp
      refine ⟨W, ?_, ?_, ?_, ?_⟩
      · have h1 := hgetfst k (by omega)
        apply Prod.ext
        · exact h1
        · simp only
          rw [← hr, hz', hm.jitter]
      · rw [← hz']; exact x2
      · rw [hz'] at hownx; exact_mod_cast hownx
      · rw [← hz']; exact x3
  choose W hW using key
  refine ⟨fun i => W i.val i.isLt, ?_, ?_⟩
  · apply List.ext_getElem
    · simp [hlen]
    · intro i h1 h2
      simp only [List.getElem_ofFn]
      exact (hW i (by omega)).1
  · intro k
    obtain ⟨w1, w2, w3, w4⟩ := hW k.val k.isLt
    refine ⟨w2, ?_, ?_⟩
    · have h1 : (ts.get k).deadline ≤ (ts.get k).period := by
        have := List.all_eq_true.1 hpre _ (List.get_mem ts k)
        simpa using this
      rw [hm.period] at h1
      exact_mod_cast w2.trans h1
    · have hown' := hown k
      have hNat : own k + ∑ i ∈ univ.filter (· < k),
          cdiv (W k.val k.isLt + (if p.S i = 0 then p.J i else W i.val i.isLt + p.J i - p.C i)) (p.T i) * p.C i
          = W k.val k.isLt := by
        have : ((own k + ∑ i ∈ univ.filter (· < k),
          cdiv (W k.val k.isLt + (if p.S i = 0 then p.J i else W i.val i.isLt + p.J i - p.C i)) (p.T i) * p.C i : ℕ) : ℚ)
          = (W k.val k.isLt : ℕ) := by
          rw [← w4]
          unfold demandAt
          rw [hsum k.val (by omega)]
          push_cast
          congr 1
          apply sum_congr rfl
          intro i hi
          obtain ⟨v1, _, v3, _⟩ := hW i.val i.isLt
          rw [v1]
          have hCW : p.C i ≤ W i.val i.isLt := by
            have := hown i
            have v3' : own i ≤ W i.val i.isLt := v3
            omega
          have hj : hpJ (ts.get i, (W i.val i.isLt : ℚ) + p.J i)
              = ((if p.S i = 0 then p.J i else W i.val i.isLt + p.J i - p.C i : ℕ) : ℚ) := by
            rcases hpJc with ⟨hS0, rfl⟩ | rfl
            · rw [if_pos (hS0 i)]
              unfold getJitter
              exact hm.jitter i
            · unfold suspensionJitter
              simp only
              rw [hm.suspended i, hm.jitter i, hm.cost i]
              by_cases hS : p.S i = 0
              · rw [if_pos hS, hS]; simp
              · rw [if_neg hS, if_pos (by have : 0 < p.S i := Nat.pos_of_ne_zero hS
                                          exact_mod_cast this)]
                rw [Nat.cast_sub (by omega)]
                push_cast
                ring
          simp only [Fin.eta]
          rw [hj, hm.cost i, hm.period i]
          rw [← Nat.cast_add, ceil_eq_cdiv _ (hT i)]
          push_cast
          ring
        exact_mod_cast this
      simp only
      omega

/-- **C11/C14**: response times are safe, with release jitter, self-suspensions
and priority inversion.  If the analysis accepts, then in every legal behaviour
every job of every task is complete at every time `t` at least `response_time`
after its arrival. -/
theorem C14_response_times_safe (fuel : ℕ) (ts : List FpTask) (p : FpParams ts.length)
    (hm : Matches ts p) (hT : ∀ i, 0 < p.T i) (done : List (FpTask × ℚ))
    (h : boundResponseTimes fuel 1 ts = some (true, done)) :
    ∃ R : Fin ts.length → ℚ, done = List.ofFn (fun i => (ts.get i, R i)) ∧
      ∀ b : FpBehaviour ts.length, b.Legal p → ∀ (i : Fin ts.length) (q t : ℕ),
        (b.arrival (i, q) : ℚ) + R i ≤ t → Completed b.work b.sched (i, q) t := by
  obtain ⟨W, hdone, hW⟩ := accepted_bounds hm hT h
  refine ⟨fun i => (W i : ℚ) + p.J i, hdone, fun b hb => ?_⟩
  have hcompl : ∀ k : ℕ, ∀ hk : k < ts.length, ∀ q, Completed b.work b.sched (⟨k, hk⟩, q)
      (b.arrival (⟨k, hk⟩, q) + (W ⟨k, hk⟩ + p.J ⟨k, hk⟩)) := by
    intro k
    induction k using Nat.strong_induction_on with
    | _ k ih =>
      intro hk q
      obtain ⟨_, w2, w3⟩ := hW ⟨k, hk⟩
      have := fp_core hb hT ⟨k, hk⟩ (fun i => W i + p.J i) (W ⟨k, hk⟩) (by
        intro i hi _
        obtain ⟨_, v2, v3⟩ := hW i
        refine ⟨by omega, by omega, fun q => ih i.val hi i.isLt q⟩) w3 w2 q
      refine this.mono (by omega)
  intro i q t ht
  refine (hcompl i.val i.isLt q).mono ?_
  have : ((b.arrival (i, q) + (W i + p.J i) : ℕ) : ℚ) ≤ t := by push_cast; exact ht
  exact_mod_cast this

/-- **C11**: without jitter and self-suspensions, acceptance means that no job
misses its deadline, and `response_time` bounds the time from release to
completion. -/
theorem C11_no_deadline_miss (fuel : ℕ) (ts : List FpTask) (p : FpParams ts.length)
    (hm : Matches ts p) (hT : ∀ i, 0 < p.T i) (hJ : ∀ i, p.J i = 0)
    (D : Fin ts.length → ℕ) (hD : ∀ i, (ts.get i).deadline = D i) (done : List (FpTask × ℚ))
    (h : boundResponseTimes fuel 1 ts = some (true, done)) :
    (∀ b : FpBehaviour ts.length, b.Legal p → MeetsDeadlines b.work D b.sched) ∧
    ∃ R : Fin ts.length → ℚ, done = List.ofFn (fun i => (ts.get i, R i)) ∧
      (∀ i, R i ≤ D i) ∧
      ∀ b : FpBehaviour ts.length, b.Legal p → ∀ (i : Fin ts.length) (q t : ℕ),
        (b.work.release (i, q) : ℚ) + R i ≤ t → Completed b.work b.sched (i, q) t := by
  obtain ⟨W, hdone, hW⟩ := accepted_bounds hm hT h
  obtain ⟨R, hR, hsafe⟩ := C14_response_times_safe fuel ts p hm hT done h
  have hRW : ∀ i, R i = W i := by
    intro i
    rw [hR] at hdone
    have := congrFun (List.ofFn_injective hdone) i
    simp only [Prod.mk.injEq, true_and] at this
    rw [this, hJ i]; simp
  have hrel : ∀ b : FpBehaviour ts.length, b.Legal p → ∀ j, b.work.release j = b.arrival j := by
    intro b hb j
    have h1 := hb.not_early j
    have h2 := hb.jitter j
    rw [hJ] at h2; omega
  have hRD : ∀ i, R i ≤ D i := by
    intro i
    rw [hRW i, ← hD i]; exact (hW i).1
  refine ⟨fun b hb => ?_, R, hR, hRD, fun b hb i q t ht => ?_⟩
  · rintro ⟨i, q⟩
    apply hsafe b hb
    unfold Workload.deadline
    rw [hrel b hb]
    push_cast
    have := hRD i
    linarith
  · apply hsafe b hb
    rw [← hrel b hb]; exact ht

/-- The task set of the examples: the second task has a blocking term. -/
def exampleTasks : List FpTask :=
  [{ cost := 1, period := 4, deadline := 3, prioInversion := 1 },
   { cost := 2, period := 6, deadline := 6, prioInversion := 1 },
   { cost := 1, period := 20, deadline := 12 }]

/-- Non-vacuity of C11: the analysis accepts a set of three tasks, whose
attributes are natural numbers and for which there are legal behaviours. -/
example : boundResponseTimes 20 1 exampleTasks = some (true, List.zip exampleTasks [2, 4, 4]) := by
  decide +kernel
example : ∃ b : FpBehaviour 3, b.Legal ⟨![1, 2, 1], ![4, 6, 20], ![0, 0, 0], ![0, 0, 0], ![1, 1, 0]⟩ := by
  obtain ⟨b, hb, _⟩ := exists_legal ⟨![1, 2, 1], ![4, 6, 20], ![0, 0, 0], ![0, 0, 0], ![1, 1, 0]⟩
    (by decide) ![0, 0, 0] (by decide)
  exact ⟨b, hb⟩
example : Matches exampleTasks ⟨![1, 2, 1], ![4, 6, 20], ![0, 0, 0], ![0, 0, 0], ![1, 1, 0]⟩ := by
  refine ⟨?_, ?_, ?_, ?_, fun _ => ?_, fun ⟨j, b, h⟩ => absurd h (by
    change Fin 3 at j; revert j; simp [exampleTasks, Fin.forall_fin_succ])⟩ <;>
  · intro i; change Fin 3 at i; revert i; decide +kernel

/-- Non-vacuity of C14: a self-suspending task with jitter at the top. -/
example : boundResponseTimes 20 1
    [{ cost := 1, period := 6, deadline := 5, jitter := 1, suspended := 2 },
     { cost := 2, period := 9, deadline := 9 }]
    = some (true, [({ cost := 1, period := 6, deadline := 5, jitter := 1, suspended := 2 }, 4),
      ({ cost := 2, period := 9, deadline := 9 }, 3)]) := by decide +kernel

/-- Non-vacuity of C14 with the legacy attribute, set for one of two tasks only: the
hypotheses are met and the attribute is what counts. -/
def legacyTasks : List FpTask :=
  [{ cost := 1, period := 6, deadline := 5 },
   { cost := 2, period := 9, deadline := 9, suspended := 1, blocked := some 3 }]
example : boundResponseTimes 20 1 legacyTasks = some (true, List.zip legacyTasks [1, 6]) := by
  decide +kernel
example : Matches legacyTasks ⟨![1, 2], ![6, 9], ![0, 0], ![0, 1], ![0, 2]⟩ := by
  refine ⟨?_, ?_, ?_, ?_, fun h => absurd (h (1 : Fin 2)) (by simp [legacyTasks]), fun _ i => ?_⟩
  · intro i; change Fin 2 at i; revert i; decide +kernel
  · intro i; change Fin 2 at i; revert i; decide +kernel
  · intro i; change Fin 2 at i; revert i; decide +kernel
  · intro i; change Fin 2 at i; revert i; decide +kernel
  · refine ⟨![0, 3] i, ?_⟩
    change Fin 2 at i; revert i; decide +kernel

/-- Tasks with a positive period and non-negative attributes. -/
def Sane (t : FpTask) : Prop := 0 < t.period ∧ 0 ≤ t.cost ∧ 0 ≤ t.jitter ∧ 0 ≤ t.suspended ∧
  0 ≤ t.prioInversion ∧ 0 ≤ t.getBlocked

/-- Invariant of the analysed tasks. -/
def Analysed (s : FpTask × ℚ) : Prop := 0 < s.1.period ∧ 0 ≤ s.1.cost ∧ 0 ≤ s.1.jitter ∧
  s.1.cost + s.1.jitter ≤ s.2 ∧ s.2 ≤ s.1.deadline + s.1.jitter

theorem chooseRta_form (ts : List FpTask) {t : FpTask} (ht : Sane t) :
    ∃ own hpJ, t.cost ≤ own ∧ (∀ acc, (∀ s ∈ acc, Analysed s) → Good acc hpJ) ∧
      ∀ fuel acc, chooseRta ts fuel t acc = rtaTask fuel t own acc hpJ := by
  obtain ⟨g1, g2, g3, g4, g5, g6⟩ := ht
  have hJ : ∀ acc, (∀ s ∈ acc, Analysed s) → Good acc getJitter := fun acc hacc s hs => by
    obtain ⟨a1, a2, a3, a4, _⟩ := hacc s hs
    exact ⟨a1, a2, a3⟩
  have hS : ∀ acc, (∀ s ∈ acc, Analysed s) → Good acc suspensionJitter := fun acc hacc s hs => by
    obtain ⟨a1, a2, a3, a4, _⟩ := hacc s hs
    refine ⟨a1, a2, ?_⟩
    unfold suspensionJitter
    split_ifs
    · linarith
    · exact a3
  unfold chooseRta
  split_ifs
  · exact ⟨t.getBlocked + t.cost, suspensionJitter, by linarith, hS, fun _ _ => rfl⟩
  · exact ⟨t.getBlocked + t.cost, getJitter, by linarith, hJ, fun _ _ => rfl⟩
  · exact ⟨t.prioInversion + t.cost + t.suspended, suspensionJitter, by linarith, hS, fun _ _ => rfl⟩
  · exact ⟨t.prioInversion + t.cost, getJitter, by linarith, hJ, fun _ _ => rfl⟩

theorem analysed_step {t : FpTask} (ht : Sane t) {own : ℚ} {hpJ : FpTask × ℚ → ℚ} (hown : t.cost ≤ own)
    {acc : List (FpTask × ℚ)} (hg : Good acc hpJ) {fuel : ℕ} {r : ℚ}
    (hr : rtaTask fuel t own acc hpJ = some (some r)) : Analysed (t, r) := by
  obtain ⟨g1, g2, g3, g4, g5, g6⟩ := ht
  unfold rtaTask at hr
  rw [Option.map_eq_some_iff] at hr
  obtain ⟨a, ha, hra⟩ := hr
  rw [Option.map_eq_some_iff] at hra
  obtain ⟨x, rfl, rfl⟩ := hra
  have hown0 : 0 ≤ own := by linarith
  obtain ⟨s1, _⟩ := rtaLoop_spec hg _ fuel _ (start_le_demandAt hown0 hg) _ ha
  obtain ⟨x1, x2, _⟩ := s1 x rfl
  have hstart : own ≤ startAt own acc := by
    unfold startAt
    have : 0 ≤ (acc.map (fun t => t.1.cost)).sum := by
      apply List.sum_nonneg
      intro y hy
      obtain ⟨s, hs, rfl⟩ := List.mem_map.1 hy
      exact (hg s hs).2.1
    linarith
  have : own ≤ x := hstart.trans x1
  exact ⟨g1, g2, g3, by simp only; linarith, by simp only; linarith⟩

/-- **C12**, termination of the whole analysis: it ends for every task set with
positive periods and non-negative attributes. -/
theorem C12_analysis_terminates (noCpus : ℕ) (ts : List FpTask)
    (hgood : ∀ t ∈ ts, 0 < t.period ∧ 0 ≤ t.cost ∧ 0 ≤ t.jitter ∧ 0 ≤ t.suspended ∧
      0 ≤ t.prioInversion ∧ 0 ≤ t.getBlocked) :
    ∃ N r, ∀ fuel ≥ N, boundResponseTimes fuel noCpus ts = some r := by
  suffices hinv : ∀ (l : List FpTask) (acc : List (FpTask × ℚ)), (∀ t ∈ l, Sane t) →
      (∀ s ∈ acc, Analysed s) →
      ∃ N r, ∀ fuel ≥ N, boundLoop (chooseRta ts fuel) acc l = some r by
    unfold boundResponseTimes
    split_ifs
    · exact ⟨0, _, fun _ _ => rfl⟩
    · exact hinv ts [] hgood (by simp)
  intro l
  induction l with
  | nil => intro acc _ _; exact ⟨0, _, fun _ _ => rfl⟩
  | cons t l ih =>
    intro acc hl hacc
    have ht := hl t (by simp)
    obtain ⟨own, hpJ, hown, hg, heq⟩ := chooseRta_form ts ht
    obtain ⟨N1, r1, h1⟩ := C12_terminates t own acc hpJ (ht.2.1.trans hown) (hg acc hacc)
    cases r1 with
    | none =>
      refine ⟨N1, (false, acc), fun fuel hf => ?_⟩
      rw [boundLoop, heq, h1 fuel hf]
    | some r =>
      have hstep := analysed_step ht hown (hg acc hacc) (h1 N1 le_rfl)
      obtain ⟨N2, r2, h2⟩ := ih (acc ++ [(t, r)]) (fun s hs => hl s (by simp [hs])) (by
        intro s hs
        rcases List.mem_append.1 hs with hs | hs
        · exact hacc s hs
        · rw [List.mem_singleton] at hs
          subst hs; exact hstep)
      refine ⟨max N1 N2, r2, fun fuel hf => ?_⟩
      rw [boundLoop, heq, h1 fuel (le_trans (le_max_left _ _) hf)]
      exact h2 fuel (le_trans (le_max_right _ _) hf)

/-- **C13**, without own jitter: every task for which a response time is reported
has a response time within its deadline, and at least its cost. -/
theorem C13_within_deadline_partial (fuel noCpus : ℕ) (ts : List FpTask)
    (hgood : ∀ t ∈ ts, 0 < t.period ∧ 0 ≤ t.cost ∧ 0 ≤ t.jitter ∧ 0 ≤ t.suspended ∧
      0 ≤ t.prioInversion ∧ 0 ≤ t.getBlocked)
    (done : List (FpTask × ℚ)) (b : Bool)
    (h : boundResponseTimes fuel noCpus ts = some (b, done)) :
    ∀ t R, (t, R) ∈ done → t.jitter = 0 → t.cost ≤ R ∧ R ≤ t.deadline := by
  unfold boundResponseTimes at h
  split_ifs at h with hpre
  · simp only [Option.some.injEq, Prod.mk.injEq] at h
    obtain ⟨_, rfl⟩ := h
    simp
  suffices hinv : ∀ (l : List FpTask) (acc : List (FpTask × ℚ)), (∀ t ∈ l, Sane t) →
      (∀ s ∈ acc, Analysed s) → boundLoop (chooseRta ts fuel) acc l = some (b, done) →
      ∀ s ∈ done, Analysed s by
    intro t R htR hj
    obtain ⟨_, _, _, a4, a5⟩ := hinv ts [] hgood (by simp) h (t, R) htR
    simp only [hj, add_zero] at a4 a5
    exact ⟨a4, a5⟩
  intro l
  induction l with
  | nil =>
    intro acc _ hacc h
    simp only [boundLoop, Option.some.injEq, Prod.mk.injEq] at h
    obtain ⟨_, rfl⟩ := h
    exact hacc
  | cons t l ih =>
    intro acc hl hacc h
    rw [boundLoop] at h
    have ht := hl t (by simp)
    obtain ⟨own, hpJ, hown, hg, heq⟩ := chooseRta_form ts ht
    split at h
    · simp at h
    · simp only [Option.some.injEq, Prod.mk.injEq] at h
      obtain ⟨_, rfl⟩ := h
      exact hacc
    · rename_i r hr
      rw [heq] at hr
      refine ih _ (fun s hs => hl s (by simp [hs])) ?_ h
      intro s hs
      rcases List.mem_append.1 hs with hs | hs
      · exact hacc s hs
      · rw [List.mem_singleton] at hs
        subst hs
        exact analysed_step ht hown (hg acc hacc) hr

/-- **C13** is violated by tasks with release jitter: the analysis accepts a task
with cost 2, period and deadline 3 and jitter 2 and reports the response time 4;
and there is a legal behaviour in which a job finishes after its deadline. -/
theorem C13_violated :
    let ts : List FpTask := [{ cost := 2, period := 3, deadline := 3, jitter := 2 }]
    boundResponseTimes 10 1 ts = some (true, [(ts.get ⟨0, by decide⟩, 4)]) ∧
    ∃ (b : FpBehaviour 1), b.Legal ⟨![2], ![3], ![2], ![0], ![0]⟩ ∧
      ¬ Completed b.work b.sched (0, 0) (b.arrival (0, 0) + 3) := by
  refine ⟨by decide +kernel, ?_⟩
  obtain ⟨b, hb, h1, h2, h3⟩ := exists_legal ⟨![2], ![3], ![2], ![0], ![0]⟩ (by decide) ![2] (by decide)
  refine ⟨b, hb, fun hc => ?_⟩
  unfold Completed at hc
  rw [h1, h3] at hc
  have e1 := service_eq_zero hb.valid (0, 0) (t := 2) (by rw [h2]; simp)
  have e2 := service_add b.sched (0, 0) (show 2 ≤ 3 by decide)
  have e3 := serviceIn_le_length b.sched ((0, 0) : Job 1) 2 3
  simp only [Nat.zero_mul, Nat.zero_add, Matrix.cons_val_fin_one] at hc
  rw [e1] at e2
  omega

end Verif.Fp
