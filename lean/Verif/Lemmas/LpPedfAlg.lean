/-
The processor demand criterion of the LP-based analyses for partitioned EDF: which intervals are checked.
-/
import Verif.Model.LpPedf
import Verif.Lemmas.LpCharge

namespace Verif.SR.Pedf
open Verif.Spec

variable {info : Info} {k : ℕ} {b : Blocking}

theorem wsub_eq {a c : ℕ} (h : c ≤ a) : wsub a c = a - c := if_pos h

/-! ### Quick processor-demand analysis -/

/-- What the analysis needs to know about the demand: `Dem t d` means that there may be a demand `d` in an interval of
length `t`. -/
structure DemandOk (info : Info) (k : ℕ) (b : Blocking) (Dem : ℕ → ℕ → Prop) : Prop where
  mono : ∀ t t' d, Dem t d → t ≤ t' → ∃ d', d ≤ d' ∧ Dem t' d'
  pdc : ∀ t x d, b.pdc t = some x → Dem t d → d ≤ dbf info k t + x
  tighter : ∀ t x lb y d, b.pdc t = some x → b.tighter t x lb = some y → Dem t d → d ≤ dbf info k t + y
  step : ∀ t t' d, minDeadline info k < t → lastCheckPointBefore info k t ≤ t' → t' < t → Dem t' d → Dem (lastCheckPointBefore info k t) d
  first : ∀ t, minDeadline info k < t → minDeadline info k ≤ lastCheckPointBefore info k t

variable {Dem : ℕ → ℕ → Prop}

/-- The intervals from the check point on. -/
def CheckedFrom (info : Info) (k : ℕ) (Dem : ℕ → ℕ → Prop) (tLB tUB cp : ℕ) : Prop :=
  ∀ t d, tLB ≤ t → t < tUB → cp ≤ t → Dem t d → d ≤ t ∨ (minDeadline info k ≤ cp ∧ Dem cp d)

theorem DemandOk.qpaLoop (h : DemandOk info k b Dem) {tLB tUB lbIn : ℕ} (hLB : minDeadline info k ≤ tLB)
    (hold : ∀ t d, minDeadline info k ≤ t → t < tLB → Dem t d → d ≤ t) (fuel : ℕ) : ∀ (cp lbOut : ℕ) (found : Bool) (out : ℕ),
    qpaLoop info k b tLB lbIn fuel cp lbOut found = some (true, out) → CheckedFrom info k Dem tLB tUB cp →
    ∀ t d, tLB ≤ t → t < tUB → Dem t d → d ≤ t := by
  induction fuel with
  | zero => intro cp lbOut found out hq; cases hq
  | succ fuel ih =>
    intro cp lbOut found out hq hinv t d ht1 ht2 hd
    unfold Pedf.qpaLoop at hq
    by_cases hcp : cp < tLB
    · rcases hinv t d ht1 ht2 (by omega) hd with h1 | ⟨h1, h2⟩
      · exact h1
      · have := hold cp d h1 hcp h2
        omega
    rw [if_neg hcp] at hq
    have hcp' : tLB ≤ cp := by omega
    cases hp : b.pdc cp with
    | none => simp only [hp] at hq; cases hq
    | some blk =>
      simp only [hp] at hq
      by_cases h1 : dbf info k cp + blk < tLB
      · rcases Nat.lt_or_ge t cp with h2 | h2
        · obtain ⟨d', h3, h4⟩ := h.mono t cp d hd h2.le
          have := h.pdc cp blk d' hp h4
          omega
        · rcases hinv t d ht1 ht2 h2 hd with h3 | ⟨_, h3⟩
          · exact h3
          · have := h.pdc cp blk d hp h3
            omega
      rw [if_neg h1] at hq
      -- the rest of the loop after a bound `y` on the blocking has been found
      have key : ∀ (y lbOut : ℕ) (found : Bool), (∀ d, Dem cp d → d ≤ dbf info k cp + y) → dbf info k cp + y ≤ cp →
          (if dbf info k cp + y < cp then Pedf.qpaLoop info k b tLB lbIn fuel (dbf info k cp + y) lbOut found
            else Pedf.qpaLoop info k b tLB lbIn fuel (lastCheckPointBefore info k cp) lbOut found) = some (true, out) →
          d ≤ t := by
        intro y lbOut found hy hle hq
        have hge : ∀ t d, tLB ≤ t → t < tUB → cp ≤ t → Dem t d → d ≤ t := by
          intro t d ht1 ht2 ht3 hd
          rcases hinv t d ht1 ht2 ht3 hd with h3 | ⟨_, h3⟩
          · exact h3
          · have := hy d h3
            omega
        by_cases hlt : dbf info k cp + y < cp
        · rw [if_pos hlt] at hq
          refine ih _ _ _ _ hq ?_ t d ht1 ht2 hd
          intro t d ht1 ht2 ht3 hd
          rcases Nat.lt_or_ge t cp with h2 | h2
          · obtain ⟨d', h3, h4⟩ := h.mono t cp d hd h2.le
            have := hy d' h4
            exact Or.inl (by omega)
          · exact Or.inl (hge t d ht1 ht2 h2 hd)
        · rw [if_neg hlt] at hq
          refine ih _ _ _ _ hq ?_ t d ht1 ht2 hd
          intro t d ht1 ht2 ht3 hd
          rcases Nat.lt_or_ge t cp with h2 | h2
          · exact Or.inr ⟨h.first cp (by omega), h.step cp t d (by omega) ht3 h2 hd⟩
          · exact Or.inl (hge t d ht1 ht2 h2 hd)
      by_cases h2 : dbf info k cp + blk > cp
      · rw [if_pos h2] at hq
        cases ht : b.tighter cp blk lbIn with
        | none => simp only [ht] at hq; cases hq
        | some y =>
          simp only [ht] at hq
          by_cases h3 : dbf info k cp + y > cp
          · rw [if_pos h3] at hq
            cases hq
          · rw [if_neg h3] at hq
            exact key y _ _ (fun d hd => h.tighter cp blk lbIn y d hp ht hd) (by omega) hq
      · rw [if_neg h2] at hq
        exact key blk _ _ (fun d hd => h.pdc cp blk d hp hd) (by omega) hq

theorem DemandOk.qpa (h : DemandOk info k b Dem) {tLB tUB lbIn fuel out : ℕ} (hLB : minDeadline info k ≤ tLB)
    (hold : ∀ t d, minDeadline info k ≤ t → t < tLB → Dem t d → d ≤ t)
    (hq : qpa fuel info k b tLB tUB lbIn = some (true, out)) :
    ∀ t d, tLB ≤ t → t < tUB → Dem t d → d ≤ t := by
  refine h.qpaLoop hLB hold fuel _ _ _ _ hq ?_
  intro t d ht1 ht2 ht3 hd
  exact Or.inr ⟨h.first tUB (by omega), h.step tUB t d (by omega) ht3 ht2 hd⟩

theorem DemandOk.scheduleLoop (h : DemandOk info k b Dem) (hac : ∀ l, 0 < l → 0 < arrivalCurve info k l)
    (qfuel fuel : ℕ) : ∀ last lbIn acLB, scheduleLoop qfuel info k b fuel last lbIn acLB = some true → 0 < last →
    (∀ t d, minDeadline info k ≤ t → t < last → Dem t d → d ≤ t) →
    ∃ L x y, 0 < L ∧ b.ac L y = some x ∧ L = arrivalCurve info k L + x ∧
      ∀ t d, minDeadline info k ≤ t → t < L → Dem t d → d ≤ t := by
  induction fuel with
  | zero => intro last lbIn acLB hq; cases hq
  | succ fuel ih =>
    intro last lbIn acLB hq h0 hold
    unfold Pedf.scheduleLoop at hq
    cases ha : b.ac last acLB with
    | none => simp only [ha] at hq; cases hq
    | some x =>
      simp only [ha] at hq
      by_cases hfix : arrivalCurve info k last + x = last
      · exact ⟨last, x, acLB, h0, ha, hfix.symm, hold⟩
      rw [if_neg hfix] at hq
      set tLB := if last > minDeadline info k then last else minDeadline info k with htLB
      have hLB : minDeadline info k ≤ tLB ∧ (tLB = last ∨ tLB = minDeadline info k) ∧ last ≤ tLB := by
        rw [htLB]
        split_ifs <;> omega
      cases hr : Pedf.qpa qfuel info k b tLB (arrivalCurve info k last + x) lbIn with
      | none => simp only [hr] at hq; cases hq
      | some res =>
        obtain ⟨ok, out⟩ := res
        cases ok with
        | false => simp only [hr] at hq; cases hq
        | true =>
          simp only [hr] at hq
          refine ih _ _ _ hq (by have := hac last h0; omega) ?_
          intro t d ht1 ht2 hd
          rcases Nat.lt_or_ge t last with h1 | h1
          · exact hold t d ht1 h1 hd
          · refine h.qpa hLB.1 ?_ hr t d (by omega) ht2 hd
            intro t d ht1 ht2 hd
            exact hold t d ht1 (by omega) hd

/-- If the analysis accepts, all intervals up to the length of a busy window have been checked. -/
theorem DemandOk.isSchedulable (h : DemandOk info k b Dem) (hac : ∀ l, 0 < l → 0 < arrivalCurve info k l)
    (hmin : 0 < minDeadline info k) {fuel : ℕ} (hq : isSchedulable fuel info k b = some true) :
    ∃ L x y, 0 < L ∧ b.ac L y = some x ∧ L = arrivalCurve info k L + x ∧
      ∀ t d, minDeadline info k ≤ t → t < L → Dem t d → d ≤ t :=
  h.scheduleLoop hac fuel fuel 1 0 0 hq Nat.one_pos (fun t _ h1 h2 _ => absurd h2 (by omega))

/-! ### Check points -/

theorem le_localCheckPoint (t : TaskInfo) (interval last : ℕ) : last ≤ localCheckPoint t interval last ∧
    stepBack ((interval - t.deadline) / t.period * t.period + t.deadline) interval t.period ≤
      localCheckPoint t interval last := by
  unfold localCheckPoint
  simp only
  split_ifs <;> omega

theorem release_le_localCheckPoint (t : TaskInfo) (interval last : ℕ) :
    stepBack (wsub (Native.divideWithCeil interval t.period) 1 * t.period + 1) interval t.period ≤
      localCheckPoint t interval last := by
  unfold localCheckPoint
  simp only
  split_ifs <;> omega

theorem le_remoteCheckPoint (t : TaskInfo) (interval last : ℕ) : last ≤ remoteCheckPoint t interval last ∧
    (Native.divideWithCeil (interval + t.deadline) t.period > 1 →
      stepBack (wsub ((Native.divideWithCeil (interval + t.deadline) t.period - 1) * t.period + 1) t.deadline) interval
        t.period ≤ remoteCheckPoint t interval last) := by
  unfold remoteCheckPoint
  simp only
  split_ifs <;> omega

theorem foldl_ge {α : Type} (f : ℕ → α → ℕ) (hf : ∀ a x, a ≤ f a x) (l : List α) : ∀ a, a ≤ l.foldl f a := by
  induction l with
  | nil => intro a; exact le_rfl
  | cons x l ih => intro a; exact (hf a x).trans (ih _)

theorem foldl_ge_of_mem {α : Type} (f : ℕ → α → ℕ) (hf : ∀ a x, a ≤ f a x) {v : ℕ} {y : α} (hv : ∀ a, v ≤ f a y)
    (l : List α) (hy : y ∈ l) : ∀ a, v ≤ l.foldl f a := by
  induction l with
  | nil => cases hy
  | cons x l ih =>
    intro a
    rcases List.mem_cons.1 hy with rfl | hy
    · exact (hv a).trans (foldl_ge f hf l _)
    · exact ih hy _

theorem le_step (k interval last : ℕ) (t : TaskInfo) : last ≤ (fun last (t : TaskInfo) =>
    let last := if t.cluster = k ∧ t.deadline < interval then localCheckPoint t interval last else last
    if t.cluster ≠ k then remoteCheckPoint t interval last else last) last t := by
  simp only
  have h1 := (le_localCheckPoint t interval last).1
  by_cases hk : t.cluster = k
  · rw [if_neg (not_not.2 hk)]
    split_ifs
    · exact h1
    · exact le_rfl
  · rw [if_pos hk, if_neg (fun h => hk h.1)]
    exact (le_remoteCheckPoint t interval _).1

theorem local_le (info : Info) {k interval : ℕ} {t : TaskInfo} (ht : t ∈ info) (hk : t.cluster = k)
    (hd : t.deadline < interval) :
    stepBack ((interval - t.deadline) / t.period * t.period + t.deadline) interval t.period ≤
      lastCheckPointBefore info k interval := by
  unfold lastCheckPointBefore
  refine foldl_ge_of_mem _ (fun a x => le_step k interval a x) (fun a => ?_) info ht _
  simp only
  rw [if_neg (not_not.2 hk), if_pos ⟨hk, hd⟩]
  exact (le_localCheckPoint t interval a).2

theorem release_le (info : Info) {k interval : ℕ} {t : TaskInfo} (ht : t ∈ info) (hk : t.cluster = k)
    (hd : t.deadline < interval) :
    stepBack (wsub (Native.divideWithCeil interval t.period) 1 * t.period + 1) interval t.period ≤
      lastCheckPointBefore info k interval := by
  unfold lastCheckPointBefore
  refine foldl_ge_of_mem _ (fun a x => le_step k interval a x) (fun a => ?_) info ht _
  simp only
  rw [if_neg (not_not.2 hk), if_pos ⟨hk, hd⟩]
  exact release_le_localCheckPoint t interval a

theorem remote_le (info : Info) {k interval : ℕ} {t : TaskInfo} (ht : t ∈ info) (hk : t.cluster ≠ k)
    (hj : Native.divideWithCeil (interval + t.deadline) t.period > 1) :
    stepBack (wsub ((Native.divideWithCeil (interval + t.deadline) t.period - 1) * t.period + 1) t.deadline) interval
        t.period ≤ lastCheckPointBefore info k interval := by
  unfold lastCheckPointBefore
  refine foldl_ge_of_mem _ (fun a x => le_step k interval a x) (fun a => ?_) info ht _
  simp only
  rw [if_pos hk]
  exact (le_remoteCheckPoint t interval _).2 hj

theorem pdcJobs_eq {t : TaskInfo} (h0 : 0 < t.deadline) (hD : t.deadline ≤ t.period) (x : ℕ) :
    pdcJobs t x = if t.deadline ≤ x then (x - t.deadline) / t.period + 1 else 0 := by
  unfold pdcJobs
  rw [wsub_eq (by omega)]
  split_ifs with h
  · rw [show x + t.period - t.deadline = (x - t.deadline) + t.period by omega, Nat.add_div_right _ (by omega)]
  · exact Nat.div_eq_of_lt (by omega)

/-- Between two check points, the numbers of jobs of local tasks do not change. -/
theorem local_const {t : TaskInfo} (h0 : 0 < t.deadline) (hD : t.deadline ≤ t.period) (ht : t ∈ info)
    (hk : t.cluster = k) {p x : ℕ} (h1 : lastCheckPointBefore info k p ≤ x) (h2 : x < p) :
    pdcJobs t x = pdcJobs t (lastCheckPointBefore info k p) ∧
      (t.deadline ≤ x ↔ t.deadline ≤ lastCheckPointBefore info k p) := by
  set c := lastCheckPointBefore info k p with hc
  rw [pdcJobs_eq h0 hD, pdcJobs_eq h0 hD]
  by_cases hlt : t.deadline < p
  · have hle := local_le info ht hk hlt
    rw [← hc] at hle
    have hT : 0 < t.period := by omega
    obtain ⟨m, hm⟩ : ∃ m, m = (p - t.deadline) / t.period := ⟨_, rfl⟩
    rw [← hm] at hle
    have hm1 : m * t.period ≤ p - t.deadline := hm ▸ Nat.div_mul_le_self _ _
    have hm2 : p - t.deadline < (m + 1) * t.period := by
      rw [hm, Nat.add_mul, Nat.one_mul]
      exact Nat.lt_div_mul_add hT
    unfold stepBack at hle
    by_cases he : m * t.period + t.deadline = p
    · rw [if_pos he] at hle
      have hm0 : m ≠ 0 := by intro h; rw [h] at he; omega
      obtain ⟨m', rfl⟩ : ∃ m', m = m' + 1 := ⟨m - 1, by omega⟩
      rw [Nat.add_mul, Nat.one_mul] at he
      rw [Nat.add_mul, Nat.one_mul, wsub_eq (by omega)] at hle
      have e : ∀ y, c ≤ y → y < p → t.deadline ≤ y ∧ (y - t.deadline) / t.period = m' := by
        intro y hy1 hy2
        refine ⟨by omega, ?_⟩
        rw [Nat.div_eq_iff hT]
        omega
      have a := e x h1 h2
      have b := e c le_rfl (by omega)
      rw [a.2, b.2, if_pos a.1, if_pos b.1]
      exact ⟨rfl, iff_of_true a.1 b.1⟩
    · rw [if_neg he] at hle
      rw [Nat.add_mul, Nat.one_mul] at hm2
      have e : ∀ y, c ≤ y → y < p → t.deadline ≤ y ∧ (y - t.deadline) / t.period = m := by
        intro y hy1 hy2
        refine ⟨by omega, ?_⟩
        rw [Nat.div_eq_iff hT]
        omega
      have a := e x h1 h2
      have b := e c le_rfl (by omega)
      rw [a.2, b.2, if_pos a.1, if_pos b.1]
      exact ⟨rfl, iff_of_true a.1 b.1⟩
  · rw [if_neg (by omega), if_neg (by omega)]
    exact ⟨rfl, iff_of_false (by omega) (by omega)⟩

theorem dwc_eq (a : ℕ) {T : ℕ} (hT : 0 < T) : Native.divideWithCeil a T = cdiv a T :=
  Native.divideWithCeil_eq a hT

theorem remoteJobs_eq {t : TaskInfo} (hT : 0 < t.period) (x : ℕ) :
    remoteJobs t x = cdiv (x + t.deadline) t.period := dwc_eq _ hT

theorem cdiv_unique {a T m : ℕ} (h1 : m * T < a) (h2 : a ≤ m * T + T) : cdiv a T = m + 1 := by
  have hT : 0 < T := by omega
  unfold cdiv
  rw [Nat.div_eq_iff hT, Nat.add_mul, Nat.one_mul]
  omega

/-- Between two check points, the numbers of jobs of remote tasks do not change. -/
theorem remote_const {t : TaskInfo} (h0 : 0 < t.deadline) (hD : t.deadline ≤ t.period) (hT64 : t.period ≤ 2 ^ 64)
    (ht : t ∈ info) (hk : t.cluster ≠ k) {p x : ℕ} (h1 : lastCheckPointBefore info k p ≤ x) (h2 : x < p) :
    remoteJobs t x = remoteJobs t (lastCheckPointBefore info k p) := by
  set c := lastCheckPointBefore info k p with hc
  have hT : 0 < t.period := by omega
  rw [remoteJobs_eq hT, remoteJobs_eq hT]
  by_cases hj : Native.divideWithCeil (p + t.deadline) t.period > 1
  · have hle := remote_le info ht hk hj
    rw [← hc, dwc_eq _ hT] at hle
    rw [dwc_eq _ hT] at hj
    obtain ⟨m, hm⟩ : ∃ m, m = cdiv (p + t.deadline) t.period := ⟨_, rfl⟩
    rw [← hm] at hle hj
    obtain ⟨m', hm'⟩ : ∃ m', m = m' + 2 := ⟨m - 2, by omega⟩
    have hm1 : p + t.deadline ≤ m' * t.period + t.period + t.period := by
      have := le_cdiv_mul (p + t.deadline) hT
      rw [← hm, hm', Nat.add_mul, Nat.two_mul] at this
      omega
    have hm2 : m' * t.period + t.period < p + t.deadline := by
      have := lt_of_not_ge (fun h => absurd ((cdiv_le_iff (a := p + t.deadline) (k := m' + 1) hT).2 h) (by omega))
      rw [Nat.add_mul, Nat.one_mul] at this
      exact this
    rw [hm', show m' + 2 - 1 = m' + 1 by omega, Nat.add_mul, Nat.one_mul, wsub_eq (by omega)] at hle
    unfold stepBack at hle
    by_cases he : m' * t.period + t.period + 1 - t.deadline = p
    · rw [if_pos he] at hle
      rcases Nat.lt_or_ge (m' * t.period + 1) t.deadline with hw | hw
      · -- wrap-around
        exfalso
        unfold wsub at hle
        rw [if_neg (by omega)] at hle
        omega
      · rw [wsub_eq (by omega)] at hle
        rw [cdiv_unique (m := m') (by omega) (by omega), cdiv_unique (m := m') (by omega) (by omega)]
    · rw [if_neg he] at hle
      rw [cdiv_unique (m := m' + 1) (by rw [Nat.add_mul, Nat.one_mul]; omega) (by rw [Nat.add_mul, Nat.one_mul]; omega),
        cdiv_unique (m := m' + 1) (by rw [Nat.add_mul, Nat.one_mul]; omega) (by rw [Nat.add_mul, Nat.one_mul]; omega)]
  · rw [dwc_eq _ hT] at hj
    have hp : p + t.deadline ≤ t.period := by
      have := le_cdiv_mul (p + t.deadline) hT
      have h3 : cdiv (p + t.deadline) t.period * t.period ≤ 1 * t.period := Nat.mul_le_mul_right _ (by omega)
      omega
    rw [cdiv_unique (m := 0) (by omega) (by omega), cdiv_unique (m := 0) (by omega) (by omega)]

/-- Between two check points, the numbers of releases of local tasks do not change. -/
theorem release_const {t : TaskInfo} (h0 : 0 < t.deadline) (hD : t.deadline ≤ t.period) (ht : t ∈ info)
    (hk : t.cluster = k) {p x : ℕ} (hc0 : 0 < lastCheckPointBefore info k p) (h1 : lastCheckPointBefore info k p ≤ x)
    (h2 : x < p) : cdiv x t.period = cdiv (lastCheckPointBefore info k p) t.period := by
  set c := lastCheckPointBefore info k p with hc
  have hT : 0 < t.period := by omega
  by_cases hlt : t.deadline < p
  · have hle := release_le info ht hk hlt
    rw [← hc, dwc_eq _ hT] at hle
    obtain ⟨m, hm⟩ : ∃ m, cdiv p t.period = m + 1 := by
      refine ⟨cdiv p t.period - 1, ?_⟩
      have : cdiv p t.period ≠ 0 := fun h => by
        have := (cdiv_le_iff (a := p) (k := 0) hT).1 h.le
        omega
      omega
    have hm1 : p ≤ m * t.period + t.period := by
      have := le_cdiv_mul p hT
      rw [hm, Nat.add_mul, Nat.one_mul] at this
      exact this
    have hm2 : m * t.period < p := by
      by_contra h
      have := (cdiv_le_iff (a := p) (k := m) hT).2 (by omega)
      omega
    rw [hm, wsub_eq (by omega), Nat.add_sub_cancel] at hle
    unfold stepBack at hle
    by_cases he : m * t.period + 1 = p
    · rw [if_pos he] at hle
      have hm0 : m ≠ 0 := by rintro rfl; omega
      obtain ⟨m', rfl⟩ : ∃ m', m = m' + 1 := ⟨m - 1, by omega⟩
      rw [Nat.add_mul, Nat.one_mul] at he
      rw [Nat.add_mul, Nat.one_mul, wsub_eq (by omega)] at hle
      rw [cdiv_unique (m := m') (by omega) (by omega), cdiv_unique (m := m') (by omega) (by omega)]
    · rw [if_neg he] at hle
      rw [cdiv_unique (m := m) (by omega) (by omega), cdiv_unique (m := m) (by omega) (by omega)]
  · rw [cdiv_unique (m := 0) (by omega) (by omega), cdiv_unique (m := 0) (by omega) (by omega)]

/-! ### The shortest deadline -/

theorem minDeadline_le {t : TaskInfo} (ht : t ∈ info) (hk : t.cluster = k) : minDeadline info k ≤ t.deadline := by
  have key : ∀ (l : List TaskInfo) (a : ℕ), l.foldl (fun m t => if t.deadline < m then t.deadline else m) a ≤ a ∧
      ∀ t ∈ l, l.foldl (fun m t => if t.deadline < m then t.deadline else m) a ≤ t.deadline := by
    intro l
    induction l with
    | nil => intro a; simp
    | cons y l ih =>
      intro a
      obtain ⟨h1, h2⟩ := ih (if y.deadline < a then y.deadline else a)
      rw [List.foldl_cons]
      have h3 : (if y.deadline < a then y.deadline else a) ≤ a ∧
          (if y.deadline < a then y.deadline else a) ≤ y.deadline := by split_ifs <;> omega
      refine ⟨h1.trans h3.1, fun t ht => ?_⟩
      rcases List.mem_cons.1 ht with rfl | ht
      · exact h1.trans h3.2
      · exact h2 t ht
  exact (key _ _).2 t (List.mem_filter.2 ⟨ht, by simpa using hk⟩)

theorem minDeadline_mem {t : TaskInfo} (ht : t ∈ info) (hk : t.cluster = k) :
    ∃ s ∈ info, s.cluster = k ∧ s.deadline = minDeadline info k := by
  have hmem : ∀ s ∈ localTasks info k, s ∈ info ∧ s.cluster = k := fun s hs => by
    obtain ⟨h1, h2⟩ := List.mem_filter.1 hs
    exact ⟨h1, by simpa using h2⟩
  have kmax : ∀ (l : List TaskInfo) (a : ℕ), l.foldl (fun m t => if m > t.deadline then m else t.deadline) a = a ∨
      ∃ s ∈ l, l.foldl (fun m t => if m > t.deadline then m else t.deadline) a = s.deadline := by
    intro l
    induction l with
    | nil => intro a; exact Or.inl rfl
    | cons y l ih =>
      intro a
      rw [List.foldl_cons]
      rcases ih (if a > y.deadline then a else y.deadline) with h | ⟨s, hs, h⟩
      · rw [h]
        split_ifs
        · exact Or.inl rfl
        · exact Or.inr ⟨y, List.mem_cons_self, rfl⟩
      · exact Or.inr ⟨s, List.mem_cons_of_mem _ hs, h⟩
  have kmin : ∀ (l : List TaskInfo) (a : ℕ), l.foldl (fun m t => if t.deadline < m then t.deadline else m) a = a ∨
      ∃ s ∈ l, l.foldl (fun m t => if t.deadline < m then t.deadline else m) a = s.deadline := by
    intro l
    induction l with
    | nil => intro a; exact Or.inl rfl
    | cons y l ih =>
      intro a
      rw [List.foldl_cons]
      rcases ih (if y.deadline < a then y.deadline else a) with h | ⟨s, hs, h⟩
      · rw [h]
        split_ifs
        · exact Or.inr ⟨y, List.mem_cons_self, rfl⟩
        · exact Or.inl rfl
      · exact Or.inr ⟨s, List.mem_cons_of_mem _ hs, h⟩
  have hne : ∃ y l, localTasks info k = y :: l := by
    rcases h : localTasks info k with _ | ⟨y, l⟩
    · have : t ∈ localTasks info k := List.mem_filter.2 ⟨ht, by simpa using hk⟩
      rw [h] at this
      cases this
    · exact ⟨y, l, rfl⟩
  have h1 : ∃ s ∈ localTasks info k, maxDeadline info k = s.deadline := by
    obtain ⟨y, l, hl⟩ := hne
    unfold maxDeadline
    rw [hl, List.foldl_cons]
    have e : (if 0 > y.deadline then 0 else y.deadline) = y.deadline := if_neg (by omega)
    rw [e]
    rcases kmax l y.deadline with h | ⟨s, hs, h⟩
    · exact ⟨y, List.mem_cons_self, h⟩
    · exact ⟨s, List.mem_cons_of_mem _ hs, h⟩
  have h2 : ∃ s ∈ localTasks info k, minDeadline info k = s.deadline := by
    unfold minDeadline
    rcases kmin (localTasks info k) (maxDeadline info k) with h | ⟨s, hs, h⟩
    · obtain ⟨s, hs, h'⟩ := h1
      exact ⟨s, hs, h.trans h'⟩
    · exact ⟨s, hs, h⟩
  obtain ⟨s, hs, h⟩ := h2
  exact ⟨s, (hmem s hs).1, (hmem s hs).2, h.symm⟩

/-- The check points include the shortest deadline. -/
theorem minDeadline_le_last {t : TaskInfo} (ht : t ∈ info) (hk : t.cluster = k) {p : ℕ}
    (hp : minDeadline info k < p) : minDeadline info k ≤ lastCheckPointBefore info k p := by
  obtain ⟨s, hs1, hs2, hs3⟩ := minDeadline_mem ht hk
  have := local_le info hs1 hs2 (by omega : s.deadline < p)
  rw [← hs3]
  refine le_trans ?_ this
  unfold stepBack
  split_ifs with he
  · have h1 : (p - s.deadline) / s.period ≠ 0 := by
      intro h0
      rw [h0] at he
      omega
    have h2 : s.period ≤ (p - s.deadline) / s.period * s.period := Nat.le_mul_of_pos_left _ (Nat.pos_of_ne_zero h1)
    rw [wsub_eq (by omega)]
    omega
  · omega

end Verif.SR.Pedf
