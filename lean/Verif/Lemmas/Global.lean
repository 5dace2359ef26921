/-
Global priority-driven scheduling: interference on a job, workload bounds of the
other tasks, and slack-based induction.  Used for the G-EDF and global
fixed-priority tests.
-/
import Verif.Lemmas.Schedule
import Mathlib.Order.Interval.Finset.Nat
import Mathlib.Algebra.Order.BigOperators.Group.Finset
import Mathlib.Algebra.Module.Defs

namespace Verif.Spec
open Finset

variable {n m : ℕ} {C T D : Fin n → ℕ} {w : Workload n} {σ : Schedule n} {prio : Job n → ℕ}

/-! ### One ready job per task -/

theorem ready_unique {i : Fin n} {p q t : ℕ} (h1 : Ready w σ (i, p) t) (h2 : Ready w σ (i, q) t) :
    p = q := by
  rcases lt_trichotomy p q with h | h | h
  · exact absurd (h2.2 p h) h1.1.2
  · exact h
  · exact absurd (h1.2 q h) h2.1.2

open Classical in
/-- Number of slots in `[a, b)` in which task `i` executes a job of priority point
at most `p`. -/
noncomputable def intf (σ : Schedule n) (prio : Job n → ℕ) (p : ℕ) (i : Fin n) (a b : ℕ) : ℕ :=
  ((Ico a b).filter (fun s => ∃ q, (i, q) ∈ σ s ∧ prio (i, q) ≤ p)).card

/-- A job that is pending in `[r, r + R)`, at the head of its task, and gets less
than `C` units of service leaves `Y` slots in which all processors serve other
tasks. -/
theorem interference (hv : ValidSchedule m w σ) (hp : PriorityDriven m w prio σ) {k : Fin n}
    {q r R c Y : ℕ} (hr : w.release (k, q) ≤ r) (hpred : ∀ l < q, Completed w σ (k, l) r)
    (hc : w.exec (k, q) ≤ c) (hinc : ¬ Completed w σ (k, q) (r + R)) (hY : Y + c ≤ R + 1) :
    m * Y ≤ ∑ i ∈ univ.erase k, min Y (intf σ prio (prio (k, q)) i r (r + R)) := by
  classical
  have hready : ∀ s ∈ Ico r (r + R), Ready w σ (k, q) s := by
    intro s hs
    rw [mem_Ico] at hs
    exact ⟨⟨by omega, fun h => hinc (h.mono (by omega))⟩, fun l hl => (hpred l hl).mono hs.1⟩
  -- slots without service
  set X := (Ico r (r + R)).filter (fun s => (k, q) ∉ σ s) with hX
  have hXcard : Y ≤ X.card := by
    have h1 : X.card + serviceIn σ (k, q) r (r + R) = R := by
      unfold serviceIn
      have := card_filter_add_card_filter_not (s := Ico r (r + R)) (fun s => (k, q) ∈ σ s)
      simp only [Nat.card_Ico, Nat.add_sub_cancel_left] at this
      rw [hX]; omega
    have h2 : serviceIn σ (k, q) r (r + R) < w.exec (k, q) := by
      unfold Completed at hinc
      have := service_add σ (k, q) (show r ≤ r + R by omega)
      omega
    omega
  obtain ⟨X', hX'sub, hX'card⟩ := exists_subset_card_eq hXcard
  -- all processors are busy with other tasks
  have hbusy : ∀ s ∈ X', m = ∑ i ∈ univ.erase k,
      if ∃ l, (i, l) ∈ σ s ∧ prio (i, l) ≤ prio (k, q) then 1 else 0 := by
    intro s hs
    have hsX := hX'sub hs
    rw [hX, mem_filter] at hsX
    obtain ⟨hcard, hle⟩ := hp s (k, q) (hready s hsX.1) hsX.2
    rw [← card_filter, ← hcard]
    apply card_bij (fun j _ => j.1)
    · intro j hj
      rw [mem_filter, mem_erase]
      refine ⟨⟨?_, mem_univ _⟩, j.2, hj, hle j hj⟩
      intro hjk
      have h1 := hv.ready s j hj
      have h2 := hready s hsX.1
      obtain ⟨i, l⟩ := j
      simp only at hjk
      subst hjk
      rw [ready_unique h1 h2] at hj
      exact hsX.2 hj
    · rintro ⟨i, l⟩ hj ⟨i', l'⟩ hj' h
      simp only at h
      subst h
      rw [ready_unique (hv.ready s _ hj) (hv.ready s _ hj')]
    · intro i hi
      rw [mem_filter] at hi
      obtain ⟨_, l, hl, _⟩ := hi
      exact ⟨(i, l), hl, rfl⟩
  calc m * Y = ∑ s ∈ X', m := by rw [sum_const, hX'card, smul_eq_mul, Nat.mul_comm]
    _ = ∑ s ∈ X', ∑ i ∈ univ.erase k,
        (if ∃ l, (i, l) ∈ σ s ∧ prio (i, l) ≤ prio (k, q) then 1 else 0) := sum_congr rfl hbusy
    _ = ∑ i ∈ univ.erase k, ∑ s ∈ X',
        (if ∃ l, (i, l) ∈ σ s ∧ prio (i, l) ≤ prio (k, q) then 1 else 0) := sum_comm
    _ ≤ _ := by
      apply sum_le_sum
      intro i _
      rw [← card_filter]
      apply le_min
      · rw [← hX'card]; exact card_filter_le _ _
      · unfold intf
        apply card_le_card
        apply filter_subset_filter
        exact hX'sub.trans (filter_subset _ _)

/-- Interference of a task is the service of its jobs. -/
theorem intf_le_sum (p : ℕ) (i : Fin n) (a b : ℕ) (K : Finset ℕ)
    (hK : ∀ q s, a ≤ s → s < b → (i, q) ∈ σ s → prio (i, q) ≤ p → q ∈ K) :
    intf σ prio p i a b ≤ ∑ q ∈ K, serviceIn σ (i, q) a b := by
  classical
  unfold intf serviceIn
  refine (card_le_card ?_).trans card_biUnion_le
  intro s hs
  rw [mem_filter, mem_Ico] at hs
  obtain ⟨hs, q, hq, hpq⟩ := hs
  rw [mem_biUnion]
  exact ⟨q, hK q s hs.1 hs.2 hq hpq, by rw [mem_filter, mem_Ico]; exact ⟨hs, hq⟩⟩

theorem intf_le_length (p : ℕ) (i : Fin n) (a b : ℕ) : intf σ prio p i a b ≤ b - a := by
  classical
  unfold intf
  refine (card_filter_le _ _).trans ?_
  simp

/-! ### Response-time bounds that hold before a point in time -/

/-- All jobs whose bound `release + E` ends before time `d` respect it. -/
def BoundedBefore (w : Workload n) (σ : Schedule n) (E : Fin n → ℕ) (d : ℕ) : Prop :=
  ∀ j : Job n, w.release j + E j.1 < d → Completed w σ j (w.release j + E j.1)

theorem BoundedBefore.mono {E : Fin n → ℕ} {d d' : ℕ} (h : BoundedBefore w σ E d) (hd : d' ≤ d) :
    BoundedBefore w σ E d' := fun j hj => h j (by omega)

/-- Service of a job within a window, if its bound is respected. -/
theorem serviceIn_le_bound (hv : ValidSchedule m w σ) {E : Fin n → ℕ} {a b : ℕ}
    (h : BoundedBefore w σ E b) (j : Job n) : serviceIn σ j a b ≤ w.release j + E j.1 - a := by
  by_cases he : w.release j + E j.1 < b
  · have hc := h j he
    rcases le_total (w.release j + E j.1) a with h1 | h1
    · rw [serviceIn_eq_zero hv j (hc.mono h1)]; omega
    · have h2 := serviceIn_split σ j h1 he.le
      have h3 := serviceIn_eq_zero hv j (b := b) hc
      have h4 := serviceIn_le_length σ j a (w.release j + E j.1)
      omega
  · have := serviceIn_le_length σ j a b
    omega

/-- Workload under EDF: only jobs with a deadline at most `d = r + L` count.  `s`
is the slack of the task: its jobs finish `s` before their deadline. -/
theorem edf_work (hs : w.Sporadic C T) (hv : ValidSchedule m w σ) {E : Fin n → ℕ} {i : Fin n}
    (hT : 0 < T i) {s : ℕ} (hE : E i + s = D i) (hDT : D i ≤ T i) {r b L : ℕ}
    (hb : b ≤ r + L) (h : BoundedBefore w σ E b) :
    intf σ (w.deadline D) (r + L) i r b ≤ L / T i * C i + min (C i) (L % T i - s) := by
  classical
  -- jobs that execute in the window with a deadline in time
  set K := (range (r + L + 1)).filter (fun q => w.deadline D (i, q) ≤ r + L ∧ 0 < serviceIn σ (i, q) r b)
    with hK
  have hle : intf σ (w.deadline D) (r + L) i r b ≤ ∑ q ∈ K, serviceIn σ (i, q) r b := by
    apply intf_le_sum
    intro q t h1 h2 h3 h4
    rw [hK, mem_filter, mem_range]
    refine ⟨?_, h4, ?_⟩
    · have := le_release hs i hT q
      unfold Workload.deadline at h4
      omega
    · unfold serviceIn
      rw [card_pos]
      exact ⟨t, by rw [mem_filter, mem_Ico]; exact ⟨⟨h1, h2⟩, h3⟩⟩
  refine hle.trans ?_
  rcases K.eq_empty_or_nonempty with he | hne
  · rw [he]; simp
  set M := K.max' hne with hM
  have hMK : M ∈ K := K.max'_mem hne
  have hMd : w.deadline D (i, M) ≤ r + L := (mem_filter.1 hMK).2.1
  have hser : ∀ q, serviceIn σ (i, q) r b ≤ C i := fun q =>
    (serviceIn_le_exec hv _ _ _).trans (hs.wcet i q)
  have hbd : ∀ q, serviceIn σ (i, q) r b ≤ w.release (i, q) + E i - r := fun q =>
    serviceIn_le_bound hv h (i, q)
  have hrel : ∀ q ≤ M, w.release (i, q) + D i + (M - q) * T i ≤ r + L := by
    intro q hq
    have := release_mono hs i hq
    unfold Workload.deadline at hMd
    simp only at hMd
    omega
  have hdm := Nat.div_add_mod L (T i)
  have hml := Nat.mod_lt L hT
  generalize L / T i = e at *
  generalize L % T i = ρ at *
  have hmul : T i * e = e * T i := Nat.mul_comm _ _
  -- members of K are at most e + 1 recent jobs
  have hrange : ∀ q ∈ K, M ≤ q + e := by
    intro q hq
    by_contra hc
    have h1 := hrel q (by omega)
    have h2 : (e + 1) * T i ≤ (M - q) * T i := Nat.mul_le_mul_right _ (by omega)
    rw [Nat.add_mul] at h2
    have h3 := hbd q
    have h4 := (mem_filter.1 hq).2.2
    omega
  by_cases hc : M < e
  · -- fewer than e + 1 jobs
    have hsub : K ⊆ range e := by
      intro q hq
      have := K.le_max' q hq
      rw [mem_range]; omega
    calc ∑ q ∈ K, serviceIn σ (i, q) r b ≤ ∑ q ∈ K, C i := sum_le_sum (fun q _ => hser q)
      _ = K.card * C i := by rw [sum_const, smul_eq_mul]
      _ ≤ e * C i := Nat.mul_le_mul_right _ (by
          have := card_le_card hsub; rwa [card_range] at this)
      _ ≤ _ := Nat.le_add_right _ _
  · have hsub : K ⊆ insert (M - e) (Ioc (M - e) M) := by
      intro q hq
      have h1 := K.le_max' q hq
      have h2 := hrange q hq
      rw [mem_insert, mem_Ioc]; omega
    have hfirst : serviceIn σ (i, M - e) r b ≤ min (C i) (ρ - s) := by
      apply le_min (hser _)
      have h1 := hrel (M - e) (by omega)
      have h2 := hbd (M - e)
      rw [show M - (M - e) = e by omega] at h1
      omega
    calc ∑ q ∈ K, serviceIn σ (i, q) r b
        ≤ ∑ q ∈ insert (M - e) (Ioc (M - e) M), serviceIn σ (i, q) r b := sum_le_sum_of_subset hsub
      _ = serviceIn σ (i, M - e) r b + ∑ q ∈ Ioc (M - e) M, serviceIn σ (i, q) r b :=
          sum_insert (by simp)
      _ ≤ min (C i) (ρ - s) + ∑ q ∈ Ioc (M - e) M, C i :=
          Nat.add_le_add hfirst (sum_le_sum (fun q _ => hser q))
      _ = _ := by
          rw [sum_const, smul_eq_mul, Nat.card_Ioc, show M - (M - e) = e by omega, Nat.add_comm]

/-! ### The work-conserving workload bound -/

/-- Work of a task with cost `c` and period `T` in a window that starts with a
release. -/
def gwork (c T y : ℕ) : ℕ := y / T * c + min c (y % T)

theorem gwork_add (c : ℕ) {T : ℕ} (hT : 0 < T) (y : ℕ) : gwork c T (y + T) = c + gwork c T y := by
  unfold gwork
  rw [Nat.add_div_right _ hT, Nat.add_mod_right, Nat.add_mul]
  omega

theorem gwork_lt {c T y : ℕ} (h : y < T) : gwork c T y = min c y := by
  unfold gwork
  rw [Nat.div_eq_of_lt h, Nat.mod_eq_of_lt h]; omega

theorem gwork_succ {c T : ℕ} (hT : 0 < T) (hcT : c ≤ T) (y : ℕ) :
    gwork c T y ≤ gwork c T (y + 1) ∧ gwork c T (y + 1) ≤ gwork c T y + 1 := by
  induction y using Nat.strong_induction_on with
  | _ y ih =>
    rcases Nat.lt_or_ge y T with h | h
    · rcases Nat.lt_or_ge (y + 1) T with h' | h'
      · rw [gwork_lt h, gwork_lt h']; omega
      · have : y + 1 = 0 + T := by omega
        rw [this, gwork_add c hT, gwork_lt h, gwork_lt hT]; omega
    · obtain ⟨z, rfl⟩ : ∃ z, y = z + T := ⟨y - T, by omega⟩
      have := ih z (by omega)
      rw [show z + T + 1 = (z + 1) + T by omega, gwork_add c hT, gwork_add c hT]
      omega

theorem gwork_mono {c T : ℕ} (hT : 0 < T) (hcT : c ≤ T) {x y : ℕ} (h : x ≤ y) :
    gwork c T x ≤ gwork c T y := by
  induction h with
  | refl => exact le_rfl
  | step _ ih => exact ih.trans (gwork_succ hT hcT _).1

theorem gwork_lipschitz {c T : ℕ} (hT : 0 < T) (hcT : c ≤ T) (x z : ℕ) :
    gwork c T (x + z) ≤ gwork c T x + z := by
  induction z with
  | zero => simp
  | succ z ih =>
    have := (gwork_succ hT hcT (x + z)).2
    rw [← Nat.add_assoc]; omega

theorem sum_min_le_gwork {c T : ℕ} (hT : 0 < T) (N : ℕ) : ∀ y,
    ∑ l ∈ range N, min c (y - l * T) ≤ gwork c T y := by
  induction N with
  | zero => intro y; simp
  | succ N ih =>
    intro y
    rw [sum_range_succ']
    simp only [Nat.zero_mul, Nat.sub_zero]
    rcases Nat.lt_or_ge y T with h | h
    · rw [gwork_lt h]
      have : ∑ l ∈ range N, min c (y - (l + 1) * T) = 0 := by
        apply sum_eq_zero
        intro l _
        have : T ≤ (l + 1) * T := Nat.le_mul_of_pos_left _ (by omega)
        rw [show y - (l + 1) * T = 0 by omega]; simp
      omega
    · obtain ⟨z, rfl⟩ : ∃ z, y = z + T := ⟨y - T, by omega⟩
      rw [gwork_add c hT]
      have h1 : ∑ l ∈ range N, min c (z + T - (l + 1) * T) = ∑ l ∈ range N, min c (z - l * T) := by
        apply sum_congr rfl
        intro l _
        rw [Nat.add_mul, Nat.one_mul, Nat.add_sub_add_right]
      rw [h1]
      have := ih z
      omega

/-- Workload of a task under any work-conserving schedule, if its jobs finish
within `E` of their release. -/
theorem wc_work (hs : w.Sporadic C T) (hv : ValidSchedule m w σ) {E : Fin n → ℕ} {i : Fin n}
    (hT : 0 < T i) (hCT : C i ≤ T i) (hCE : C i ≤ E i) {p r R : ℕ}
    (h : BoundedBefore w σ E (r + R)) :
    intf σ prio p i r (r + R) ≤ gwork (C i) (T i) (R + E i - C i) := by
  classical
  set K := (range (r + R)).filter (fun q => 0 < serviceIn σ (i, q) r (r + R)) with hK
  have hle : intf σ prio p i r (r + R) ≤ ∑ q ∈ K, serviceIn σ (i, q) r (r + R) := by
    apply intf_le_sum
    intro q t h1 h2 h3 _
    rw [hK, mem_filter, mem_range]
    refine ⟨?_, ?_⟩
    · have := le_release hs i hT q
      have := (hv.ready t _ h3).1.1
      omega
    · unfold serviceIn
      rw [card_pos]
      exact ⟨t, by rw [mem_filter, mem_Ico]; exact ⟨⟨h1, h2⟩, h3⟩⟩
  refine hle.trans ?_
  rcases K.eq_empty_or_nonempty with he | hne
  · rw [he]; simp
  set q0 := K.min' hne with hq0
  have hq0K := K.min'_mem hne
  have hser : ∀ q, serviceIn σ (i, q) r (r + R) ≤ C i := fun q =>
    (serviceIn_le_exec hv _ _ _).trans (hs.wcet i q)
  have hbd : ∀ q, serviceIn σ (i, q) r (r + R) ≤ w.release (i, q) + E i - r := fun q =>
    serviceIn_le_bound hv h (i, q)
  have hrel : ∀ q, serviceIn σ (i, q) r (r + R) ≤ r + R - w.release (i, q) := by
    intro q
    rcases le_total (w.release (i, q)) r with h1 | h1
    · have := serviceIn_le_length σ (i, q) r (r + R); omega
    · rcases le_total (w.release (i, q)) (r + R) with h2 | h2
      · rw [serviceIn_split σ (i, q) h1 h2, serviceIn_eq_zero_of_release hv _ le_rfl]
        have := serviceIn_le_length σ (i, q) (w.release (i, q)) (r + R)
        omega
      · rw [serviceIn_eq_zero_of_release hv _ h2]; omega
  set a0 := w.release (i, q0) with ha0
  have hx := hbd q0
  have hx0 := (mem_filter.1 hq0K).2
  rw [← hq0] at hx0
  have hlen0 := serviceIn_le_length σ (i, q0) r (r + R)
  -- all jobs are q0 + l
  have hsub : K ⊆ (range (r + R)).image (fun l => q0 + l) := by
    intro q hq
    have h1 := K.min'_le q hq
    rw [mem_image]
    refine ⟨q - q0, ?_, by omega⟩
    have := (mem_filter.1 hq).1
    rw [mem_range] at this ⊢; omega
  obtain ⟨N, hN⟩ : ∃ N, r + R = N + 1 := ⟨r + R - 1, by
    have := (mem_filter.1 hq0K).1
    rw [mem_range] at this; omega⟩
  have hsum : ∑ q ∈ K, serviceIn σ (i, q) r (r + R) ≤ serviceIn σ (i, q0) r (r + R) +
      ∑ l ∈ range N, min (C i) (r + R - a0 - (l + 1) * T i) := by
    refine (sum_le_sum_of_subset hsub).trans ?_
    rw [sum_image (by intro x _ y _ hxy; simpa using hxy), hN, sum_range_succ', Nat.add_comm]
    simp only [Nat.add_zero]
    rw [← hN]
    apply Nat.add_le_add_left
    apply sum_le_sum
    intro l _
    refine le_min (hser _) ?_
    have h1 := hrel (q0 + (l + 1))
    have h2 := release_add hs i q0 (l + 1)
    omega
  refine hsum.trans ?_
  set ℓ := r + R - a0 with hℓ
  set L := R + E i - C i with hL
  by_cases hcase : a0 + E i - r ≥ C i
  · -- the first job may execute entirely
    have h1 : serviceIn σ (i, q0) r (r + R) ≤ min (C i) (ℓ - 0 * T i) := by
      have := hrel q0; have := hser q0; omega
    have h2 := sum_min_le_gwork (c := C i) hT (N + 1) ℓ
    rw [sum_range_succ'] at h2
    have h3 := gwork_mono hT hCT (show ℓ ≤ L by omega)
    omega
  · have h1 : ∑ l ∈ range N, min (C i) (ℓ - (l + 1) * T i) ≤ gwork (C i) (T i) (ℓ - T i) := by
      refine le_trans (le_of_eq ?_) (sum_min_le_gwork hT N (ℓ - T i))
      apply sum_congr rfl
      intro l _
      rw [Nat.add_mul, Nat.one_mul]
      congr 1
      omega
    rcases Nat.lt_or_ge L (T i) with hLT | hLT
    · rw [gwork_lt hLT]
      rw [gwork_lt (show ℓ - T i < T i by omega)] at h1
      omega
    · obtain ⟨z, hz⟩ : ∃ z, L = z + T i := ⟨L - T i, by omega⟩
      rw [hz, gwork_add (C i) hT]
      have h2 := gwork_lipschitz hT hCT z (C i - (a0 + E i - r))
      have h3 : ℓ - T i ≤ z + (C i - (a0 + E i - r)) := by omega
      have h4 := gwork_mono hT hCT h3
      omega

/-! ### Slack-based induction -/

/-- Jobs of `k` finish within `R` of their release, if all bounds `E` that end
earlier hold. -/
def StepOK (m : ℕ) (C T : Fin n → ℕ) (P : Workload n → Job n → ℕ) (E : Fin n → ℕ) (k : Fin n) (R : ℕ) : Prop :=
  ∀ (w : Workload n) (σ : Schedule n), w.Sporadic C T → ValidSchedule m w σ →
    PriorityDriven m w (P w) σ → ∀ q, BoundedBefore w σ E (w.release (k, q) + R) →
    Completed w σ (k, q) (w.release (k, q) + R)

/-- Vectors of response-time bounds that an iterative analysis can justify,
starting from the deadlines. -/
inductive Justified (m : ℕ) (C T : Fin n → ℕ) (P : Workload n → Job n → ℕ) (D : Fin n → ℕ) :
    (Fin n → ℕ) → Prop
  | init : Justified m C T P D D
  | step {E : Fin n → ℕ} {k : Fin n} {R : ℕ} : Justified m C T P D E → StepOK m C T P E k R →
      Justified m C T P D (Function.update E k R)

variable {P : Workload n → Job n → ℕ}

theorem Justified.bounded {E : Fin n → ℕ} (hJ : Justified m C T P D E) (hs : w.Sporadic C T)
    (hv : ValidSchedule m w σ) (hp : PriorityDriven m w (P w) σ) {d : ℕ} (h : BoundedBefore w σ D d) :
    BoundedBefore w σ E d := by
  induction hJ with
  | init => exact h
  | @step E k R _ hok ih =>
    rintro ⟨i, q⟩ hlt
    by_cases hik : i = k
    · subst hik
      simp only [Function.update_self] at hlt ⊢
      exact hok w σ hs hv hp q (ih.mono hlt.le)
    · simp only [Function.update_of_ne hik] at hlt ⊢
      exact ih (i, q) hlt

/-- If every task has a justified bound within its deadline then no deadline is
missed, and all justified bounds hold. -/
theorem justified_sound (hall : ∀ k, ∃ E R, Justified m C T P D E ∧ StepOK m C T P E k R ∧ R ≤ D k)
    (hs : w.Sporadic C T) (hv : ValidSchedule m w σ) (hp : PriorityDriven m w (P w) σ) :
    MeetsDeadlines w D σ ∧
    ∀ E, Justified m C T P D E → ∀ j : Job n, Completed w σ j (w.release j + E j.1) := by
  have key : ∀ d, BoundedBefore w σ D d := by
    intro d
    induction d with
    | zero => intro j hj; omega
    | succ d ih =>
      rintro ⟨k, q⟩ hlt
      by_cases hd : w.release (k, q) + D k < d
      · exact ih (k, q) hd
      · obtain ⟨E, R, hE, hok, hR⟩ := hall k
        have hb := hE.bounded hs hv hp ih
        simp only at hlt hd ⊢
        exact (hok w σ hs hv hp q (hb.mono (by omega))).mono (by omega)
  refine ⟨fun j => key _ j (Nat.lt_succ_self _), fun E hE j => ?_⟩
  exact hE.bounded hs hv hp (key (w.release j + E j.1 + 1)) j (Nat.lt_succ_self _)

end Verif.Spec
