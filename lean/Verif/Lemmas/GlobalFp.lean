/-
Global fixed-priority scheduling: the arguments behind the response-time bounds
of Bertogna and Cirinei (with blocking) and of Guan et al.
-/
import Verif.Spec.GlobalFp
import Verif.Lemmas.Bar
import Mathlib.Tactic.IntervalCases

namespace Verif.Spec
open Finset

variable {n m : ℕ} {C T : Fin n → ℕ} {w : Workload n} {σ : Schedule n}

open Classical in
/-- Number of slots in `[a, b)` in which task `i` executes. -/
noncomputable def busySlots (σ : Schedule n) (i : Fin n) (a b : ℕ) : ℕ :=
  ((Ico a b).filter (fun s => ∃ q, (i, q) ∈ σ s)).card

theorem busySlots_eq_intf (i : Fin n) (a b : ℕ) :
    busySlots σ i a b = intf σ (fun _ => 0) 0 i a b := by
  classical
  unfold busySlots intf
  congr 1
  apply filter_congr
  intro s _
  simp

open Classical in
/-- The jobs of a slot belong to different tasks. -/
theorem card_slot (hv : ValidSchedule m w σ) (s : ℕ) (A : Finset (Fin n)) :
    ((σ s).filter (fun j => j.1 ∈ A)).card =
      (A.filter (fun i => ∃ q, (i, q) ∈ σ s)).card := by
  classical
  apply card_bij (fun j _ => j.1)
  · intro j hj
    rw [mem_filter] at hj ⊢
    exact ⟨hj.2, j.2, hj.1⟩
  · rintro ⟨i, l⟩ hj ⟨i', l'⟩ hj' h
    simp only at h
    subst h
    rw [ready_unique (hv.ready s _ (mem_filter.1 hj).1) (hv.ready s _ (mem_filter.1 hj').1)]
  · intro i hi
    rw [mem_filter] at hi
    obtain ⟨hi, l, hl⟩ := hi
    exact ⟨(i, l), mem_filter.2 ⟨hl, hi⟩, rfl⟩

open Classical in
/-- Total execution of the tasks in `A` over a set of slots. -/
theorem sum_card_slots (hv : ValidSchedule m w σ) (A : Finset (Fin n)) (X : Finset ℕ) {a b : ℕ}
    (hX : X ⊆ Ico a b) :
    ∑ s ∈ X, ((σ s).filter (fun j => j.1 ∈ A)).card ≤
      ∑ i ∈ A, min X.card (busySlots σ i a b) := by
  classical
  calc ∑ s ∈ X, ((σ s).filter (fun j => j.1 ∈ A)).card
      = ∑ s ∈ X, ∑ i ∈ A, (if ∃ q, (i, q) ∈ σ s then 1 else 0) := by
        apply sum_congr rfl
        intro s _
        rw [card_slot hv, card_filter]
    _ = ∑ i ∈ A, ∑ s ∈ X, (if ∃ q, (i, q) ∈ σ s then 1 else 0) := sum_comm
    _ ≤ _ := by
        apply sum_le_sum
        intro i _
        rw [← card_filter]
        apply le_min
        · exact card_filter_le _ _
        · unfold busySlots
          exact card_le_card (filter_subset_filter _ hX)

/-- Slots in a window that do not serve an unfinished job. -/
theorem unserved (σ : Schedule n) {j : Job n} {a R c : ℕ}
    (hc : w.exec j ≤ c) (hinc : ¬ Completed w σ j (a + R)) :
    R + 1 ≤ ((Ico a (a + R)).filter (fun s => j ∉ σ s)).card + c := by
  classical
  have h1 : ((Ico a (a + R)).filter (fun s => j ∉ σ s)).card + serviceIn σ j a (a + R) = R := by
    unfold serviceIn
    have := card_filter_add_card_filter_not (s := Ico a (a + R)) (fun s => j ∈ σ s)
    simp only [Nat.card_Ico, Nat.add_sub_cancel_left] at this
    omega
  have h2 : serviceIn σ j a (a + R) < w.exec j := by
    unfold Completed at hinc
    have := service_add σ j (show a ≤ a + R by omega)
    omega
  omega

theorem pred_done (hs : w.Sporadic C T) {k : Fin n} {q R : ℕ} (hRT : R ≤ T k)
    (h : ∀ l < q, Completed w σ (k, l) (w.release (k, l) + R)) :
    ∀ l < q, Completed w σ (k, l) (w.release (k, q)) := by
  intro l hl
  have h1 := hs.separated k l
  have h2 := release_mono hs k (show l + 1 ≤ q from hl)
  exact (h l hl).mono (by omega)

/-- Work of a task whose jobs meet their bound. -/
theorem wc_busy (hs : w.Sporadic C T) (hv : ValidSchedule m w σ) {i : Fin n} {e : ℕ}
    (hT : 0 < T i) (hCT : C i ≤ T i) (hCE : C i ≤ e)
    (h : ∀ q, Completed w σ (i, q) (w.release (i, q) + e)) (a R : ℕ) :
    busySlots σ i a (a + R) ≤ gwork (C i) (T i) (R + e - C i) := by
  classical
  rw [busySlots_eq_intf]
  have := wc_work (prio := fun _ => 0) (p := 0) (E := fun j => if j = i then e else a + R) hs hv
    (i := i) hT hCT (by simpa using hCE) (r := a) (R := R) (by
      rintro ⟨j, q⟩ hj
      by_cases hji : j = i
      · subst hji; simpa using h q
      · simp only [if_neg hji] at hj; omega)
  simpa using this

section Blocking
variable {L H : Fin n → ℕ} {low high : Job n → ℕ → Prop}

/-- A job with fewer than `m` higher-priority tasks is only delayed by blocking. -/
theorem top_step (hb : BlockedFp m C T L H w σ low high) {k : Fin n} (hk : k.1 < m) {q R : ℕ}
    (hpred : ∀ l < q, Completed w σ (k, l) (w.release (k, q)))
    (hR : C k + L k + H k ≤ R) : Completed w σ (k, q) (w.release (k, q) + R) := by
  classical
  by_contra hinc
  have h1 := unserved σ (hb.sporadic.wcet k q) hinc
  set r := w.release (k, q) with hr
  set X := (Ico r (r + R)).filter (fun s => (k, q) ∉ σ s) with hX
  have hsub : X ⊆ (range (r + R)).filter (low (k, q)) ∪ (range (r + R)).filter (high (k, q)) := by
    intro s hs
    rw [hX, mem_filter, mem_Ico] at hs
    have hready : Ready w σ (k, q) s :=
      ⟨⟨hs.1.1, fun h => hinc (h.mono (by omega))⟩, fun l hl => (hpred l hl).mono hs.1.1⟩
    rw [mem_union, mem_filter, mem_filter, mem_range]
    rcases hb.waits s _ hready hs.2 with h | h | ⟨h2, h3⟩
    · exact Or.inl ⟨hs.1.2, h⟩
    · exact Or.inr ⟨hs.1.2, h⟩
    · exfalso
      have h4 := card_slot hb.valid s (univ.filter (fun i => i < k))
      have h5 : (σ s).filter (fun j => j.1 ∈ univ.filter (fun i => i < k)) = σ s := by
        apply filter_true_of_mem
        intro j hj
        simpa using h3 j hj
      rw [h5, h2] at h4
      have h6 : ((univ.filter (fun i => i < k)).filter (fun i => ∃ q, (i, q) ∈ σ s)).card ≤ k.1 := by
        refine (card_filter_le _ _).trans ?_
        have : (univ.filter (fun i : Fin n => i < k)) = Iio k := by ext; simp
        rw [this, Fin.card_Iio]
      omega
  have h2 := (card_le_card hsub).trans (card_union_le _ _)
  have h3 := hb.low_le (k, q) (r + R)
  have h4 := hb.high_le (k, q) (r + R)
  simp only at h3 h4
  omega

/-- The response-time bound with blocking. -/
theorem blocked_step (hb : BlockedFp m C T L H w σ low high) (hm : 0 < m) {k : Fin n} {q R : ℕ}
    (hpred : ∀ l < q, Completed w σ (k, l) (w.release (k, q))) (W : Fin n → ℕ)
    (hW : ∀ i < k, busySlots σ i (w.release (k, q)) (w.release (k, q) + R) ≤ W i)
    (hR : C k + L k + H k + ((∑ i ∈ univ.filter (fun i => i < k), W i) - H k) / m ≤ R) :
    Completed w σ (k, q) (w.release (k, q) + R) := by
  classical
  by_contra hinc
  have h1 := unserved σ (hb.sporadic.wcet k q) hinc
  set r := w.release (k, q) with hr
  set X := (Ico r (r + R)).filter (fun s => (k, q) ∉ σ s) with hX
  set full : ℕ → Prop := fun s => (σ s).card = m ∧ ∀ j' ∈ σ s, j'.1 < k with hfull
  set Xa := X.filter full with hXa
  set Xl := (X.filter (fun s => ¬ full s)).filter (low (k, q)) with hXl
  set Xh := (X.filter (fun s => ¬ full s)).filter (high (k, q)) with hXh
  have hready : ∀ s ∈ X, Ready w σ (k, q) s := by
    intro s hs
    rw [hX, mem_filter, mem_Ico] at hs
    exact ⟨⟨hs.1.1, fun h => hinc (h.mono (by omega))⟩, fun l hl => (hpred l hl).mono hs.1.1⟩
  have hcov : X.card ≤ Xa.card + (Xl.card + Xh.card) := by
    have hsub : X ⊆ Xa ∪ (Xl ∪ Xh) := by
      intro s hs
      by_cases hf : full s
      · exact mem_union_left _ (mem_filter.2 ⟨hs, hf⟩)
      · have hs' : s ∈ X.filter (fun s => ¬ full s) := mem_filter.2 ⟨hs, hf⟩
        rcases hb.waits s _ (hready s hs) (mem_filter.1 hs).2 with h | h | h
        · exact mem_union_right _ (mem_union_left _ (mem_filter.2 ⟨hs', h⟩))
        · exact mem_union_right _ (mem_union_right _ (mem_filter.2 ⟨hs', h⟩))
        · exact absurd h hf
    exact (card_le_card hsub).trans ((card_union_le _ _).trans
      (Nat.add_le_add_left (card_union_le _ _) _))
  have hrange : ∀ s ∈ X, s ∈ range (r + R) := fun s hs => by
    rw [hX, mem_filter, mem_Ico] at hs; exact mem_range.2 hs.1.2
  have hl : Xl.card ≤ L k := by
    refine le_trans (card_le_card ?_) (hb.low_le (k, q) (r + R))
    intro s hs
    obtain ⟨hs1, hs2⟩ := mem_filter.1 hs
    exact mem_filter.2 ⟨hrange s (mem_filter.1 hs1).1, hs2⟩
  have hh : Xh.card ≤ H k := by
    refine le_trans (card_le_card ?_) (hb.high_le (k, q) (r + R))
    intro s hs
    obtain ⟨hs1, hs2⟩ := mem_filter.1 hs
    exact mem_filter.2 ⟨hrange s (mem_filter.1 hs1).1, hs2⟩
  -- execution of higher-priority tasks
  set A := univ.filter (fun i => i < k) with hA
  have hdisj : Disjoint Xa Xh := by
    rw [disjoint_left]
    intro s h1 h2
    exact (mem_filter.1 (mem_filter.1 h2).1).2 (mem_filter.1 h1).2
  have hexec : m * Xa.card + Xh.card ≤ ∑ i ∈ A, W i := by
    have hsubX : Xa ∪ Xh ⊆ Ico r (r + R) := by
      intro s hs
      rcases mem_union.1 hs with h | h
      · exact (mem_filter.1 (mem_filter.1 h).1).1
      · exact (mem_filter.1 (mem_filter.1 (mem_filter.1 h).1).1).1
    have h2 := sum_card_slots hb.valid A (Xa ∪ Xh) hsubX
    rw [sum_union hdisj] at h2
    have h3 : ∑ s ∈ Xa, ((σ s).filter (fun j => j.1 ∈ A)).card = m * Xa.card := by
      rw [sum_congr rfl (g := fun _ => m), sum_const, smul_eq_mul, Nat.mul_comm]
      intro s hs
      obtain ⟨h4, h5⟩ := (mem_filter.1 hs).2
      rw [filter_true_of_mem, h4]
      intro j hj
      rw [hA, mem_filter]
      exact ⟨mem_univ _, h5 j hj⟩
    have h4 : Xh.card ≤ ∑ s ∈ Xh, ((σ s).filter (fun j => j.1 ∈ A)).card := by
      rw [card_eq_sum_ones]
      apply sum_le_sum
      intro s hs
      obtain ⟨j', hj', hlt⟩ := hb.high_exec s _ (mem_filter.1 hs).2
      rw [Nat.one_le_iff_ne_zero, ← Nat.pos_iff_ne_zero, card_pos]
      refine ⟨j', mem_filter.2 ⟨hj', ?_⟩⟩
      rw [hA, mem_filter]
      exact ⟨mem_univ _, hlt⟩
    have h5 : ∑ i ∈ A, min (Xa ∪ Xh).card (busySlots σ i r (r + R)) ≤ ∑ i ∈ A, W i := by
      apply sum_le_sum
      intro i hi
      exact (min_le_right _ _).trans (hW i (mem_filter.1 hi).2)
    omega
  generalize (∑ i ∈ A, W i) = I at *
  -- a ≤ (I - h) / m, and `h + (I - h) / m` grows with `h`
  have ha : Xa.card ≤ (I - Xh.card) / m := by
    rw [Nat.le_div_iff_mul_le hm, Nat.mul_comm]; omega
  have hgrow : Xh.card + (I - Xh.card) / m ≤ H k + (I - H k) / m := by
    obtain ⟨d, hd⟩ := Nat.exists_eq_add_of_le hh
    rw [hd]
    have h2 : (I - Xh.card) / m ≤ (I - (Xh.card + d) + d * m) / m := by
      apply Nat.div_le_div_right
      have : d ≤ d * m := Nat.le_mul_of_pos_right _ hm
      omega
    rw [Nat.add_mul_div_right _ _ hm] at h2
    omega
  omega

end Blocking

/-! ### Limited carry-in -/

/-- Work in a window of length `x` of a task whose job is unfinished at the start,
but has executed before, and meets the bound `e`. -/
def ciWork (c T e x : ℕ) : ℕ :=
  (x - c) / T * c + c + min ((x - c) % T - (T - e)) (c - 1)

theorem ci_arith {c T e x δ c0 : ℕ} (hT : 0 < T) (hce : c ≤ e) (heT : e ≤ T)
    (h0 : c0 ≤ c - 1) (h1 : c0 = 0 ∨ c0 + T ≤ δ + e) :
    c0 + gwork c T (x - δ) ≤ ciWork c T e x := by
  have hcT : c ≤ T := hce.trans heT
  unfold ciWork
  rcases Nat.lt_or_ge x c with hx | hx
  · have e0 : x - c = 0 := by omega
    rw [e0, Nat.zero_div, Nat.zero_mod, gwork_lt (by omega)]
    omega
  · have hdm := Nat.div_add_mod (x - c) T
    have hml := Nat.mod_lt (x - c) hT
    generalize (x - c) / T = a at *
    generalize (x - c) % T = b at *
    have haT : gwork c T (a * T) = a * c := by
      unfold gwork
      rw [Nat.mul_div_cancel _ hT, Nat.mul_mod_left]; simp
    have hmul : ∀ y, gwork c T (a * T + y) = a * c + gwork c T y := by
      intro y
      unfold gwork
      rw [Nat.add_comm (a * T) y, Nat.add_mul_div_right _ _ hT, Nat.add_mul_mod_self_right]
      ring
    have hxe : x = a * T + (b + c) := by rw [Nat.mul_comm] at hdm; omega
    rcases Nat.lt_or_ge b δ with hδ | hδ
    · rcases Nat.lt_or_ge c (δ - b) with h2 | h2
      · have h3 := gwork_mono hT hcT (show x - δ ≤ a * T by omega)
        rw [haT] at h3
        omega
      · rw [show x - δ = a * T + (b + c - δ) by omega, hmul, gwork]
        rcases Nat.lt_or_ge (b + c - δ) T with h4 | h4
        · rw [Nat.div_eq_of_lt h4, Nat.mod_eq_of_lt h4]
          omega
        · omega
    · rw [show x - δ = a * T + (b + c - δ) by omega, hmul]
      rcases Nat.lt_or_ge (b + c - δ) T with h4 | h4
      · rw [gwork_lt h4]; omega
      · obtain ⟨z, hz⟩ : ∃ z, b + c - δ = z + T := ⟨b + c - δ - T, by omega⟩
        rw [hz, gwork_add c hT, gwork_lt (by omega)]
        omega

theorem gwork_le_ciWork {c T e x : ℕ} (hT : 0 < T) (hce : c ≤ e) (heT : e ≤ T) :
    gwork c T x ≤ ciWork c T e x := by
  have := ci_arith (x := x) (δ := 0) (c0 := 0) hT hce heT (Nat.zero_le _) (Or.inl rfl)
  simpa using this

theorem ciWork_mono {c T e x y : ℕ} (hT : 0 < T) (h : x ≤ y) :
    ciWork c T e x ≤ ciWork c T e y := by
  unfold ciWork
  have h1 : x - c ≤ y - c := by omega
  generalize x - c = u at *
  generalize y - c = v at *
  have hd := Nat.div_le_div_right (c := T) h1
  rcases Nat.eq_or_lt_of_le hd with he | hlt
  · rw [he]
    have e1 := Nat.div_add_mod u T
    have e2 := Nat.div_add_mod v T
    rw [he] at e1
    have : u % T ≤ v % T := by omega
    omega
  · have : (u / T + 1) * c ≤ v / T * c := Nat.mul_le_mul_right _ hlt
    rw [Nat.add_mul] at this
    omega

/-- Work of a task in a window, if only job `q0` and later ones execute in it. -/
theorem busy_from (hs : w.Sporadic C T) (hv : ValidSchedule m w σ) {i : Fin n} (hT : 0 < T i)
    {q0 a b : ℕ} (hq : ∀ q s, a ≤ s → s < b → (i, q) ∈ σ s → q0 ≤ q) :
    busySlots σ i a b ≤ serviceIn σ (i, q0) a b +
      gwork (C i) (T i) (b - (w.release (i, q0) + T i)) := by
  classical
  have hser : ∀ q, serviceIn σ (i, q) a b ≤ C i := fun q =>
    (serviceIn_le_exec hv _ _ _).trans (hs.wcet i q)
  have hrel : ∀ q, serviceIn σ (i, q) a b ≤ b - w.release (i, q) := by
    intro q
    unfold serviceIn
    refine le_trans (card_le_card (t := Ico (w.release (i, q)) b) ?_) (by simp)
    intro s hs'
    rw [mem_filter, mem_Ico] at hs'
    rw [mem_Ico]
    exact ⟨(hv.ready s _ hs'.2).1.1, hs'.1.2⟩
  rw [busySlots_eq_intf]
  have h1 := intf_le_sum (σ := σ) (prio := fun _ => 0) 0 i a b (image (fun l => q0 + l) (range (b + 1)))
    (by
      intro q s h1 h2 h3 _
      rw [mem_image]
      refine ⟨q - q0, ?_, by have := hq q s h1 h2 h3; omega⟩
      have := le_release hs i hT q
      have := (hv.ready s _ h3).1.1
      rw [mem_range]; omega)
  refine h1.trans ?_
  rw [sum_image (by intro x _ y _ hxy; simpa using hxy), sum_range_succ', Nat.add_comm]
  simp only [Nat.add_zero]
  apply Nat.add_le_add_left
  refine le_trans (sum_le_sum (g := fun l => min (C i) (b - (w.release (i, q0) + T i) - l * T i)) ?_)
    (sum_min_le_gwork hT b _)
  intro l _
  refine le_min (hser _) ?_
  have h3 := hrel (q0 + (l + 1))
  have h4 := release_add hs i q0 (l + 1)
  rw [Nat.add_mul, Nat.one_mul] at h4
  omega

/-- Work of a task without unfinished job at the start of the window. -/
theorem fresh_busy (hs : w.Sporadic C T) (hv : ValidSchedule m w σ) {i : Fin n} (hT : 0 < T i)
    (hCT : C i ≤ T i) {a x : ℕ}
    (h : ∀ q, w.release (i, q) < a → Completed w σ (i, q) a) :
    busySlots σ i a (a + x) ≤ gwork (C i) (T i) x := by
  classical
  by_cases hex : ∃ q, a ≤ w.release (i, q)
  · set q0 := Nat.find hex with hq0
    have h0 := Nat.find_spec hex
    rw [← hq0] at h0
    have hq : ∀ q s, a ≤ s → s < a + x → (i, q) ∈ σ s → q0 ≤ q := by
      intro q s h1 h2 h3
      by_contra hc
      have h4 := Nat.find_min hex (m := q) (by omega)
      exact (hv.ready s _ h3).1.2 ((h q (by omega)).mono h1)
    have h1 := busy_from hs hv hT hq
    have h2 : serviceIn σ (i, q0) a (a + x) ≤ min (C i) (a + x - w.release (i, q0)) := by
      apply le_min
      · exact (serviceIn_le_exec hv _ _ _).trans (hs.wcet i _)
      · unfold serviceIn
        refine le_trans (card_le_card (t := Ico (w.release (i, q0)) (a + x)) ?_) (by simp)
        intro s hs'
        rw [mem_filter, mem_Ico] at hs'
        rw [mem_Ico]
        exact ⟨(hv.ready s _ hs'.2).1.1, hs'.1.2⟩
    have h3 : min (C i) (a + x - w.release (i, q0)) +
        gwork (C i) (T i) (a + x - (w.release (i, q0) + T i)) ≤
        gwork (C i) (T i) (a + x - w.release (i, q0)) := by
      rcases Nat.lt_or_ge (a + x - w.release (i, q0)) (T i) with hlt | hge
      · rw [gwork_lt hlt, show a + x - (w.release (i, q0) + T i) = 0 by omega, gwork_lt hT]
        omega
      · obtain ⟨z, hz⟩ : ∃ z, a + x - w.release (i, q0) = z + T i :=
          ⟨a + x - w.release (i, q0) - T i, by omega⟩
        rw [hz, gwork_add (C i) hT, show a + x - (w.release (i, q0) + T i) = z by omega]
        omega
    have h4 := gwork_mono hT hCT (show a + x - w.release (i, q0) ≤ x by omega)
    omega
  · push Not at hex
    have : busySlots σ i a (a + x) = 0 := by
      unfold busySlots
      rw [card_eq_zero, filter_eq_empty_iff]
      rintro s hs' ⟨q, hq⟩
      rw [mem_Ico] at hs'
      exact (hv.ready s _ hq).1.2 ((h q (hex q)).mono hs'.1)
    omega

/-- Work of a task with an unfinished job that has executed before the window. -/
theorem carry_busy (hs : w.Sporadic C T) (hv : ValidSchedule m w σ) {i : Fin n} (hT : 0 < T i)
    {e : ℕ} (hCe : C i ≤ e) (heT : e ≤ T i) {p a x : ℕ}
    (hprev : ∀ q < p, Completed w σ (i, q) a)
    (hserv : 0 < service σ (i, p) a) (hcomp : Completed w σ (i, p) (w.release (i, p) + e))
    (hinc : ¬ Completed w σ (i, p) a) :
    busySlots σ i a (a + x) ≤ ciWork (C i) (T i) e x := by
  classical
  have hq : ∀ q s, a ≤ s → s < a + x → (i, q) ∈ σ s → p ≤ q := by
    intro q s h1 h2 h3
    by_contra hc
    exact (hv.ready s _ h3).1.2 ((hprev q (by omega)).mono h1)
  have h1 := busy_from hs hv hT hq
  have hae : a < w.release (i, p) + e := by
    by_contra hc
    exact hinc (hcomp.mono (by omega))
  have h2 : serviceIn σ (i, p) a (a + x) ≤ C i - 1 := by
    have h3 := service_add σ (i, p) (show a ≤ a + x by omega)
    have h4 := service_le_exec hv (i, p) (a + x)
    have h5 := hs.wcet i p
    omega
  have h3 : serviceIn σ (i, p) a (a + x) ≤ w.release (i, p) + e - a := by
    rcases Nat.lt_or_ge (a + x) (w.release (i, p) + e) with h | h
    · have := serviceIn_le_length σ (i, p) a (a + x); omega
    · rw [serviceIn_split σ (i, p) hae.le h, serviceIn_eq_zero hv _ hcomp]
      have := serviceIn_le_length σ (i, p) a (w.release (i, p) + e)
      omega
  have h4 := ci_arith (x := x) (δ := w.release (i, p) + T i - a)
    (c0 := serviceIn σ (i, p) a (a + x)) hT hCe heT h2 (by right; omega)
  rw [show x - (w.release (i, p) + T i - a) = a + x - (w.release (i, p) + T i) by omega] at h4
  omega

/-- The response-time bound with limited carry-in. -/
theorem guan_step (hs : w.Sporadic C T) (hv : ValidSchedule m w σ) (hp : GlobalFp m w σ)
    (hm : 0 < m) {k : Fin n} {q x : ℕ} {E : Fin n → ℕ}
    (hpred : ∀ l < q, Completed w σ (k, l) (w.release (k, q)))
    (hT : ∀ i < k, 0 < T i) (hCE : ∀ i < k, C i ≤ E i) (hET : ∀ i < k, E i ≤ T i)
    (hE : ∀ i < k, ∀ p, Completed w σ (i, p) (w.release (i, p) + E i))
    (hCx : C k ≤ x)
    (hx : ∀ S : Finset (Fin n), (∀ i ∈ S, i < k) → S.card + 1 ≤ m →
      C k + (∑ i ∈ univ.filter (fun i => i < k), min (if i ∈ S then ciWork (C i) (T i) (E i) x
        else gwork (C i) (T i) x) (x - C k + 1)) / m ≤ x) :
    Completed w σ (k, q) (w.release (k, q) + x) := by
  classical
  by_contra hinc
  set r := w.release (k, q) with hr
  set busy : ℕ → Prop := fun s => (σ s).card = m ∧ ∀ j ∈ σ s, j.1 < k with hbusy
  have hexT : ∃ t, t ≤ r ∧ ∀ s, t ≤ s → s < r → busy s :=
    ⟨r, le_rfl, fun s h1 h2 => absurd h2 (by omega)⟩
  set t0 := Nat.find hexT with ht0
  obtain ⟨ht0r, hbusy0⟩ := Nat.find_spec hexT
  rw [← ht0] at ht0r hbusy0
  have hnot : 0 < t0 → ¬ busy (t0 - 1) := by
    intro h0 hb
    have := Nat.find_min' hexT (m := t0 - 1) ⟨by omega, fun s h1 h2 => ?_⟩
    · omega
    · rcases Nat.lt_or_ge s t0 with h | h
      · rw [show s = t0 - 1 by omega]; exact hb
      · exact hbusy0 s h h2
  set A := univ.filter (fun i => i < k) with hA
  let S : Finset (Fin n) := A.filter (fun i => ∃ p, w.release (i, p) < t0 ∧ ¬ Completed w σ (i, p) t0)
  -- jobs with carry-in execute just before the window
  have hcarry : ∀ i ∈ S, ∃ p, (i, p) ∈ σ (t0 - 1) ∧ 0 < t0 ∧ ¬ Completed w σ (i, p) t0 ∧
      ∀ q < p, Completed w σ (i, q) t0 := by
    intro i hi
    obtain ⟨hiA, p, h1, h2⟩ := mem_filter.1 hi
    have hik := (mem_filter.1 hiA).2
    have h0 : 0 < t0 := by omega
    obtain ⟨p', hp', hready⟩ := exists_ready_le (t := t0 - 1) hs (show w.release (i, p) ≤ t0 - 1 by omega)
      (fun hc => h2 (hc.mono (by omega)))
    have hpp : p' = p := by
      by_contra hne
      have h3 := hs.separated i p'
      have h4 := release_mono hs i (show p' + 1 ≤ p by omega)
      exact hready.1.2 ((hE i hik p').mono (by have := hET i hik; omega))
    subst hpp
    refine ⟨p', ?_, h0, h2, fun q hq => (hready.2 q hq).mono (by omega)⟩
    by_contra hns
    obtain ⟨h3, h4⟩ := hp (t0 - 1) _ hready hns
    exact hnot h0 ⟨h3, fun j hj => lt_of_le_of_lt (h4 j hj) hik⟩
  have hScard : S.card + 1 ≤ m := by
    rcases Nat.eq_zero_or_pos t0 with h0 | h0
    · have : S = ∅ := by
        apply filter_eq_empty_iff.2
        rintro i _ ⟨p, h, _⟩
        omega
      rw [this]; simp; omega
    · by_contra hc
      apply hnot h0
      have h1 : S.card ≤ ((σ (t0 - 1)).filter (fun j => j.1 ∈ S)).card := by
        rw [card_slot hv]
        apply card_le_card
        intro i hi
        obtain ⟨p, hp', _⟩ := hcarry i hi
        exact mem_filter.2 ⟨hi, p, hp'⟩
      have h2 := hv.procs (t0 - 1)
      have h3 := card_filter_le (σ (t0 - 1)) (fun j => j.1 ∈ S)
      have h4 : (σ (t0 - 1)).filter (fun j => j.1 ∈ S) = σ (t0 - 1) :=
        eq_of_subset_of_card_le (filter_subset _ _) (by omega)
      refine ⟨by omega, fun j hj => ?_⟩
      rw [← h4] at hj
      exact (mem_filter.1 (mem_filter.1 (mem_filter.1 hj).2).1).2
  -- all processors are busy whenever the job is not served
  have hinc' : ¬ Completed w σ (k, q) (t0 + x) := fun hc => hinc (hc.mono (by omega))
  have h1 := unserved σ (hs.wcet k q) hinc'
  set X := (Ico t0 (t0 + x)).filter (fun s => (k, q) ∉ σ s) with hX
  have hfull : ∀ s ∈ X, busy s := by
    intro s hs'
    rw [hX, mem_filter, mem_Ico] at hs'
    rcases Nat.lt_or_ge s r with hlt | hge
    · exact hbusy0 s hs'.1.1 hlt
    · have hready : Ready w σ (k, q) s :=
        ⟨⟨hge, fun h => hinc' (h.mono (by omega))⟩, fun l hl => (hpred l hl).mono hge⟩
      obtain ⟨h3, h4⟩ := hp s _ hready hs'.2
      refine ⟨h3, fun j hj => lt_of_le_of_ne (h4 j hj) ?_⟩
      intro hjk
      obtain ⟨i, l⟩ := j
      simp only at hjk
      subst hjk
      rw [ready_unique (hv.ready s _ hj) hready] at hj
      exact hs'.2 hj
  obtain ⟨X', hX'sub, hX'card⟩ := exists_subset_card_eq (show x - C k + 1 ≤ X.card by omega)
  have h2 := sum_card_slots hv A X' (hX'sub.trans (filter_subset _ _))
  have h3 : ∑ s ∈ X', ((σ s).filter (fun j => j.1 ∈ A)).card = m * (x - C k + 1) := by
    rw [sum_congr rfl (g := fun _ => m), sum_const, smul_eq_mul, Nat.mul_comm, hX'card]
    intro s hs'
    obtain ⟨h4, h5⟩ := hfull s (hX'sub hs')
    rw [filter_true_of_mem, h4]
    intro j hj
    rw [hA, mem_filter]
    exact ⟨mem_univ _, h5 j hj⟩
  have h4 : ∑ i ∈ A, min X'.card (busySlots σ i t0 (t0 + x)) ≤
      ∑ i ∈ A, min (if i ∈ S then ciWork (C i) (T i) (E i) x else gwork (C i) (T i) x)
        (x - C k + 1) := by
    apply sum_le_sum
    intro i hi
    have hik := (mem_filter.1 hi).2
    rw [hX'card, min_comm]
    apply min_le_min_right
    split_ifs with hiS
    · obtain ⟨p, hp1, h0, hp2, hp3⟩ := hcarry i hiS
      refine carry_busy hs hv (hT i hik) (hCE i hik) (hET i hik) hp3 ?_ (hE i hik p) hp2
      have : service σ (i, p) (t0 - 1 + 1) = service σ (i, p) (t0 - 1) + 1 := by
        rw [service_succ, if_pos hp1]
      rw [show t0 - 1 + 1 = t0 by omega] at this
      omega
    · refine fresh_busy hs hv (hT i hik) ((hCE i hik).trans (hET i hik)) ?_
      intro p hp'
      by_contra hc
      exact hiS (mem_filter.2 ⟨hi, p, hp', hc⟩)
  have h5 := hx S (fun i hi => (mem_filter.1 (mem_filter.1 hi).1).2) hScard
  have h6 : (∑ i ∈ A, min (if i ∈ S then ciWork (C i) (T i) (E i) x else gwork (C i) (T i) x)
        (x - C k + 1)) / m < x - C k + 1 := by omega
  rw [Nat.div_lt_iff_lt_mul hm, Nat.mul_comm] at h6
  omega

end Verif.Spec
