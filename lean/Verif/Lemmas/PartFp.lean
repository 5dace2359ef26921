/-
The busy-window argument for one processor of a partitioned system, with a bound on the time in
which the processor serves neither the task under analysis nor one of higher priority.
-/
import Verif.Lemmas.FixedPriority

namespace Verif.Spec
open Finset

variable {n m : ℕ} {w : Workload n} {σ : Schedule n} {C T : Fin n → ℕ}

/-- Work of a task whose jobs released before `s` are finished at `s`. -/
theorem part_fresh (hs : w.Sporadic C T) (hv : ValidSchedule m w σ) (hT : ∀ i, 0 < T i) (i : Fin n) {s e : ℕ}
    (hfresh : ∀ q, w.release (i, q) < s → Completed w σ (i, q) s) :
    taskSlots σ i s e ≤ cdiv (e - s) (T i) * C i := by
  classical
  set P := (range (e + 1)).filter (fun q => s ≤ w.release (i, q) ∧ w.release (i, q) < e) with hPdef
  have h1 := taskSlots_le σ i s e P (by
    intro t ht1 ht2 q hq
    have hr := hv.ready t _ hq
    have hrel := hr.1.1
    have := le_release hs i (hT i) q
    rw [hPdef, mem_filter, mem_range]
    refine ⟨by omega, ?_, by omega⟩
    by_contra hc
    exact hr.1.2 ((hfresh q (by omega)).mono ht1))
  refine h1.trans ?_
  have h2 : ∑ q ∈ P, serviceIn σ (i, q) s e ≤ ∑ _q ∈ P, C i :=
    sum_le_sum (fun q _ => (serviceIn_le_exec hv _ _ _).trans (hs.wcet i q))
  rw [sum_const, smul_eq_mul] at h2
  refine h2.trans (Nat.mul_le_mul_right _ ?_)
  rcases P.eq_empty_or_nonempty with hP | ⟨q, hq⟩
  · rw [hP]; simp
  · have hmem : ∀ q ∈ P, s ≤ w.release (i, q) ∧ w.release (i, q) < e :=
      fun q hq => (mem_filter.1 hq).2
    have hq' := hmem q hq
    have := card_released_le hs i (hT i) P (a := s) (b := e - 1) (by
      intro q hq
      have h1 := hmem q hq
      omega) (by omega)
    refine this.trans ?_
    rw [← succ_div_eq_cdiv (hT i) (by omega)]
    have := Nat.div_le_div_right (c := T i) (show e - 1 - s ≤ e - s - 1 by omega)
    omega

/-- Work of a task whose jobs complete within `R` of their arrival. -/
theorem part_carry (hs : w.Sporadic C T) (hv : ValidSchedule m w σ) (hT : ∀ i, 0 < T i) (i : Fin n) {R s e : ℕ}
    (hCT : C i ≤ T i) (hCR : C i ≤ R)
    {H : ℕ} (he : e ≤ H)
    (hR : ∀ q, w.release (i, q) + R < H → Completed w σ (i, q) (w.release (i, q) + R)) :
    taskSlots σ i s e ≤ cdiv (e - s + (R - C i)) (T i) * C i := by
  classical
  set P := (range (e + 1)).filter (fun q => ∃ t, s ≤ t ∧ t < e ∧ (i, q) ∈ σ t) with hPdef
  have hPmem : ∀ t, s ≤ t → t < e → ∀ q, (i, q) ∈ σ t → q ∈ P := by
    intro t ht1 ht2 q hq
    have hr := hv.ready t _ hq
    have hrel := hr.1.1
    have := le_release hs i (hT i) q
    rw [hPdef, mem_filter, mem_range]
    exact ⟨by omega, t, ht1, ht2, hq⟩
  rcases P.eq_empty_or_nonempty with hP | hne
  · have h1 := taskSlots_le σ i s e P hPmem
    rw [hP, sum_empty] at h1
    omega
  · set α := P.min' hne with hα
    set β := P.max' hne with hβ
    have hαβ : α ≤ β := P.min'_le _ (P.max'_mem hne)
    have hW := taskSlots_le σ i s e (Icc α β) (fun t h1 h2 q hq =>
      mem_Icc.2 ⟨P.min'_le _ (hPmem t h1 h2 q hq), P.le_max' _ (hPmem t h1 h2 q hq)⟩)
    obtain ⟨_, t1, ht1, ht1e, hσ1⟩ := mem_filter.1 (P.min'_mem hne)
    obtain ⟨_, t2, ht2, ht2e, hσ2⟩ := mem_filter.1 (P.max'_mem hne)
    rw [← hα] at hσ1
    rw [← hβ] at hσ2
    have hserv : ∀ q, serviceIn σ (i, q) s e ≤ C i :=
      fun q => (serviceIn_le_exec hv _ _ _).trans (hs.wcet i q)
    -- the first job
    have hfirst : serviceIn σ (i, α) s e + s ≤ w.release (i, α) + R := by
      have hlt : t1 < w.release (i, α) + R := by
        by_contra hc
        exact (hv.ready t1 _ hσ1).1.2 ((hR α (by omega)).mono (by omega))
      rcases Nat.lt_or_ge (w.release (i, α) + R) e with hle | hle
      · have h1 := serviceIn_split σ (i, α) (show s ≤ w.release (i, α) + R by omega) hle.le
        have h2 := serviceIn_eq_zero hv (i, α) (b := e) (hR α (by omega))
        have h3 := serviceIn_le_length σ (i, α) s (w.release (i, α) + R)
        omega
      · have h3 := serviceIn_le_length σ (i, α) s e
        omega
    -- the last job
    have hlast : serviceIn σ (i, β) s e + w.release (i, β) ≤ e := by
      have hrel := (hv.ready t2 _ hσ2).1.1
      rcases le_total s (w.release (i, β)) with hle | hle
      · have h1 := serviceIn_split σ (i, β) hle (show w.release (i, β) ≤ e by omega)
        have h2 := serviceIn_eq_zero_of_release hv (i, β) (a := s) (b := w.release (i, β)) le_rfl
        have h3 := serviceIn_le_length σ (i, β) (w.release (i, β)) e
        omega
      · have h3 := serviceIn_le_length σ (i, β) s e
        omega
    have hpos : ∀ q t, s ≤ t → t < e → (i, q) ∈ σ t → 1 ≤ serviceIn σ (i, q) s e := by
      intro q t h1 h2 h3
      unfold serviceIn
      rw [Nat.one_le_iff_ne_zero, ← Nat.pos_iff_ne_zero, card_pos]
      exact ⟨t, by rw [mem_filter, mem_Ico]; exact ⟨⟨h1, h2⟩, h3⟩⟩
    have hpos1 := hpos α t1 ht1 ht1e hσ1
    have hpos2 := hpos β t2 ht2 ht2e hσ2
    have harr := Spec.release_mono hs i hαβ
    set y := cdiv (e - s + (R - C i)) (T i) with hy
    have hyT := le_cdiv_mul (e - s + (R - C i)) (hT i)
    rw [← hy] at hyT
    have hy1 : 1 ≤ y := by
      by_contra hc
      have : y = 0 := by omega
      rw [this] at hyT; omega
    by_cases hx : β - α + 1 ≤ y
    · calc taskSlots σ i s e ≤ ∑ q ∈ Icc α β, serviceIn σ (i, q) s e := hW
        _ ≤ ∑ _q ∈ Icc α β, C i := sum_le_sum (fun q _ => hserv q)
        _ = (β + 1 - α) * C i := by rw [sum_const, smul_eq_mul, Nat.card_Icc]
        _ ≤ y * C i := Nat.mul_le_mul_right _ (by omega)
    · have hlt : α < β := by omega
      obtain ⟨d, hd⟩ : ∃ d, β - α = y + d := ⟨β - α - y, by omega⟩
      have hexp : (β - α) * T i = y * T i + d * T i := by rw [hd, Nat.add_mul]
      have hd0 : d = 0 := by
        by_contra hdne
        have : 1 * T i ≤ d * T i := Nat.mul_le_mul_right _ (by omega)
        omega
      have hsum : ∑ q ∈ Icc α β, serviceIn σ (i, q) s e
          = serviceIn σ (i, α) s e + (∑ q ∈ Ioo α β, serviceIn σ (i, q) s e
            + serviceIn σ (i, β) s e) := by
        rw [← Finset.Ioc_insert_left hαβ, sum_insert (by simp), ← Finset.Ioo_insert_right hlt,
          sum_insert (by simp)]
        ring
      have hmid : ∑ q ∈ Ioo α β, serviceIn σ (i, q) s e ≤ (β - α - 1) * C i := by
        calc _ ≤ ∑ _q ∈ Ioo α β, C i := sum_le_sum (fun q _ => hserv q)
          _ = (β - α - 1) * C i := by rw [sum_const, smul_eq_mul, Nat.card_Ioo]
      have hyC : y * C i = (β - α - 1) * C i + C i := by
        have : y = (β - α - 1) + 1 := by omega
        rw [this, Nat.add_mul, Nat.one_mul]
      rw [hd0, Nat.zero_mul] at hexp
      omega

/-- A busy window of task `k` that begins at `a`, for job `q0`: there is an earlier job of `k` or of
`Z` pending at all times after `a` until job `q0` is released. -/
structure Window (w : Workload n) (σ : Schedule n) (k : Fin n) (Z : Fin n → Prop) (q0 q1 a e : ℕ) : Prop where
  start : a ≤ w.release (k, q0)
  jobs : q1 ≤ q0
  busy : ∀ y, a < y → y ≤ w.release (k, q0) → ∃ x : Job n, (x.1 = k ∨ Z x.1) ∧ w.release x < y ∧ ¬ Completed w σ x y
  incomplete : ¬ Completed w σ (k, q0) e
  own : ∀ t q, a ≤ t → t < e → Ready w σ (k, q) t → q1 ≤ q ∧ q ≤ q0

/-- In every slot of the window, some job is pending. -/
theorem Window.pending {k : Fin n} {Z : Fin n → Prop} {q0 q1 a e : ℕ} (h : Window w σ k Z q0 q1 a e) {t : ℕ}
    (h1 : a ≤ t) (h2 : t < e) : ∃ x : Job n, (x.1 = k ∨ Z x.1) ∧ Pending w σ x t := by
  by_cases hr : w.release (k, q0) ≤ t
  · exact ⟨(k, q0), Or.inl rfl, hr, fun hc => h.incomplete (hc.mono h2.le)⟩
  · obtain ⟨x, hx, h3, h4⟩ := h.busy (t + 1) (by omega) (by omega)
    exact ⟨x, hx, by omega, fun hc => h4 (hc.mono (by omega))⟩

open Classical in
/-- **The busy-window argument.**  If in every window with `M` jobs of task `k` at most `M * BS` slots serve
neither task `k` nor those in `hp`, then `W` bounds the response time. -/
theorem pfp_core (hs : w.Sporadic C T) (hv : ValidSchedule m w σ) (hT : ∀ i, 0 < T i) (k : Fin n)
    (hp : Finset (Fin n)) (Z : Fin n → Prop) (R : Fin n → ℕ) (W BS q0 : ℕ)
    (hsusp : ∀ i ∈ hp, ¬ Z i → C i ≤ T i ∧ C i ≤ R i ∧
      ∀ q, w.release (i, q) + R i < w.release (k, q0) + W → Completed w σ (i, q) (w.release (i, q) + R i))
    (hZ : ∀ i, Z i → i ∈ hp)
    (hw : BS + C k + ∑ i ∈ hp, cdiv (W + (if Z i then 0 else R i - C i)) (T i) * C i ≤ W)
    (hwT : W ≤ T k)
    (hidle : ∀ a q1, Window w σ k Z q0 q1 a (a + (q0 - q1 + 1) * W) →
      a + (q0 - q1 + 1) * W ≤ w.release (k, q0) + W →
      ((Ico a (a + (q0 - q1 + 1) * W)).filter (fun t => ∀ j ∈ σ t, j.1 ≠ k ∧ j.1 ∉ hp)).card ≤ (q0 - q1 + 1) * BS) :
    Completed w σ (k, q0) (w.release (k, q0) + W) := by
  by_contra hmiss
  let Q : ℕ → Prop := fun t => ∀ x : Job n, (x.1 = k ∨ Z x.1) →
    w.release x < t → Completed w σ x t
  have hQ0 : Q 0 := fun x _ hx => absurd hx (Nat.not_lt_zero _)
  set t0 := Nat.findGreatest Q (w.release (k, q0)) with ht0
  have hQt0 : Q t0 := Nat.findGreatest_spec (Nat.zero_le _) hQ0
  have ht0le : t0 ≤ w.release (k, q0) := Nat.findGreatest_le _
  have hex : ∃ q, t0 ≤ w.release (k, q) := ⟨q0, ht0le⟩
  set q1 := Nat.find hex with hq1
  have hq1le : q1 ≤ q0 := Nat.find_min' hex ht0le
  have hq1rel : t0 ≤ w.release (k, q1) := Nat.find_spec hex
  set M := q0 - q1 + 1 with hM
  have harr := release_mono hs k hq1le
  set e := t0 + M * W with he
  have hef : e ≤ w.release (k, q0) + W := by
    have h1 : (q0 - q1) * W ≤ (q0 - q1) * T k := Nat.mul_le_mul_left _ hwT
    have h2 : M * W = (q0 - q1) * W + W := by rw [hM, Nat.add_mul, Nat.one_mul]
    omega
  have hinc : ¬ Completed w σ (k, q0) e := fun hc => hmiss (hc.mono hef)
  have hinc' : ∀ t ≤ e, ¬ Completed w σ (k, q0) t := fun t ht hc => hinc (hc.mono ht)
  have hwin : ∀ t q, t0 ≤ t → t < e → Ready w σ (k, q) t → q1 ≤ q ∧ q ≤ q0 := by
    intro t q ht1 ht2 hact
    constructor
    · apply Nat.find_min' hex
      by_contra hc
      exact hact.1.2 ((hQt0 (k, q) (Or.inl rfl) (by omega)).mono ht1)
    · by_contra hc
      exact hinc' t ht2.le (hact.2 q0 (by simp only; omega))
  have hW : Window w σ k Z q0 q1 t0 e := by
    refine ⟨ht0le, hq1le, ?_, hinc, hwin⟩
    intro y hy1 hy2
    by_contra hno
    push Not at hno
    have := Nat.le_findGreatest (P := Q) hy2 hno
    omega
  have hI := hidle t0 q1 hW hef
  rw [← hM, ← he] at hI
  let serv : ℕ → Finset ℕ := fun q => (Ico t0 e).filter (fun t => (k, q) ∈ σ t)
  let other : Fin n → Finset ℕ := fun i => (Ico t0 e).filter (fun t => ∃ q, (i, q) ∈ σ t)
  have hcover : Ico t0 e ⊆ (Ico t0 e).filter (fun t => ∀ j ∈ σ t, j.1 ≠ k ∧ j.1 ∉ hp) ∪
      ((Icc q1 q0).biUnion serv ∪ hp.biUnion other) := by
    intro t ht
    have ht' := mem_Ico.1 ht
    by_cases hall : ∀ j ∈ σ t, j.1 ≠ k ∧ j.1 ∉ hp
    · exact mem_union_left _ (mem_filter.2 ⟨ht, hall⟩)
    · apply mem_union_right
      push Not at hall
      obtain ⟨⟨i, q⟩, hj, hi⟩ := hall
      by_cases hik : i = k
      · subst hik
        apply mem_union_left
        rw [mem_biUnion]
        exact ⟨q, mem_Icc.2 (hwin t q ht'.1 ht'.2 (hv.ready t _ hj)), mem_filter.2 ⟨ht, hj⟩⟩
      · apply mem_union_right
        rw [mem_biUnion]
        exact ⟨i, hi hik, mem_filter.2 ⟨ht, q, hj⟩⟩
  have hcard := card_le_card hcover
  rw [Nat.card_Ico] at hcard
  have hlen : e - t0 = M * W := by omega
  have hserv1 : ∀ q, (serv q).card ≤ C k := fun q =>
    (serviceIn_le_exec hv (k, q) t0 e).trans (hs.wcet k q)
  have hserv0 : (serv q0).card < C k := by
    have h1 : serviceIn σ (k, q0) t0 e ≤ service σ (k, q0) e := by
      have := service_add σ (k, q0) (show t0 ≤ e by omega)
      omega
    have h2 : service σ (k, q0) e < w.exec (k, q0) := not_le.1 hinc
    have h3 := hs.wcet k q0
    exact lt_of_le_of_lt h1 (lt_of_lt_of_le h2 h3)
  have hown : ((Icc q1 q0).biUnion serv).card < M * C k := by
    calc ((Icc q1 q0).biUnion serv).card
        ≤ ∑ q ∈ Icc q1 q0, (serv q).card := card_biUnion_le
      _ < ∑ _q ∈ Icc q1 q0, C k :=
          sum_lt_sum (fun q _ => hserv1 q) ⟨q0, mem_Icc.2 ⟨hq1le, le_rfl⟩, hserv0⟩
      _ = M * C k := by
          rw [sum_const, smul_eq_mul, Nat.card_Icc]
          congr 1
          omega
  have hother : (hp.biUnion other).card ≤ M * ∑ i ∈ hp,
      cdiv (W + (if Z i then 0 else R i - C i)) (T i) * C i := by
    rw [mul_sum]
    refine card_biUnion_le.trans (sum_le_sum ?_)
    intro i hi
    have h1 : (other i).card ≤ cdiv (M * W + (if Z i then 0 else R i - C i)) (T i) * C i := by
      rw [← hlen]
      split_ifs with hS
      · exact part_fresh hs hv hT i (fun q hq => hQt0 (i, q) (Or.inr hS) hq)
      · obtain ⟨c1, c2, c3⟩ := hsusp i hi hS
        exact part_carry hs hv hT i c1 c2 hef c3
    refine h1.trans ?_
    rw [← Nat.mul_assoc]
    exact Nat.mul_le_mul_right _ (cdiv_scale (hT i) (by omega))
  have hu1 := card_union_le ((Ico t0 e).filter (fun t => ∀ j ∈ σ t, j.1 ≠ k ∧ j.1 ∉ hp))
    ((Icc q1 q0).biUnion serv ∪ hp.biUnion other)
  have hu2 := card_union_le ((Icc q1 q0).biUnion serv) (hp.biUnion other)
  have hfin := Nat.mul_le_mul_left M hw
  rw [Nat.mul_add, Nat.mul_add] at hfin
  omega

end Verif.Spec
