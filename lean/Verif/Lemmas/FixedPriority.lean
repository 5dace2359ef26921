import Verif.Spec.FixedPriority
import Verif.Lemmas.Schedule
import Mathlib.Data.Nat.Find
import Mathlib.Algebra.Module.Defs
import Mathlib.Algebra.BigOperators.Ring.Finset

/-! The busy-window argument for uniprocessor fixed-priority scheduling. -/

namespace Verif.Spec
open Finset

/-- Ceiling division. -/
def cdiv (a b : ℕ) : ℕ := (a + b - 1) / b

theorem cdiv_le_iff {a b k : ℕ} (hb : 0 < b) : cdiv a b ≤ k ↔ a ≤ k * b := by
  unfold cdiv
  rw [← Nat.lt_succ_iff, Nat.div_lt_iff_lt_mul hb, Nat.succ_mul]
  omega

theorem le_cdiv_mul (a : ℕ) {b : ℕ} (hb : 0 < b) : a ≤ cdiv a b * b := (cdiv_le_iff hb).1 le_rfl

theorem cdiv_mono {a a' b : ℕ} (hb : 0 < b) (h : a ≤ a') : cdiv a b ≤ cdiv a' b :=
  (cdiv_le_iff hb).2 (h.trans (le_cdiv_mul a' hb))

theorem cdiv_scale {w J T q : ℕ} (hT : 0 < T) (hq : 1 ≤ q) :
    cdiv (q * w + J) T ≤ q * cdiv (w + J) T := by
  rw [cdiv_le_iff hT, Nat.mul_assoc]
  have h1 := Nat.mul_le_mul_left q (le_cdiv_mul (w + J) hT)
  have h2 : 1 * J ≤ q * J := Nat.mul_le_mul_right J hq
  rw [Nat.mul_add] at h1
  omega

theorem succ_div_eq_cdiv {a T : ℕ} (hT : 0 < T) (ha : 0 < a) : (a - 1) / T + 1 = cdiv a T := by
  unfold cdiv
  have : a + T - 1 = (a - 1) + T := by omega
  rw [this, Nat.add_div_right _ hT]

variable {n : ℕ} {b : FpBehaviour n} {p : FpParams n}

/-- Number of slots in `[s, e)` in which some job of task `i` executes. -/
noncomputable def taskSlots (σ : Schedule n) (i : Fin n) (s e : ℕ) : ℕ :=
  open Classical in ((Ico s e).filter (fun t => ∃ q, (i, q) ∈ σ t)).card

theorem taskSlots_le (σ : Schedule n) (i : Fin n) (s e : ℕ) (P : Finset ℕ)
    (hP : ∀ t, s ≤ t → t < e → ∀ q, (i, q) ∈ σ t → q ∈ P) :
    taskSlots σ i s e ≤ ∑ q ∈ P, serviceIn σ (i, q) s e := by
  classical
  unfold taskSlots serviceIn
  refine le_trans (card_le_card (t := P.biUnion (fun q => (Ico s e).filter (fun t => (i, q) ∈ σ t))) ?_)
    card_biUnion_le
  intro t ht
  rw [mem_filter] at ht
  obtain ⟨ht1, q, hq⟩ := ht
  rw [mem_biUnion]
  rw [mem_Ico] at ht1
  exact ⟨q, hP t ht1.1 ht1.2 q hq, by rw [mem_filter, mem_Ico]; exact ⟨ht1, hq⟩⟩

/-- The arrivals of a legal behaviour, as a sporadic workload. -/
theorem Legal.arrivals (h : b.Legal p) :
    (Workload.mk b.arrival b.work.exec).Sporadic p.C p.T :=
  ⟨h.separated, fun i k => h.wcet (i, k)⟩

theorem Legal.release_mono (h : b.Legal p) (i : Fin n) {k l : ℕ} (hkl : k ≤ l) :
    b.work.release (i, k) ≤ b.work.release (i, l) := by
  induction l with
  | zero => have : k = 0 := by omega
            rw [this]
  | succ l ih =>
    rcases Nat.lt_or_ge k (l + 1) with hlt | hge
    · exact (ih (by omega)).trans (h.in_order i l)
    · have : k = l + 1 := by omega
      rw [this]

theorem Legal.arrival_add (h : b.Legal p) (i : Fin n) {k l : ℕ} (hkl : k ≤ l) :
    b.arrival (i, k) + (l - k) * p.T i ≤ b.arrival (i, l) :=
  Spec.release_mono (Legal.arrivals h) i hkl

theorem Legal.index_le (h : b.Legal p) (hT : ∀ i, 0 < p.T i) (i : Fin n) (k : ℕ) :
    k ≤ b.work.release (i, k) :=
  (le_release (Legal.arrivals h) i (hT i) k).trans (h.not_early (i, k))

theorem Legal.exists_active (h : b.Legal p) {i : Fin n} {k t : ℕ}
    (hp : Pending b.work b.sched (i, k) t) : ∃ k' ≤ k, b.Active (i, k') t := by
  classical
  have hex : ∃ k', ¬ Completed b.work b.sched (i, k') t := ⟨k, hp.2⟩
  refine ⟨Nat.find hex, Nat.find_min' hex hp.2, ⟨(Legal.release_mono h i (Nat.find_min' hex hp.2)).trans hp.1,
    Nat.find_spec hex⟩, ?_⟩
  intro l hl
  by_contra hc
  exact Nat.find_min hex hl hc

/-- Work of a task whose jobs released before `s` are finished at `s`. -/
theorem fresh_work (h : b.Legal p) (hT : ∀ i, 0 < p.T i) (i : Fin n) {s e : ℕ}
    (hfresh : ∀ q, b.work.release (i, q) < s → Completed b.work b.sched (i, q) s) :
    taskSlots b.sched i s e ≤ cdiv (e - s + p.J i) (p.T i) * p.C i := by
  classical
  set P := (range (e + 1)).filter (fun q => s ≤ b.work.release (i, q) ∧ b.work.release (i, q) < e) with hPdef
  have h1 := taskSlots_le b.sched i s e P (by
    intro t ht1 ht2 q hq
    have hr := h.valid.ready t _ hq
    have hrel := hr.1.1
    have := Legal.index_le h hT i q
    rw [hPdef, mem_filter, mem_range]
    refine ⟨by omega, ?_, by omega⟩
    by_contra hc
    exact hr.1.2 ((hfresh q (by omega)).mono ht1))
  refine h1.trans ?_
  have h2 : ∑ q ∈ P, serviceIn b.sched (i, q) s e ≤ ∑ _q ∈ P, p.C i :=
    sum_le_sum (fun q _ => (serviceIn_le_exec h.valid _ _ _).trans (h.wcet (i, q)))
  rw [sum_const, smul_eq_mul] at h2
  refine h2.trans (Nat.mul_le_mul_right _ ?_)
  rcases P.eq_empty_or_nonempty with hP | ⟨q, hq⟩
  · rw [hP]; simp
  · have hmem : ∀ q ∈ P, s ≤ b.work.release (i, q) ∧ b.work.release (i, q) < e :=
      fun q hq => (mem_filter.1 hq).2
    have hq' := hmem q hq
    have := card_released_le (Legal.arrivals h) i (hT i) P (a := s - p.J i) (b := e - 1) (by
      intro q hq
      have h1 := hmem q hq
      have h2 := h.not_early (i, q)
      have h3 := h.jitter (i, q)
      simp only at h3 ⊢
      omega) (by omega)
    refine this.trans ?_
    rw [← succ_div_eq_cdiv (hT i) (by omega)]
    have := Nat.div_le_div_right (c := p.T i) (show e - 1 - (s - p.J i) ≤ e - s + p.J i - 1 by omega)
    omega

/-- Work of a task whose jobs complete within `R` of their arrival. -/
theorem carry_work (h : b.Legal p) (hT : ∀ i, 0 < p.T i) (i : Fin n) {R s e : ℕ}
    (hCT : p.C i ≤ p.T i) (hCR : p.C i ≤ R)
    (hR : ∀ q, Completed b.work b.sched (i, q) (b.arrival (i, q) + R)) :
    taskSlots b.sched i s e ≤ cdiv (e - s + (R - p.C i)) (p.T i) * p.C i := by
  classical
  set P := (range (e + 1)).filter (fun q => ∃ t, s ≤ t ∧ t < e ∧ (i, q) ∈ b.sched t) with hPdef
  have hPmem : ∀ t, s ≤ t → t < e → ∀ q, (i, q) ∈ b.sched t → q ∈ P := by
    intro t ht1 ht2 q hq
    have hr := h.valid.ready t _ hq
    have hrel := hr.1.1
    have := Legal.index_le h hT i q
    rw [hPdef, mem_filter, mem_range]
    exact ⟨by omega, t, ht1, ht2, hq⟩
  rcases P.eq_empty_or_nonempty with hP | hne
  · have h1 := taskSlots_le b.sched i s e P hPmem
    rw [hP, sum_empty] at h1
    omega
  · set α := P.min' hne with hα
    set β := P.max' hne with hβ
    have hαβ : α ≤ β := P.min'_le _ (P.max'_mem hne)
    have hW := taskSlots_le b.sched i s e (Icc α β) (fun t h1 h2 q hq =>
      mem_Icc.2 ⟨P.min'_le _ (hPmem t h1 h2 q hq), P.le_max' _ (hPmem t h1 h2 q hq)⟩)
    obtain ⟨_, t1, ht1, ht1e, hσ1⟩ := mem_filter.1 (P.min'_mem hne)
    obtain ⟨_, t2, ht2, ht2e, hσ2⟩ := mem_filter.1 (P.max'_mem hne)
    rw [← hα] at hσ1
    rw [← hβ] at hσ2
    have hserv : ∀ q, serviceIn b.sched (i, q) s e ≤ p.C i :=
      fun q => (serviceIn_le_exec h.valid _ _ _).trans (h.wcet (i, q))
    -- the first job
    have hfirst : serviceIn b.sched (i, α) s e + s ≤ b.arrival (i, α) + R := by
      have hlt : t1 < b.arrival (i, α) + R := by
        by_contra hc
        exact (h.valid.ready t1 _ hσ1).1.2 ((hR α).mono (by omega))
      rcases le_total (b.arrival (i, α) + R) e with hle | hle
      · have h1 := serviceIn_split b.sched (i, α) (show s ≤ b.arrival (i, α) + R by omega) hle
        have h2 := serviceIn_eq_zero h.valid (i, α) (b := e) (hR α)
        have h3 := serviceIn_le_length b.sched (i, α) s (b.arrival (i, α) + R)
        omega
      · have h3 := serviceIn_le_length b.sched (i, α) s e
        omega
    -- the last job
    have hlast : serviceIn b.sched (i, β) s e + b.arrival (i, β) ≤ e := by
      have hrel := (h.valid.ready t2 _ hσ2).1.1
      have hne' := h.not_early (i, β)
      rcases le_total s (b.arrival (i, β)) with hle | hle
      · have h1 := serviceIn_split b.sched (i, β) hle (show b.arrival (i, β) ≤ e by omega)
        have h2 := serviceIn_eq_zero_of_release h.valid (i, β) (a := s) (b := b.arrival (i, β)) hne'
        have h3 := serviceIn_le_length b.sched (i, β) (b.arrival (i, β)) e
        omega
      · have h3 := serviceIn_le_length b.sched (i, β) s e
        omega
    have hpos : ∀ q t, s ≤ t → t < e → (i, q) ∈ b.sched t → 1 ≤ serviceIn b.sched (i, q) s e := by
      intro q t h1 h2 h3
      unfold serviceIn
      rw [Nat.one_le_iff_ne_zero, ← Nat.pos_iff_ne_zero, card_pos]
      exact ⟨t, by rw [mem_filter, mem_Ico]; exact ⟨⟨h1, h2⟩, h3⟩⟩
    have hpos1 := hpos α t1 ht1 ht1e hσ1
    have hpos2 := hpos β t2 ht2 ht2e hσ2
    have harr := Legal.arrival_add h i hαβ
    set y := cdiv (e - s + (R - p.C i)) (p.T i) with hy
    have hyT := le_cdiv_mul (e - s + (R - p.C i)) (hT i)
    rw [← hy] at hyT
    have hy1 : 1 ≤ y := by
      by_contra hc
      have : y = 0 := by omega
      rw [this] at hyT; omega
    by_cases hx : β - α + 1 ≤ y
    · calc taskSlots b.sched i s e ≤ ∑ q ∈ Icc α β, serviceIn b.sched (i, q) s e := hW
        _ ≤ ∑ _q ∈ Icc α β, p.C i := sum_le_sum (fun q _ => hserv q)
        _ = (β + 1 - α) * p.C i := by rw [sum_const, smul_eq_mul, Nat.card_Icc]
        _ ≤ y * p.C i := Nat.mul_le_mul_right _ (by omega)
    · have hlt : α < β := by omega
      obtain ⟨d, hd⟩ : ∃ d, β - α = y + d := ⟨β - α - y, by omega⟩
      have hexp : (β - α) * p.T i = y * p.T i + d * p.T i := by rw [hd, Nat.add_mul]
      have hd0 : d = 0 := by
        by_contra hdne
        have : 1 * p.T i ≤ d * p.T i := Nat.mul_le_mul_right _ (by omega)
        omega
      have hsum : ∑ q ∈ Icc α β, serviceIn b.sched (i, q) s e
          = serviceIn b.sched (i, α) s e + (∑ q ∈ Ioo α β, serviceIn b.sched (i, q) s e
            + serviceIn b.sched (i, β) s e) := by
        rw [← Finset.Ioc_insert_left hαβ, sum_insert (by simp), ← Finset.Ioo_insert_right hlt,
          sum_insert (by simp)]
        ring
      have hmid : ∑ q ∈ Ioo α β, serviceIn b.sched (i, q) s e ≤ (β - α - 1) * p.C i := by
        calc _ ≤ ∑ _q ∈ Ioo α β, p.C i := sum_le_sum (fun q _ => hserv q)
          _ = (β - α - 1) * p.C i := by rw [sum_const, smul_eq_mul, Nat.card_Ioo]
      have hyC : y * p.C i = (β - α - 1) * p.C i + p.C i := by
        have : y = (β - α - 1) + 1 := by omega
        rw [this, Nat.add_mul, Nat.one_mul]
      rw [hd0, Nat.zero_mul] at hexp
      omega

/-- **The busy-window argument.**  `w` bounds the response time of task `k`
counted from the release, `R i` those of suspending higher-priority tasks counted
from the arrival. -/
theorem fp_core (h : b.Legal p) (hT : ∀ i, 0 < p.T i) (k : Fin n) (R : Fin n → ℕ) (w : ℕ)
    (hsusp : ∀ i < k, p.S i ≠ 0 → p.C i ≤ p.T i ∧ p.C i ≤ R i ∧
      ∀ q, Completed b.work b.sched (i, q) (b.arrival (i, q) + R i))
    (hw : p.B k + (p.C k + p.S k) + ∑ i ∈ univ.filter (· < k),
      cdiv (w + (if p.S i = 0 then p.J i else R i - p.C i)) (p.T i) * p.C i ≤ w)
    (hwT : w ≤ p.T k) (q0 : ℕ) :
    Completed b.work b.sched (k, q0) (b.arrival (k, q0) + p.J k + w) := by
  classical
  by_contra hmiss
  -- the start of the busy window
  let Q : ℕ → Prop := fun t => ∀ x : Job n, (x.1 = k ∨ x.1 < k ∧ p.S x.1 = 0) →
    b.work.release x < t → Completed b.work b.sched x t
  have hQ0 : Q 0 := fun x _ hx => absurd hx (Nat.not_lt_zero _)
  set t0 := Nat.findGreatest Q (b.work.release (k, q0)) with ht0
  have hQt0 : Q t0 := Nat.findGreatest_spec (Nat.zero_le _) hQ0
  have ht0le : t0 ≤ b.work.release (k, q0) := Nat.findGreatest_le _
  -- the jobs of task `k` in the window
  have hex : ∃ q, t0 ≤ b.work.release (k, q) := ⟨q0, ht0le⟩
  set q1 := Nat.find hex with hq1
  have hq1le : q1 ≤ q0 := Nat.find_min' hex ht0le
  have hq1rel : t0 ≤ b.work.release (k, q1) := Nat.find_spec hex
  set m := q0 - q1 + 1 with hm
  have harr := Legal.arrival_add h k hq1le
  have hjit := h.jitter (k, q1)
  simp only at hjit
  set e := t0 + m * w with he
  have hef : e ≤ b.arrival (k, q0) + p.J k + w := by
    have h1 : (q0 - q1) * w ≤ (q0 - q1) * p.T k := Nat.mul_le_mul_left _ hwT
    have h2 : m * w = (q0 - q1) * w + w := by rw [hm, Nat.add_mul, Nat.one_mul]
    omega
  have hinc : ¬ Completed b.work b.sched (k, q0) e := fun hc => hmiss (hc.mono hef)
  have hinc' : ∀ t ≤ e, ¬ Completed b.work b.sched (k, q0) t := fun t ht hc => hinc (hc.mono ht)
  -- some job of the window is pending in every slot
  have hbusy : b.Busy p k t0 e := by
    intro t ht1 ht2
    by_cases hr : b.work.release (k, q0) ≤ t
    · exact ⟨(k, q0), Or.inl rfl, hr, hinc' t ht2.le⟩
    · by_contra hno
      push Not at hno
      have hQ : Q (t + 1) := by
        intro x hx hrel
        have := hno x hx
        unfold Pending at this
        push Not at this
        exact (this (by omega)).mono (by omega)
      have := Nat.le_findGreatest (P := Q) (show t + 1 ≤ b.work.release (k, q0) by omega) hQ
      omega
  -- active jobs of task `k` belong to the window
  have hwin : ∀ t q, t0 ≤ t → t < e → b.Active (k, q) t → q ∈ Icc q1 q0 := by
    intro t q ht1 ht2 hact
    rw [mem_Icc]
    constructor
    · apply Nat.find_min' hex
      by_contra hc
      exact hact.1.2 ((hQt0 (k, q) (Or.inl rfl) (by omega)).mono ht1)
    · by_contra hc
      exact hinc' t ht2.le (hact.2 q0 (by simp only; omega))
  -- classification of the slots
  set inv := (Ico t0 e).filter (fun t => b.Inversion k t) with hinv
  let susp : ℕ → Finset ℕ := fun q => (Ico t0 e).filter (fun t => b.Active (k, q) t ∧ b.suspended (k, q) t)
  let serv : ℕ → Finset ℕ := fun q => (Ico t0 e).filter (fun t => (k, q) ∈ b.sched t)
  let other : Fin n → Finset ℕ := fun i => (Ico t0 e).filter (fun t => ∃ q, (i, q) ∈ b.sched t)
  have hcover : Ico t0 e ⊆ inv ∪ ((Icc q1 q0).biUnion (fun q => susp q ∪ serv q)
      ∪ (univ.filter (· < k)).biUnion other) := by
    intro t ht
    have ht' := mem_Ico.1 ht
    obtain ⟨⟨i, q⟩, hx, hpend⟩ := hbusy t ht'.1 ht'.2
    simp only at hx
    obtain ⟨q', _, hact⟩ := Legal.exists_active h hpend
    by_cases hs : b.suspended (i, q') t
    · rcases hx with hx | ⟨_, hx⟩
      · subst hx
        apply mem_union_right
        apply mem_union_left
        rw [mem_biUnion]
        exact ⟨q', hwin t q' ht'.1 ht'.2 hact, mem_union_left _ (mem_filter.2 ⟨ht, hact, hs⟩)⟩
      · exfalso
        have h1 := h.suspension (i, q') (t + 1)
        simp only [hx, Nat.le_zero, card_eq_zero] at h1
        have : t ∈ (range (t + 1)).filter (fun s => b.Active (i, q') s ∧ b.suspended (i, q') s) :=
          mem_filter.2 ⟨mem_range.2 (Nat.lt_succ_self t), hact, hs⟩
        rw [h1] at this
        simp at this
    · by_cases hrun : ∃ y ∈ b.sched t, y.1 ≤ k
      · obtain ⟨⟨i', y⟩, hy, hyk⟩ := hrun
        simp only at hyk
        apply mem_union_right
        rcases eq_or_lt_of_le hyk with heq | hlt
        · subst heq
          apply mem_union_left
          rw [mem_biUnion]
          exact ⟨y, hwin t y ht'.1 ht'.2 (h.valid.ready t _ hy), mem_union_right _ (mem_filter.2 ⟨ht, hy⟩)⟩
        · apply mem_union_right
          rw [mem_biUnion]
          exact ⟨i', mem_filter.2 ⟨mem_univ _, hlt⟩, mem_filter.2 ⟨ht, y, hy⟩⟩
      · apply mem_union_left
        push Not at hrun
        have hik : i ≤ k := by
          rcases hx with hx | ⟨hx, _⟩
          · exact hx.le
          · exact hx.le
        exact mem_filter.2 ⟨ht, ⟨(i, q'), hik, hact, hs⟩, hrun⟩
  have hcard := card_le_card hcover
  rw [Nat.card_Ico] at hcard
  have hlen : e - t0 = m * w := by omega
  have hB : inv.card ≤ p.B k := h.inversion k t0 e hbusy
  -- own jobs
  have hsusp1 : ∀ q, (susp q).card ≤ p.S k := by
    intro q
    refine le_trans (card_le_card ?_) (h.suspension (k, q) e)
    intro t ht
    have ht := mem_filter.1 ht
    exact mem_filter.2 ⟨mem_range.2 (mem_Ico.1 ht.1).2, ht.2⟩
  have hserv1 : ∀ q, (serv q).card ≤ p.C k := fun q =>
    (serviceIn_le_exec h.valid (k, q) t0 e).trans (h.wcet (k, q))
  have hserv0 : (serv q0).card < p.C k := by
    have h1 : serviceIn b.sched (k, q0) t0 e ≤ service b.sched (k, q0) e := by
      have := service_add b.sched (k, q0) (show t0 ≤ e by omega)
      omega
    have h2 : service b.sched (k, q0) e < b.work.exec (k, q0) := not_le.1 hinc
    have h3 := h.wcet (k, q0)
    exact lt_of_le_of_lt h1 (lt_of_lt_of_le h2 h3)
  have hown : ((Icc q1 q0).biUnion (fun q => susp q ∪ serv q)).card < m * (p.C k + p.S k) := by
    calc ((Icc q1 q0).biUnion (fun q => susp q ∪ serv q)).card
        ≤ ∑ q ∈ Icc q1 q0, (susp q ∪ serv q).card := card_biUnion_le
      _ ≤ ∑ q ∈ Icc q1 q0, ((susp q).card + (serv q).card) := sum_le_sum (fun q _ => card_union_le _ _)
      _ < ∑ _q ∈ Icc q1 q0, (p.C k + p.S k) := by
          apply sum_lt_sum
          · intro q _; have := hsusp1 q; have := hserv1 q; omega
          · exact ⟨q0, mem_Icc.2 ⟨hq1le, le_rfl⟩, by have := hsusp1 q0; omega⟩
      _ = m * (p.C k + p.S k) := by
          rw [sum_const, smul_eq_mul, Nat.card_Icc]
          congr 1
          omega
  -- higher-priority tasks
  have hother : ((univ.filter (· < k)).biUnion other).card ≤ m * ∑ i ∈ univ.filter (· < k),
      cdiv (w + (if p.S i = 0 then p.J i else R i - p.C i)) (p.T i) * p.C i := by
    rw [mul_sum]
    refine card_biUnion_le.trans (sum_le_sum ?_)
    intro i hi
    have hik : i < k := (mem_filter.1 hi).2
    have h1 : (other i).card ≤ cdiv (m * w + (if p.S i = 0 then p.J i else R i - p.C i)) (p.T i) * p.C i := by
      rw [← hlen]
      split_ifs with hS
      · exact fresh_work h hT i (fun q hq => hQt0 (i, q) (Or.inr ⟨hik, hS⟩) hq)
      · obtain ⟨c1, c2, c3⟩ := hsusp i hik hS
        exact carry_work h hT i c1 c2 c3
    refine h1.trans ?_
    rw [← Nat.mul_assoc]
    exact Nat.mul_le_mul_right _ (cdiv_scale (hT i) (by omega))
  have hu1 := card_union_le inv ((Icc q1 q0).biUnion (fun q => susp q ∪ serv q)
      ∪ (univ.filter (· < k)).biUnion other)
  have hu2 := card_union_le ((Icc q1 q0).biUnion (fun q => susp q ∪ serv q))
      ((univ.filter (· < k)).biUnion other)
  have hfin := Nat.mul_le_mul_left m hw
  rw [Nat.mul_add, Nat.mul_add] at hfin
  have hmB : 1 * p.B k ≤ m * p.B k := Nat.mul_le_mul_right _ (by omega)
  omega

/-- Every set of parameters has a legal behaviour; releases may be delayed in any
way the jitter allows. -/
theorem exists_legal (p : FpParams n) (hT : ∀ i, 0 < p.T i) (d : Fin n → ℕ)
    (hd : ∀ i, d i ≤ p.J i) :
    ∃ b : FpBehaviour n, b.Legal p ∧ b.arrival = (fun j => j.2 * p.T j.1) ∧
      b.work.release = (fun j => j.2 * p.T j.1 + d j.1) ∧ b.work.exec = fun j => p.C j.1 := by
  classical
  set w : Workload n := ⟨fun j => j.2 * p.T j.1 + d j.1, fun j => p.C j.1⟩ with hw
  have hs : w.Sporadic p.C p.T :=
    ⟨fun i k => by simp [hw]; ring_nf; exact le_rfl, fun i k => le_rfl⟩
  obtain ⟨σ, hv, hpd⟩ := exists_schedule 1 w (fun j => (j.1 : ℕ)) (sporadic_finite hs hT)
  refine ⟨⟨fun j => j.2 * p.T j.1, w, fun _ _ => False, σ⟩, ?_, rfl, rfl, rfl⟩
  refine ⟨fun i k => ?_, fun j => ?_, fun j => ?_, fun i k => ?_, fun j => le_rfl, fun j t => by simp, hv,
    fun _ _ _ h => h, fun k s e _ => ?_⟩
  · simp; ring_nf; exact le_rfl
  · simp [hw]
  · simp [hw, hd]
  · simp only [hw, Nat.add_mul]; omega
  · have : (Ico s e).filter (fun t => FpBehaviour.Inversion ⟨fun j => j.2 * p.T j.1, w, fun _ _ => False, σ⟩ k t) = ∅ := by
      rw [filter_eq_empty_iff]
      rintro t _ ⟨⟨j, hjk, hact, _⟩, hall⟩
      by_cases hj : j ∈ σ t
      · exact absurd (hall j hj) (not_lt.2 hjk)
      · obtain ⟨hc, hle⟩ := hpd t j hact hj
        obtain ⟨x, hx⟩ := card_pos.1 (show 0 < (σ t).card by omega)
        have h1 : (x.1 : ℕ) ≤ j.1 := hle x hx
        have h2 := hall x hx
        have h3 : (k : ℕ) < x.1 := h2
        have h4 : (j.1 : ℕ) ≤ k := hjk
        omega
    rw [this]; simp

end Verif.Spec
