/-
The argument behind Baruah's global EDF test: a deadline miss is preceded by an
interval in which all processors are busy and at the start of which at most
`m - 1` tasks have unfinished work.
-/
import Verif.Lemmas.GedfSteps
import Mathlib.Order.Preorder.Finite
import Mathlib.Data.Finset.Max

namespace Verif.Spec
open Finset

variable {n m : ℕ} {C T D : Fin n → ℕ} {w : Workload n} {σ : Schedule n}

/-- Number of jobs with release and deadline in a window of length `L`. -/
def njobs (T D L : ℕ) : ℕ := if L < D then 0 else (L - D) / T + 1

/-- Work of a task in the busy window, if it has work at the start. -/
def carryWork (C T D : Fin n → ℕ) (k : Fin n) (A : ℕ) (i : Fin n) : ℕ :=
  if i = k then min (gwork (C k) (T k) (A + D k) - C k) A
  else min (gwork (C i) (T i) (A + D k)) (A + D k - C k + 1)

/-- Work of a task in the busy window, if it has no work at the start. -/
def freshWork (C T D : Fin n → ℕ) (k : Fin n) (A : ℕ) (i : Fin n) : ℕ :=
  if i = k then min ((njobs (T k) (D k) (A + D k) - 1) * C k) A
  else min (njobs (T i) (D i) (A + D k) * C i) (A + D k - C k + 1)

/-- An earliest missed deadline. -/
theorem exists_first_miss (hmiss : ¬ MeetsDeadlines w D σ) : ∃ j : Job n,
    ¬ Completed w σ j (w.deadline D j) ∧
      ∀ j', w.deadline D j' < w.deadline D j → Completed w σ j' (w.deadline D j') := by
  classical
  unfold MeetsDeadlines at hmiss
  push Not at hmiss
  have hex : ∃ d, ∃ j : Job n, w.deadline D j = d ∧ ¬ Completed w σ j (w.deadline D j) := by
    obtain ⟨j, hj⟩ := hmiss
    exact ⟨_, j, rfl, hj⟩
  obtain ⟨j, hj, hj'⟩ := Nat.find_spec hex
  refine ⟨j, hj', fun j' hlt => ?_⟩
  by_contra hc
  have := Nat.find_min' hex ⟨j', rfl, hc⟩
  omega

/-- A task with an unfinished released job has a ready job that is no later. -/
theorem exists_ready_le (hs : w.Sporadic C T) {i : Fin n} {p t : ℕ}
    (hr : w.release (i, p) ≤ t) (hinc : ¬ Completed w σ (i, p) t) :
    ∃ q ≤ p, Ready w σ (i, q) t := by
  classical
  have hex : ∃ q, ¬ Completed w σ (i, q) t := ⟨p, hinc⟩
  have hq := Nat.find_spec hex
  have hqp : Nat.find hex ≤ p := Nat.find_min' hex hinc
  refine ⟨Nat.find hex, hqp, ⟨(Nat.le_add_right _ _).trans ((release_mono hs i hqp).trans hr), hq⟩, ?_⟩
  intro l hl
  exact not_not.1 (Nat.find_min hex hl)

/-- Number of due jobs released in a window. -/
theorem card_due_le (hs : w.Sporadic C T) {i : Fin n} (hT : 0 < T i) {a L : ℕ} {K : Finset ℕ}
    (hK : ∀ p ∈ K, a ≤ w.release (i, p) ∧ w.deadline D (i, p) ≤ a + L) :
    K.card ≤ njobs (T i) (D i) L := by
  classical
  rcases K.eq_empty_or_nonempty with rfl | hne
  · simp
  set lo := K.min' hne
  set hi := K.max' hne
  have hlo := hK lo (K.min'_mem hne)
  have hhi := hK hi (K.max'_mem hne)
  have hle : lo ≤ hi := K.min'_le _ (K.max'_mem hne)
  have hcard : K.card ≤ hi - lo + 1 := by
    have : K ⊆ Icc lo hi := fun x hx => mem_Icc.2 ⟨K.min'_le _ hx, K.le_max' _ hx⟩
    have := card_le_card this
    rw [Nat.card_Icc] at this
    omega
  have hrel := release_add hs i lo (hi - lo)
  rw [show lo + (hi - lo) = hi by omega] at hrel
  unfold Workload.deadline at hhi
  simp only at hhi
  unfold njobs
  rw [if_neg (by omega)]
  have : hi - lo ≤ (L - D i) / T i := by
    rw [Nat.le_div_iff_mul_le hT]
    omega
  omega

/-- Every deadline miss under global EDF yields a window that violates the
condition of Baruah's test; its length is a point at which the demand of some task
changes. -/
theorem bar_miss (hT : ∀ i, 0 < T i) (hD : ∀ i, 0 < D i) (hDT : ∀ i, D i ≤ T i)
    (hCD : ∀ i, C i ≤ D i) (hm : 0 < m) (hmiss : ¬ EdfSchedulable m C T D) :
    ∃ (k : Fin n) (A : ℕ) (S : Finset (Fin n)), S.card + 1 ≤ m ∧
      (∃ i j, A + D k = D i + j * T i) ∧
      m * (A + D k - C k + 1) ≤ ∑ i ∈ S, carryWork C T D k A i + ∑ i ∈ Sᶜ, freshWork C T D k A i := by
  classical
  unfold EdfSchedulable at hmiss
  push Not at hmiss
  obtain ⟨w, σ, hs, hv, he, hmiss⟩ := hmiss
  obtain ⟨⟨k, q⟩, hkq, hfirst⟩ := exists_first_miss hmiss
  set d := w.deadline D (k, q) with hd
  set r := w.release (k, q) with hr
  have hdr : d = r + D k := rfl
  have hDk := hD k
  have hb : BoundedBefore w σ D d := fun j hj => hfirst j hj
  -- due jobs
  let due : Job n → Prop := fun j => w.deadline D j ≤ d
  have hqdue : due (k, q) := le_refl d
  -- start of the busy interval
  have hexT : ∃ t, t ≤ r ∧ ∀ s, t ≤ s → s < r → m ≤ ((σ s).filter (fun j => due j)).card :=
    ⟨r, le_rfl, fun s h1 h2 => absurd h2 (by omega)⟩
  set t0 := Nat.find hexT with ht0
  obtain ⟨ht0r, hbusy0⟩ := Nat.find_spec hexT
  rw [← ht0] at ht0r hbusy0
  -- tasks with work at the start
  let S : Finset (Fin n) := univ.filter (fun i => ∃ p, due (i, p) ∧ w.release (i, p) < t0 ∧
    ¬ Completed w σ (i, p) t0)
  have hScard : S.card + 1 ≤ m := by
    rcases Nat.eq_zero_or_pos t0 with h0 | h0
    · have : S = ∅ := by
        apply filter_eq_empty_iff.2
        rintro i _ ⟨p, _, h, _⟩
        omega
      rw [this]; simp; omega
    · have hlt : ((σ (t0 - 1)).filter (fun j => due j)).card < m := by
        by_contra hc
        have := Nat.find_min' hexT (m := t0 - 1) ⟨by omega, fun s h1 h2 => ?_⟩
        · omega
        · rcases Nat.lt_or_ge s t0 with h | h
          · rw [show s = t0 - 1 by omega]; omega
          · exact hbusy0 s h h2
      refine lt_of_le_of_lt ?_ hlt
      have hS : ∀ i ∈ S, ∃ p, (i, p) ∈ (σ (t0 - 1)).filter (fun j => due j) := by
        intro i hi
        obtain ⟨_, p, hp1, hp2, hp3⟩ := mem_filter.1 hi
        obtain ⟨p', hp', hready⟩ := exists_ready_le (t := t0 - 1) hs (by omega)
          (fun hc => hp3 (hc.mono (by omega)))
        have hdue' : due (i, p') := by
          have := release_mono hs i hp'
          simp only [due, Workload.deadline] at hp1 ⊢
          omega
        refine ⟨p', mem_filter.2 ⟨?_, hdue'⟩⟩
        by_contra hnot
        obtain ⟨h1, h2⟩ := he (t0 - 1) (i, p') hready hnot
        have : (σ (t0 - 1)).filter (fun j => due j) = σ (t0 - 1) := by
          apply filter_true_of_mem
          intro j hj
          exact (h2 j hj).trans hdue'
        rw [this] at hlt
        omega
      choose! f hf using hS
      apply card_le_card_of_injOn (fun i => (i, f i)) hf
      intro a _ b _ hab
      simp only [Prod.mk.injEq] at hab
      exact hab.1
  -- the largest test point within the busy interval
  set L0 := d - t0 with hL0
  let P : Finset ℕ := (range (L0 + 1)).filter (fun L => ∃ i, ∃ j, L = D i + j * T i)
  have hPk : D k ∈ P := mem_filter.2 ⟨mem_range.2 (by omega), k, 0, by simp⟩
  set L := P.max' ⟨_, hPk⟩ with hL
  obtain ⟨hLL0, hLpt⟩ := mem_filter.1 (P.max'_mem ⟨_, hPk⟩)
  rw [← hL, mem_range] at hLL0
  rw [← hL] at hLpt
  have hDL : D k ≤ L := P.le_max' _ hPk
  set t1 := d - L with ht1
  have h01 : t0 ≤ t1 := by omega
  have h1r : t1 ≤ r := by omega
  have h1d : t1 + L = d := by omega
  set A := r - t1 with hA
  have hAL : A + D k = L := by omega
  have hnj : ∀ i, njobs (T i) (D i) L0 = njobs (T i) (D i) L := by
    intro i
    unfold njobs
    by_cases h : L0 < D i
    · rw [if_pos h, if_pos (by omega)]
    · have hmem : D i + (L0 - D i) / T i * T i ∈ P := by
        refine mem_filter.2 ⟨mem_range.2 ?_, i, _, rfl⟩
        have := Nat.div_mul_le_self (L0 - D i) (T i)
        omega
      have h1 : D i + (L0 - D i) / T i * T i ≤ L := P.le_max' _ hmem
      rw [if_neg h, if_neg (by omega)]
      have h2 : (L0 - D i) / T i ≤ (L - D i) / T i := by
        rw [Nat.le_div_iff_mul_le (hT i)]; omega
      have h3 := Nat.div_le_div_right (c := T i) (show L - D i ≤ L0 - D i by omega)
      omega
  refine ⟨k, A, S, hScard, ?_, ?_⟩
  · rw [hAL]; exact hLpt
  -- slots of the window
  have hpred : ∀ l < q, w.deadline D (k, l) ≤ d - T k ∧ w.deadline D (k, l) ≤ r := by
    intro l hl
    have h1 := hs.separated k l
    have h2 := release_mono hs k (show l + 1 ≤ q from hl)
    have h3 := hDT k
    unfold Workload.deadline
    simp only
    omega
  have hpredc : ∀ l < q, Completed w σ (k, l) r := fun l hl =>
    (hfirst (k, l) (by have := (hpred l hl).2; omega)).mono (hpred l hl).2
  have hready : ∀ s, r ≤ s → s < d → Ready w σ (k, q) s := fun s h1 h2 =>
    ⟨⟨h1, fun hc => hkq (hc.mono h2.le)⟩, fun l hl => (hpredc l hl).mono h1⟩
  set X := (Ico t1 d).filter (fun s => (k, q) ∉ σ s) with hX
  have hXcard : A + D k - C k + 1 ≤ X.card := by
    have h1 : X.card + serviceIn σ (k, q) t1 d = L := by
      unfold serviceIn
      have := card_filter_add_card_filter_not (s := Ico t1 d) (fun s => (k, q) ∈ σ s)
      rw [Nat.card_Ico] at this
      rw [hX]; omega
    have h2 : serviceIn σ (k, q) t1 d < w.exec (k, q) := by
      unfold Completed at hkq
      have := service_add σ (k, q) (show t1 ≤ d by omega)
      omega
    have h3 := hs.wcet k q
    have h4 := hCD k
    omega
  obtain ⟨X', hX'sub, hX'card⟩ := exists_subset_card_eq hXcard
  have hbusy : ∀ s ∈ X', m ≤ ∑ i, if ∃ l, (i, l) ∈ σ s ∧ due (i, l) ∧ (i, l) ≠ (k, q) then 1 else 0 := by
    intro s hsX'
    obtain ⟨hsI, hsk⟩ := mem_filter.1 (hX'sub hsX')
    rw [mem_Ico] at hsI
    have hm' : m ≤ ((σ s).filter (fun j => due j)).card := by
      rcases Nat.lt_or_ge s r with h | h
      · exact hbusy0 s (by omega) h
      · obtain ⟨h1, h2⟩ := he s (k, q) (hready s h hsI.2) hsk
        have : (σ s).filter (fun j => due j) = σ s := by
          apply filter_true_of_mem
          intro j hj
          exact h2 j hj
        rw [this]; omega
    refine hm'.trans ?_
    rw [← card_filter]
    apply card_le_card_of_injOn (fun j => j.1)
    · intro j hj
      rw [mem_coe, mem_filter] at hj
      rw [mem_coe, mem_filter]
      refine ⟨mem_univ _, j.2, hj.1, hj.2, ?_⟩
      intro hc
      apply hsk
      rw [← hc]; exact hj.1
    · rintro ⟨i, l⟩ hj ⟨i', l'⟩ hj' h
      rw [mem_coe, mem_filter] at hj hj'
      simp only at h
      subst h
      rw [ready_unique (hv.ready s _ hj.1) (hv.ready s _ hj'.1)]
  let cnt : Fin n → ℕ := fun i => (X'.filter (fun s => ∃ l, (i, l) ∈ σ s ∧ due (i, l) ∧ (i, l) ≠ (k, q))).card
  have hsum : m * (A + D k - C k + 1) ≤ ∑ i, cnt i := by
    calc m * (A + D k - C k + 1) = ∑ s ∈ X', m := by
          rw [sum_const, hX'card, smul_eq_mul, Nat.mul_comm]
      _ ≤ ∑ s ∈ X', ∑ i, (if ∃ l, (i, l) ∈ σ s ∧ due (i, l) ∧ (i, l) ≠ (k, q) then 1 else 0) :=
          sum_le_sum hbusy
      _ = ∑ i, ∑ s ∈ X', (if ∃ l, (i, l) ∈ σ s ∧ due (i, l) ∧ (i, l) ≠ (k, q) then 1 else 0) := sum_comm
      _ = ∑ i, cnt i := by
          apply sum_congr rfl
          intro i _
          simp only [cnt]
          rw [card_filter]
  have hcntY : ∀ i, cnt i ≤ A + D k - C k + 1 := fun i => by
    rw [← hX'card]; exact card_filter_le _ _
  -- the task itself executes only earlier jobs
  have hown : ∀ s ∈ X'.filter (fun s => ∃ l, (k, l) ∈ σ s ∧ due (k, l) ∧ (k, l) ≠ (k, q)),
      t1 ≤ s ∧ s < r ∧ ∃ l < q, (k, l) ∈ σ s ∧ w.deadline D (k, l) ≤ d - T k ∧ s < w.deadline D (k, l) := by
    intro s hs'
    obtain ⟨hs1, l, hl1, hl2, hl3⟩ := mem_filter.1 hs'
    obtain ⟨hsI, _⟩ := mem_filter.1 (hX'sub hs1)
    rw [mem_Ico] at hsI
    have hlq : l < q := by
      rcases lt_trichotomy l q with h | h | h
      · exact h
      · exact absurd (by rw [h]) hl3
      · exfalso
        have h1 := hs.separated k q
        have h2 := release_mono hs k (show q + 1 ≤ l from h)
        have h3 := hT k
        simp only [due, Workload.deadline] at hl2
        omega
    have hp := hpred l hlq
    have hsd : s < w.deadline D (k, l) := by
      by_contra hc
      exact (hv.ready s _ hl1).1.2 ((hfirst (k, l) (by omega)).mono (not_lt.1 hc))
    exact ⟨hsI.1, by omega, l, hlq, hl1, hp.1, hsd⟩
  have hcntA : cnt k ≤ A := by
    have : X'.filter (fun s => ∃ l, (k, l) ∈ σ s ∧ due (k, l) ∧ (k, l) ≠ (k, q)) ⊆ Ico t1 r := by
      intro s hs'
      have := hown s hs'
      rw [mem_Ico]; exact ⟨this.1, this.2.1⟩
    have := card_le_card this
    rw [Nat.card_Ico] at this
    exact this
  have hcntI : ∀ i, cnt i ≤ intf σ (w.deadline D) d i t1 d := by
    intro i
    unfold intf
    apply card_le_card
    intro s hs'
    obtain ⟨hs1, l, hl1, hl2, hl3⟩ := mem_filter.1 hs'
    obtain ⟨hsI, _⟩ := mem_filter.1 (hX'sub hs1)
    exact mem_filter.2 ⟨hsI, l, hl1, hl2⟩
  -- work of a task without carry-in
  have hfresh : ∀ i, i ∉ S → cnt i ≤ (if i = k then (njobs (T k) (D k) L - 1) * C k else njobs (T i) (D i) L * C i) := by
    intro i hiS
    let K : Finset ℕ := (range (d + 1)).filter (fun p => due (i, p) ∧ t0 ≤ w.release (i, p))
    have hKc : K.card ≤ njobs (T i) (D i) L := by
      rw [← hnj i]
      apply card_due_le hs (hT i) (a := t0)
      intro p hp
      obtain ⟨_, hp1, hp2⟩ := mem_filter.1 hp
      refine ⟨hp2, ?_⟩
      rw [show t0 + L0 = d by omega]
      exact hp1
    have hmemK : ∀ s p, t1 ≤ s → (i, p) ∈ σ s → due (i, p) → p ∈ K := by
      intro s p hs1 hp hpd
      refine mem_filter.2 ⟨mem_range.2 ?_, hpd, ?_⟩
      · have := le_release hs i (hT i) p
        simp only [due, Workload.deadline] at hpd
        omega
      · by_contra hc
        apply hiS
        refine mem_filter.2 ⟨mem_univ _, p, hpd, by omega, ?_⟩
        intro hcomp
        exact (hv.ready s _ hp).1.2 (hcomp.mono (by omega))
    have hgen : ∀ K' : Finset ℕ, (∀ s ∈ X'.filter (fun s => ∃ l, (i, l) ∈ σ s ∧ due (i, l) ∧ (i, l) ≠ (k, q)),
        ∃ l ∈ K', (i, l) ∈ σ s ∧ s ∈ Ico t1 d) → cnt i ≤ K'.card * C i := by
      intro K' hK'
      have : X'.filter (fun s => ∃ l, (i, l) ∈ σ s ∧ due (i, l) ∧ (i, l) ≠ (k, q)) ⊆
          K'.biUnion (fun l => (Ico t1 d).filter (fun s => (i, l) ∈ σ s)) := by
        intro s hs'
        obtain ⟨l, hl, hls, hsI⟩ := hK' s hs'
        exact mem_biUnion.2 ⟨l, hl, mem_filter.2 ⟨hsI, hls⟩⟩
      refine (card_le_card this).trans (card_biUnion_le.trans ?_)
      rw [← smul_eq_mul]
      apply sum_le_card_nsmul
      intro l _
      exact (serviceIn_le_exec hv (i, l) t1 d).trans (hs.wcet i l)
    by_cases hik : i = k
    · subst hik
      rw [if_pos rfl]
      have hqK : q ∈ K := by
        refine mem_filter.2 ⟨mem_range.2 ?_, hqdue, ht0r⟩
        have := le_release hs i (hT i) q
        omega
      have h1 := hgen (K.erase q) (fun s hs' => by
        obtain ⟨h1, h2, l, hl, hls, hld, hsd⟩ := hown s hs'
        refine ⟨l, mem_erase.2 ⟨by omega, hmemK s l h1 hls ?_⟩, hls, mem_Ico.2 ⟨h1, by omega⟩⟩
        show w.deadline D (i, l) ≤ d
        omega)
      rw [card_erase_of_mem hqK] at h1
      exact h1.trans (Nat.mul_le_mul_right _ (by omega))
    · rw [if_neg hik]
      have h1 := hgen K (fun s hs' => by
        obtain ⟨hs1, l, hl1, hl2, hl3⟩ := mem_filter.1 hs'
        obtain ⟨hsI, _⟩ := mem_filter.1 (hX'sub hs1)
        exact ⟨l, hmemK s l (mem_Ico.1 hsI).1 hl1 hl2, hl1, hsI⟩)
      exact h1.trans (Nat.mul_le_mul_right _ hKc)
  -- work of a task with carry-in
  have hcarry : ∀ i, cnt i ≤ (if i = k then gwork (C k) (T k) L - C k else gwork (C i) (T i) L) := by
    intro i
    by_cases hik : i = k
    · subst hik
      rw [if_pos rfl]
      rcases Nat.lt_or_ge L (T i) with hLT | hLT
      · have : X'.filter (fun s => ∃ l, (i, l) ∈ σ s ∧ due (i, l) ∧ (i, l) ≠ (i, q)) = ∅ := by
          rw [eq_empty_iff_forall_notMem]
          intro s hs'
          obtain ⟨h1, h2, l, hl, hls, hld, hsd⟩ := hown s hs'
          omega
        simp only [cnt]
        rw [this]; simp
      · have h1 : cnt i ≤ intf σ (w.deadline D) (t1 + (L - T i)) i t1 (t1 + (L - T i)) := by
          unfold intf
          apply card_le_card
          intro s hs'
          obtain ⟨h1, h2, l, hl, hls, hld, hsd⟩ := hown s hs'
          refine mem_filter.2 ⟨mem_Ico.2 ⟨h1, by omega⟩, l, hls, by omega⟩
        have h2 := edf_work hs hv (hT i) (s := 0) (Nat.add_zero (D i)) (hDT i)
          (le_refl (t1 + (L - T i))) (hb.mono (by omega))
        have h3 := gwork_add (C i) (hT i) (L - T i)
        rw [show L - T i + T i = L by omega] at h3
        unfold gwork at h3 ⊢
        rw [h3]
        simp only [Nat.sub_zero] at h2
        omega
    · rw [if_neg hik]
      refine (hcntI i).trans ?_
      have h2 := edf_work hs hv (hT i) (s := 0) (Nat.add_zero (D i)) (hDT i)
          (show d ≤ t1 + L by omega) hb
      rw [h1d] at h2
      simp only [Nat.sub_zero] at h2
      exact h2
  rw [← sum_add_sum_compl S cnt] at hsum
  refine hsum.trans (Nat.add_le_add (sum_le_sum ?_) (sum_le_sum ?_))
  · intro i _
    have h1 := hcarry i
    have h2 := hcntY i
    unfold carryWork
    rw [hAL] at h2 ⊢
    by_cases hik : i = k
    · subst hik
      rw [if_pos rfl] at h1 ⊢
      omega
    · rw [if_neg hik] at h1 ⊢
      omega
  · intro i hi
    have h1 := hfresh i (mem_compl.1 hi)
    have h2 := hcntY i
    unfold freshWork
    rw [hAL] at h2 ⊢
    by_cases hik : i = k
    · subst hik
      rw [if_pos rfl] at h1 ⊢
      exact le_min h1 hcntA
    · rw [if_neg hik] at h1 ⊢
      exact le_min h1 h2

end Verif.Spec
