/-
Lemmas on reader-writer locks: which requests a request waits for.
-/
import Verif.Spec.RwLock
import Mathlib.Data.Set.Finite.Basic
import Mathlib.Algebra.Order.BigOperators.Group.Finset
import Mathlib.Data.Finset.Max

namespace Verif.Spec
open Finset

variable {n procs irqCpu : ℕ} {irq : ℤ} {S : RwSystem n} {R : RwRun n}

/-- Processors of cluster `c` that can handle requests while a request of cluster `own` is incomplete. -/
def avail (procs : ℕ) (irq : ℤ) (own c : ℕ) : ℕ :=
  let p := if (c : ℤ) = irq then procs - 1 else procs
  if p ≠ 0 ∧ own = c then p - 1 else p

/-- In slot `t`, request `s` is incomplete. -/
def RwRun.Incomplete (R : RwRun n) (s : Section n) (t : ℕ) : Prop := R.enter s ≤ t ∧ t < R.leave s

namespace RwLegal
variable (h : RwLegal procs irq irqCpu S R)
include h

theorem served_incomplete {s : Section n} (hs : R.issued s) {t : ℕ} (ht : R.Served s t) : R.Incomplete s t :=
  ⟨le_trans (h.order s hs).1 ht.1, ht.2⟩

theorem task_ne {s k : Section n} (hs : R.issued s) (hk : R.issued k) (hne : s ≠ k) {t : ℕ}
    (h1 : R.Incomplete s t) (h2 : R.Incomplete k t) : s.job.1 ≠ k.job.1 := by
  intro he
  obtain ⟨a, b⟩ := h1
  obtain ⟨c, d⟩ := h2
  rcases h.serial s k hs hk he hne with h' | h' <;> omega

theorem cpu_ne {s k : Section n} (hs : R.issued s) (hk : R.issued k) (hne : s ≠ k) {t : ℕ}
    (h1 : R.Incomplete s t) (h2 : R.Incomplete k t) (hc : S.cluster s.job.1 = S.cluster k.job.1) :
    R.cpu s ≠ R.cpu k := by
  intro he
  obtain ⟨a, b⟩ := h1
  obtain ⟨c, d⟩ := h2
  rcases h.one s k hs hk hc he hne with h' | h' <;> omega

/-- The requests that are incomplete in a slot form a finite set. -/
theorem exists_finset (P : Section n → Prop) (t : ℕ) :
    ∃ F : Finset (Section n), ∀ s, s ∈ F ↔ R.issued s ∧ P s ∧ R.Incomplete s t := by
  classical
  have hfin : {s | R.issued s ∧ P s ∧ R.Incomplete s t}.Finite := by
    apply Set.Finite.of_injOn (f := fun s : Section n => s.job.1) (t := Set.univ) (fun _ _ => Set.mem_univ _)
    · intro a ha b hb hab
      by_contra hne
      exact h.task_ne ha.1 hb.1 hne ha.2.2 hb.2.2 hab
    · exact Set.finite_univ
  exact ⟨hfin.toFinset, fun s => by simp⟩

/-- Requests of a cluster that are incomplete together with `k`. -/
theorem card_cluster {F : Finset (Section n)} {k : Section n} {t c : ℕ} (hk : R.issued k)
    (hkt : R.Incomplete k t) (hF : ∀ s ∈ F, R.issued s ∧ R.Incomplete s t ∧ s ≠ k ∧ S.cluster s.job.1 = c) :
    F.card ≤ avail procs irq (S.cluster k.job.1) c := by
  classical
  have hinj : Set.InjOn R.cpu (F : Set (Section n)) := by
    intro a ha b hb hab
    by_contra hne
    have ha := hF a ha
    have hb := hF b hb
    exact h.cpu_ne ha.1 hb.1 hne ha.2.1 hb.2.1 (ha.2.2.2.trans hb.2.2.2.symm) hab
  have hlt : ∀ s ∈ F, R.cpu s < procs := fun s hs => h.cpu_lt s (hF s hs).1
  have hki : ((S.cluster k.job.1 : ℕ) : ℤ) = irq → R.cpu k ≠ irqCpu := h.not_irq k hk
  have hkl := h.cpu_lt k hk
  unfold avail
  by_cases hi : (c : ℤ) = irq
  · have hir := h.irq_lt (by omega)
    have hni : ∀ s ∈ F, R.cpu s ≠ irqCpu := fun s hs =>
      h.not_irq s (hF s hs).1 (by rw [(hF s hs).2.2.2]; exact hi)
    by_cases hc : S.cluster k.job.1 = c
    · have hsub : F.card ≤ (((range procs).erase irqCpu).erase (R.cpu k)).card := by
        apply card_le_card_of_injOn R.cpu _ hinj
        intro s hs
        have hs' := hF s hs
        simp only [coe_erase, coe_range, Set.mem_diff, Set.mem_singleton_iff, Set.mem_Iio]
        exact ⟨⟨hlt s hs, hni s hs⟩, h.cpu_ne hs'.1 hk hs'.2.2.1 hs'.2.1 hkt (hs'.2.2.2.trans hc.symm)⟩
      rw [card_erase_of_mem (by simp [hkl, hki (by rw [hc]; exact hi)]), card_erase_of_mem (by simp [hir]),
        card_range] at hsub
      simp only [hi, if_true, hc]
      split <;> omega
    · have hsub : F.card ≤ ((range procs).erase irqCpu).card := by
        apply card_le_card_of_injOn R.cpu _ hinj
        intro s hs
        simp only [coe_erase, coe_range, Set.mem_diff, Set.mem_singleton_iff, Set.mem_Iio]
        exact ⟨hlt s hs, hni s hs⟩
      rw [card_erase_of_mem (by simp [hir]), card_range] at hsub
      simp only [hi, if_true, hc, and_false, if_false]
      exact hsub
  · by_cases hc : S.cluster k.job.1 = c
    · have hsub : F.card ≤ ((range procs).erase (R.cpu k)).card := by
        apply card_le_card_of_injOn R.cpu _ hinj
        intro s hs
        have hs' := hF s hs
        simp only [coe_erase, coe_range, Set.mem_diff, Set.mem_singleton_iff, Set.mem_Iio]
        exact ⟨hlt s hs, h.cpu_ne hs'.1 hk hs'.2.2.1 hs'.2.1 hkt (hs'.2.2.2.trans hc.symm)⟩
      rw [card_erase_of_mem (by simp [hkl]), card_range] at hsub
      simp only [hi, if_false, hc]
      split <;> omega
    · have hsub : F.card ≤ (range procs).card := by
        apply card_le_card_of_injOn R.cpu _ hinj
        intro s hs
        simpa using hlt s hs
      rw [card_range] at hsub
      simp only [hi, if_false, hc, and_false]
      exact hsub

/-- All incomplete requests. -/
theorem card_all {C : ℕ} (hC : ∀ i, S.cluster i < C) {F : Finset (Section n)} {t : ℕ}
    (hF : ∀ s ∈ F, R.issued s ∧ R.Incomplete s t) : F.card ≤ procs * C := by
  classical
  have : F.card ≤ (range C ×ˢ range procs).card := by
    apply card_le_card_of_injOn (fun s => (S.cluster s.job.1, R.cpu s))
    · intro s hs
      simp only [coe_product, coe_range, Set.mem_prod, Set.mem_Iio]
      exact ⟨hC _, h.cpu_lt s (hF s hs).1⟩
    · intro a ha b hb hab
      simp only [Prod.mk.injEq] at hab
      by_contra hne
      exact h.cpu_ne (hF a ha).1 (hF b hb).1 hne (hF a ha).2 (hF b hb).2 hab.1 hab.2
  rw [card_product, card_range, card_range, mul_comm] at this
  exact this

/-- A single read request that covers a reader phase that is going on in slot `x`. -/
theorem exists_longest (r x : ℕ) : ∃ F : Finset (Section n), F.card ≤ 1 ∧
    (∀ s ∈ F, R.For S s r true ∧ R.Served s x) ∧
    ∀ s, R.For S s r true → R.Served s x → ∀ t, x ≤ t → t < R.leave s → ∃ s' ∈ F, R.Served s' t := by
  classical
  obtain ⟨F, hF⟩ := h.exists_finset (fun s => R.For S s r true ∧ R.acquire s ≤ x) x
  rcases F.eq_empty_or_nonempty with rfl | hne
  · refine ⟨∅, by simp, by simp, ?_⟩
    intro s hs hx
    exact absurd ((hF s).mpr ⟨hs.1, ⟨hs, hx.1⟩, h.served_incomplete hs.1 hx⟩) (by simp)
  · obtain ⟨s', hs', hmax⟩ := F.exists_max_image R.leave hne
    have h' := (hF s').mp hs'
    refine ⟨{s'}, by simp, ?_, ?_⟩
    · intro s hs
      rw [mem_singleton] at hs
      subst hs
      exact ⟨h'.2.1.1, h'.2.1.2, h'.2.2.2⟩
    · intro s hs hx t hxt ht
      have := hmax s ((hF s).mpr ⟨hs.1, ⟨hs, hx.1⟩, h.served_incomplete hs.1 hx⟩)
      exact ⟨s', by simp, le_trans h'.2.1.2 hxt, by omega⟩

end RwLegal

/-- Sets of write and of read requests that account for all the time that request `k` for resource `r`
waits. -/
structure Cover (S : RwSystem n) (R : RwRun n) (r : ℕ) (k : Section n) (W D : Finset (Section n)) : Prop where
  writes : ∀ s ∈ W, R.For S s r false
  reads : ∀ s ∈ D, R.For S s r true
  overlapW : ∀ s ∈ W, ∃ x, R.enter k ≤ x ∧ x < R.acquire k ∧ R.Incomplete s x
  overlapD : ∀ s ∈ D, ∃ x, R.enter k ≤ x ∧ x < R.acquire k ∧ R.Served s x
  before : ∀ s ∈ W, R.leave s ≤ R.acquire k
  slots : ∀ t, R.enter k ≤ t → t < R.acquire k → ∃ s ∈ W ∪ D, R.Served s t

namespace Cover
variable {r : ℕ} {k : Section n} {W D : Finset (Section n)}

theorem empty (hk : R.acquire k ≤ R.enter k) : Cover S R r k ∅ ∅ :=
  ⟨by simp, by simp, by simp, by simp, by simp, fun t h1 h2 => absurd h2 (by omega)⟩

theorem ne_of_mem (h : RwLegal procs irq irqCpu S R) (hk : R.issued k) (hc : Cover S R r k W D) {s : Section n}
    (hs : s ∈ W ∪ D) : s ≠ k ∧ R.issued s ∧ ∃ x, R.enter k ≤ x ∧ x < R.acquire k ∧ R.Incomplete s x := by
  rcases mem_union.mp hs with hs | hs
  · refine ⟨?_, (hc.writes s hs).1, hc.overlapW s hs⟩
    rintro rfl
    have := hc.before s hs
    have := (h.order s hk).2
    omega
  · obtain ⟨x, h1, h2, h3⟩ := hc.overlapD s hs
    refine ⟨?_, (hc.reads s hs).1, x, h1, h2, h.served_incomplete (hc.reads s hs).1 h3⟩
    rintro rfl
    have := h3.1
    omega

end Cover

namespace PhaseFair
variable (h : PhaseFair procs irq irqCpu S R)
include h

/-- What a write request waits for. -/
theorem cover_write {C : ℕ} (hC : ∀ i, S.cluster i < C) {k : Section n} {r : ℕ} (hk : R.For S k r false) :
    ∃ W D, Cover S R r k W D ∧ (∀ s ∈ W, R.Incomplete s (R.enter k)) ∧ D.card ≤ W.card + 1 ∧
      D.card ≤ procs * C - 1 := by
  classical
  have hl := h.toRwLegal
  by_cases hw : R.acquire k ≤ R.enter k
  · exact ⟨∅, ∅, Cover.empty hw, by simp, by simp, by simp⟩
  push Not at hw
  have hko := h.order k hk.1
  obtain ⟨W, hW⟩ := hl.exists_finset (fun s => R.For S s r false ∧ R.enter s ≤ R.enter k ∧
    R.acquire s < R.acquire k) (R.enter k)
  have hbefore : ∀ s ∈ W, R.leave s ≤ R.acquire k := by
    intro s hs
    have hs' := (hW s).mp hs
    have hne : s ≠ k := by rintro rfl; exact absurd hs'.2.1.2.2 (lt_irrefl _)
    rcases h.exclusive s k r false hs'.2.1.1 hk hne with h1 | h1
    · exact h1
    · have := hs'.2.1.2.2; omega
  choose F hF1 hF2 hF3 using fun x => hl.exists_longest r x
  let times : Finset ℕ := (W.image R.leave).filter (fun x => x < R.acquire k)
  have htimes : times.card ≤ W.card := le_trans (card_filter_le _ _) card_image_le
  refine ⟨W, F (R.enter k) ∪ times.biUnion F, ⟨fun s hs => ((hW s).mp hs).2.1.1, ?_, ?_, ?_, hbefore, ?_⟩,
    fun s hs => ((hW s).mp hs).2.2, ?_, ?_⟩
  · intro s hs
    rcases mem_union.mp hs with hs | hs
    · exact (hF2 _ s hs).1
    · obtain ⟨x, _, hs⟩ := mem_biUnion.mp hs
      exact (hF2 _ s hs).1
  · intro s hs
    exact ⟨R.enter k, le_refl _, hw, ((hW s).mp hs).2.2⟩
  · intro s hs
    rcases mem_union.mp hs with hs | hs
    · exact ⟨R.enter k, le_refl _, hw, (hF2 _ s hs).2⟩
    · obtain ⟨x, hx, hs⟩ := mem_biUnion.mp hs
      obtain ⟨hx1, hx2⟩ := mem_filter.mp hx
      obtain ⟨w, hw', rfl⟩ := mem_image.mp hx1
      have := ((hW w).mp hw').2.2.2
      exact ⟨R.leave w, by omega, hx2, (hF2 _ s hs).2⟩
  · intro t ht1 ht2
    obtain ⟨s, rd, hs, hst⟩ := h.progress k r false t hk ht1 ht2
    cases rd with
    | false =>
      refine ⟨s, mem_union_left _ ((hW s).mpr ⟨hs.1, ⟨hs, ?_, ?_⟩, ?_, ?_⟩), hst⟩
      · exact h.fifo k s r hk hs (lt_of_le_of_lt hst.1 ht2)
      · exact lt_of_le_of_lt hst.1 ht2
      · exact h.fifo k s r hk hs (lt_of_le_of_lt hst.1 ht2)
      · exact lt_of_le_of_lt ht1 hst.2
    | true =>
      by_cases ha : R.acquire s ≤ R.enter k
      · obtain ⟨s', h1, h2⟩ := hF3 (R.enter k) s hs ⟨ha, lt_of_le_of_lt ht1 hst.2⟩ t ht1 hst.2
        exact ⟨s', mem_union_right _ (mem_union_left _ h1), h2⟩
      · push Not at ha
        have hlt : R.acquire s < R.acquire k := lt_of_le_of_lt hst.1 ht2
        obtain ⟨w, hw1, hw2⟩ := h.concede s k r hs hk ha hlt
        have hwo := (h.order w hw1.1).2
        have hwW : w ∈ W := by
          have := h.fifo k w r hk hw1 (by omega)
          exact (hW w).mpr ⟨hw1.1, ⟨hw1, this, by omega⟩, this, by omega⟩
        have hso := (h.order s hs.1).2
        obtain ⟨s', h1, h2⟩ := hF3 (R.leave w) s hs ⟨by omega, by omega⟩ t (by have := hst.1; omega) hst.2
        refine ⟨s', mem_union_right _ (mem_union_right _ (mem_biUnion.mpr ⟨R.leave w, ?_, h1⟩)), h2⟩
        exact mem_filter.mpr ⟨mem_image_of_mem _ hwW, by omega⟩
  · have h1 : (times.biUnion F).card ≤ times.card := by
      refine le_trans card_biUnion_le ?_
      refine le_trans (sum_le_sum (fun x _ => hF1 x)) ?_
      simp
    have h2 := card_union_le (F (R.enter k)) (times.biUnion F)
    have h3 := hF1 (R.enter k)
    omega
  · have h1 : (times.biUnion F).card ≤ times.card := by
      refine le_trans card_biUnion_le ?_
      refine le_trans (sum_le_sum (fun x _ => hF1 x)) ?_
      simp
    have h2 := card_union_le (F (R.enter k)) (times.biUnion F)
    have hkW : k ∉ W := fun hkW => absurd ((hW k).mp hkW).2.1.2.2 (lt_irrefl _)
    have hki : R.Incomplete k (R.enter k) := ⟨le_refl _, by omega⟩
    rcases (F (R.enter k)).eq_empty_or_nonempty with he | ⟨s, hs⟩
    · have := hl.card_all hC (F := insert k W) (t := R.enter k) (by
        intro s hs
        rcases mem_insert.mp hs with rfl | hs
        · exact ⟨hk.1, hki⟩
        · exact ⟨((hW s).mp hs).1, ((hW s).mp hs).2.2⟩)
      rw [card_insert_of_notMem hkW] at this
      rw [he, empty_union]
      omega
    · have hs' := hF2 _ s hs
      have hsk : s ≠ k := by rintro rfl; have := hs'.2.1; omega
      have hsW : s ∉ W := by
        intro hsW
        obtain ⟨_, q, h1, _, h2⟩ := ((hW s).mp hsW).2.1.1
        obtain ⟨_, q', h3, _, h4⟩ := hs'.1
        rw [h1] at h3
        cases h3
        rw [h2] at h4
        exact absurd h4 (by decide)
      have := hl.card_all hC (F := insert k (insert s W)) (t := R.enter k) (by
        intro s' hs''
        rcases mem_insert.mp hs'' with rfl | hs''
        · exact ⟨hk.1, hki⟩
        · rcases mem_insert.mp hs'' with rfl | hs''
          · exact ⟨hs'.1.1, hl.served_incomplete hs'.1.1 hs'.2⟩
          · exact ⟨((hW s').mp hs'').1, ((hW s').mp hs'').2.2⟩)
      rw [card_insert_of_notMem (by simp [hkW, Ne.symm hsk]), card_insert_of_notMem hsW] at this
      have h3 := hF1 (R.enter k)
      omega

/-- What a read request waits for. -/
theorem cover_read {k : Section n} {r : ℕ} (hk : R.For S k r true) :
    ∃ W D, Cover S R r k W D ∧ W.card ≤ 1 ∧ D.card ≤ W.card := by
  classical
  have hl := h.toRwLegal
  by_cases hw : R.acquire k ≤ R.enter k
  · exact ⟨∅, ∅, Cover.empty hw, by simp, by simp⟩
  push Not at hw
  -- the last slot
  have hlast : ∃ w, R.For S w r false ∧ R.Served w (R.acquire k - 1) := by
    obtain ⟨s, rd, hs, hst⟩ := h.progress k r true (R.acquire k - 1) hk (by omega) (by omega)
    cases rd with
    | false => exact ⟨s, hs, hst⟩
    | true =>
      exfalso
      obtain ⟨w, hw1, hw2, hw3⟩ := h.needed k r (R.acquire k - 1) hk (by omega) (by omega)
      have hsw : w ≠ s := by
        rintro rfl
        obtain ⟨_, q, h1, _, h2⟩ := hs
        obtain ⟨_, q', h3, _, h4⟩ := hw1
        rw [h1] at h3; cases h3
        rw [h2] at h4
        exact absurd h4 (by decide)
      have hex := h.exclusive w s r true hw1 hs hsw
      have hwk : w ≠ k := by
        rintro rfl
        obtain ⟨_, q, h1, _, h2⟩ := hk
        obtain ⟨_, q', h3, _, h4⟩ := hw1
        rw [h1] at h3; cases h3
        rw [h2] at h4
        exact absurd h4 (by decide)
      have hex2 := h.exclusive w k r true hw1 hk hwk
      have ho1 := (h.order w hw1.1).2
      have ho2 := (h.order k hk.1).2
      obtain ⟨hs1, hs2⟩ := hst
      have hlt : R.acquire k < R.acquire w := by omega
      obtain ⟨w', hw1', hw2'⟩ := h.concede k w r hk hw1 (by omega) hlt
      have hsw' : w' ≠ s := by
        rintro rfl
        obtain ⟨_, q, h1, _, h2⟩ := hs
        obtain ⟨_, q', h3, _, h4⟩ := hw1'
        rw [h1] at h3; cases h3
        rw [h2] at h4
        exact absurd h4 (by decide)
      have hex' := h.exclusive w' s r true hw1' hs hsw'
      have ho' := (h.order w' hw1'.1).2
      omega
  obtain ⟨w, hw1, hw2⟩ := hlast
  obtain ⟨F, hF1, hF2, hF3⟩ := hl.exists_longest r (R.enter k)
  have hwk : w ≠ k := by
    rintro rfl
    have := hw2.1
    omega
  have hwleave : R.leave w ≤ R.acquire k := by
    have hex := h.exclusive w k r true hw1 hk hwk
    have ho2 := (h.order k hk.1).2
    have := hw2.1
    omega
  refine ⟨{w}, F, ⟨?_, fun s hs => (hF2 s hs).1, ?_, ?_, ?_, ?_⟩, by simp, by simpa using hF1⟩
  · intro s hs; rw [mem_singleton] at hs; subst hs; exact hw1
  · intro s hs; rw [mem_singleton] at hs; subst hs
    exact ⟨R.acquire k - 1, by omega, by omega, hl.served_incomplete hw1.1 hw2⟩
  · intro s hs
    exact ⟨R.enter k, le_refl _, hw, (hF2 s hs).2⟩
  · intro s hs; rw [mem_singleton] at hs; subst hs; exact hwleave
  · intro t ht1 ht2
    obtain ⟨s, rd, hs, hst⟩ := h.progress k r true t hk ht1 ht2
    cases rd with
    | false =>
      have := h.turn k s r hk hs (lt_of_le_of_lt ht1 hst.2) (lt_of_le_of_lt hst.1 ht2)
      have hsw : s = w := by
        by_contra hne
        have hex := h.exclusive s w r false hs hw1 hne
        have := hw2.1
        have := hw2.2
        have := hst.1
        omega
      subst hsw
      exact ⟨s, by simp, hst⟩
    | true =>
      have ha : R.acquire s ≤ R.enter k := by
        by_contra hlt
        push Not at hlt
        have := h.together k s r hk hs hlt
        have := hst.1
        omega
      obtain ⟨s', h1, h2⟩ := hF3 s hs ⟨ha, lt_of_le_of_lt ht1 hst.2⟩ t ht1 hst.2
      exact ⟨s', mem_union_right _ h1, h2⟩

end PhaseFair

namespace TaskFair
variable (h : TaskFair procs irq irqCpu S R)
include h

/-- A read request that waits is granted when a writer phase ends. -/
theorem granted {s : Section n} {r : ℕ} (hs : R.For S s r true) (hw : R.enter s < R.acquire s) :
    ∃ w, R.For S w r false ∧ R.acquire w < R.acquire s ∧ R.leave w = R.acquire s := by
  obtain ⟨w, h1, h2, h3⟩ := h.needed s r (R.acquire s - 1) hs (by omega) (by omega)
  refine ⟨w, h1, h2, ?_⟩
  have hne : w ≠ s := by rintro rfl; exact absurd h2 (lt_irrefl _)
  have ho := (h.order s hs.1).2
  rcases h.exclusive w s r true h1 hs hne with h4 | h4 <;> omega

/-- What a request waits for. -/
theorem cover {k : Section n} {r : ℕ} {rd : Bool} (hk : R.For S k r rd) :
    ∃ W D, Cover S R r k W D ∧ (∀ s ∈ W ∪ D, R.Incomplete s (R.enter k)) ∧
      D.card ≤ W.card + (if rd then 0 else 1) := by
  classical
  have hl := h.toRwLegal
  by_cases hw : R.acquire k ≤ R.enter k
  · exact ⟨∅, ∅, Cover.empty hw, by simp, by simp⟩
  push Not at hw
  have hko := h.order k hk.1
  obtain ⟨W, hW⟩ := hl.exists_finset (fun s => R.For S s r false ∧ R.acquire s < R.acquire k) (R.enter k)
  have hahead : ∀ w, R.For S w r false → R.acquire w < R.acquire k → R.enter k < R.leave w → w ∈ W := by
    intro w h1 h2 h3
    exact (hW w).mpr ⟨h1.1, ⟨h1, h2⟩, h.fifo k w r rd false hk h1 h2, h3⟩
  have hbefore : ∀ s ∈ W, R.leave s ≤ R.acquire k := by
    intro s hs
    have hs' := (hW s).mp hs
    have hne : s ≠ k := by rintro rfl; exact absurd hs'.2.1.2 (lt_irrefl _)
    rcases h.exclusive s k r rd hs'.2.1.1 hk hne with h1 | h1
    · exact h1
    · have := hs'.2.1.2; omega
  choose F hF1 hF2 hF3 using fun x => hl.exists_longest r x
  let times : Finset ℕ := (W.image R.leave).filter (fun x => x < R.acquire k)
  have hinD : ∀ s ∈ F (R.enter k) ∪ times.biUnion F, R.For S s r true ∧
      ∃ x, R.enter k ≤ x ∧ x < R.acquire k ∧ R.Served s x := by
    intro s hs
    rcases mem_union.mp hs with hs | hs
    · exact ⟨(hF2 _ s hs).1, R.enter k, le_refl _, hw, (hF2 _ s hs).2⟩
    · obtain ⟨x, hx, hs⟩ := mem_biUnion.mp hs
      obtain ⟨hx1, hx2⟩ := mem_filter.mp hx
      obtain ⟨w, hw', rfl⟩ := mem_image.mp hx1
      have := ((hW w).mp hw').2.2.2
      exact ⟨(hF2 _ s hs).1, R.leave w, by omega, hx2, (hF2 _ s hs).2⟩
  refine ⟨W, F (R.enter k) ∪ times.biUnion F, ⟨fun s hs => ((hW s).mp hs).2.1.1, fun s hs => (hinD s hs).1,
    fun s hs => ⟨R.enter k, le_refl _, hw, ((hW s).mp hs).2.2⟩, fun s hs => (hinD s hs).2, hbefore, ?_⟩, ?_, ?_⟩
  · intro t ht1 ht2
    obtain ⟨s, rd', hs, hst⟩ := h.progress k r rd t hk ht1 ht2
    cases rd' with
    | false =>
      exact ⟨s, mem_union_left _ (hahead s hs (lt_of_le_of_lt hst.1 ht2) (lt_of_le_of_lt ht1 hst.2)), hst⟩
    | true =>
      by_cases ha : R.acquire s ≤ R.enter k
      · obtain ⟨s', h1, h2⟩ := hF3 (R.enter k) s hs ⟨ha, lt_of_le_of_lt ht1 hst.2⟩ t ht1 hst.2
        exact ⟨s', mem_union_right _ (mem_union_left _ h1), h2⟩
      · push Not at ha
        have hlt : R.acquire s < R.acquire k := lt_of_le_of_lt hst.1 ht2
        have hen := h.fifo k s r rd true hk hs hlt
        obtain ⟨w, hw1, hw2, hw3⟩ := h.granted hs (by omega)
        have hwW : w ∈ W := hahead w hw1 (by omega) (by omega)
        have hso := (h.order s hs.1).2
        obtain ⟨s', h1, h2⟩ := hF3 (R.leave w) s hs ⟨by omega, by omega⟩ t (by have := hst.1; omega) hst.2
        refine ⟨s', mem_union_right _ (mem_union_right _ (mem_biUnion.mpr ⟨R.leave w, ?_, h1⟩)), h2⟩
        exact mem_filter.mpr ⟨mem_image_of_mem _ hwW, by omega⟩
  · intro s hs
    rcases mem_union.mp hs with hs | hs
    · exact ((hW s).mp hs).2.2
    · obtain ⟨h1, x, x1, x2, x3⟩ := hinD s hs
      obtain ⟨x3, x4⟩ := x3
      exact ⟨h.fifo k s r rd true hk h1 (by omega), by omega⟩
  · have h1 : (times.biUnion F).card ≤ times.card := by
      refine le_trans card_biUnion_le ?_
      refine le_trans (sum_le_sum (fun x _ => hF1 x)) ?_
      simp
    have h2 := card_union_le (F (R.enter k)) (times.biUnion F)
    have h3 := hF1 (R.enter k)
    cases rd with
    | false =>
      have htimes : times.card ≤ W.card := le_trans (card_filter_le _ _) card_image_le
      simp only [Bool.false_eq_true, if_false]
      omega
    | true =>
      obtain ⟨w, hw1, hw2, hw3⟩ := h.granted hk hw
      have hwW : w ∈ W := hahead w hw1 hw2 (by omega)
      have htimes : times ⊆ (W.erase w).image R.leave := by
        intro x hx
        obtain ⟨hx1, hx2⟩ := mem_filter.mp hx
        obtain ⟨v, hv, rfl⟩ := mem_image.mp hx1
        refine mem_image.mpr ⟨v, mem_erase.mpr ⟨?_, hv⟩, rfl⟩
        rintro rfl
        omega
      have h4 := le_trans (card_le_card htimes) card_image_le
      rw [card_erase_of_mem hwW] at h4
      have h5 : 0 < W.card := card_pos.mpr ⟨w, hwW⟩
      simp only [if_true]
      omega

end TaskFair

end Verif.Spec

namespace Verif.Spec
open Finset

variable {n procs irqCpu : ℕ} {irq : ℤ} {S : RwSystem n} {R : RwRun n}

theorem RwRun.For.unique {s : Section n} {r r' : ℕ} {rd rd' : Bool} (h : R.For S s r rd) (h' : R.For S s r' rd') :
    r = r' ∧ rd = rd' := by
  obtain ⟨_, q, h1, h2, h3⟩ := h
  obtain ⟨_, q', h1', h2', h3'⟩ := h'
  rw [h1] at h1'
  cases h1'
  exact ⟨h2.symm.trans h2', h3.symm.trans h3'⟩

/-- The waiting times of several requests of a task. -/
theorem combine (h : RwLegal procs irq irqCpu S R) {r : ℕ} {i : Fin n} {O : Finset (Section n)}
    (hO : ∀ k ∈ O, R.issued k ∧ k.job.1 = i) {W D : Section n → Finset (Section n)}
    (hc : ∀ k ∈ O, Cover S R r k (W k) (D k)) :
    ∑ k ∈ O, (R.acquire k - R.enter k) ≤ ∑ s ∈ O.biUnion W, (R.leave s - R.acquire s) +
      ∑ s ∈ O.biUnion D, (R.leave s - R.acquire s) ∧
    (O.biUnion W).card = ∑ k ∈ O, (W k).card := by
  classical
  constructor
  · have hd : ∀ k ∈ O, ∀ k' ∈ O, k ≠ k' →
        Disjoint (Ico (R.enter k) (R.acquire k)) (Ico (R.enter k') (R.acquire k')) := by
      intro k hk k' hk' hne
      rw [disjoint_left]
      intro t ht ht'
      rw [mem_Ico] at ht ht'
      have h1 := (h.order k (hO k hk).1).2
      have h2 := (h.order k' (hO k' hk').1).2
      rcases h.serial k k' (hO k hk).1 (hO k' hk').1 ((hO k hk).2.trans (hO k' hk').2.symm) hne with h' | h' <;> omega
    have e1 : ∑ k ∈ O, (R.acquire k - R.enter k) = (O.biUnion (fun k => Ico (R.enter k) (R.acquire k))).card := by
      rw [card_biUnion hd]
      simp
    have hsub : O.biUnion (fun k => Ico (R.enter k) (R.acquire k)) ⊆
        (O.biUnion W ∪ O.biUnion D).biUnion (fun s => Ico (R.acquire s) (R.leave s)) := by
      intro t ht
      obtain ⟨k, hk, ht⟩ := mem_biUnion.mp ht
      rw [mem_Ico] at ht
      obtain ⟨s, hs, hst⟩ := (hc k hk).slots t ht.1 ht.2
      refine mem_biUnion.mpr ⟨s, ?_, mem_Ico.mpr hst⟩
      rcases mem_union.mp hs with hs | hs
      · exact mem_union_left _ (mem_biUnion.mpr ⟨k, hk, hs⟩)
      · exact mem_union_right _ (mem_biUnion.mpr ⟨k, hk, hs⟩)
    rw [e1]
    refine le_trans (card_le_card hsub) (le_trans card_biUnion_le ?_)
    have hdisj : Disjoint (O.biUnion W) (O.biUnion D) := by
      rw [disjoint_left]
      intro s hs hs'
      obtain ⟨k, hk, hs⟩ := mem_biUnion.mp hs
      obtain ⟨k', hk', hs'⟩ := mem_biUnion.mp hs'
      exact absurd (((hc k hk).writes s hs).unique ((hc k' hk').reads s hs')).2 (by decide)
    rw [sum_union hdisj]
    simp
  · apply card_biUnion
    intro k hk k' hk' hne
    change Disjoint (W k) (W k')
    rw [disjoint_left]
    intro s hs hs'
    have b1 := (hc k hk).before s hs
    have b2 := (hc k' hk').before s hs'
    obtain ⟨x, x1, x2, _, x4⟩ := (hc k hk).overlapW s hs
    obtain ⟨y, y1, y2, _, y4⟩ := (hc k' hk').overlapW s hs'
    have h1 := (h.order k (hO k hk).1).2
    have h2 := (h.order k' (hO k' hk').1).2
    rcases h.serial k k' (hO k hk).1 (hO k' hk').1 ((hO k hk).2.trans (hO k' hk').2.symm) hne with h' | h' <;> omega

end Verif.Spec
