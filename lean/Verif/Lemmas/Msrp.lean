import Verif.Spec.Msrp
import Verif.Spec.Demand
import Verif.Lemmas.EdfUni

/-! Partitioned EDF with the MSRP: spinning and arrival blocking. -/

namespace Verif.Spec
open Finset

variable {n : ℕ} {S : LockSystem n} {R : LockRun n}

/-- The sections of one job do not overlap. -/
theorem SpinBase.section_unique (h : SpinBase S R) {s s' : Section n} {t : ℕ} (hi : R.issued s)
    (hi' : R.issued s') (hj : s.job = s'.job) (h1 : R.enter s ≤ t) (h2 : t < R.leave s)
    (h1' : R.enter s' ≤ t) (h2' : t < R.leave s') : s = s' := by
  by_contra hne
  rcases h.serial s s' hi hi' hj hne with h3 | h3 <;> omega

/-- A request for a global resource spins for at most one request of each other
processor. -/
theorem SpinRun.spin_le (h : SpinRun S R) {m : ℕ} (hm : ∀ i, S.proc i < m) {s : Section n} {q : Req}
    (hi : R.issued s) (hq : (S.reqs s.job.1)[s.idx]? = some q) (hg : S.Global q.res)
    (L : ℕ → ℕ) (hL : ∀ i, ∀ q' ∈ S.reqs i, q'.res = q.res → q'.len ≤ L (S.proc i)) :
    R.acquire s - R.enter s ≤ ∑ p ∈ (range m).erase (S.proc s.job.1), L p := by
  classical
  have key : ∀ t ∈ Ico (R.enter s) (R.acquire s), ∃ s', ∃ q', R.issued s' ∧
      (S.reqs s'.job.1)[s'.idx]? = some q' ∧ q'.res = q.res ∧
      R.enter s' ≤ R.enter s ∧ R.acquire s' ≤ t ∧ t < R.leave s' ∧
      S.proc s'.job.1 ≠ S.proc s.job.1 ∧ s'.job ∈ R.sched (R.enter s) := by
    intro t ht
    rw [mem_Ico] at ht
    obtain ⟨s', q', hi', hq', hr, h1, h2, h3⟩ := h.fifo s q t hi hq hg ht.1 ht.2
    have hg' : S.Global q'.res := by rw [hr]; exact hg
    have hx := h.nonpreemptive s' q' (R.enter s) hi' hq' hg' h1 (by omega)
    refine ⟨s', q', hi', hq', hr, h1, h2, h3, ?_, hx⟩
    intro hp
    have hle := (h.order s hi).2
    have hy := h.nonpreemptive s q (R.enter s) hi hq hg le_rfl (by omega)
    have hjob := h.one _ _ hx _ hy hp
    have := h.section_unique (t := t) hi' hi hjob (by omega) h3 ht.1 (by omega)
    subst this
    omega
  haveI : Nonempty (Section n) := ⟨s⟩
  haveI : Nonempty Req := ⟨q⟩
  choose! f g hf using key
  -- one request per processor
  have huniq : ∀ t ∈ Ico (R.enter s) (R.acquire s), ∀ t' ∈ Ico (R.enter s) (R.acquire s),
      S.proc (f t).job.1 = S.proc (f t').job.1 → f t = f t' := by
    intro t ht t' ht' hp
    have a := hf t ht
    have b := hf t' ht'
    rw [mem_Ico] at ht ht'
    have hjob := h.one _ _ a.2.2.2.2.2.2.2 _ b.2.2.2.2.2.2.2 hp
    exact h.section_unique (t := R.enter s) a.1 b.1 hjob a.2.2.2.1 (by omega) b.2.2.2.1 (by omega)
  have hmap : ∀ t ∈ Ico (R.enter s) (R.acquire s),
      S.proc (f t).job.1 ∈ (range m).erase (S.proc s.job.1) := by
    intro t ht
    rw [mem_erase, mem_range]
    exact ⟨(hf t ht).2.2.2.2.2.2.1, hm _⟩
  have hcard : (Ico (R.enter s) (R.acquire s)).card
      = ∑ p ∈ (range m).erase (S.proc s.job.1),
        ((Ico (R.enter s) (R.acquire s)).filter (fun t => S.proc (f t).job.1 = p)).card :=
    card_eq_sum_card_fiberwise hmap
  rw [Nat.card_Ico] at hcard
  rw [hcard]
  apply sum_le_sum
  intro p _
  rcases ((Ico (R.enter s) (R.acquire s)).filter
      (fun t => S.proc (f t).job.1 = p)).eq_empty_or_nonempty with he | ⟨t0, ht0⟩
  · rw [he]; simp
  · rw [mem_filter] at ht0
    have a := hf t0 ht0.1
    have hlen := h.length (f t0) (g t0) a.1 a.2.1
    have hle : (g t0).len ≤ L p := by
      rw [← ht0.2]
      exact hL _ _ (List.mem_of_getElem? a.2.1) a.2.2.1
    refine le_trans (card_le_card ?_) (hlen.trans hle)
    intro t ht
    rw [mem_filter] at ht
    have b := hf t ht.1
    have e : f t = f t0 := huniq t ht.1 t0 ht0.1 (ht.2.trans ht0.2.symm)
    rw [e] at b
    rw [mem_filter, mem_Ico]
    refine ⟨⟨b.2.2.2.2.1, b.2.2.2.2.2.1⟩, ?_⟩
    refine h.nonpreemptive (f t0) (g t0) t a.1 a.2.1 (by rw [a.2.2.1]; exact hg) ?_ b.2.2.2.2.2.1
    have := mem_Ico.1 ht.1
    have := b.2.2.2.1
    omega

/-- Processor time of a section, spinning included. -/
theorem SpinBase.section_le (h : SpinBase S R) {s : Section n} {q : Req} (hi : R.issued s)
    (hq : (S.reqs s.job.1)[s.idx]? = some q) {b : ℕ} (hb : R.acquire s - R.enter s ≤ b) :
    ((Ico (R.enter s) (R.leave s)).filter (fun t => s.job ∈ R.sched t)).card ≤ b + q.len := by
  classical
  have h1 := h.length s q hi hq
  have h2 : ((Ico (R.enter s) (R.acquire s)).filter (fun t => s.job ∈ R.sched t)).card ≤ b := by
    refine (card_filter_le _ _).trans ?_
    rw [Nat.card_Ico]; exact hb
  have ho := h.order s hi
  have e : Ico (R.enter s) (R.leave s) = Ico (R.enter s) (R.acquire s) ∪ Ico (R.acquire s) (R.leave s) :=
    (Ico_union_Ico_eq_Ico ho.1 ho.2).symm
  rw [e, filter_union]
  exact (card_union_le _ _).trans (by omega)

theorem SpinBase.valid (h : SpinBase S R) : ValidSchedule n R.work R.sched := by
  refine ⟨fun t => ?_, h.ready⟩
  have hinj : Set.InjOn (Prod.fst : Job n → Fin n) (R.sched t) := by
    intro j hj j' hj' he
    exact h.one t j hj j' hj' (by rw [he])
  have := card_le_card_of_injOn (Prod.fst : Job n → Fin n) (t := (univ : Finset (Fin n)))
    (fun _ _ => mem_coe.2 (mem_univ _)) hinj
  simpa using this

/-- The processor demand criterion with arrival blocking: if on every processor, for every
interval, the demand and the longest section that can block a task fit, no deadline
is missed. -/
theorem Msrp.meets (h : Msrp S R) (hT : ∀ i, 0 < S.period i) (Ci : Fin n → ℕ)
    (hexec : ∀ j, R.work.exec j ≤ Ci j.1) (L : Fin n → Req → ℕ)
    (hL : ∀ s q, R.issued s → (S.reqs s.job.1)[s.idx]? = some q →
      ((Ico (R.enter s) (R.leave s)).filter (fun t => s.job ∈ R.sched t)).card ≤ L s.job.1 q)
    (hdem : ∀ p t, demand (fun i => if S.proc i = p then Ci i else 0) S.period S.deadline t ≤ t)
    (hblk : ∀ t i a, S.proc a = S.proc i → S.deadline i ≤ t → t < S.deadline a →
      ∀ q ∈ S.reqs a, 0 < q.num → (S.Global q.res ∨ ∃ k, S.Uses k q.res ∧ S.deadline k ≤ S.deadline i) →
      demand (fun k => if S.proc k = S.proc i then Ci k else 0) S.period S.deadline t + L a q ≤ t) :
    MeetsDeadlines R.work S.deadline R.sched := by
  classical
  intro j
  by_contra hmiss
  set w := R.work with hw
  set σ := R.sched with hσ
  set D := S.deadline with hD
  set p := S.proc j.1 with hp
  set td := w.deadline D j with htd
  have hv : ValidSchedule n w σ := h.valid
  have hspor : w.Sporadic Ci S.period := ⟨h.separated, fun i k => hexec (i, k)⟩
  -- the workload of the processor
  let w' : Workload n := ⟨w.release, fun x => if S.proc x.1 = p then w.exec x else 0⟩
  let C' : Fin n → ℕ := fun i => if S.proc i = p then Ci i else 0
  have hspor' : w'.Sporadic C' S.period := by
    refine ⟨h.separated, fun i k => ?_⟩
    show (if S.proc i = p then w.exec (i, k) else 0) ≤ (if S.proc i = p then Ci i else 0)
    split_ifs
    · exact hexec (i, k)
    · exact le_rfl
  -- last quiet time
  let P : ℕ → Prop := fun s => ∀ x : Job n, S.proc x.1 = p → w.deadline D x ≤ td →
    w.release x < s → Completed w σ x s
  have hP0 : P 0 := fun _ _ _ h => absurd h (Nat.not_lt_zero _)
  set t0 := Nat.findGreatest P (w.release j) with ht0
  have hPt0 : P t0 := Nat.findGreatest_spec (Nat.zero_le _) hP0
  have ht0le : t0 ≤ w.release j := Nat.findGreatest_le _
  have hrtd : w.release j ≤ td := by rw [htd]; unfold Workload.deadline; omega
  have hpend : ∀ s, t0 ≤ s → s < td → ∃ x, S.proc x.1 = p ∧ w.deadline D x ≤ td ∧ Pending w σ x s := by
    intro s hs1 hs2
    by_cases hsj : w.release j ≤ s
    · exact ⟨j, rfl, le_rfl, hsj, fun hc => hmiss (hc.mono hs2.le)⟩
    · by_contra hno
      push Not at hno
      have hP : P (s + 1) := by
        intro x hxp hd hr
        have := hno x hxp hd
        unfold Pending at this
        push Not at this
        exact (this (by omega)).mono (by omega)
      have := Nat.le_findGreatest (P := P) (show s + 1 ≤ w.release j by omega) hP
      omega
  have hfin := sporadic_finite hspor hT td
  set A := hfin.toFinset.filter
    (fun x => S.proc x.1 = p ∧ t0 ≤ w.release x ∧ w.deadline D x ≤ td) with hA
  -- a job of the processor with an early deadline that executes belongs to `A`
  have hmemA : ∀ x, S.proc x.1 = p → t0 ≤ w.release x → w.deadline D x ≤ td → x ∈ A := by
    intro x h0 h1 h2
    rw [hA, mem_filter, Set.Finite.mem_toFinset]
    refine ⟨?_, h0, h1, h2⟩
    have : w.release x ≤ w.deadline D x := by unfold Workload.deadline; omega
    exact this.trans h2
  have hunf : ∀ x s, S.proc x.1 = p → w.deadline D x ≤ td → t0 ≤ s → ¬ Completed w σ x s →
      t0 ≤ w.release x := by
    intro x s h0 h1 h2 h3
    by_contra hlt
    exact h3 ((hPt0 x h0 h1 (by omega)).mono h2)
  -- slots without a job of `A`
  have hslot : ∀ t, t0 ≤ t → t < td → σ t ∩ A = ∅ → ∃ s q x, R.issued s ∧ s.job ∈ σ t ∧
      (S.reqs s.job.1)[s.idx]? = some q ∧ S.proc s.job.1 = p ∧ td < w.deadline D s.job ∧
      R.enter s < t ∧ t < R.leave s ∧ S.proc x = p ∧
      (S.Global q.res ∨ ∃ k, S.Uses k q.res ∧ D k ≤ D x) ∧ (∃ r, t0 ≤ r ∧ r + D x ≤ td) := by
    intro t h1 h2 hemp
    obtain ⟨⟨i, k⟩, hxp, hd, hpe⟩ := hpend t h1 h2
    obtain ⟨k', _, hr, hrel⟩ := exists_ready hspor hpe
    have hd' : w.deadline D (i, k') ≤ td := by
      unfold Workload.deadline at hd ⊢; simp only at hd ⊢; omega
    have hrel' := hunf (i, k') t hxp hd' h1 hr.1.2
    have hnin : (i, k') ∉ σ t := by
      intro hin
      have : (i, k') ∈ σ t ∩ A := mem_inter.2 ⟨hin, hmemA _ hxp hrel' hd'⟩
      rw [hemp] at this; simp at this
    obtain ⟨y, hy, hyp, hor⟩ := h.edf t (i, k') hr hnin
    have hyp' : S.proc y.1 = p := hyp.trans hxp
    have hlate : td < w.deadline D y := by
      by_contra hle
      push Not at hle
      have hyr := hunf y t hyp' hle h1 (h.ready t y hy).1.2
      have : y ∈ σ t ∩ A := mem_inter.2 ⟨hy, hmemA _ hyp' hyr hle⟩
      rw [hemp] at this; simp at this
    rcases hor with hor | ⟨s, q, hi, hsj, hq, he, hl, hc⟩
    · exact absurd (le_trans hor hd') (not_le.2 hlate)
    · subst hsj
      exact ⟨s, q, i, hi, hy, hq, hyp', hlate, he, hl, hxp, hc,
        w.release (i, k'), hrel', by unfold Workload.deadline at hd'; exact hd'⟩
  -- the blocking section was entered before the window
  have hearly : ∀ t s, t0 ≤ t → t < td → R.issued s → S.proc s.job.1 = p →
      td < w.deadline D s.job → R.enter s < t → t < R.leave s → R.enter s < t0 := by
    intro t s h1 h2 hi hsp hlate he hl
    by_contra hge
    push Not at hge
    have hex := h.starts s hi (by omega)
    have hemp : σ (R.enter s) ∩ A = ∅ := by
      rw [eq_empty_iff_forall_notMem]
      intro x hx
      rw [mem_inter, hA, mem_filter] at hx
      have := h.one _ x hx.1 s.job hex (hx.2.2.1.trans hsp.symm)
      have h4 := hx.2.2.2.2
      rw [this] at h4
      omega
    obtain ⟨s2, q2, x2, hi2, hj2, _, hp2, _, he2, hl2, _⟩ := hslot (R.enter s) hge (by omega) hemp
    have hjob := h.one _ _ hex _ hj2 (hsp.trans hp2.symm)
    have := h.section_unique (t := R.enter s) hi hi2 hjob le_rfl (by omega) (by omega) hl2
    subst this
    omega
  -- all blocking slots belong to one section
  set B := (Ico t0 td).filter (fun t => σ t ∩ A = ∅) with hB
  have hsum : td - t0 ≤ ∑ t ∈ Ico t0 td, (σ t ∩ A).card + B.card := by
    have e : B.card = ∑ t ∈ Ico t0 td, if σ t ∩ A = ∅ then 1 else 0 := by rw [hB, card_filter]
    rw [e, ← sum_add_distrib]
    calc td - t0 = ∑ _t ∈ Ico t0 td, 1 := by simp
      _ ≤ _ := by
        apply sum_le_sum
        intro t _
        split_ifs with hc
        · omega
        · have := card_pos.2 (nonempty_iff_ne_empty.2 hc); omega
  rw [sum_card_eq_sum_service] at hsum
  have hjA : j ∈ A := hmemA j rfl ht0le le_rfl
  have hlt : ∑ x ∈ A, serviceIn σ x t0 td < ∑ x ∈ A, w.exec x := by
    apply sum_lt_sum (fun x _ => serviceIn_le_exec hv x t0 td)
    refine ⟨j, hjA, ?_⟩
    have := service_add σ j (ht0le.trans hrtd)
    unfold Completed at hmiss
    omega
  have hle : ∑ x ∈ A, w.exec x ≤ demand C' S.period D (td - t0) := by
    have e : ∑ x ∈ A, w.exec x = ∑ x ∈ A, w'.exec x := by
      apply sum_congr rfl
      intro x hx
      have := (mem_filter.1 hx).2.1
      show w.exec x = if S.proc x.1 = p then w.exec x else 0
      rw [if_pos this]
    rw [e]
    exact sum_exec_le_demand (D := D) hspor' hT A (a := t0) (b := td)
      (fun x hx => (mem_filter.1 hx).2.2)
  rcases B.eq_empty_or_nonempty with hBe | ⟨b, hb⟩
  · rw [hBe] at hsum
    have := hdem p (td - t0)
    simp only [card_empty] at hsum
    change demand C' S.period D (td - t0) ≤ _ at this
    omega
  · rw [hB, mem_filter, mem_Ico] at hb
    obtain ⟨s, q, x, hi, hj, hq, hsp, hlate, he, hl, hxp, hc, r, hr1, hr2⟩ :=
      hslot b hb.1.1 hb.1.2 hb.2
    have het := hearly b s hb.1.1 hb.1.2 hi hsp hlate he hl
    have hBs : B ⊆ (Ico (R.enter s) (R.leave s)).filter (fun t => s.job ∈ σ t) := by
      intro t ht
      rw [hB, mem_filter, mem_Ico] at ht
      obtain ⟨s', q', x', hi', hj', hq', hsp', hlate', he', hl', hxp', hc', r', hr1', hr2'⟩ :=
        hslot t ht.1.1 ht.1.2 ht.2
      have het' := hearly t s' ht.1.1 ht.1.2 hi' hsp' hlate' he' hl'
      -- no job can enter a section while another one blocks
      have excl : ∀ (s₁ s₂ : Section n) (q₁ : Req) (x₁ : Fin n) (r₁ : ℕ), R.issued s₁ → R.issued s₂ →
          (S.reqs s₁.job.1)[s₁.idx]? = some q₁ → S.proc s₁.job.1 = p → S.proc s₂.job.1 = p →
          (S.Global q₁.res ∨ ∃ k, S.Uses k q₁.res ∧ D k ≤ D x₁) → t0 ≤ r₁ → r₁ + D x₁ ≤ td →
          td < w.deadline D s₂.job → R.enter s₁ < t0 → R.enter s₂ < t0 → t0 < R.leave s₁ →
          t0 < R.leave s₂ → R.enter s₁ ≤ R.enter s₂ → s₁ = s₂ := by
        intro s₁ s₂ q₁ x₁ r₁ i1 i2 hq1 p1 p2 c1 hra hrb hl2 e1 e2 l1 l2 hle
        have hex2 := h.starts s₂ i2 (by omega)
        by_cases hjj : s₁.job = s₂.job
        · exact h.section_unique (t := R.enter s₂) i1 i2 hjj hle (by omega) le_rfl (by omega)
        · exfalso
          by_cases hg : S.Global q₁.res
          · have := h.nonpreemptive s₁ q₁ (R.enter s₂) i1 hq1 hg hle (by omega)
            exact hjj (h.one _ _ this _ hex2 (p1.trans p2.symm))
          · rcases c1 with c1 | ⟨k, hk1, hk2⟩
            · exact hg c1
            · have hlt2 := h.ceiling s₁ q₁ (R.enter s₂) i1 hq1 hg hle (by omega) s₂.job hex2
                (p2.trans p1.symm) (fun e => hjj e.symm) k hk1
              have hrel := (h.ready _ _ hex2).1.1
              unfold Workload.deadline at hl2
              change D s₂.job.1 < D k at hlt2
              change w.release s₂.job ≤ _ at hrel
              omega
      have hss : s = s' := by
        rcases le_total (R.enter s) (R.enter s') with hee | hee
        · exact excl s s' q x r hi hi' hq hsp hsp' hc hr1 hr2 hlate' het het' (by omega) (by omega) hee
        · exact (excl s' s q' x' r' hi' hi hq' hsp' hsp hc' hr1' hr2' hlate het' het (by omega)
            (by omega) hee).symm
      subst hss
      rw [mem_filter, mem_Ico]
      exact ⟨⟨by omega, hl'⟩, hj'⟩
    have hBc : B.card ≤ L s.job.1 q := (card_le_card hBs).trans (hL s q hi hq)
    obtain ⟨q0, hq0, hinst⟩ := h.declared s hi
    rw [hq] at hq0
    obtain rfl := Option.some.inj hq0
    have hrel : w.release s.job ≤ R.enter s := (h.ready _ _ (h.starts s hi (by omega))).1.1
    have hDs : td - t0 < D s.job.1 := by
      unfold Workload.deadline at hlate; omega
    have := hblk (td - t0) x s.job.1 (hsp.trans hxp.symm) (by change D x ≤ _; omega) hDs q
      (List.mem_of_getElem? hq) (by omega) hc
    rw [hxp] at this
    change demand C' S.period D (td - t0) + L s.job.1 q ≤ _ at this
    omega

end Verif.Spec
