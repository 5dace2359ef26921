import Verif.Lemmas.Msrp
import Verif.Spec.FixedPriority
import Mathlib.Data.Finset.Preimage

/-! Partitioned fixed-priority scheduling with the MSRP: arrival blocking, and the schedule of
one processor. -/

namespace Verif.Spec
open Finset

variable {n : ℕ} {S : LockSystem n} {prio : Fin n → ℕ} {R : LockRun n}

/-- The slots of a busy window in which no job of priority at least `P` executes belong to one
section of one job, which began before the window. -/
theorem NpSpinFp.inversion_section (h : NpSpinFp S prio R) (p P s e : ℕ)
    (hbusy : ∀ t, s ≤ t → t < e → ∃ x : Job n, S.proc x.1 = p ∧ prio x.1 ≤ P ∧
      Pending R.work R.sched x t) (V : Finset ℕ)
    (hV : ∀ t ∈ V, s ≤ t ∧ t < e ∧ ∀ x ∈ R.sched t, S.proc x.1 = p → P < prio x.1) (hne : V.Nonempty) :
    ∃ c q, R.issued c ∧ (S.reqs c.job.1)[c.idx]? = some q ∧ S.proc c.job.1 = p ∧ P < prio c.job.1 ∧
      R.enter c < s ∧ (S.Global q.res ∨ ∃ k, S.Uses k q.res ∧ prio k ≤ P) ∧
      ∀ t ∈ V, c.job ∈ R.sched t ∧ R.enter c < t ∧ t < R.leave c := by
  classical
  -- a slot without a job of high priority
  have hslot : ∀ t, s ≤ t → t < e → (∀ x ∈ R.sched t, S.proc x.1 = p → P < prio x.1) →
      ∃ c q, R.issued c ∧ c.job ∈ R.sched t ∧ (S.reqs c.job.1)[c.idx]? = some q ∧
        S.proc c.job.1 = p ∧ P < prio c.job.1 ∧ R.enter c < t ∧ t < R.leave c ∧
        (S.Global q.res ∨ ∃ k, S.Uses k q.res ∧ prio k ≤ P) := by
    intro t h1 h2 hno
    obtain ⟨⟨i, k⟩, hxp, hxP, hpe⟩ := hbusy t h1 h2
    obtain ⟨k', _, hr⟩ : ∃ k' ≤ k, Ready R.work R.sched (i, k') t := by
      have hrel : ∀ a b, a ≤ b → R.work.release (i, a) ≤ R.work.release (i, b) := by
        intro a b hab
        induction b, hab using Nat.le_induction with
        | base => exact le_rfl
        | succ b _ ih => have := h.separated i b; omega
      have hex : ∃ k', ¬ Completed R.work R.sched (i, k') t := ⟨k, hpe.2⟩
      refine ⟨Nat.find hex, Nat.find_min' hex hpe.2, ⟨?_, Nat.find_spec hex⟩, fun a ha => ?_⟩
      · exact (hrel _ _ (Nat.find_min' hex hpe.2)).trans hpe.1
      · have := Nat.find_min hex ha
        push Not at this
        exact this
    have hnin : (i, k') ∉ R.sched t := fun hin => absurd (hno _ hin hxp) (not_lt.2 hxP)
    obtain ⟨y, hy, hyp, hor⟩ := h.fp t (i, k') hr hnin
    have hyp' : S.proc y.1 = p := hyp.trans hxp
    have hyP := hno y hy hyp'
    rcases hor with hor | ⟨c, q, hi, hcj, hq, he, hl, hc⟩
    · simp only at hor hxP; omega
    · subst hcj
      refine ⟨c, q, hi, hy, hq, hyp', hyP, he, hl, ?_⟩
      rcases hc with hc | ⟨k, hk1, hk2⟩
      · exact Or.inl hc
      · exact Or.inr ⟨k, hk1, hk2.trans hxP⟩
  -- it was entered before the window
  have hearly : ∀ t c, s ≤ t → t < e → R.issued c → S.proc c.job.1 = p → P < prio c.job.1 →
      R.enter c < t → t < R.leave c → R.enter c < s := by
    intro t c h1 h2 hi hcp hcP he hl
    by_contra hge
    push Not at hge
    have hex := h.starts c hi (by omega)
    obtain ⟨c2, q2, hi2, hj2, _, hp2, _, he2, hl2, _⟩ := hslot (R.enter c) hge (by omega) (by
      intro x hx hxp
      rw [h.one _ x hx c.job hex (hxp.trans hcp.symm)]
      exact hcP)
    have hjob := h.one _ _ hex _ hj2 (hcp.trans hp2.symm)
    have := h.section_unique (t := R.enter c) hi hi2 hjob le_rfl (by omega) (by omega) hl2
    subst this
    omega
  obtain ⟨b, hb⟩ := hne
  obtain ⟨hb1, hb2, hb3⟩ := hV b hb
  obtain ⟨c, q, hi, hj, hq, hcp, hcP, he, hl, hc⟩ := hslot b hb1 hb2 hb3
  have het := hearly b c hb1 hb2 hi hcp hcP he hl
  refine ⟨c, q, hi, hq, hcp, hcP, het, hc, fun t ht => ?_⟩
  obtain ⟨ht1, ht2, ht3⟩ := hV t ht
  obtain ⟨c', q', hi', hj', hq', hcp', hcP', he', hl', hc'⟩ := hslot t ht1 ht2 ht3
  have het' := hearly t c' ht1 ht2 hi' hcp' hcP' he' hl'
  have excl : ∀ (c₁ c₂ : Section n) (q₁ : Req), R.issued c₁ → R.issued c₂ →
      (S.reqs c₁.job.1)[c₁.idx]? = some q₁ → S.proc c₁.job.1 = p → S.proc c₂.job.1 = p →
      (S.Global q₁.res ∨ ∃ k, S.Uses k q₁.res ∧ prio k ≤ P) → P < prio c₂.job.1 →
      R.enter c₁ < s → R.enter c₂ < s → s < R.leave c₁ →
      s < R.leave c₂ → R.enter c₁ ≤ R.enter c₂ → c₁ = c₂ := by
    intro c₁ c₂ q₁ i1 i2 hq1 p1 p2 g1 hP2 e1 e2 l1 l2 hle
    have hex2 := h.starts c₂ i2 (by omega)
    by_cases hjj : c₁.job = c₂.job
    · exact h.section_unique (t := R.enter c₂) i1 i2 hjj hle (by omega) le_rfl (by omega)
    · exfalso
      by_cases hg : S.Global q₁.res
      · have := h.nonpreemptive c₁ q₁ (R.enter c₂) i1 hq1 hg hle (by omega)
        exact hjj (h.one _ _ this _ hex2 (p1.trans p2.symm))
      · rcases g1 with g1 | ⟨k, hk1, hk2⟩
        · exact hg g1
        · have := h.ceiling c₁ q₁ (R.enter c₂) i1 hq1 hg hle (by omega) c₂.job hex2
            (p2.trans p1.symm) (fun e => hjj e.symm) k hk1
          omega
  have hss : c = c' := by
    rcases le_total (R.enter c) (R.enter c') with hee | hee
    · exact excl c c' q hi hi' hq hcp hcp' hc hcP' het het' (by omega) (by omega) hee
    · exact (excl c' c q' hi' hi hq' hcp' hcp hc' hcP het' het (by omega) (by omega) hee).symm
  subst hss
  exact ⟨hj', he', hl'⟩

/-- The slots of a busy window in which no job of priority at least `P` executes belong to one
section of one job. -/
theorem NpSpinFp.inversions (h : NpSpinFp S prio R) (L : Fin n → Req → ℕ)
    (p P B : ℕ) (hB : ∀ a, S.proc a = p → P < prio a → ∀ q ∈ S.reqs a, 0 < q.num →
      (S.Global q.res ∨ ∃ k, S.Uses k q.res ∧ prio k ≤ P) → L a q ≤ B)
    (s e : ℕ) (hL : ∀ s q, R.issued s → (S.reqs s.job.1)[s.idx]? = some q →
      ((Ico (R.enter s) (min (R.leave s) e)).filter (fun t => s.job ∈ R.sched t)).card ≤ L s.job.1 q)
    (hbusy : ∀ t, s ≤ t → t < e → ∃ x : Job n, S.proc x.1 = p ∧ prio x.1 ≤ P ∧
      Pending R.work R.sched x t) (V : Finset ℕ)
    (hV : ∀ t ∈ V, s ≤ t ∧ t < e ∧ ∀ x ∈ R.sched t, S.proc x.1 = p → P < prio x.1) :
    V.card ≤ B := by
  classical
  rcases V.eq_empty_or_nonempty with he | hne
  · rw [he]; simp
  obtain ⟨c, q, hi, hq, hcp, hcP, het, hc, hall⟩ := h.inversion_section p P s e hbusy V hV hne
  have hVs : V ⊆ (Ico (R.enter c) (min (R.leave c) e)).filter (fun t => c.job ∈ R.sched t) := by
    intro t ht
    obtain ⟨h1, h2, h3⟩ := hall t ht
    rw [mem_filter, mem_Ico]
    exact ⟨⟨h2.le, lt_min h3 (hV t ht).2.1⟩, h1⟩
  obtain ⟨q0, hq0, hinst⟩ := h.declared c hi
  rw [hq] at hq0
  obtain rfl := Option.some.inj hq0
  exact (card_le_card hVs).trans ((hL c q hi hq).trans
    (hB _ hcp hcP q (List.mem_of_getElem? hq) (by omega) hc))

/-! ### One processor -/

/-- The jobs of some of the tasks, renumbered. -/
def rename {n' : ℕ} (f : Fin n' → Fin n) (j : Job n') : Job n := (f j.1, j.2)

theorem rename_injective {n' : ℕ} {f : Fin n' → Fin n} (hf : Function.Injective f) :
    Function.Injective (rename f) := by
  intro a b hab
  unfold rename at hab
  rw [Prod.mk.injEq] at hab
  exact Prod.ext (hf hab.1) hab.2

/-- The run restricted to some of the tasks. -/
noncomputable def restrict {n' : ℕ} (R : LockRun n) (f : Fin n' → Fin n) (hf : Function.Injective f) :
    FpBehaviour n' where
  arrival j := R.work.release (rename f j)
  work := ⟨fun j => R.work.release (rename f j), fun j => R.work.exec (rename f j)⟩
  suspended _ _ := False
  sched t := (R.sched t).preimage (rename f) (rename_injective hf).injOn

section
variable {n' : ℕ} {f : Fin n' → Fin n} {hf : Function.Injective f}

theorem mem_restrict {j : Job n'} {t : ℕ} :
    j ∈ (restrict R f hf).sched t ↔ rename f j ∈ R.sched t := by
  exact mem_preimage (hf := (rename_injective hf).injOn)

theorem service_restrict (j : Job n') (t : ℕ) :
    service (restrict R f hf).sched j t = service R.sched (rename f j) t := by
  unfold service
  simp only [mem_restrict]

theorem completed_restrict (j : Job n') (t : ℕ) :
    Completed (restrict R f hf).work (restrict R f hf).sched j t ↔
      Completed R.work R.sched (rename f j) t := by
  unfold Completed
  rw [service_restrict]
  rfl

theorem pending_restrict (j : Job n') (t : ℕ) :
    Pending (restrict R f hf).work (restrict R f hf).sched j t ↔
      Pending R.work R.sched (rename f j) t := by
  unfold Pending
  rw [completed_restrict]
  rfl

theorem ready_restrict (j : Job n') (t : ℕ) :
    Ready (restrict R f hf).work (restrict R f hf).sched j t ↔
      Ready R.work R.sched (rename f j) t := by
  unfold Ready
  simp only [pending_restrict, completed_restrict]
  rfl

/-- The schedule of a processor is a uniprocessor fixed-priority schedule with bounded
priority inversion. -/
theorem NpSpinFp.legal (h : NpSpinFp S prio R) {p : ℕ} (hproc : ∀ i, S.proc i = p ↔ ∃ a, f a = i)
    (hprio : ∀ a b, a ≤ b ↔ prio (f a) ≤ prio (f b)) (C B : Fin n' → ℕ)
    (hexec : ∀ j : Job n', R.work.exec (rename f j) ≤ C j.1) (L : Fin n → Req → ℕ)
    (hL : ∀ s q, R.issued s → (S.reqs s.job.1)[s.idx]? = some q →
      ((Ico (R.enter s) (R.leave s)).filter (fun t => s.job ∈ R.sched t)).card ≤ L s.job.1 q)
    (hB : ∀ a x, S.proc x = p → prio (f a) < prio x → ∀ q ∈ S.reqs x, 0 < q.num →
      (S.Global q.res ∨ ∃ k, S.Uses k q.res ∧ prio k ≤ prio (f a)) → L x q ≤ B a) :
    (restrict R f hf).Legal ⟨C, fun a => S.period (f a), fun _ => 0, fun _ => 0, B⟩ where
  separated i k := h.separated (f i) k
  not_early j := le_rfl
  jitter j := le_rfl
  in_order i k := by
    have := h.separated (f i) k
    show R.work.release (f i, k) ≤ R.work.release (f i, k + 1)
    omega
  wcet := hexec
  suspension j t := by
    classical
    apply le_of_eq
    rw [card_eq_zero, filter_eq_empty_iff]
    intro x _ hx
    exact hx.2
  valid := by
    refine ⟨fun t => ?_, fun t j hj => ?_⟩
    · rw [card_le_one]
      intro a ha b hb
      rw [mem_restrict] at ha hb
      apply rename_injective hf
      exact h.one t _ ha _ hb (((hproc _).2 ⟨a.1, rfl⟩).trans ((hproc _).2 ⟨b.1, rfl⟩).symm)
    · rw [ready_restrict]
      exact h.ready t _ (mem_restrict.1 hj)
  not_suspended t j hj := fun hs => hs
  inversion k s e hbusy := by
    classical
    refine h.inversions L p (prio (f k)) (B k) (hB k) s e (fun c q hi hq => le_trans (card_le_card
      (filter_subset_filter _ (Ico_subset_Ico le_rfl (min_le_left _ _)))) (hL c q hi hq)) ?_ _ ?_
    · intro t h1 h2
      obtain ⟨j, hj, hpe⟩ := hbusy t h1 h2
      refine ⟨rename f j, (hproc _).2 ⟨j.1, rfl⟩, ?_, (pending_restrict j t).1 hpe⟩
      rcases hj with hj | hj
      · show prio (f j.1) ≤ _; rw [hj]
      · exact (hprio _ _).1 hj.1.le
    · intro t ht
      rw [mem_filter, mem_Ico] at ht
      obtain ⟨⟨h1, h2⟩, _, hno⟩ := ht
      refine ⟨h1, h2, fun x hx hxp => ?_⟩
      obtain ⟨a, ha⟩ := (hproc _).1 hxp
      have := hno (a, x.2) (mem_restrict.2 (by unfold rename; rw [ha]; exact hx))
      rw [← ha]
      by_contra hle
      exact absurd ((hprio a k).2 (not_lt.1 hle)) (not_le.2 this)

end
end Verif.Spec
