/-
Tasks for which the limits of the P-PCP have no effect.
-/
import Verif.Spec.Ppcp
import Verif.Lemmas.Global

namespace Verif.Spec
open Finset

variable {n : ℕ} {m α : ℕ} {S : LockSystem n} {R : LockRun n}

/-- Jobs that own resources at the same time belong to different tasks. -/
theorem RequestRun.owns_task (h : RequestRun m S R) {s s' : Section n} {t : ℕ} (ho : R.Owns s t) (ho' : R.Owns s' t)
    (he : s.job.1 = s'.job.1) : s = s' := by
  have hr := h.active s t ho.1 (le_trans (h.order s ho.1).1 ho.2.1) ho.2.2
  have hr' := h.active s' t ho'.1 (le_trans (h.order s' ho'.1).1 ho'.2.1) ho'.2.2
  have hj : s.job = s'.job := by
    apply Prod.ext he
    have hr2 : Ready R.work R.sched (s.job.1, s.job.2) t := hr
    have hr3 : Ready R.work R.sched (s.job.1, s'.job.2) t := by rw [he]; exact hr'
    exact ready_unique hr2 hr3
  by_contra hne
  have o1 := h.order s ho.1
  have o2 := h.order s' ho'.1
  obtain ⟨hi, a1, a2⟩ := ho
  obtain ⟨hi', b1, b2⟩ := ho'
  rcases h.serial s s' hi hi' hj hne with h1 | h1 <;> omega

/-- If each task has fewer than `α` lower-priority tasks that share resources with higher-priority tasks, the runs of the
P-PCP are runs of the PIP. -/
theorem Ppcp.pip (h : Ppcp m α S R)
    (hfew : ∀ (i : Fin n) (F : Finset (Fin n)),
      (∀ x ∈ F, i < x ∧ ∃ q ∈ S.reqs x, ∃ y < i, ∃ q' ∈ S.reqs y, q'.res = q.res) → F.card < α) :
    Pip m S R := by
  have howned : ∀ s r t, R.Waits s t → S.For s r → ∃ s', R.Owns s' t ∧ S.For s' r := by
    intro s r t hw hf
    rcases h.waiting s r t hw hf with hs | ⟨F, hc, hF⟩
    · exact hs
    · exfalso
      have hinj : Set.InjOn (fun s' : Section n => s'.job.1) F :=
        fun a ha b hb he => h.toRequestRun.owns_task (hF a ha).1 (hF b hb).1 he
      have := hfew s.job.1 (F.image (fun s' => s'.job.1)) (by
        intro x hx
        obtain ⟨s', hs', rfl⟩ := mem_image.1 hx
        obtain ⟨-, hlt, r', ⟨q, hq, rfl⟩, y, hy, q', hq', he⟩ := hF s' hs'
        exact ⟨hlt, q, List.mem_of_getElem? hq, y, hy, q', hq', he⟩)
      rw [card_image_of_injOn hinj, hc] at this
      exact lt_irrefl _ this
  have hacts : ∀ j a t, R.ActsUnderCeiling S j a t ↔ R.ActsFor S j a t := by
    intro j a t
    refine ⟨?_, Or.inl⟩
    rintro (ha | ⟨s, s', hw, -⟩)
    · exact ha
    · exfalso
      obtain ⟨q, hq, -⟩ := h.declared s hw.1.1
      exact hw.2 q.res ⟨q, hq, rfl⟩ (howned s q.res t hw.1 ⟨q, hq, rfl⟩)
  refine ⟨⟨h.toRequestRun, h.exclusive, howned⟩, h.queue, ?_⟩
  intro t j hr hj hw
  obtain ⟨h1, h2⟩ := h.dispatch t j hr hj hw
  refine ⟨h1, fun j' hj' => ?_⟩
  obtain ⟨a, ha, hb⟩ := h2 j' hj'
  exact ⟨a, (hacts _ _ _).1 ha, fun b hb' => hb b ((hacts _ _ _).2 hb')⟩

/-- The limits have no effect if there are at most `α + 1` tasks. -/
theorem few_of_card (hn : n ≤ α + 1) (hα : 0 < α) (i : Fin n) (F : Finset (Fin n))
    (hF : ∀ x ∈ F, i < x ∧ ∃ q ∈ S.reqs x, ∃ y < i, ∃ q' ∈ S.reqs y, q'.res = q.res) : F.card < α := by
  rcases F.eq_empty_or_nonempty with rfl | ⟨x, hx⟩
  · simpa using hα
  · obtain ⟨-, q, -, y, hy, -⟩ := hF x hx
    have hsub : F ⊆ Finset.Ioi i := fun x hx => Finset.mem_Ioi.2 (hF x hx).1
    have := card_le_card hsub
    rw [Fin.card_Ioi] at this
    have : (y : ℕ) < i := hy
    omega

end Verif.Spec
