/-
The runs of partitioned fixed-priority scheduling with the FMLP+: which requests delay a job.
-/
import Verif.Spec.Fmlp
import Verif.Lemmas.PartLocks

namespace Verif.Spec
open Finset

variable {n : ℕ} {S : LockSystem n} {prio : Fin n → ℕ} {ticket : Section n → ℕ} {R : LockRun n}

namespace FmlpPlus

/-- While a resource is owned, the processor of the owner serves a request issued no later. -/
theorem owner_served (h : FmlpPlus S prio ticket R) {s : Section n} {t : ℕ} (ho : R.Owns s t) :
    ∃ s', R.Owns s' t ∧ s'.job ∈ R.sched t ∧ S.proc s'.job.1 = S.proc s.job.1 ∧ ticket s' ≤ ticket s := by
  by_cases hj : s.job ∈ R.sched t
  · exact ⟨s, ho, hj, rfl, le_rfl⟩
  · obtain ⟨j', hj', hproc, h1⟩ := h.dispatch t s.job (h.owns_ready ho) hj
      (fun s' hs' hw => h.owns_not_waits ho hw hs')
    rcases h1 with ⟨s', rfl, ho', hle⟩ | ⟨h1, _⟩
    · exact ⟨s', ho', hj', hproc, hle s rfl ho⟩
    · exact absurd ho (h1 s rfl)

/-- Who executes while a job occupies its processor. -/
theorem occupied (h : FmlpPlus S prio ticket R) {j : Job n} {t : ℕ} (ho : R.Occupies S j t) :
    (∃ j' ∈ R.sched t, S.proc j'.1 = S.proc j.1 ∧ prio j'.1 ≤ prio j.1) ∨
    ∃ s', R.Owns s' t ∧ s'.job ∈ R.sched t ∧ S.proc s'.job.1 = S.proc j.1 ∧
      ∀ s, s.job = j → R.Waits s t → ticket s' < ticket s := by
  by_cases hj : j ∈ R.sched t
  · exact Or.inl ⟨j, hj, rfl, le_rfl⟩
  by_cases hw : ∃ s, s.job = j ∧ R.Waits s t
  · right
    obtain ⟨s, rfl, hw⟩ := hw
    obtain ⟨s0, r, ho0, hf, hf0, hp⟩ := ho.2 s rfl hw
    obtain ⟨s', ho', hs', hp', hle⟩ := h.owner_served ho0
    refine ⟨s', ho', hs', hp'.trans hp, fun s1 hs1 hw1 => ?_⟩
    rw [h.waits_unique hw1 hw hs1]
    exact lt_of_le_of_lt hle (h.fifo s s0 r t hw ho0 hf hf0)
  · push Not at hw
    obtain ⟨j', hj', hproc, h1⟩ := h.dispatch t j ho.1 hj hw
    rcases h1 with ⟨s', rfl, ho', _⟩ | ⟨_, hle⟩
    · exact Or.inr ⟨s', ho', hj', hproc, fun s hs hws => absurd hws (hw s hs)⟩
    · exact Or.inl ⟨j', hj', hproc, hle⟩

theorem not_occupies {j : Job n} {t : ℕ} (hr : Ready R.work R.sched j t)
    (hn : ¬ R.Occupies S j t) : ∃ s, s.job = j ∧ R.Waits s t ∧ ¬ R.LocalWait S s t := by
  unfold LockRun.Occupies at hn
  push Not at hn
  exact hn hr

/-- While a job waits for a resource owned on another processor, that processor serves a request issued
earlier. -/
theorem remote_served (h : FmlpPlus S prio ticket R) {s : Section n} {t : ℕ} (hw : R.Waits s t)
    (hl : ¬ R.LocalWait S s t) :
    ∃ s0 r, R.Owns s0 t ∧ S.For s r ∧ S.For s0 r ∧ S.proc s0.job.1 ≠ S.proc s.job.1 ∧
    ∃ s', R.Owns s' t ∧ s'.job ∈ R.sched t ∧ S.proc s'.job.1 = S.proc s0.job.1 ∧ R.enter s' ≤ R.enter s := by
  obtain ⟨q, hq, _⟩ := h.declared s hw.1
  obtain ⟨s0, ho0, hf0⟩ := h.owned s q.res t hw ⟨q, hq, rfl⟩
  refine ⟨s0, q.res, ho0, ⟨q, hq, rfl⟩, hf0, fun hp => hl ⟨s0, q.res, ho0, ⟨q, hq, rfl⟩, hf0, hp⟩, ?_⟩
  obtain ⟨s', ho', hs', hp', hle⟩ := h.owner_served ho0
  refine ⟨s', ho', hs', hp', ?_⟩
  have h1 := h.fifo s s0 q.res t hw ho0 ⟨q, hq, rfl⟩ hf0
  by_contra hc
  have := h.tickets s s' hw.1 ho'.1 (not_le.1 hc)
  omega

variable {W : Fin n → ℕ} {H : ℕ} {k : Fin n} {Z : Fin n → Prop} {q0 q1 a e : ℕ}

/-- A lower-priority job issues a request within a busy window only while the job under analysis waits for a
resource owned on another processor. -/
theorem request_during_wait (h : FmlpPlus S prio ticket R) (hb : BoundedBefore R.work R.sched W H)
    (hWT : ∀ i, W i ≤ S.period i) (hwin : Window R.work R.sched k Z q0 q1 a e) (heH : e ≤ H)
    (hZp : ∀ i, Z i → S.proc i = S.proc k ∧ prio i < prio k)
    (hZ : ∀ s u, Z s.job.1 → u < H → R.Waits s u → R.LocalWait S s u)
    {s' : Section n} (hi : R.issued s') (h1 : a < R.enter s') (h2 : R.enter s' < e)
    (hproc : S.proc s'.job.1 = S.proc k) (hprio : prio k < prio s'.job.1) :
    ∃ s u, s.job.1 = k ∧ q1 ≤ s.job.2 ∧ s.job.2 ≤ q0 ∧ R.Waits s u ∧ ¬ R.LocalWait S s u ∧ a ≤ u ∧ u < e ∧
      R.enter s ≤ R.enter s' ∧ R.enter s' ≤ R.acquire s ∧ ticket s < ticket s' := by
  obtain ⟨x, hx, hrel, hinc⟩ : ∃ x : Job n, (x.1 = k ∨ Z x.1) ∧ R.work.release x < R.enter s' ∧
      ¬ Completed R.work R.sched x (R.enter s') := by
    by_cases hr : R.enter s' ≤ R.work.release (k, q0)
    · exact hwin.busy _ h1 hr
    · exact ⟨(k, q0), Or.inl rfl, by omega, fun hc => hwin.incomplete (hc.mono h2.le)⟩
  have hr1 : Ready R.work R.sched x (R.enter s') :=
    pending_ready h.sporadic hb (hWT _) (by omega) ⟨hrel.le, hinc⟩
  have hr0 : Ready R.work R.sched x (R.enter s' - 1) :=
    pending_ready h.sporadic hb (hWT _) (by omega) ⟨by omega, fun hc => hinc (hc.mono (by omega))⟩
  have hxp : S.proc x.1 = S.proc s'.job.1 ∧ prio x.1 < prio s'.job.1 := by
    rcases hx with hx | hx
    · rw [hx]; exact ⟨hproc.symm, hprio⟩
    · have := hZp _ hx
      exact ⟨this.1.trans hproc.symm, this.2.trans hprio⟩
  have key : ∀ s u, s.job = x → R.Waits s u → ¬ R.LocalWait S s u → a ≤ u → u < e →
      s.job.1 = k ∧ q1 ≤ s.job.2 ∧ s.job.2 ≤ q0 := by
    intro s u hsx hw hl hau hue
    have hk : s.job.1 = k := by
      rw [hsx]
      rcases hx with hx | hx
      · exact hx
      · exact absurd (hZ s u (by rw [hsx]; exact hx) (by omega) hw) hl
    have := hwin.own u s.job.2 hau hue (by rw [← hk]; exact h.waits_ready hw)
    exact ⟨hk, this⟩
  by_cases hocc : R.Occupies S x (R.enter s' - 1)
  · obtain ⟨hn, hlt⟩ := h.issue s' x hi (by omega) hxp.1 hxp.2 hocc hr1
    obtain ⟨s, hsx, hw, hl⟩ := not_occupies hr1 hn
    obtain ⟨c1, c2, c3⟩ := key s _ hsx hw hl h1.le h2
    exact ⟨s, R.enter s', c1, c2, c3, hw, hl, h1.le, h2, hw.2.1, hw.2.2.le, hlt s hsx hw⟩
  · obtain ⟨s, hsx, hw, hl⟩ := not_occupies hr0 hocc
    obtain ⟨c1, c2, c3⟩ := key s _ hsx hw hl (by omega) (by omega)
    have h3 := hw.2.1
    have h4 := hw.2.2
    exact ⟨s, R.enter s' - 1, c1, c2, c3, hw, hl, by omega, by omega, by omega, by omega,
      h.tickets s s' hw.1 hi (by omega)⟩

/-- The slots of a busy window in which neither task `k` nor a higher-priority one executes: job `(k, q)` waits
for a resource owned on another processor, or the processor serves a request of a lower-priority task. -/
theorem idle_cases (h : FmlpPlus S prio ticket R) (hb : BoundedBefore R.work R.sched W H)
    (hWT : ∀ i, W i ≤ S.period i) (hwin : Window R.work R.sched k Z q0 q1 a e) (heH : e ≤ H)
    (hinj : ∀ i, S.proc i = S.proc k → prio i = prio k → i = k)
    (hZp : ∀ i, Z i → S.proc i = S.proc k ∧ prio i < prio k)
    (hZ : ∀ s u, Z s.job.1 → u < H → R.Waits s u → R.LocalWait S s u)
    {t : ℕ} (h1 : a ≤ t) (h2 : t < e)
    (hidle : ∀ j ∈ R.sched t, j.1 ≠ k ∧ ¬ (S.proc j.1 = S.proc k ∧ prio j.1 < prio k)) :
    (∃ s, s.job.1 = k ∧ q1 ≤ s.job.2 ∧ s.job.2 ≤ q0 ∧ R.Waits s t ∧ ¬ R.LocalWait S s t) ∨
    ∃ s', R.Owns s' t ∧ s'.job ∈ R.sched t ∧ S.proc s'.job.1 = S.proc k ∧ prio k < prio s'.job.1 ∧
      ∀ s, s.job.1 = k → R.Waits s t → ticket s' < ticket s := by
  by_cases hA : ∃ s, s.job.1 = k ∧ R.Waits s t ∧ ¬ R.LocalWait S s t
  · left
    obtain ⟨s, hk, hw, hl⟩ := hA
    have := hwin.own t s.job.2 h1 h2 (by rw [← hk]; exact h.waits_ready hw)
    exact ⟨s, hk, this.1, this.2, hw, hl⟩
  right
  push Not at hA
  have key : ∀ x : Job n, S.proc x.1 = S.proc k → prio x.1 ≤ prio k → R.Occupies S x t →
      (∀ s, s.job.1 = k → R.Waits s t → s.job = x) →
      ∃ s', R.Owns s' t ∧ s'.job ∈ R.sched t ∧ S.proc s'.job.1 = S.proc k ∧ prio k < prio s'.job.1 ∧
      ∀ s, s.job.1 = k → R.Waits s t → ticket s' < ticket s := by
    intro x hxp hxq hocc hx
    rcases h.occupied hocc with ⟨j', hj', hp', hle⟩ | ⟨s', ho, hs', hp', htk⟩
    · exfalso
      have h3 := hidle j' hj'
      have h4 : S.proc j'.1 = S.proc k := hp'.trans hxp
      rcases Nat.lt_or_ge (prio j'.1) (prio k) with h5 | h5
      · exact h3.2 ⟨h4, h5⟩
      · exact h3.1 (hinj _ h4 (le_antisymm (hle.trans hxq) h5))
    · have h3 := hidle _ hs'
      have h4 : S.proc s'.job.1 = S.proc k := hp'.trans hxp
      refine ⟨s', ho, hs', h4, ?_, fun s hk hw => htk s (hx s hk hw) hw⟩
      by_contra hc
      rcases Nat.lt_or_ge (prio s'.job.1) (prio k) with h5 | h5
      · exact h3.2 ⟨h4, h5⟩
      · exact h3.1 (hinj _ h4 (le_antisymm (not_lt.1 hc) h5))
  by_cases hkr : ∃ q, Ready R.work R.sched (k, q) t
  · obtain ⟨q, hq⟩ := hkr
    refine key (k, q) rfl le_rfl ⟨hq, fun s hs hw => hA s (by rw [hs]) hw⟩ ?_
    intro s hk hw
    exact ready_eq (h.waits_ready hw) hq hk
  · obtain ⟨x, hx, hpend⟩ := hwin.pending h1 h2
    have hr := pending_ready h.sporadic hb (hWT _) (by omega) hpend
    rcases hx with hx | hx
    · exact absurd ⟨x.2, by rw [← hx]; exact hr⟩ hkr
    · have := hZp _ hx
      refine key x this.1 this.2.le ⟨hr, fun s hs hw => hZ s t (by rw [hs]; exact hx) (by omega) hw⟩ ?_
      intro s hk hw
      exact absurd ⟨s.job.2, by rw [← hk]; exact h.waits_ready hw⟩ hkr

/-- A lower-priority request that delays task `k` is incomplete when the window begins or when a job of
task `k` resumes after it waited for a resource owned on another processor. -/
theorem instant (h : FmlpPlus S prio ticket R) (hb : BoundedBefore R.work R.sched W H)
    (hWT : ∀ i, W i ≤ S.period i) (hwin : Window R.work R.sched k Z q0 q1 a e) (heH : e ≤ H)
    (hZp : ∀ i, Z i → S.proc i = S.proc k ∧ prio i < prio k)
    (hZ : ∀ s u, Z s.job.1 → u < H → R.Waits s u → R.LocalWait S s u)
    {t : ℕ} (h1 : a ≤ t) (h2 : t < e) {s' : Section n} (ho : R.Owns s' t)
    (hproc : S.proc s'.job.1 = S.proc k) (hprio : prio k < prio s'.job.1)
    (htk : ∀ s, s.job.1 = k → R.Waits s t → ticket s' < ticket s) :
    (R.enter s' ≤ a ∧ a < R.leave s') ∨
    ∃ s u, s.job.1 = k ∧ q1 ≤ s.job.2 ∧ s.job.2 ≤ q0 ∧ R.Waits s u ∧ ¬ R.LocalWait S s u ∧ a ≤ u ∧ u < e ∧
      R.enter s' ≤ R.acquire s ∧ R.acquire s < R.leave s' := by
  have hact := h.owns_active ho
  by_cases hea : R.enter s' ≤ a
  · exact Or.inl ⟨hea, by omega⟩
  · right
    obtain ⟨s, u, c1, c2, c3, c4, c5, c0, c6, c7, c8, c9⟩ := h.request_during_wait hb hWT hwin heH hZp hZ ho.1
      (not_le.1 hea) (by omega) hproc hprio
    refine ⟨s, u, c1, c2, c3, c4, c5, c0, c6, c8, ?_⟩
    by_contra hc
    have := htk s c1 ⟨c4.1, by omega, by omega⟩
    omega

end FmlpPlus
end Verif.Spec
