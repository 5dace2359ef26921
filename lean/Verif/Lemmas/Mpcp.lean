/-
The runs of partitioned fixed-priority scheduling with the MPCP: how long resources are owned, how long
jobs wait, and which requests delay a job otherwise.
-/
import Verif.Spec.Mpcp
import Verif.Lemmas.PartLocks

namespace Verif.Spec
open Finset

variable {n m : ℕ} {S : LockSystem n} {prio : Fin n → ℕ} {R : LockRun n} {W : Fin n → ℕ} {H : ℕ}

/-- Requests of one kind that are incomplete at some time in an interval. -/
theorem SuspendRun.requests_le' (h : SuspendRun m S R) (hb : BoundedBefore R.work R.sched W H) {i : Fin n}
    (hT : 0 < S.period i) {F : Finset (Section n)} {lo hi d : ℕ} {q : Req} (hq : (S.reqs i)[d]? = some q)
    (hiH : hi ≤ H)
    (hF : ∀ s ∈ F, R.issued s ∧ s.job.1 = i ∧ s.idx = d ∧ ∃ u, lo ≤ u ∧ u < hi ∧ R.enter s ≤ u ∧ u < R.leave s) :
    F.card ≤ ((hi - lo + W i - 2) / S.period i + 1) * q.num := by
  classical
  set J := F.image (fun s => s.job.2) with hJ
  have hJb : ∀ p ∈ J, lo < R.work.release (i, p) + W i ∧ R.work.release (i, p) < hi := by
    intro p hp
    obtain ⟨s, hs, rfl⟩ := mem_image.1 hp
    obtain ⟨h1, h2, _, u, h3, h4, h5, h6⟩ := hF s hs
    have hr := h.active s u h1 h5 h6
    have hl := lt_of_pending hb (by omega) hr.1.2
    have hrel := hr.1.1
    have e : s.job = (i, s.job.2) := by rw [← h2]
    rw [e] at hl hrel
    exact ⟨by simp only at hl; omega, by omega⟩
  have hJc : J.card ≤ (hi - lo + W i - 2) / S.period i + 1 := by
    rcases J.eq_empty_or_nonempty with he | ⟨p, hp⟩
    · rw [he]; simp
    · have hp' := hJb p hp
      obtain ⟨s, hs, _⟩ := mem_image.1 hp
      obtain ⟨_, _, _, u, h3, h4, _, _⟩ := hF s hs
      have := card_released_le h.sporadic i hT J (a := lo + 1 - W i) (b := hi - 1) (by
        intro p hp
        have := hJb p hp
        omega) (by omega)
      refine this.trans ?_
      have := Nat.div_le_div_right (c := S.period i) (show hi - 1 - (lo + 1 - W i) ≤ hi - lo + W i - 2 by omega)
      omega
  have hcard : F.card ≤ (J ×ˢ range q.num).card := by
    apply card_le_card_of_injOn (fun s => (s.job.2, s.inst))
    · intro s hs
      simp only [coe_product, Set.mem_prod, mem_coe, mem_range]
      refine ⟨mem_image_of_mem _ hs, ?_⟩
      obtain ⟨h1, h2, h3, _⟩ := hF s hs
      obtain ⟨q', h4, h5⟩ := h.declared s h1
      rw [h2, h3, hq] at h4
      cases h4
      exact h5
    · intro a ha b hb hab
      simp only [Prod.mk.injEq] at hab
      obtain ⟨_, a1, a2, _⟩ := hF a ha
      obtain ⟨_, b1, b2, _⟩ := hF b hb
      obtain ⟨⟨aj, ap⟩, ai, an⟩ := a
      obtain ⟨⟨bj, bp⟩, bi, bn⟩ := b
      simp only at a1 a2 b1 b2 hab
      rw [a1, a2, b1, b2, hab.1, hab.2]
  rw [card_product, card_range] at hcard
  exact hcard.trans (Nat.mul_le_mul_right _ hJc)

namespace Mpcp

/-- How long a resource is owned. -/
theorem hold_le (h : Mpcp S prio R) {z : Section n} (hz : R.issued z) {q : Req}
    (hq : (S.reqs z.job.1)[z.idx]? = some q) (G : Fin n → ℕ)
    (hG : ∀ x, S.proc x = S.proc z.job.1 → x ≠ z.job.1 → ∀ q' ∈ S.reqs x,
      S.CeilingGe prio (S.proc z.job.1) q'.res q.res → q'.len ≤ G x) :
    R.leave z - R.acquire z ≤
      q.len + ∑ x ∈ univ.filter (fun x => S.proc x = S.proc z.job.1 ∧ x ≠ z.job.1), G x := by
  classical
  let I := Ico (R.acquire z) (R.leave z)
  let Y : Fin n → Finset ℕ := fun x => I.filter (fun t => ∃ s', s'.job.1 = x ∧ R.Owns s' t ∧ s'.job ∈ R.sched t ∧
    s'.job ≠ z.job ∧ ∃ r', S.For s' r' ∧ S.CeilingGe prio (S.proc z.job.1) r' q.res)
  have hcov : I ⊆ I.filter (fun t => z.job ∈ R.sched t) ∪
      (univ.filter (fun x => S.proc x = S.proc z.job.1 ∧ x ≠ z.job.1)).biUnion Y := by
    intro t ht
    have ht' := mem_Ico.1 ht
    have ho : R.Owns z t := ⟨hz, ht'.1, ht'.2⟩
    by_cases hs : z.job ∈ R.sched t
    · exact mem_union_left _ (mem_filter.2 ⟨ht, hs⟩)
    · apply mem_union_right
      obtain ⟨j', hj', hproc, h1⟩ := h.dispatch t z.job (h.owns_ready ho) hs
        (fun s' hs' hw => h.owns_not_waits ho hw hs')
      rcases h1 with ⟨s', r', rfl, ho', hf', hle⟩ | ⟨h1, _⟩
      · have hne : s'.job ≠ z.job := by
          intro hh
          rw [hh] at hj'
          exact hs hj'
        refine mem_biUnion.2 ⟨s'.job.1, mem_filter.2 ⟨mem_univ _, hproc, ?_⟩, mem_filter.2 ⟨ht, s', rfl, ho', hj', hne,
          r', hf', hle z q.res rfl ho ⟨q, hq, rfl⟩⟩⟩
        intro hh
        exact hne (ready_eq (h.owns_ready ho') (h.owns_ready ho) hh)
      · exact absurd ho (h1 z rfl)
  have hown : (I.filter (fun t => z.job ∈ R.sched t)).card ≤ q.len := by
    refine le_trans (le_of_eq ?_) (h.length z q hz hq)
    congr
  have hY : ∀ x ∈ univ.filter (fun x => S.proc x = S.proc z.job.1 ∧ x ≠ z.job.1), (Y x).card ≤ G x := by
    intro x hx
    obtain ⟨_, hx1, hx2⟩ := mem_filter.1 hx
    have hinst : ∀ t ∈ I, ∀ s', R.Owns s' t → s'.job.1 = x → s'.job ≠ z.job → R.enter s' ≤ R.acquire z := by
      intro t ht s' ho hsx hne
      have ht' := mem_Ico.1 ht
      by_contra hc
      have h1 := h.owns_active ho
      refine h.boosted s' z ho.1 (by omega) (by rw [hsx, hx1]) hne.symm ⟨hz, by omega, by omega⟩ ⟨hz, by omega, by omega⟩
    rcases (Y x).eq_empty_or_nonempty with h0 | ⟨t0, ht0⟩
    · rw [h0]; simp
    obtain ⟨ht0I, s0, hs0, ho0, hj0, hne0, r0, ⟨q0, hq0, hr0⟩, hc0⟩ := mem_filter.1 ht0
    have hsub : Y x ⊆ (Ico (R.acquire s0) (R.leave s0)).filter (fun t => s0.job ∈ R.sched t) := by
      intro t ht
      obtain ⟨htI, s', hs', ho', hj', hne', _⟩ := mem_filter.1 ht
      have e1 := hinst t0 ht0I s0 ho0 hs0 hne0
      have e2 := hinst t htI s' ho' hs' hne'
      have b1 := mem_Ico.1 ht0I
      have b2 := mem_Ico.1 htI
      have o1 := ho0.2
      have o2 := ho'.2
      have : s' = s0 := h.incomplete_unique ho'.1 ho0.1 (hs'.trans hs0.symm) (t := R.acquire z) e2 (by omega) e1 (by omega)
      rw [this] at hj' o2
      exact mem_filter.2 ⟨mem_Ico.2 o2, hj'⟩
    refine (card_le_card hsub).trans ?_
    have hl := h.length s0 q0 ho0.1 hq0
    refine le_trans (le_of_eq ?_) (hl.trans (hG x hx1 hx2 q0 ?_ (by rw [hr0]; exact hc0)))
    · congr
    · rw [← hs0]
      exact List.mem_of_getElem? hq0
  have hcard := card_le_card hcov
  rw [Nat.card_Ico] at hcard
  refine hcard.trans ((card_union_le _ _).trans (Nat.add_le_add hown ?_))
  exact card_biUnion_le.trans (sum_le_sum hY)

/-- While a section owns its resource, at most one section of each other task of its processor is served. -/
theorem preempt_unique (h : Mpcp S prio R) {z z' s : Section n} {u u' : ℕ} (hz : R.Owns z u) (hz' : R.Owns z' u')
    (hs : R.Owns s u) (hs' : R.Owns s u') (he : z.job.1 = z'.job.1) (hp : S.proc z.job.1 = S.proc s.job.1)
    (hne : z.job.1 ≠ s.job.1) : z = z' := by
  have hinst : ∀ (t : ℕ) (y : Section n), R.Owns y t → R.Owns s t → y.job.1 = z.job.1 →
      R.enter y ≤ R.acquire s ∧ R.acquire s < R.leave y := by
    intro t y ho hst hy
    have h1 := h.owns_active ho
    have h2 := hst.2
    refine ⟨?_, by omega⟩
    by_contra hc
    refine h.boosted y s ho.1 (by omega) (by rw [hy, hp]) ?_ ⟨hs.1, by omega, by omega⟩ ⟨hs.1, by omega, by omega⟩
    intro hh
    rw [hh] at hne
    exact hne hy.symm
  obtain ⟨a1, a2⟩ := hinst u z hz hs rfl
  obtain ⟨b1, b2⟩ := hinst u' z' hz' hs' he.symm
  exact h.incomplete_unique hz.1 hz'.1 he a1 a2 b1 b2

/-- A lower-priority job that owns the resource for which a request waits owned it when the request was issued. -/
theorem lower_owner (h : Mpcp S prio R) {s z : Section n} {r u : ℕ} (hw : R.Waits s u) (ho : R.Owns z u) (hs : S.For s r)
    (hz : S.For z r) (hp : prio s.job.1 < prio z.job.1) : R.Owns z (R.enter s) := by
  have h1 := hw.2
  have h2 := ho.2
  refine ⟨ho.1, ?_, by omega⟩
  by_contra hc
  have := h.queue s z r hw.1 ho.1 hs hz (by omega) (by omega)
  omega

/-- Who is served while a request waits: the owner of the resource, or a section that preempts it. -/
theorem served (h : Mpcp S prio R) {s : Section n} {u r : ℕ} (hw : R.Waits s u) (hs : S.For s r) :
    ∃ s0 z, R.Owns s0 u ∧ S.For s0 r ∧ s0.job.1 ≠ s.job.1 ∧ R.Owns z u ∧ z.job ∈ R.sched u ∧
      S.proc z.job.1 = S.proc s0.job.1 ∧ (z = s0 ∨ z.job.1 ≠ s0.job.1 ∧ ∃ r', S.For z r' ∧
        S.CeilingGe prio (S.proc s0.job.1) r' r) := by
  obtain ⟨s0, ho, hf⟩ := h.owned s r u hw hs
  have hne : s0.job.1 ≠ s.job.1 := by
    intro hh
    exact h.owns_not_waits ho hw (ready_eq (h.owns_ready ho) (h.waits_ready hw) hh).symm
  refine ⟨s0, ?_⟩
  by_cases hj : s0.job ∈ R.sched u
  · exact ⟨s0, ho, hf, hne, ho, hj, rfl, Or.inl rfl⟩
  obtain ⟨j', hj', hproc, h1⟩ := h.dispatch u s0.job (h.owns_ready ho) hj (fun s' hs' hw => h.owns_not_waits ho hw hs')
  rcases h1 with ⟨z, r', rfl, ho', hf', hle⟩ | ⟨h1, _⟩
  · refine ⟨z, ho, hf, hne, ho', hj', hproc, Or.inr ⟨?_, r', hf', hle s0 r rfl ho hf⟩⟩
    intro hh
    rw [ready_eq (h.owns_ready ho') (h.owns_ready ho) hh] at hj'
    exact hj hj'
  · exact absurd ho (h1 s0 rfl)

/-- The time of an uninterrupted wait. -/
theorem wait_le (h : Mpcp S prio R) (hinj : Function.Injective prio) {s : Section n} {r B : ℕ} (hr : S.For s r)
    (hw : ∀ t, R.enter s ≤ t → t ≤ R.enter s + B → R.Waits s t) (D X : Fin n → ℕ) (L : ℕ)
    (hD : ∀ z, R.issued z → S.For z r → R.leave z - R.acquire z ≤ D z.job.1)
    (hL : ∀ z, R.issued z → S.For z r → z.job.1 ≠ s.job.1 → ¬ prio z.job.1 < prio s.job.1 → D z.job.1 ≤ L)
    (hX : ∀ x, prio x < prio s.job.1 → ∀ F : Finset (Section n), (∀ z ∈ F, R.issued z ∧ z.job.1 = x ∧ S.For z r ∧
      ∃ u, R.enter s ≤ u ∧ u < R.enter s + B + 1 ∧ R.enter z ≤ u ∧ u < R.leave z) → F.card * D x ≤ X x) :
    B + 1 ≤ ∑ x ∈ univ.filter (fun x => prio x < prio s.job.1), X x + L := by
  classical
  have hex : ∀ t ∈ Icc (R.enter s) (R.enter s + B), ∃ z, R.Owns z t ∧ S.For z r := by
    intro t ht
    obtain ⟨h1, h2⟩ := mem_Icc.1 ht
    exact h.owned s r t (hw t h1 h2) hr
  have : Nonempty (Section n) := ⟨s⟩
  choose! z hz using hex
  set F := (Icc (R.enter s) (R.enter s + B)).image z with hF
  have hFm : ∀ y ∈ F, R.issued y ∧ S.For y r ∧ y.job.1 ≠ s.job.1 ∧ ∃ u, R.enter s ≤ u ∧ u < R.enter s + B + 1 ∧
      R.acquire y ≤ u ∧ u < R.leave y := by
    intro y hy
    obtain ⟨t, ht, rfl⟩ := mem_image.1 hy
    obtain ⟨ho, hf⟩ := hz t ht
    obtain ⟨h1, h2⟩ := mem_Icc.1 ht
    refine ⟨ho.1, hf, ?_, t, h1, by omega, ho.2⟩
    intro hh
    have hwt := hw t h1 h2
    have hj := ready_eq (h.owns_ready ho) (h.waits_ready hwt) hh
    exact h.owns_not_waits ho hwt hj.symm
  have hcov : Icc (R.enter s) (R.enter s + B) ⊆ F.biUnion (fun y => Ico (R.acquire y) (R.leave y)) := by
    intro t ht
    exact mem_biUnion.2 ⟨z t, mem_image_of_mem _ ht, mem_Ico.2 (hz t ht).1.2⟩
  have hcard := (card_le_card hcov).trans card_biUnion_le
  rw [Nat.card_Icc] at hcard
  simp only [Nat.card_Ico] at hcard
  have h1 : ∑ y ∈ F, (R.leave y - R.acquire y) ≤ ∑ y ∈ F, D y.job.1 :=
    sum_le_sum (fun y hy => hD y (hFm y hy).1 (hFm y hy).2.1)
  have h2 := sum_filter_add_sum_filter_not F (fun y => prio y.job.1 < prio s.job.1) (fun y => D y.job.1)
  have hhp : ∑ y ∈ F.filter (fun y => prio y.job.1 < prio s.job.1), D y.job.1 ≤
      ∑ x ∈ univ.filter (fun x => prio x < prio s.job.1), X x := by
    rw [← sum_fiberwise_of_maps_to (t := univ.filter (fun x => prio x < prio s.job.1)) (g := fun y : Section n => y.job.1)
      (by
        intro y hy
        exact mem_filter.2 ⟨mem_univ _, (mem_filter.1 hy).2⟩)]
    apply sum_le_sum
    intro x hx
    have hx := (mem_filter.1 hx).2
    have e : ∑ y ∈ (F.filter (fun y => prio y.job.1 < prio s.job.1)).filter (fun y => y.job.1 = x), D y.job.1 =
        ((F.filter (fun y => prio y.job.1 < prio s.job.1)).filter (fun y => y.job.1 = x)).card * D x := by
      rw [← smul_eq_mul, ← sum_const]
      apply sum_congr rfl
      intro y hy
      rw [(mem_filter.1 hy).2]
    rw [e]
    apply hX x hx
    intro y hy
    obtain ⟨hy1, hy2⟩ := mem_filter.1 hy
    obtain ⟨a1, a2, _, u, a3, a4, a5, a6⟩ := hFm y (mem_filter.1 hy1).1
    have := (h.order y a1).1
    exact ⟨a1, hy2, a2, u, a3, a4, by omega, a6⟩
  have hlp : ∑ y ∈ F.filter (fun y => ¬ prio y.job.1 < prio s.job.1), D y.job.1 ≤ L := by
    have hstart : ∀ y ∈ F.filter (fun y => ¬ prio y.job.1 < prio s.job.1), R.Owns y (R.enter s) := by
      intro y hy
      obtain ⟨hy1, hy2⟩ := mem_filter.1 hy
      obtain ⟨a1, a2, a3, u, a4, a5, a6, a7⟩ := hFm y hy1
      refine ⟨a1, ?_, by omega⟩
      by_contra hc
      have hwu := hw u a4 (by omega)
      have := h.queue s y r hwu.1 a1 hr a2 (by omega) (by have := hwu.2.2; omega)
      exact a3 (hinj (le_antisymm this (not_lt.1 hy2)))
    rcases (F.filter (fun y => ¬ prio y.job.1 < prio s.job.1)).eq_empty_or_nonempty with h0 | ⟨y, hy⟩
    · rw [h0]; simp
    have : F.filter (fun y => ¬ prio y.job.1 < prio s.job.1) ⊆ {y} := by
      intro y' hy'
      rw [mem_singleton]
      exact h.exclusive y' y r _ (hstart y' hy') (hstart y hy) (hFm y' (mem_filter.1 hy').1).2.1
        (hFm y (mem_filter.1 hy).1).2.1
    refine (sum_le_sum_of_subset this).trans ?_
    rw [sum_singleton]
    obtain ⟨hy1, hy2⟩ := mem_filter.1 hy
    obtain ⟨a1, a2, a3, _⟩ := hFm y hy1
    exact hL y a1 a2 a3 hy2
  omega

variable {k : Fin n} {Z : Fin n → Prop} {q0 q1 a e : ℕ}

/-- The slots of a busy window in which neither task `k` nor a higher-priority one executes: a job of task `k`
waits, or the processor serves a request of a lower-priority task. -/
theorem idle_cases (h : Mpcp S prio R) (hb : BoundedBefore R.work R.sched W H)
    (hWT : ∀ i, W i ≤ S.period i) (hwin : Window R.work R.sched k Z q0 q1 a e) (heH : e ≤ H)
    (hinj : ∀ i, S.proc i = S.proc k → prio i = prio k → i = k)
    (hZp : ∀ i, Z i → S.proc i = S.proc k ∧ prio i < prio k)
    (hZ : ∀ s u, Z s.job.1 → u < H → ¬ R.Waits s u)
    {t : ℕ} (h1 : a ≤ t) (h2 : t < e)
    (hidle : ∀ j ∈ R.sched t, j.1 ≠ k ∧ ¬ (S.proc j.1 = S.proc k ∧ prio j.1 < prio k)) :
    (∃ s, s.job.1 = k ∧ q1 ≤ s.job.2 ∧ s.job.2 ≤ q0 ∧ R.Waits s t) ∨
    ((∃ s', R.Owns s' t ∧ s'.job ∈ R.sched t ∧ S.proc s'.job.1 = S.proc k ∧ prio k < prio s'.job.1) ∧
      ∀ s, s.job.1 = k → ¬ R.Waits s t) := by
  by_cases hA : ∃ s, s.job.1 = k ∧ R.Waits s t
  · left
    obtain ⟨s, hk, hw⟩ := hA
    have := hwin.own t s.job.2 h1 h2 (by rw [← hk]; exact h.waits_ready hw)
    exact ⟨s, hk, this.1, this.2, hw⟩
  right
  push Not at hA
  refine ⟨?_, hA⟩
  obtain ⟨x, hx, hpend⟩ := hwin.pending h1 h2
  have hr := pending_ready h.sporadic hb (hWT _) (by omega) hpend
  have hxp : S.proc x.1 = S.proc k ∧ prio x.1 ≤ prio k := by
    rcases hx with hx | hx
    · rw [hx]; exact ⟨rfl, le_rfl⟩
    · have := hZp _ hx
      exact ⟨this.1, this.2.le⟩
  have hxw : ∀ s, s.job = x → ¬ R.Waits s t := by
    intro s hs hw
    rcases hx with hx | hx
    · exact hA s (by rw [hs, hx]) hw
    · exact hZ s t (by rw [hs]; exact hx) (by omega) hw
  have hlow : ∀ j ∈ R.sched t, S.proc j.1 = S.proc k → prio k < prio j.1 := by
    intro j hj hp
    have h3 := hidle j hj
    by_contra hc
    rcases Nat.lt_or_ge (prio j.1) (prio k) with h5 | h5
    · exact h3.2 ⟨hp, h5⟩
    · exact h3.1 (hinj _ hp (le_antisymm (not_lt.1 hc) h5))
  by_cases hxs : x ∈ R.sched t
  · have := hlow x hxs hxp.1
    omega
  obtain ⟨j', hj', hproc, hd⟩ := h.dispatch t x hr hxs hxw
  have h3 := hlow j' hj' (hproc.trans hxp.1)
  rcases hd with ⟨s', r', rfl, ho', _⟩ | ⟨_, hle⟩
  · exact ⟨s', ho', hj', hproc.trans hxp.1, h3⟩
  · omega

/-- A lower-priority request that delays task `k` while it does not wait is incomplete when the window begins or
when a request of a job of task `k` is satisfied. -/
theorem instant (h : Mpcp S prio R) (hb : BoundedBefore R.work R.sched W H)
    (hWT : ∀ i, W i ≤ S.period i) (hwin : Window R.work R.sched k Z q0 q1 a e) (heH : e ≤ H)
    (hZp : ∀ i, Z i → S.proc i = S.proc k ∧ prio i < prio k)
    (hZ : ∀ s u, Z s.job.1 → u < H → ¬ R.Waits s u)
    {t : ℕ} (h1 : a ≤ t) (h2 : t < e) {s' : Section n} (ho : R.Owns s' t)
    (hproc : S.proc s'.job.1 = S.proc k) (hprio : prio k < prio s'.job.1)
    (hnw : ∀ s, s.job.1 = k → ¬ R.Waits s t) :
    (R.enter s' ≤ a ∧ a < R.leave s') ∨
    ∃ s u, R.Waits s u ∧ a ≤ u ∧ u < e ∧ s.job.1 = k ∧ q1 ≤ s.job.2 ∧ s.job.2 ≤ q0 ∧
      R.enter s' ≤ R.acquire s ∧ R.acquire s < R.leave s' := by
  have hact := h.owns_active ho
  by_cases hea : R.enter s' ≤ a
  · exact Or.inl ⟨hea, by omega⟩
  right
  obtain ⟨x, hx, hrel, hinc⟩ : ∃ x : Job n, (x.1 = k ∨ Z x.1) ∧ R.work.release x < R.enter s' ∧
      ¬ Completed R.work R.sched x (R.enter s') := by
    by_cases hr : R.enter s' ≤ R.work.release (k, q0)
    · exact hwin.busy _ (not_le.1 hea) hr
    · exact ⟨(k, q0), Or.inl rfl, by omega, fun hc => hwin.incomplete (hc.mono (by omega))⟩
  have hr1 : Ready R.work R.sched x (R.enter s') :=
    pending_ready h.sporadic hb (hWT _) (by omega) ⟨hrel.le, hinc⟩
  have hr0 : Ready R.work R.sched x (R.enter s' - 1) :=
    pending_ready h.sporadic hb (hWT _) (by omega) ⟨by omega, fun hc => hinc (hc.mono (by omega))⟩
  have hxp : S.proc x.1 = S.proc s'.job.1 ∧ prio x.1 < prio s'.job.1 := by
    rcases hx with hx | hx
    · rw [hx]; exact ⟨hproc.symm, hprio⟩
    · have := hZp _ hx
      exact ⟨this.1.trans hproc.symm, this.2.trans hprio⟩
  have key : ∀ s u, s.job = x → R.Waits s u → R.enter s' - 1 ≤ u → u ≤ R.enter s' →
      ∃ s u, R.Waits s u ∧ a ≤ u ∧ u < e ∧ s.job.1 = k ∧ q1 ≤ s.job.2 ∧ s.job.2 ≤ q0 ∧
      R.enter s' ≤ R.acquire s ∧ R.acquire s < R.leave s' := by
    intro s u hsx hw hu1 hu2
    have hk : s.job.1 = k := by
      rw [hsx]
      rcases hx with hx | hx
      · exact hx
      · exact absurd hw (hZ s u (by rw [hsx]; exact hx) (by omega))
    have hown := hwin.own u s.job.2 (by omega) (by omega) (by rw [← hk]; exact h.waits_ready hw)
    have hw2 := hw.2
    refine ⟨s, u, hw, by omega, by omega, hk, hown.1, hown.2, by omega, ?_⟩
    by_contra hc
    exact hnw s hk ⟨hw.1, by omega, by omega⟩
  by_cases hwx : ∃ s, s.job = x ∧ R.Waits s (R.enter s' - 1)
  · obtain ⟨s, hsx, hw⟩ := hwx
    exact key s _ hsx hw le_rfl (by omega)
  · push Not at hwx
    obtain ⟨s, hsx, hw⟩ := h.issue s' x ho.1 (by omega) hxp.1 hxp.2 hr0 hwx hr1
    exact key s _ hsx hw (by omega) le_rfl

end Mpcp
end Verif.Spec
