/-
The runs of partitioned fixed-priority scheduling with the DPCP: which agents delay a job.
-/
import Verif.Spec.Dpcp
import Verif.Lemmas.PartLocks

namespace Verif.Spec
open Finset

variable {n : ℕ} {S : LockSystem n} {prio : Fin n → ℕ} {loc : ℕ → ℕ} {R : LockRun n} {W : Fin n → ℕ} {H : ℕ}

namespace Dpcp

/-- In slot `t`, the request `s` has been issued and not been completed, is for a resource on processor `c` and is
not served. -/
def Delayed (S : LockSystem n) (loc : ℕ → ℕ) (R : LockRun n) (s : Section n) (c t : ℕ) : Prop :=
  R.issued s ∧ R.enter s ≤ t ∧ t < R.leave s ∧ s.job ∉ R.sched t ∧ ∃ r, S.For s r ∧ loc r = c

/-- In slot `t`, processor `c` serves the request `s`. -/
def Served (S : LockSystem n) (loc : ℕ → ℕ) (R : LockRun n) (s : Section n) (c t : ℕ) : Prop :=
  R.Owns s t ∧ s.job ∈ R.sched t ∧ ∃ r, S.For s r ∧ loc r = c

/-- Section `s` has a resource with a ceiling of at least that of task `i`. -/
def Ceil (S : LockSystem n) (prio : Fin n → ℕ) (s : Section n) (i : Fin n) : Prop :=
  ∃ r x, S.For s r ∧ S.Uses x r ∧ prio x ≤ prio i

variable {s s' : Section n} {c t : ℕ}

theorem Served.on (h : Served S loc R s c t) : R.On S loc s.job t c := by
  obtain ⟨ho, _, r, hf, hl⟩ := h
  exact Or.inl ⟨s, r, rfl, ho, hf, hl⟩

/-- A processor serves one request at a time. -/
theorem served_unique (h : Dpcp S prio loc R) (h1 : Served S loc R s c t) (h2 : Served S loc R s' c t) : s = s' := by
  have hj := h.one t c _ h1.2.1 _ h2.2.1 h1.on h2.on
  have a1 := h.owns_active h1.1
  have a2 := h.owns_active h2.1
  exact h.section_unique h1.1.1 h2.1.1 hj a1.1 a1.2 a2.1 a2.2

/-- Who delays a request. -/
theorem delayed_by (h : Dpcp S prio loc R) (hd : Delayed S loc R s c t) :
    ∃ s', Served S loc R s' c t ∧ (prio s'.job.1 ≤ prio s.job.1 ∨ R.acquire s' < t ∧ Ceil S prio s' s.job.1) := by
  obtain ⟨hi, h1, h2, h3, r, hf, hl⟩ := hd
  obtain ⟨s', r', a1, a2, a3, a4, a5⟩ := h.agents s r t hi h1 h2 h3 hf
  refine ⟨s', ⟨a2, a1, r', a3, a4.trans hl⟩, ?_⟩
  rcases a5 with a5 | ⟨a5, x, a6, a7⟩
  · exact Or.inl a5
  · exact Or.inr ⟨a5, r', x, a3, a6, a7⟩

/-- A lower-priority request that delays another one has been granted before that was issued. -/
theorem lower_before (h : Dpcp S prio loc R) (hd : Delayed S loc R s c t) (hs : Served S loc R s' c t)
    (hp : prio s.job.1 < prio s'.job.1) : R.acquire s' < R.enter s := by
  by_contra hc
  obtain ⟨hi, h1, h2, _, r, hf, hl⟩ := hd
  obtain ⟨ho, _, r', hf', hl'⟩ := hs
  have hlt : R.acquire s' < R.leave s' := by have := ho.2; omega
  have hg := h.granted s' ho.1 hlt
  have hs' : Served S loc R s' c (R.acquire s') := ⟨⟨ho.1, le_rfl, hlt⟩, hg, r', hf', hl'⟩
  have hu : R.acquire s' < R.leave s := by have := ho.2.1; omega
  by_cases he : s.job ∈ R.sched (R.acquire s')
  · have hos : R.Owns s (R.acquire s') := by
      refine ⟨hi, ?_, hu⟩
      by_contra hw
      exact h.suspends s _ ⟨hi, by omega, by omega⟩ he
    have := h.served_unique ⟨hos, he, r, hf, hl⟩ hs'
    rw [this] at hp
    omega
  · obtain ⟨s'', a1, a2⟩ := h.delayed_by (s := s) (c := c) (t := R.acquire s') ⟨hi, by omega, hu, he, r, hf, hl⟩
    have := h.served_unique a1 hs'
    subst this
    rcases a2 with a2 | a2 <;> omega

/-- At most one lower-priority request delays a request. -/
theorem lower_unique (h : Dpcp S prio loc R) {s1 s2 : Section n} {t1 t2 : ℕ}
    (hd1 : Delayed S loc R s c t1) (hs1 : Served S loc R s1 c t1) (hp1 : prio s.job.1 < prio s1.job.1)
    (hc1 : Ceil S prio s1 s.job.1)
    (hd2 : Delayed S loc R s c t2) (hs2 : Served S loc R s2 c t2) (hp2 : prio s.job.1 < prio s2.job.1)
    (hc2 : Ceil S prio s2 s.job.1) : s1 = s2 := by
  have b1 := h.lower_before hd1 hs1 hp1
  have b2 := h.lower_before hd2 hs2 hp2
  have e1 : R.enter s < R.leave s1 := by have := hd1.2.1; have := hs1.1.2.2; omega
  have e2 : R.enter s < R.leave s2 := by have := hd2.2.1; have := hs2.1.2.2; omega
  have key : ∀ {x y : Section n} {u v : ℕ}, Served S loc R x c u → Served S loc R y c v →
      R.enter s < R.leave x → R.acquire y < R.enter s → R.enter s < R.leave y → R.acquire x ≤ R.acquire y →
      Ceil S prio x s.job.1 → prio s.job.1 < prio y.job.1 → x.job = y.job := by
    rintro x y u v ⟨hox, _, rx, hfx, hlx⟩ ⟨hoy, _, ry, hfy, hly⟩ h1 h2 h3 h4 ⟨r, z, hr, hz, hzp⟩ hp
    by_contra hne
    have := hfx.unique hr
    subst this
    have := h.ceiling y x ry rx hoy.1 (by omega) hne ⟨hox.1, h4, by omega⟩ hfy hfx (hlx.trans hly.symm) z hz
    omega
  have hj : s1.job = s2.job := by
    rcases Nat.le_total (R.acquire s1) (R.acquire s2) with hle | hle
    · exact key hs1 hs2 e1 b2 e2 hle hc1 hp2
    · exact (key hs2 hs1 e2 b1 e1 hle hc2 hp1).symm
  have a1 := h.order _ hs1.1.1
  have a2 := h.order _ hs2.1.1
  exact h.section_unique hs1.1.1 hs2.1.1 hj (t := R.enter s) (by omega) e1 (by omega) e2

/-- What protocols with agents have in common: a request is delayed only while another one is served on that processor,
and jobs without a request are delayed only by agents and by jobs whose priority is no lower. -/
structure AgentRun {n : ℕ} (S : LockSystem n) (prio : Fin n → ℕ) (loc : ℕ → ℕ) (R : LockRun n) : Prop
    extends RequestRun n S R where
  busy : ∀ s c t, Delayed S loc R s c t → ∃ s', Served S loc R s' c t
  jobs : ∀ t j, Ready R.work R.sched j t → j ∉ R.sched t →
    (∀ s, s.job = j → R.issued s → R.enter s ≤ t → R.leave s ≤ t) →
    ∃ j' ∈ R.sched t, R.On S loc j' t (S.proc j.1) ∧
      ((∃ s, s.job = j' ∧ R.Owns s t) ∨ prio j'.1 ≤ prio j.1)

/-- The same, if jobs issue requests only if no higher-priority job occupies the processor. -/
structure AgentPrompt {n : ℕ} (S : LockSystem n) (prio : Fin n → ℕ) (loc : ℕ → ℕ) (R : LockRun n) : Prop
    extends AgentRun S prio loc R where
  issue : ∀ s j, R.issued s → 0 < R.enter s → S.proc j.1 = S.proc s.job.1 → prio j.1 < prio s.job.1 →
    Ready R.work R.sched j (R.enter s - 1) → ¬ R.Away S loc j (R.enter s - 1) →
    Ready R.work R.sched j (R.enter s) → R.Away S loc j (R.enter s)

theorem agentRun (h : Dpcp S prio loc R) : AgentRun S prio loc R where
  toRequestRun := h.toRequestRun
  busy := fun _ _ _ hd => (h.delayed_by hd).imp (fun _ => And.left)
  jobs := h.jobs

theorem agentPrompt (h : DpcpPrompt S prio loc R) : AgentPrompt S prio loc R where
  toAgentRun := agentRun h.toDpcp
  issue := h.issue

variable {k : Fin n} {Z : Fin n → Prop} {q0 q1 a e : ℕ}

/-- The slots of a busy window in which neither task `k` nor a local higher-priority one executes: a request of a job
of task `k` is delayed on another processor, or the processor serves a request of another task. -/
theorem AgentRun.idle_cases (h : AgentRun S prio loc R) (hb : BoundedBefore R.work R.sched W H)
    (hWT : ∀ i, W i ≤ S.period i) (hwin : Window R.work R.sched k Z q0 q1 a e) (heH : e ≤ H)
    (hinj : ∀ i, S.proc i = S.proc k → prio i = prio k → i = k)
    (hZp : ∀ i, Z i → S.proc i = S.proc k ∧ prio i < prio k)
    (hZ : ∀ s c u, Z s.job.1 → u < H → c ≠ S.proc k → ¬ Delayed S loc R s c u)
    {t : ℕ} (h1 : a ≤ t) (h2 : t < e)
    (hidle : ∀ j ∈ R.sched t, j.1 ≠ k ∧ ¬ (S.proc j.1 = S.proc k ∧ prio j.1 < prio k)) :
    (∃ s c, s.job.1 = k ∧ q1 ≤ s.job.2 ∧ s.job.2 ≤ q0 ∧ c ≠ S.proc k ∧ Delayed S loc R s c t) ∨
    (∃ s', Served S loc R s' (S.proc k) t ∧ s'.job.1 ≠ k) := by
  obtain ⟨x, hx, hpend⟩ := hwin.pending h1 h2
  have hr := pending_ready h.sporadic hb (hWT _) (by omega) hpend
  have hxp : S.proc x.1 = S.proc k ∧ prio x.1 ≤ prio k := by
    rcases hx with hx | hx
    · rw [hx]; exact ⟨rfl, le_rfl⟩
    · have := hZp _ hx
      exact ⟨this.1, this.2.le⟩
  have hxs : x ∉ R.sched t := by
    intro hm
    have := hidle x hm
    rcases hx with hx | hx
    · exact this.1 hx
    · exact this.2 (hZp _ hx)
  by_cases hreq : ∃ s, s.job = x ∧ R.issued s ∧ R.enter s ≤ t ∧ t < R.leave s
  · obtain ⟨s, rfl, hi, he, hl⟩ := hreq
    obtain ⟨q, hq, _⟩ := h.declared s hi
    have hd : Delayed S loc R s (loc q.res) t := ⟨hi, he, hl, hxs, q.res, ⟨q, hq, rfl⟩, rfl⟩
    by_cases hc : loc q.res = S.proc k
    · right
      rw [hc] at hd
      obtain ⟨s', hs'⟩ := h.busy s _ t hd
      exact ⟨s', hs', (hidle _ hs'.2.1).1⟩
    · rcases hx with hx | hx
      · left
        have := hwin.own t s.job.2 h1 h2 (by rw [← hx]; exact hr)
        exact ⟨s, _, hx, this.1, this.2, hc, hd⟩
      · exact absurd hd (hZ s _ t hx (by omega) hc)
  · right
    push Not at hreq
    obtain ⟨j', hj', hon, hcase⟩ := h.jobs t x hr hxs (fun s hs hi he => hreq s hs hi he)
    rw [hxp.1] at hon
    rcases hon with ⟨s', r', rfl, ho, hf, hl⟩ | ⟨hno, hproc⟩
    · exact ⟨s', ⟨ho, hj', r', hf, hl⟩, (hidle _ hj').1⟩
    · exfalso
      rcases hcase with ⟨s', hs', ho⟩ | hle
      · exact hno s' hs' ho
      · have h3 := hidle _ hj'
        rcases Nat.lt_or_ge (prio j'.1) (prio k) with h5 | h5
        · exact h3.2 ⟨hproc, h5⟩
        · exact h3.1 (hinj _ hproc (by omega))

end Dpcp
end Verif.Spec
