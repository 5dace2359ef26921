/-
C108, C109: response-time analysis of partitioned fixed-priority scheduling with priority-ordered non-preemptive spin
locks and bounds on blocking that are computed with linear programs.
-/
import Verif.Props.LpSpin
import Verif.Props.LpSpinPrioViolated
import Verif.Lemmas.LpSpinPrio

namespace Verif.SR.Lp
open Verif.Spec
open Verif.SR.Msrp (system uses_iff)

/-- With equal priorities, requests are served in FIFO order. -/
theorem prioFifo_msrp {n : ℕ} {S : LockSystem n} {prio : Fin n → ℕ} {lockPrio : Fin n → ℕ → ℕ} {R : LockRun n}
    (h : PrioFifoFp S prio lockPrio R)
    (he : ∀ i j r, S.Uses i r → S.Uses j r → lockPrio i r = lockPrio j r) : MsrpFp S prio R where
  toNpSpinFp := h.toNpSpinFp
  fifo := by
    intro s q t h1 h2 h3 h4 h5
    obtain ⟨s', q', e1, e2, e3, e4, e5, e6⟩ := h.byPrio s q t h1 h2 h3 h4 h5
    refine ⟨s', q', e1, e2, e3, ?_, e5, e6⟩
    have u1 : S.Uses s.job.1 q.res := ⟨q, List.mem_of_getElem? h2, rfl⟩
    have u2 : S.Uses s'.job.1 q.res := ⟨q', List.mem_of_getElem? e2, e3⟩
    rcases e4 with e4 | e4 | e4
    · rw [he _ _ _ u2 u1] at e4
      exact absurd e4 (lt_irrefl _)
    · exact e4.2
    · exact ((h.order s' e1).1.trans_lt e4).le

section
variable {info : Info} {R : LockRun info.length} {W : Fin info.length → ℕ} {H : ℕ}
  (h1 : OneEntry info) (hT : ∀ t ∈ info, 0 < t.period)
  (hprio : ∀ i j : Fin info.length, (info.get i).cluster = (info.get j).cluster →
    (info.get i).priority = (info.get j).priority → i = j)
  (hW : ∀ i, W i ≤ (info.get i).response) (hb : BoundedBefore R.work R.sched W H) {k : Fin info.length} {q a : ℕ}
  (hwin : SpinWindow (system info) (prio info) R k q a (a + W k)) (haH : a + W k ≤ H) {V : Finset ℕ}
  (hV : ∀ t ∈ V, a ≤ t ∧ t < a + W k ∧ ∀ j ∈ R.sched t, (system info).proc j.1 = (system info).proc k →
    prio info j.1 ≤ prio info k → R.Spins j t)
include h1 hT hW hb hwin haH hV hprio

theorem prioFifo_le (h : MsrpFp (system info) (prio info) R) {fuel : ℕ} {P : Program} {x : Key → ℚ}
    (hP : prioFifoProgram (fun _ _ => 0) fuel info k (info.get k) = some P) (hx : P.Maximum x) :
    V.card ≤ (lrint (termSum x P.objective)).toNat := by
  have hV' : ∀ u ∈ V, a ≤ u ∧ u < a + W k := fun u hu => ⟨(hV u hu).1, (hV u hu).2.1⟩
  obtain ⟨sec, src, arr, c, hv, hc, hf⟩ := spin_feasible h1 hT hW hb hwin haH hV h.toNpSpinFp
    (Q := fun s z => R.enter z ≤ R.enter s) (by
    intro s q t h2 h3 h4 h5 h6
    obtain ⟨s', q', e1, e2, e3, e4, e5, e6⟩ := h.fifo s q t h2 h3 h4 h5 h6
    exact ⟨s', q', e1, e2, e3, e4, e5, e6⟩)
  unfold prioFifoProgram at hP
  simp only [Option.bind_eq_bind, Option.bind_eq_some_iff, prioLower_same] at hP
  obtain ⟨P1, hP1, P2, hP2, hP⟩ := hP
  cases hP
  have := hc.prioFifo h1 (fifo_direct h.toNpSpinFp h1 hT hprio (hW k) hwin hv hV') (fifo_arrival h.toNpSpinFp hv)
    ⟨objective_common _ _ _ _, hf⟩ hP1 hP2
  exact value_le hx this.2 (hc.objective_le h1 this.1)

theorem prioAny_le (h : UnorderedFp (system info) (prio info) R)
    (hshort : ∀ t ∈ info, ∀ x ∈ info, t.cluster ≠ x.cluster → x.requests ≠ [] →
      0 < x.response ∧ t.response + x.response ≤ x.period) {fuel : ℕ} {P : Program} {x : Key → ℚ}
    (hP : prioProgram (fun _ _ => 0) fuel info k (info.get k) = some P) (hx : P.Maximum x) :
    V.card ≤ (lrint (termSum x P.objective)).toNat := by
  have hV' : ∀ u ∈ V, a ≤ u ∧ u < a + W k := fun u hu => ⟨(hV u hu).1, (hV u hu).2.1⟩
  obtain ⟨sec, src, arr, c, hv, hc, hf⟩ := spin_feasible h1 hT hW hb hwin haH hV h.toNpSpinFp
    (Q := fun _ _ => True) (by
    intro s q t h2 h3 h4 h5 h6
    obtain ⟨s', q', e1, e2, e3, e4, e5⟩ := h.waits s q t h2 h3 h4 h5 h6
    exact ⟨s', q', e1, e2, e3, trivial, e4, e5⟩)
  unfold prioProgram at hP
  simp only [Option.bind_eq_bind, Option.bind_eq_some_iff] at hP
  obtain ⟨P1, hP1, P2, hP2, hP⟩ := hP
  cases hP
  have := hc.prioAny h1
    (fun r w x hx => short_direct h.toNpSpinFp h1 hT hprio hW hb hwin haH hv hV' hshort w r hx)
    (fun r w x hx => short_arrival h.toNpSpinFp h1 hT hW hb haH hv hV' hshort w r hx)
    ⟨objective_common _ _ _ _, hf⟩ hP1 hP2
  exact value_le hx this.2 (hc.objective_le h1 this.1)

end

/-- **C108** (partial): let the response-time analysis accept the tasks of each processor after
`apply_pfp_lp_prio_bounds`, let the solver find optimal solutions, and let no computed response time exceed the one
assumed in the computation of the bounds.  Then in every run with priority-ordered non-preemptive spin locks no job takes
longer than the computed response time, which is at most the deadline, **provided that** no task with requests can have
two jobs within the response time of a task on another processor.  Without this condition, the claim is false. -/
theorem C108_lp_prio_safe_partial (info : Info) (solve : Solver) (hsolve : ∀ P x, solve P = some x → P.Maximum x)
    (lockPrio : ℕ → ℕ → ℕ) (fuel fuel' : ℕ) (hT : ∀ t ∈ info, 0 < t.period)
    (hone : ∀ t ∈ info, (t.requests.map Request.resId).Nodup)
    (hprio : info.Pairwise (fun a b => a.cluster = b.cluster → a.priority < b.priority))
    (hshort : ∀ t ∈ info, ∀ x ∈ info, t.cluster ≠ x.cluster → x.requests ≠ [] →
      0 < x.response ∧ t.response + x.response ≤ x.period)
    (bs : List ℕ) (hbs : prioBounds lockPrio fuel' solve info = some bs) (done : ℕ → List (Fp.FpTask × ℚ))
    (h : ∀ t ∈ info, Fp.boundResponseTimes fuel 1 (afterLpBounds info bs t.cluster) = some (true, done t.cluster)) :
    ∃ resp : Fin info.length → ℚ,
      (∀ t ∈ info, (done t.cluster).map Prod.snd =
        ((List.finRange info.length).filter (fun i => (info.get i).cluster = t.cluster)).map resp) ∧
      (∀ i, resp i ≤ (info.get i).deadline) ∧
      ((∀ i, resp i ≤ (info.get i).response) →
        ∀ R, PrioFp (system info) (fun i => (info.get i).priority) (fun i r => lockPrio i r) R →
          (∀ s, R.issued s → R.enter s < R.acquire s → R.acquire s < R.leave s) → ∀ i (q t : ℕ),
          (R.work.release (i, q) : ℚ) + resp i ≤ t → Completed R.work R.sched (i, q) t) := by
  unfold prioBounds addedPrio nativePrioBounds at hbs
  obtain ⟨e, hsome⟩ := bounds_eq hbs
  refine lp_safe info fuel hT hprio _ bs e _ (fun R hR => hR.toNpSpinFp) ?_ done h
  intro R hR W hW hinj H hb k q a hwin hle V hV
  have hs := hsome k
  simp only at hs ⊢
  rcases hP : prioProgram (fun _ _ => 0) fuel' info k (info.get k) with _ | P
  · rw [hP] at hs
    cases hs
  · rw [hP] at hs
    simp only [Option.bind_some, solved] at hs ⊢
    rcases hx : solve P with _ | x
    · rw [hx] at hs
      cases hs
    · exact prioAny_le hone hT hinj hW hb hwin hle hV hR.unordered hshort hP (hsolve _ _ hx)

/-- **C109** (partial): the same for `apply_pfp_lp_prio_fifo_bounds` and requests of equal priority in FIFO order,
**provided that** all requests for a resource have the same priority.  Without this condition, the claim is false. -/
theorem C109_lp_prio_fifo_safe_partial (info : Info) (solve : Solver) (hsolve : ∀ P x, solve P = some x → P.Maximum x)
    (lockPrio : ℕ → ℕ → ℕ) (fuel fuel' : ℕ) (hT : ∀ t ∈ info, 0 < t.period)
    (hone : ∀ t ∈ info, (t.requests.map Request.resId).Nodup)
    (hprio : info.Pairwise (fun a b => a.cluster = b.cluster → a.priority < b.priority))
    (hsame : ∀ (i j : Fin info.length) (r : ℕ), (∃ b ∈ (info.get i).requests, b.resId = r) →
      (∃ b ∈ (info.get j).requests, b.resId = r) → lockPrio i r = lockPrio j r)
    (bs : List ℕ) (hbs : prioFifoBounds lockPrio fuel' solve info = some bs) (done : ℕ → List (Fp.FpTask × ℚ))
    (h : ∀ t ∈ info, Fp.boundResponseTimes fuel 1 (afterLpBounds info bs t.cluster) = some (true, done t.cluster)) :
    ∃ resp : Fin info.length → ℚ,
      (∀ t ∈ info, (done t.cluster).map Prod.snd =
        ((List.finRange info.length).filter (fun i => (info.get i).cluster = t.cluster)).map resp) ∧
      (∀ i, resp i ≤ (info.get i).deadline) ∧
      ((∀ i, resp i ≤ (info.get i).response) →
        ∀ R, PrioFifoFp (system info) (fun i => (info.get i).priority) (fun i r => lockPrio i r) R →
          (∀ s, R.issued s → R.enter s < R.acquire s → R.acquire s < R.leave s) → ∀ i (q t : ℕ),
          (R.work.release (i, q) : ℚ) + resp i ≤ t → Completed R.work R.sched (i, q) t) := by
  unfold prioFifoBounds addedPrio nativePrioFifoBounds at hbs
  obtain ⟨e, hsome⟩ := bounds_eq hbs
  refine lp_safe info fuel hT hprio _ bs e _ (fun R hR => hR.toNpSpinFp) ?_ done h
  intro R hR W hW hinj H hb k q a hwin hle V hV
  have hs := hsome k
  simp only at hs ⊢
  have hR' : MsrpFp (system info) (fun i => (info.get i).priority) R := prioFifo_msrp hR (by
    intro i j r hi hj
    exact hsame i j r (uses_iff.1 hi) (uses_iff.1 hj))
  rcases hP : prioFifoProgram (fun _ _ => 0) fuel' info k (info.get k) with _ | P
  · rw [hP] at hs
    cases hs
  · rw [hP] at hs
    simp only [Option.bind_some, solved] at hs ⊢
    rcases hx : solve P with _ | x
    · rw [hx] at hs
      cases hs
    · exact prioFifo_le hone hT hinj hW hb hwin hle hV hR' hP (hsolve _ _ hx)

/-- **C108** (partial): if the assumed response times are at least the deadlines, accepted tasks meet their deadlines. -/
theorem C108_lp_prio_schedulable_partial (info : Info) (solve : Solver)
    (hsolve : ∀ P x, solve P = some x → P.Maximum x) (lockPrio : ℕ → ℕ → ℕ)
    (fuel fuel' : ℕ) (hT : ∀ t ∈ info, 0 < t.period) (hone : ∀ t ∈ info, (t.requests.map Request.resId).Nodup)
    (hprio : info.Pairwise (fun a b => a.cluster = b.cluster → a.priority < b.priority))
    (hresp : ∀ t ∈ info, t.deadline ≤ t.response)
    (hshort : ∀ t ∈ info, ∀ x ∈ info, t.cluster ≠ x.cluster → x.requests ≠ [] →
      0 < x.response ∧ t.response + x.response ≤ x.period)
    (bs : List ℕ) (hbs : prioBounds lockPrio fuel' solve info = some bs)
    (h : ∀ t ∈ info, ∃ done, Fp.boundResponseTimes fuel 1 (afterLpBounds info bs t.cluster) = some (true, done))
    (R : LockRun info.length)
    (hR : PrioFp (system info) (fun i => (info.get i).priority) (fun i r => lockPrio i r) R)
    (huse : ∀ s, R.issued s → R.enter s < R.acquire s → R.acquire s < R.leave s) :
    MeetsDeadlines R.work (system info).deadline R.sched := by
  obtain ⟨resp, _, h2, h3⟩ := C108_lp_prio_safe_partial info solve hsolve lockPrio fuel fuel' hT hone hprio hshort bs hbs
    (fun k => ((Fp.boundResponseTimes fuel 1 (afterLpBounds info bs k)).getD (true, [])).2) (by
      intro t ht
      obtain ⟨d, hd⟩ := h t ht
      simp only [hd, Option.getD_some])
  exact meets_of_resp h2 (h3 (fun i => (h2 i).trans (by exact_mod_cast hresp _ (List.get_mem info i))) R hR huse)

/-- **C109** (partial): if the assumed response times are at least the deadlines, accepted tasks meet their deadlines. -/
theorem C109_lp_prio_fifo_schedulable_partial (info : Info) (solve : Solver)
    (hsolve : ∀ P x, solve P = some x → P.Maximum x) (lockPrio : ℕ → ℕ → ℕ)
    (fuel fuel' : ℕ) (hT : ∀ t ∈ info, 0 < t.period) (hone : ∀ t ∈ info, (t.requests.map Request.resId).Nodup)
    (hprio : info.Pairwise (fun a b => a.cluster = b.cluster → a.priority < b.priority))
    (hresp : ∀ t ∈ info, t.deadline ≤ t.response)
    (hsame : ∀ (i j : Fin info.length) (r : ℕ), (∃ b ∈ (info.get i).requests, b.resId = r) →
      (∃ b ∈ (info.get j).requests, b.resId = r) → lockPrio i r = lockPrio j r)
    (bs : List ℕ) (hbs : prioFifoBounds lockPrio fuel' solve info = some bs)
    (h : ∀ t ∈ info, ∃ done, Fp.boundResponseTimes fuel 1 (afterLpBounds info bs t.cluster) = some (true, done))
    (R : LockRun info.length)
    (hR : PrioFifoFp (system info) (fun i => (info.get i).priority) (fun i r => lockPrio i r) R)
    (huse : ∀ s, R.issued s → R.enter s < R.acquire s → R.acquire s < R.leave s) :
    MeetsDeadlines R.work (system info).deadline R.sched := by
  obtain ⟨resp, _, h2, h3⟩ := C109_lp_prio_fifo_safe_partial info solve hsolve lockPrio fuel fuel' hT hone hprio hsame bs
    hbs (fun k => ((Fp.boundResponseTimes fuel 1 (afterLpBounds info bs k)).getD (true, [])).2) (by
      intro t ht
      obtain ⟨d, hd⟩ := h t ht
      simp only [hd, Option.getD_some])
  exact meets_of_resp h2 (h3 (fun i => (h2 i).trans (by exact_mod_cast hresp _ (List.get_mem info i))) R hR huse)

/-! ### The bounds on waiting times -/

theorem prioLoop_fixed {period : ℕ} {step : ℕ → ℕ} {r : ℕ} : ∀ (fuel estimate : ℕ),
    prioLoop period step fuel estimate (step estimate) = some r → period < r ∨ r = step r := by
  intro fuel
  induction fuel with
  | zero => intro e h; simp [prioLoop] at h
  | succ n ih =>
    intro e h
    by_cases hc : e ≤ period ∧ e ≠ step e
    · rw [prioLoop, if_pos hc] at h
      exact ih _ h
    · rw [prioLoop, if_neg hc] at h
      obtain rfl := Option.some.inj h
      by_cases hp : e ≤ period
      · exact Or.inr (by by_contra hne; exact hc ⟨hp, hne⟩)
      · exact Or.inl (by omega)

/-- The bound on the waiting time for a resource used in C108 is the response-time bound of the task, or 0 if no
request of lower priority exists, or a fixed point: the longest such request, all requests of higher or equal
priority that remote tasks may issue in an interval of that length, and one time unit. -/
theorem C108_wait_fixed_point (pr : LockPrio) (fuel : ℕ) (info : Info) (i : ℕ) (ti : TaskInfo) (res prio w : ℕ)
    (h : prioWait pr fuel info i ti res prio = some w) :
    w = ti.response ∨ (w = 0 ∧ longestLower pr info i ti res = 0) ∨
      w = longestLower pr info i ti res +
        ((remoteRequests pr info ti res (fun p => p ≤ prio)).map
          (fun r => r.2.length * (r.1.maxNumJobs w * r.2.num))).sum + 1 := by
  unfold prioWait at h
  simp only [Option.map_eq_some_iff] at h
  obtain ⟨e, he, hw⟩ := h
  cases fuel with
  | zero => simp [prioLoop] at he
  | succ n =>
    by_cases h0 : longestLower pr info i ti res = 0
    · rw [prioLoop, if_neg (by rw [h0]; simp)] at he
      obtain rfl := Option.some.inj he
      rw [if_pos (Nat.zero_le _)] at hw
      exact Or.inr (Or.inl ⟨hw.symm, h0⟩)
    · rw [prioLoop, if_pos ⟨Nat.zero_le _, fun h => h0 h.symm⟩] at he
      rcases prioLoop_fixed _ _ he with h | h
      · rw [if_neg (by omega)] at hw
        exact Or.inl hw.symm
      · by_cases hp : e ≤ ti.period
        · rw [if_pos hp] at hw
          subst hw
          exact Or.inr (Or.inr h)
        · rw [if_neg hp] at hw
          exact Or.inl hw.symm

/-- A waiting time of 9: a request of length 4 with lower priority, two requests of length 2 with higher priority
and one time unit. -/
example : prioWait (fun t _ => if t = 0 then 1 else if t = 1 then 0 else 2) 9
    [⟨0, 100, 60, 60, 0, 5, [⟨0, 1, 1, false⟩]⟩, ⟨1, 10, 10, 10, 1, 3, [⟨0, 1, 2, false⟩]⟩,
      ⟨2, 100, 60, 60, 2, 9, [⟨0, 1, 4, false⟩]⟩] 0 ⟨0, 100, 60, 60, 0, 5, [⟨0, 1, 1, false⟩]⟩ 0 1 = some 9 := by
  decide +kernel

end Verif.SR.Lp
