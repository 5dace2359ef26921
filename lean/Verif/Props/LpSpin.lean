/-
C102, C103: response-time analysis of partitioned fixed-priority scheduling with non-preemptive spin locks
and bounds on blocking that are computed with linear programs.
-/
import Verif.Lemmas.LpSpinCount
import Verif.Props.MsrpHolistic

namespace Verif.SR.Lp
open Verif.Spec
open Verif.SR.Msrp (system uses_iff)

theorem afterLpBounds_eq (info : Info) (B : Fin info.length → ℕ) (bs : List ℕ)
    (hbs : bs = (List.finRange info.length).map B) (k : ℕ) : afterLpBounds info bs k =
    ((List.finRange info.length).filter (fun i => (info.get i).cluster = k)).map (fun i =>
      { cost := ((info.get i).cost : ℚ), period := ((info.get i).period : ℚ), deadline := ((info.get i).deadline : ℚ),
        suspended := 0, blocked := some (B i : ℚ) }) := by
  subst hbs
  unfold afterLpBounds
  have hz : info.zip ((List.finRange info.length).map B) =
      (List.finRange info.length).map (fun i => (info.get i, B i)) := by
    apply List.ext_getElem?
    intro a
    by_cases ha : a < info.length
    · have h3 : (List.finRange info.length)[a]? = some ⟨a, ha⟩ := by
        rw [List.getElem?_eq_getElem (by simpa using ha)]
        simp
      have h1 : ((List.finRange info.length).map B)[a]? = some (B ⟨a, ha⟩) := by
        rw [List.getElem?_map, h3]
        rfl
      have h2 := fin_get? (info := info) ⟨a, ha⟩
      have h12 : (info.zip ((List.finRange info.length).map B))[a]? = some (info.get ⟨a, ha⟩, B ⟨a, ha⟩) :=
        List.getElem?_zip_eq_some.2 ⟨h2, h1⟩
      rw [h12, List.getElem?_map, h3]
      rfl
    · rw [List.getElem?_eq_none, List.getElem?_eq_none]
      · simp; omega
      · rw [List.length_zip]; omega
  rw [hz, List.filterMap_map]
  induction (List.finRange info.length) with
  | nil => rfl
  | cons i l ih =>
    rw [List.filterMap_cons, List.filter_cons]
    simp only [Function.comp_apply]
    by_cases hc : (info.get i).cluster = k
    · simp only [hc, if_true, decide_true, List.map_cons]
      rw [← ih]
      rfl
    · simp only [hc, if_false, decide_false]
      exact ih

open Classical in
/-- Bounds on the blocking in each busy window yield response times. -/
theorem lp_safe (info : Info) (fuel : ℕ) (hT : ∀ t ∈ info, 0 < t.period)
    (hprio : info.Pairwise (fun a b => a.cluster = b.cluster → a.priority < b.priority))
    (B : Fin info.length → ℕ) (bs : List ℕ) (hbs : bs = (List.finRange info.length).map B)
    (Run : LockRun info.length → Prop) (hRun : ∀ R, Run R → NpSpinFp (system info) (prio info) R)
    (hB : ∀ R, Run R → ∀ W : Fin info.length → ℕ, (∀ i, W i ≤ (info.get i).response) →
      (∀ i j : Fin info.length, (info.get i).cluster = (info.get j).cluster →
        (info.get i).priority = (info.get j).priority → i = j) →
      ∀ H, BoundedBefore R.work R.sched W H → ∀ k q a, SpinWindow (system info) (prio info) R k q a (a + W k) →
      a + W k ≤ H → ∀ V : Finset ℕ, (∀ t ∈ V, a ≤ t ∧ t < a + W k ∧ ∀ j ∈ R.sched t,
        (system info).proc j.1 = (system info).proc k → prio info j.1 ≤ prio info k → R.Spins j t) → V.card ≤ B k)
    (done : ℕ → List (Fp.FpTask × ℚ))
    (h : ∀ t ∈ info, Fp.boundResponseTimes fuel 1 (afterLpBounds info bs t.cluster) = some (true, done t.cluster)) :
    ∃ resp : Fin info.length → ℚ,
      (∀ t ∈ info, (done t.cluster).map Prod.snd =
        ((List.finRange info.length).filter (fun i => (info.get i).cluster = t.cluster)).map resp) ∧
      (∀ i, resp i ≤ (info.get i).deadline) ∧
      ((∀ i, resp i ≤ (info.get i).response) → ∀ R, Run R →
          (∀ s, R.issued s → R.enter s < R.acquire s → R.acquire s < R.leave s) → ∀ i (q t : ℕ),
          (R.work.release (i, q) : ℚ) + resp i ≤ t → Completed R.work R.sched (i, q) t) := by
  have hlt : ∀ a b : Fin info.length, a < b → (info.get a).cluster = (info.get b).cluster →
      (info.get a).priority < (info.get b).priority := fun a b hab => (List.pairwise_iff_get.1 hprio) a b hab
  obtain ⟨W, hdone, hW⟩ := Msrp.accepted_all info info.length info.get (List.map_get_finRange info).symm B fuel hT hprio
    done (by
      intro t ht
      rw [← afterLpBounds_eq info B bs hbs]
      exact h t ht)
  refine ⟨fun i => (W i : ℚ), ?_, ?_, ?_⟩
  · intro t ht
    obtain ⟨i, rfl⟩ := List.get_of_mem ht
    exact hdone i
  · intro i
    have := (hW i).1
    beta_reduce
    exact_mod_cast this
  · intro hresp R hR huse i q t ht
    have hresp : ∀ i, W i ≤ (info.get i).response := fun i => by
      have := hresp i
      beta_reduce at this
      exact_mod_cast this
    have hinj : ∀ a b : Fin info.length, (info.get a).cluster = (info.get b).cluster →
        (info.get a).priority = (info.get b).priority → a = b := by
      intro a b h1 h2
      rcases lt_trichotomy a b with h3 | h3 | h3
      · have := hlt a b h3 h1; omega
      · exact h3
      · have := hlt b a h3 h1.symm; omega
    have hsafe := (hRun R hR).window_safe huse (fun i => hT _ (List.get_mem info i)) hinj W B
      (fun H hb k q a hwin hle => by
        refine hB R hR W hresp hinj H hb k q a hwin hle _ ?_
        intro t ht
        obtain ⟨ht, hs⟩ := Finset.mem_filter.1 ht
        exact ⟨(Finset.mem_Ico.1 ht).1, (Finset.mem_Ico.1 ht).2, hs⟩)
      (fun k => by
        refine le_trans (le_of_eq ?_) (hW k).2.2
        congr)
      (fun k => (hW k).2.1) (R.work.release (i, q) + W i + 1) (i, q) (Nat.lt_succ_self _)
    have ht : R.work.release (i, q) + W i ≤ t := by
      beta_reduce at ht
      exact_mod_cast ht
    exact hsafe.mono ht

/-- The value of an optimal solution is at least that of the assignment that describes a run. -/
theorem value_le {info : Info} {V : Finset ℕ} {P : Program} {x y : Key → ℚ} {i : ℕ} {ti : TaskInfo}
    (hx : (setObjective info i ti P).Maximum x) (hy : P.Feasible y)
    (hV : (V.card : ℚ) ≤ termSum y (setObjective info i ti P).objective) :
    V.card ≤ (lrint (termSum x (setObjective info i ti P).objective)).toNat :=
  le_lrint (hV.trans (hx.best y (feasible_setObjective hy)))

theorem objective_common (info : Info) (i : ℕ) (ti : TaskInfo) (P : Program) :
    (commonConstraints info i ti P).objective = P.objective := by
  unfold commonConstraints contentionConstraints
  rw [objective_foldl]
  · unfold localArrivalConstraints
    rw [objective_foldl]
    · unfold noLocalDirectConstraints
      rw [objective_addEquality]
      unfold noHigherArrivalConstraints
      rw [objective_foldl]
      · unfold noArrivalConstraints
        rw [objective_addInequality, objective_foldl]
        · unfold oneArrivalConstraints
          rw [objective_addInequality]
          unfold conflictSetConstraints
          rw [objective_addEquality]
          unfold mutexConstraints
          rw [objective_foldl]
          intro P t
          rw [objective_foldl]
          intro P r
          rw [objective_foldl]
          intro P v
          exact objective_addInequality _ _ _
        · intro P q
          rfl
      · intro P t
        split_ifs
        · exact objective_addInequality _ _ _
        · rfl
    · intro P q
      exact objective_addInequality _ _ _
  · intro P q
    split_ifs
    · rw [objective_foldl]
      intro P t
      exact objective_addInequality _ _ _
    · rfl

theorem objective_fifo (info : Info) (ti : TaskInfo) (P : Program) :
    (fifoArrivalConstraints info ti (fifoDirectConstraints info ti P)).objective = P.objective := by
  unfold fifoArrivalConstraints
  rw [objective_foldl]
  · unfold fifoDirectConstraints
    rw [objective_foldl]
    intro P q
    rw [objective_foldl]
    intro P c
    exact objective_addInequality _ _ _
  · intro P c
    rw [objective_foldl]
    intro P q
    simp only
    split_ifs
    · rfl
    · rw [objective_addInequality]
      rfl

theorem objective_unordered (info : Info) (ti : TaskInfo) (q w : ℕ) (P : Program) :
    (unorderedFor info ti q w P).objective = P.objective := by
  unfold unorderedFor
  rw [objective_foldl]
  intro P c
  rw [objective_foldl]
  intro P t
  simp only
  split_ifs
  · rfl
  · rw [objective_addInequality, objective_addInequality]

section
variable {info : Info} {R : LockRun info.length} {W : Fin info.length → ℕ} {H : ℕ}
  (h1 : OneEntry info) (hT : ∀ t ∈ info, 0 < t.period)
  (hprio : ∀ i j : Fin info.length, (info.get i).cluster = (info.get j).cluster →
    (info.get i).priority = (info.get j).priority → i = j)
  (hW : ∀ i, W i ≤ (info.get i).response) (hb : BoundedBefore R.work R.sched W H) {k : Fin info.length} {q a : ℕ}
  (hwin : SpinWindow (system info) (prio info) R k q a (a + W k)) (haH : a + W k ≤ H) {V : Finset ℕ}
  (hV : ∀ t ∈ V, a ≤ t ∧ t < a + W k ∧ ∀ j ∈ R.sched t, (system info).proc j.1 = (system info).proc k →
    prio info j.1 ≤ prio info k → R.Spins j t)
include h1 hT hW hb hwin haH hV

theorem spin_feasible (h : NpSpinFp (system info) (prio info) R) {Q : Section info.length → Section info.length → Prop}
    (hw : R.SpinOrder (system info) Q) :
    ∃ sec src arr c, SpinView (system info) (prio info) R Q k V sec src arr c ∧
      SpinCharge info k V sec (kindOf arr) (c.map (resOf info)) ∧
      (commonConstraints info k (info.get k) {}).Feasible (assign k V sec (kindOf arr) (c.map (resOf info))) := by
  obtain ⟨sec, src, arr, c, hv⟩ := h.view hw hwin hV
  have hV' : ∀ u ∈ V, a ≤ u ∧ u < a + W k := fun u hu => ⟨(hV u hu).1, (hV u hu).2.1⟩
  have hc := SpinView.charge h hb hT hW hv haH hV'
  refine ⟨sec, src, arr, c, hv, hc, hc.common h1 ?_ (feasible_empty (hc.assign_range h1))⟩
  intro r x hk _
  exact contention_le h h1 hT hW hb hwin haH hv hV' hk

theorem baseline_le (h : UnorderedFp (system info) (prio info) R) {x : Key → ℚ}
    (hx : (baselineProgram info k (info.get k)).Maximum x) :
    V.card ≤ (lrint (termSum x (baselineProgram info k (info.get k)).objective)).toNat := by
  obtain ⟨sec, src, arr, c, hv, hc, hf⟩ := spin_feasible h1 hT hW hb hwin haH hV h.toNpSpinFp (Q := fun _ _ => True) (by
    intro s q t h2 h3 h4 h5 h6
    obtain ⟨s', q', e1, e2, e3, e4, e5⟩ := h.waits s q t h2 h3 h4 h5 h6
    exact ⟨s', q', e1, e2, e3, trivial, e4, e5⟩)
  exact value_le hx hf (hc.objective_le h1 (objective_common _ _ _ _))

include hprio in
theorem msrp_le (h : MsrpFp (system info) (prio info) R) {x : Key → ℚ}
    (hx : (msrpProgram info k (info.get k)).Maximum x) :
    V.card ≤ (lrint (termSum x (msrpProgram info k (info.get k)).objective)).toNat := by
  have hV' : ∀ u ∈ V, a ≤ u ∧ u < a + W k := fun u hu => ⟨(hV u hu).1, (hV u hu).2.1⟩
  obtain ⟨sec, src, arr, c, hv, hc, hf⟩ := spin_feasible h1 hT hW hb hwin haH hV h.toNpSpinFp
    (Q := fun s z => R.enter z ≤ R.enter s) (by
    intro s q t h2 h3 h4 h5 h6
    obtain ⟨s', q', e1, e2, e3, e4, e5, e6⟩ := h.fifo s q t h2 h3 h4 h5 h6
    exact ⟨s', q', e1, e2, e3, e4, e5, e6⟩)
  refine value_le hx (hc.fifo h1 ?_ ?_ hf) (hc.objective_le h1 ?_)
  · exact fifo_direct h.toNpSpinFp h1 hT hprio (hW k) hwin hv hV'
  · exact fifo_arrival h.toNpSpinFp hv
  · rw [objective_fifo]
    exact objective_common _ _ _ _

include hprio in
theorem unordered_le (h : UnorderedFp (system info) (prio info) R) {fuel : ℕ} {P : Program} {x : Key → ℚ}
    (hP : unorderedProgram fuel info k (info.get k) = some P) (hx : P.Maximum x) :
    V.card ≤ (lrint (termSum x P.objective)).toNat := by
  have hV' : ∀ u ∈ V, a ≤ u ∧ u < a + W k := fun u hu => ⟨(hV u hu).1, (hV u hu).2.1⟩
  have hw : R.SpinOrder (system info) (fun _ _ => True) := by
    intro s q t h2 h3 h4 h5 h6
    obtain ⟨s', q', e1, e2, e3, e4, e5⟩ := h.waits s q t h2 h3 h4 h5 h6
    exact ⟨s', q', e1, e2, e3, trivial, e4, e5⟩
  obtain ⟨sec, src, arr, c, hv, hc, hf⟩ := spin_feasible h1 hT hW hb hwin haH hV h.toNpSpinFp hw
  unfold unorderedProgram at hP
  rw [Option.map_eq_some_iff] at hP
  obtain ⟨P', hP', rfl⟩ := hP
  have key : ∀ (l : List ℕ) (P0 : Program), P0.objective = [] →
      P0.Feasible (assign k V sec (kindOf arr) (c.map (resOf info))) →
      l.foldlM (fun lp q => (waitBound fuel info (info.get k) q).map (fun w =>
        unorderedFor info (info.get k) q w lp)) P0 = some P' →
      P'.objective = [] ∧ P'.Feasible (assign k V sec (kindOf arr) (c.map (resOf info))) := by
    intro l
    induction l with
    | nil =>
      intro P0 ho hf hl
      cases hl
      exact ⟨ho, hf⟩
    | cons r l ih =>
      intro P0 ho hf hl
      rw [List.foldlM_cons] at hl
      rcases hwait : waitBound fuel info (info.get k) r with _ | w
      · rw [hwait] at hl
        cases hl
      · rw [hwait] at hl
        refine ih (unorderedFor info (info.get k) r w P0) ?_ ?_ hl
        · rw [objective_unordered]
          exact ho
        · refine hc.unordered h1 ?_ ?_ hf
          · intro x _
            exact unordered_direct h.toNpSpinFp h1 hT hprio hW hb hw hwin haH hv hV' hwait x
          · intro x hx
            exact unordered_arrival h.toNpSpinFp h1 hT hW hb hw haH hv hV' hwait hx
  obtain ⟨g1, g2⟩ := key _ _ (objective_common _ _ _ _) hf hP'
  exact value_le hx g2 (hc.objective_le h1 g1)

end

/-- The bounds as a function of the task. -/
theorem bounds_eq {info : Info} {f : ℕ × TaskInfo → Option ℕ} {bs : List ℕ} (h : (tasks info).mapM f = some bs) :
    bs = (List.finRange info.length).map (fun i : Fin info.length => (f ((i : ℕ), info.get i)).getD 0) ∧
      ∀ i : Fin info.length, (f ((i : ℕ), info.get i)).isSome := by
  obtain ⟨h1, h2⟩ := Mpcp.mapM_some h 0
  rw [tasks_eq] at h1
  refine ⟨by rw [h1, List.map_map]; rfl, fun i => h2 _ (mem_tasks.2 ⟨i, rfl⟩)⟩

/-- **C102**: let the response-time analysis accept the tasks of each processor after `apply_pfp_lp_msrp_bounds`, let
the solver find optimal solutions, and let no computed response time exceed the one assumed in the computation of
the bounds.  Then in every run of partitioned fixed-priority scheduling with the MSRP no job takes longer than the
computed response time, which is at most the deadline.  The priorities on each processor decrease in the order of the
tasks, each task has at most one request entry per resource, and a job that had to wait for a resource uses it. -/
theorem C102_lp_msrp_safe (info : Info) (solve : Solver) (hsolve : ∀ P x, solve P = some x → P.Maximum x)
    (fuel : ℕ) (hT : ∀ t ∈ info, 0 < t.period)
    (hone : ∀ t ∈ info, (t.requests.map Request.resId).Nodup)
    (hprio : info.Pairwise (fun a b => a.cluster = b.cluster → a.priority < b.priority))
    (bs : List ℕ) (hbs : msrpBounds solve info = some bs) (done : ℕ → List (Fp.FpTask × ℚ))
    (h : ∀ t ∈ info, Fp.boundResponseTimes fuel 1 (afterLpBounds info bs t.cluster) = some (true, done t.cluster)) :
    ∃ resp : Fin info.length → ℚ,
      (∀ t ∈ info, (done t.cluster).map Prod.snd =
        ((List.finRange info.length).filter (fun i => (info.get i).cluster = t.cluster)).map resp) ∧
      (∀ i, resp i ≤ (info.get i).deadline) ∧
      ((∀ i, resp i ≤ (info.get i).response) →
        ∀ R, MsrpFp (system info) (fun i => (info.get i).priority) R →
          (∀ s, R.issued s → R.enter s < R.acquire s → R.acquire s < R.leave s) → ∀ i (q t : ℕ),
          (R.work.release (i, q) : ℚ) + resp i ≤ t → Completed R.work R.sched (i, q) t) := by
  obtain ⟨e, hsome⟩ := bounds_eq hbs
  refine lp_safe info fuel hT hprio _ bs e _ (fun R hR => hR.toNpSpinFp) ?_ done h
  intro R hR W hW hinj H hb k q a hwin hle V hV
  have hs := hsome k
  simp only [solved] at hs ⊢
  rcases hx : solve (msrpProgram info k (info.get k)) with _ | x
  · rw [hx] at hs
    cases hs
  · exact msrp_le hone hT hinj hW hb hwin hle hV hR (hsolve _ _ hx)

/-- **C103**: the same for `apply_pfp_lp_baseline_spinlock_bounds` and for non-preemptive spin locks that serve waiting
requests in any order. -/
theorem C103_lp_baseline_safe (info : Info) (solve : Solver) (hsolve : ∀ P x, solve P = some x → P.Maximum x)
    (fuel : ℕ) (hT : ∀ t ∈ info, 0 < t.period)
    (hone : ∀ t ∈ info, (t.requests.map Request.resId).Nodup)
    (hprio : info.Pairwise (fun a b => a.cluster = b.cluster → a.priority < b.priority))
    (bs : List ℕ) (hbs : baselineBounds solve info = some bs) (done : ℕ → List (Fp.FpTask × ℚ))
    (h : ∀ t ∈ info, Fp.boundResponseTimes fuel 1 (afterLpBounds info bs t.cluster) = some (true, done t.cluster)) :
    ∃ resp : Fin info.length → ℚ,
      (∀ t ∈ info, (done t.cluster).map Prod.snd =
        ((List.finRange info.length).filter (fun i => (info.get i).cluster = t.cluster)).map resp) ∧
      (∀ i, resp i ≤ (info.get i).deadline) ∧
      ((∀ i, resp i ≤ (info.get i).response) →
        ∀ R, UnorderedFp (system info) (fun i => (info.get i).priority) R →
          (∀ s, R.issued s → R.enter s < R.acquire s → R.acquire s < R.leave s) → ∀ i (q t : ℕ),
          (R.work.release (i, q) : ℚ) + resp i ≤ t → Completed R.work R.sched (i, q) t) := by
  obtain ⟨e, hsome⟩ := bounds_eq hbs
  refine lp_safe info fuel hT hprio _ bs e _ (fun R hR => hR.toNpSpinFp) ?_ done h
  intro R hR W hW hinj H hb k q a hwin hle V hV
  have hs := hsome k
  simp only [solved] at hs ⊢
  rcases hx : solve (baselineProgram info k (info.get k)) with _ | x
  · rw [hx] at hs
    cases hs
  · exact baseline_le hone hT hW hb hwin hle hV hR (hsolve _ _ hx)

/-- **C103**: the same for `apply_pfp_lp_unordered_bounds`. -/
theorem C103_lp_unordered_safe (info : Info) (solve : Solver) (hsolve : ∀ P x, solve P = some x → P.Maximum x)
    (fuel fuel' : ℕ) (hT : ∀ t ∈ info, 0 < t.period)
    (hone : ∀ t ∈ info, (t.requests.map Request.resId).Nodup)
    (hprio : info.Pairwise (fun a b => a.cluster = b.cluster → a.priority < b.priority))
    (bs : List ℕ) (hbs : unorderedBounds fuel' solve info = some bs) (done : ℕ → List (Fp.FpTask × ℚ))
    (h : ∀ t ∈ info, Fp.boundResponseTimes fuel 1 (afterLpBounds info bs t.cluster) = some (true, done t.cluster)) :
    ∃ resp : Fin info.length → ℚ,
      (∀ t ∈ info, (done t.cluster).map Prod.snd =
        ((List.finRange info.length).filter (fun i => (info.get i).cluster = t.cluster)).map resp) ∧
      (∀ i, resp i ≤ (info.get i).deadline) ∧
      ((∀ i, resp i ≤ (info.get i).response) →
        ∀ R, UnorderedFp (system info) (fun i => (info.get i).priority) R →
          (∀ s, R.issued s → R.enter s < R.acquire s → R.acquire s < R.leave s) → ∀ i (q t : ℕ),
          (R.work.release (i, q) : ℚ) + resp i ≤ t → Completed R.work R.sched (i, q) t) := by
  obtain ⟨e, hsome⟩ := bounds_eq hbs
  refine lp_safe info fuel hT hprio _ bs e _ (fun R hR => hR.toNpSpinFp) ?_ done h
  intro R hR W hW hinj H hb k q a hwin hle V hV
  have hs := hsome k
  simp only at hs ⊢
  rcases hP : unorderedProgram fuel' info k (info.get k) with _ | P
  · rw [hP] at hs
    cases hs
  · rw [hP] at hs
    simp only [Option.bind_some, solved] at hs ⊢
    rcases hx : solve P with _ | x
    · rw [hx] at hs
      cases hs
    · exact unordered_le hone hT hinj hW hb hwin hle hV hR hP (hsolve _ _ hx)

/-- Response times no longer than the deadlines. -/
theorem meets_of_resp {info : Info} {R : LockRun info.length} {resp : Fin info.length → ℚ}
    (h2 : ∀ i, resp i ≤ (info.get i).deadline)
    (h3 : ∀ i (q t : ℕ), (R.work.release (i, q) : ℚ) + resp i ≤ t → Completed R.work R.sched (i, q) t) :
    MeetsDeadlines R.work (system info).deadline R.sched := by
  rintro ⟨i, q⟩
  refine h3 i q _ ?_
  have := h2 i
  change _ ≤ ((R.work.release (i, q) + (info.get i).deadline : ℕ) : ℚ)
  push_cast
  linarith

/-- **C102**: if the assumed response times are at least the deadlines, accepted tasks meet their deadlines. -/
theorem C102_lp_msrp_schedulable (info : Info) (solve : Solver) (hsolve : ∀ P x, solve P = some x → P.Maximum x)
    (fuel : ℕ) (hT : ∀ t ∈ info, 0 < t.period) (hone : ∀ t ∈ info, (t.requests.map Request.resId).Nodup)
    (hprio : info.Pairwise (fun a b => a.cluster = b.cluster → a.priority < b.priority))
    (hresp : ∀ t ∈ info, t.deadline ≤ t.response) (bs : List ℕ) (hbs : msrpBounds solve info = some bs)
    (h : ∀ t ∈ info, ∃ done, Fp.boundResponseTimes fuel 1 (afterLpBounds info bs t.cluster) = some (true, done))
    (R : LockRun info.length) (hR : MsrpFp (system info) (fun i => (info.get i).priority) R)
    (huse : ∀ s, R.issued s → R.enter s < R.acquire s → R.acquire s < R.leave s) :
    MeetsDeadlines R.work (system info).deadline R.sched := by
  obtain ⟨resp, _, h2, h3⟩ := C102_lp_msrp_safe info solve hsolve fuel hT hone hprio bs hbs
    (fun k => ((Fp.boundResponseTimes fuel 1 (afterLpBounds info bs k)).getD (true, [])).2) (by
      intro t ht
      obtain ⟨d, hd⟩ := h t ht
      simp only [hd, Option.getD_some])
  exact meets_of_resp h2 (h3 (fun i => (h2 i).trans (by exact_mod_cast hresp _ (List.get_mem info i))) R hR huse)

/-- **C103**: if the assumed response times are at least the deadlines, accepted tasks meet their deadlines. -/
theorem C103_lp_baseline_schedulable (info : Info) (solve : Solver) (hsolve : ∀ P x, solve P = some x → P.Maximum x)
    (fuel : ℕ) (hT : ∀ t ∈ info, 0 < t.period) (hone : ∀ t ∈ info, (t.requests.map Request.resId).Nodup)
    (hprio : info.Pairwise (fun a b => a.cluster = b.cluster → a.priority < b.priority))
    (hresp : ∀ t ∈ info, t.deadline ≤ t.response) (bs : List ℕ) (hbs : baselineBounds solve info = some bs)
    (h : ∀ t ∈ info, ∃ done, Fp.boundResponseTimes fuel 1 (afterLpBounds info bs t.cluster) = some (true, done))
    (R : LockRun info.length) (hR : UnorderedFp (system info) (fun i => (info.get i).priority) R)
    (huse : ∀ s, R.issued s → R.enter s < R.acquire s → R.acquire s < R.leave s) :
    MeetsDeadlines R.work (system info).deadline R.sched := by
  obtain ⟨resp, _, h2, h3⟩ := C103_lp_baseline_safe info solve hsolve fuel hT hone hprio bs hbs
    (fun k => ((Fp.boundResponseTimes fuel 1 (afterLpBounds info bs k)).getD (true, [])).2) (by
      intro t ht
      obtain ⟨d, hd⟩ := h t ht
      simp only [hd, Option.getD_some])
  exact meets_of_resp h2 (h3 (fun i => (h2 i).trans (by exact_mod_cast hresp _ (List.get_mem info i))) R hR huse)

/-- **C103**: if the assumed response times are at least the deadlines, accepted tasks meet their deadlines. -/
theorem C103_lp_unordered_schedulable (info : Info) (solve : Solver) (hsolve : ∀ P x, solve P = some x → P.Maximum x)
    (fuel fuel' : ℕ) (hT : ∀ t ∈ info, 0 < t.period) (hone : ∀ t ∈ info, (t.requests.map Request.resId).Nodup)
    (hprio : info.Pairwise (fun a b => a.cluster = b.cluster → a.priority < b.priority))
    (hresp : ∀ t ∈ info, t.deadline ≤ t.response) (bs : List ℕ) (hbs : unorderedBounds fuel' solve info = some bs)
    (h : ∀ t ∈ info, ∃ done, Fp.boundResponseTimes fuel 1 (afterLpBounds info bs t.cluster) = some (true, done))
    (R : LockRun info.length) (hR : UnorderedFp (system info) (fun i => (info.get i).priority) R)
    (huse : ∀ s, R.issued s → R.enter s < R.acquire s → R.acquire s < R.leave s) :
    MeetsDeadlines R.work (system info).deadline R.sched := by
  obtain ⟨resp, _, h2, h3⟩ := C103_lp_unordered_safe info solve hsolve fuel fuel' hT hone hprio bs hbs
    (fun k => ((Fp.boundResponseTimes fuel 1 (afterLpBounds info bs k)).getD (true, [])).2) (by
      intro t ht
      obtain ⟨d, hd⟩ := h t ht
      simp only [hd, Option.getD_some])
  exact meets_of_resp h2 (h3 (fun i => (h2 i).trans (by exact_mod_cast hresp _ (List.get_mem info i))) R hR huse)

end Verif.SR.Lp
