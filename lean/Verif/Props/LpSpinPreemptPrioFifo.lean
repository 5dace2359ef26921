/-
C154: the analysis of preemptive spin locks in the order of priorities and, among equal priorities, in FIFO order, compared
with that of preemptive FIFO spin locks.
-/
import Verif.Model.LpSpinPreemptPrioFifo
import Verif.Props.LpSpinPreemptUnordered

namespace Verif.SR.Lp
open Verif.Spec

section
variable {info : Info} {i : ℕ} {ti : TaskInfo} {fuel : ℕ} {x : Key → ℚ}

/-- All requests have priority 0. -/
abbrev flat : LockPrio := fun _ _ => 0

theorem varsWith_true {ty : BlockingType} {q : ℕ} {p : ℕ → Bool} (hp : p 0 = true) (ts : List (ℕ × TaskInfo)) :
    varsWith flat ti ty q p ts = varsFor ti ty q ts := by
  unfold varsWith varsFor
  simp [hp]

theorem varsWith_false {ty : BlockingType} {q : ℕ} {p : ℕ → Bool} (hp : p 0 = false) (ts : List (ℕ × TaskInfo)) :
    varsWith flat ti ty q p ts = [] := by
  unfold varsWith
  simp [hp]

theorem varsFor_cons (ty : BlockingType) (q : ℕ) (t : ℕ × TaskInfo) (ts : List (ℕ × TaskInfo)) :
    varsFor ti ty q (t :: ts) = varsFor ti ty q [t] ++ varsFor ti ty q ts := by
  unfold varsFor
  simp

theorem foldl_max_zero (l : List ℕ) (h : ∀ a ∈ l, a = 0) : l.foldl max 0 = 0 := by
  induction l with
  | nil => rfl
  | cons a l ih =>
    rw [List.foldl_cons, h a List.mem_cons_self]
    exact ih (fun b hb => h b (List.mem_cons_of_mem _ hb))

/-- Without priorities, the lowest priority of local requests is 0, unless there are none. -/
theorem minPrio_flat (hmem : ti ∈ info) (q : ℕ) :
    minPrio flat info ti q false = 0 ∨ (0 < minPrio flat info ti q false ∧ countLocalHpReqs info ti q = 0) := by
  unfold minPrio
  set ps := (((splitByCluster info).getD ti.cluster []).filter (fun t =>
    ¬ (((false : Bool) ∧ t.2.priority ≤ ti.priority) ∨ (¬ (false : Bool) ∧ t.2.priority > ti.priority)))).flatMap (fun t =>
      (t.2.requests.filter (fun r => r.resId = q)).map (fun r => flat t.1 r.resId)) with hps
  by_cases he : ps.isEmpty = true
  · right
    change 0 < (if ps.isEmpty = true then info.length else ps.foldl max 0) ∧ _
    rw [if_pos he]
    refine ⟨List.length_pos_of_mem hmem, ?_⟩
    have hnone : ∀ t ∈ info, t.cluster = ti.cluster → t.priority ≤ ti.priority → ∀ r ∈ t.requests, r.resId ≠ q := by
      intro t ht hc hp r hr hq
      obtain ⟨k, hk, rfl⟩ := List.getElem_of_mem ht
      have hm : ((k : ℕ), info[k]) ∈ (splitByCluster info).getD ti.cluster [] := by
        rw [cluster_tasks]
        exact List.mem_filter.2 ⟨mem_tasks.2 ⟨⟨k, hk⟩, rfl⟩, by simpa using hc⟩
      have : (0 : ℕ) ∈ ([] : List ℕ) := by
        rw [← List.isEmpty_iff.1 he, hps]
        refine List.mem_flatMap.2 ⟨_, List.mem_filter.2 ⟨hm, by simpa using hp⟩, List.mem_map.2 ⟨r, List.mem_filter.2
          ⟨hr, by simpa using hq⟩, rfl⟩⟩
      cases this
    unfold countLocalHpReqs
    rw [List.filter_eq_nil_iff.2 (fun r hr hc => hnone ti hmem rfl (le_refl _) r hr (by simpa using hc))]
    simp only [List.map_nil, List.sum_nil, zero_add]
    refine List.sum_eq_zero_iff.2 (fun v hv => ?_)
    simp only [List.mem_flatMap, List.mem_filter, List.mem_map, decide_eq_true_eq] at hv
    obtain ⟨t, ⟨ht, hc, hp⟩, r, ⟨hr, hq⟩, _⟩ := hv
    exact absurd hq (hnone t ht hc (le_of_lt hp) r hr)
  · left
    change (if ps.isEmpty = true then info.length else ps.foldl max 0) = 0
    rw [if_neg he]
    refine foldl_max_zero _ (fun a ha => ?_)
    rw [hps] at ha
    obtain ⟨t, _, ha⟩ := List.mem_flatMap.1 ha
    obtain ⟨_, _, rfl⟩ := List.mem_map.1 ha
    rfl

theorem extends_preemptPrioFifoDirect {P Q : Program} (h : preemptPrioFifoDirect flat fuel info ti P = some Q) :
    Extends P Q := by
  refine extends_foldlM (fun P q Q h => ?_) _ P Q h
  obtain ⟨w, _, rfl⟩ := Option.map_eq_some_iff.1 h
  exact extends_higherDirect q _ w P

theorem extends_preemptPrioFifoSame (P : Program) : Extends P (preemptPrioFifoSame flat info ti P) :=
  extends_foldl (fun P q => extends_foldl (fun P c => extends_addInequality P _ _) _ P) _ P

theorem extends_preemptDirect (P : Program) : Extends P (preemptDirectConstraints info ti P) :=
  extends_foldl (fun P q => extends_foldl (fun P c => extends_addInequality P _ _) _ P) _ P

theorem preemptPrioLower_flat (P : Program) (hmem : ti ∈ info) : preemptPrioLower flat info ti P = P := by
  unfold preemptPrioLower
  have : ∀ (l : List ℕ) (P : Program), l.foldl (fun lp q =>
    let d := varsWith flat ti .direct q (fun p => p > minPrio flat info ti q false)
      ((tasks info).filter (fun t => t.2.cluster ≠ ti.cluster))
    if d.isEmpty then lp
    else addInequality lp (d ++ [(-1, preemptionsOf q)]) (countLocalHpReqs info ti q : ℕ)) P = P := by
    intro l
    induction l with
    | nil => intro P; rfl
    | cons q l ih =>
      intro P
      rw [List.foldl_cons]
      dsimp only
      rw [varsWith_false (by simp), if_pos (by rfl)]
      exact ih P
  exact this _ P

theorem termSum_nonneg' (hnn : ∀ k, 0 ≤ x k) (ty : BlockingType) (q : ℕ) (ts : List (ℕ × TaskInfo)) :
    0 ≤ termSum x (varsFor ti ty q ts) := by
  unfold termSum
  refine List.sum_nonneg (fun a ha => ?_)
  obtain ⟨t, ht, rfl⟩ := List.mem_map.1 ha
  unfold varsFor vars at ht
  obtain ⟨u, _, ht⟩ := List.mem_flatMap.1 ht
  obtain ⟨r, _, ht⟩ := List.mem_flatMap.1 ht
  obtain ⟨v, _, rfl⟩ := List.mem_map.1 ht
  simpa using hnn _

/-- The two programs have the same solutions. -/
theorem preemptPrioFifo_feasible (hmem : ti ∈ info) {B Q : Program}
    (hQ : preemptPrioFifoDirect flat fuel info ti (preemptionConstraints info ti B) = some Q) :
    (preemptPrioFifoSame flat info ti Q).Feasible x ↔
      (preemptDirectConstraints info ti (preemptionConstraints info ti B)).Feasible x := by
  constructor
  · intro hx
    have hS := extends_preemptPrioFifoSame (info := info) (ti := ti) Q
    have hD := extends_preemptPrioFifoDirect hQ
    have hnn := feasible_nonneg hx
    refine feasible_foldl (fun q hq R hR => feasible_foldl (fun c hc R hR => feasible_addInequality hR ?_) hR)
      ((hD.trans hS).feasible hx)
    by_cases he : varsFor ti .direct q c = []
    · rw [he]
      unfold subVar
      simp [termSum]
    rcases minPrio_flat hmem q with h0 | ⟨h0, hz⟩
    · have hm : (subVar (varsFor ti .direct q c) (preemptionsOf q), ((countLocalHpReqs info ti q : ℕ) : ℚ)) ∈
          (preemptPrioFifoSame flat info ti Q).inequalities := by
        refine mem_foldl (fun P _ => included_foldl (fun P _ => included_addInequality P _ _) _ P) hq (fun P => ?_) _
        refine mem_foldl (fun P _ => included_addInequality P _ _) hc (fun P => ?_) _
        rw [h0, varsWith_true (by simp)]
        refine mem_addInequality _ _ ?_
        unfold subVar
        rw [if_neg (by simpa using he)]
        simp
      exact hx.le _ hm
    · obtain ⟨A, A', hA, hinc⟩ := included_foldlM (fun P q Q h => by
        obtain ⟨w, _, rfl⟩ := Option.map_eq_some_iff.1 h
        exact extends_higherDirect q _ w P) hq hQ
      obtain ⟨w, _, rfl⟩ := Option.map_eq_some_iff.1 hA
      have ht : ∀ t ∈ c, termSum x (varsFor ti .direct q [t]) ≤ 0 := by
        intro t ht
        by_cases he : varsFor ti .direct q [t] = []
        · rw [he]; exact le_of_eq rfl
        have hm : (varsFor ti .direct q [t], ((0 : ℕ) : ℚ)) ∈ (higherDirectFor flat info ti q
            (fun p => p < minPrio flat info ti q false) w A).inequalities := by
          unfold higherDirectFor
          refine mem_foldl (fun P _ => included_foldl (fun P _ => included_addInequality P _ _) _ P) hc (fun P => ?_) _
          refine mem_foldl (fun P _ => included_addInequality P _ _) ht (fun P => ?_) _
          rw [varsWith_true (by simpa using h0), hz, Nat.mul_zero]
          exact mem_addInequality _ _ he
        simpa using hx.le _ (hS.incl.le _ (hinc.le _ hm))
      have hsum : ∀ c : List (ℕ × TaskInfo), (∀ t ∈ c, termSum x (varsFor ti .direct q [t]) ≤ 0) →
          termSum x (varsFor ti .direct q c) ≤ 0 := by
        intro c
        induction c with
        | nil => intro _; exact le_of_eq rfl
        | cons t c ih =>
          intro h
          rw [varsFor_cons, termSum_append]
          have h1 := h t List.mem_cons_self
          have h2 := ih (fun t ht => h t (List.mem_cons_of_mem _ ht))
          linarith
      have h1 := hsum c ht
      have h2 := hnn (preemptionsOf q)
      unfold subVar
      rw [if_neg (by simpa using he), termSum_append, hz]
      have h3 : termSum x [((-1 : ℚ), preemptionsOf q)] = - x (preemptionsOf q) := by simp [termSum]
      rw [h3]
      push_cast
      linarith
  · intro hx
    have hF := extends_preemptDirect (info := info) (ti := ti) (preemptionConstraints info ti B)
    have hnn := feasible_nonneg hx
    have hfifo : ∀ q ∈ allResources info, ∀ c ∈ otherClusters info ti,
        termSum x (subVar (varsFor ti .direct q c) (preemptionsOf q)) ≤ (countLocalHpReqs info ti q : ℕ) := by
      intro q hq c hc
      by_cases he : varsFor ti .direct q c = []
      · rw [he]
        unfold subVar
        simp [termSum]
      refine hx.le (_, _) ?_
      refine mem_foldl (fun P _ => included_foldl (fun P _ => included_addInequality P _ _) _ P) hq (fun P => ?_) _
      refine mem_foldl (fun P _ => included_addInequality P _ _) hc (fun P => ?_) _
      refine mem_addInequality _ _ ?_
      unfold subVar
      rw [if_neg (by simpa using he)]
      simp
    have hdir : Q.Feasible x := by
      refine feasible_foldlM (fun q hq R S hS hR => ?_) hQ (hF.feasible hx)
      obtain ⟨w, _, rfl⟩ := Option.map_eq_some_iff.1 hS
      unfold higherDirectFor
      refine feasible_foldl (fun c hc R hR => feasible_foldl (fun t ht R hR => feasible_addInequality hR ?_) hR) hR
      rcases minPrio_flat hmem q with h0 | ⟨h0, hz⟩
      · rw [h0, varsWith_false (by simp)]
        exact Nat.cast_nonneg (α := ℚ) _
      · rw [varsWith_true (by simpa using h0), hz, Nat.mul_zero]
        have hx0 : x (preemptionsOf q) ≤ 0 := by
          have hm : ([((1 : ℚ), preemptionsOf q)], (0 : ℚ)) ∈ (preemptionConstraints info ti B).inequalities := by
            refine (included_addInequality _ _ _).le _ (mem_foldl included_preemptionStep hq (fun P => ?_) _)
            rw [if_pos hz]
            exact mem_addInequality _ _ (by simp)
          simpa [termSum] using hx.le _ (hF.incl.le _ hm)
        have h1 := hfifo q hq c hc
        have h2 : termSum x (varsFor ti .direct q c) ≤ 0 := by
          rw [hz] at h1
          unfold subVar at h1
          split_ifs at h1
          · simpa using h1
          · rw [termSum_append] at h1
            have h3 : termSum x [((-1 : ℚ), preemptionsOf q)] = - x (preemptionsOf q) := by simp [termSum]
            rw [h3] at h1
            push_cast at h1
            linarith
        have hle : ∀ c : List (ℕ × TaskInfo), t ∈ c →
            termSum x (varsFor ti .direct q [t]) ≤ termSum x (varsFor ti .direct q c) := by
          intro c
          induction c with
          | nil => intro h; cases h
          | cons t' c ih =>
            intro h
            have e := congrArg (termSum x) (varsFor_cons (ti := ti) .direct q t' c)
            rw [termSum_append] at e
            rw [e]
            have n1 := termSum_nonneg' (ti := ti) hnn .direct q [t']
            have n2 := termSum_nonneg' (ti := ti) hnn .direct q c
            rcases List.mem_cons.1 h with rfl | h
            · linarith
            · have := ih h
              linarith
        have := hle c ht
        push_cast
        linarith
    refine feasible_foldl (fun q hq R hR => feasible_foldl (fun c hc R hR => feasible_addInequality hR ?_) hR) hdir
    rcases minPrio_flat hmem q with h0 | ⟨h0, hz⟩
    · rw [h0, varsWith_true (by simp)]
      exact hfifo q hq c hc
    · rw [varsWith_false (by simpa using h0.ne)]
      exact Nat.cast_nonneg (α := ℚ) _

end

/-- **C154**: with solvers that find optimal solutions, the bounds that Python computes for preemptive spin locks in the order
of priorities are those for preemptive FIFO spin locks, whatever the priorities of the requests are. -/
theorem C154_eq_preemptive_fifo (info : Info) (priority : LockPrio) (fuel : ℕ) (s s' : Solver)
    (hs : ∀ P x, s P = some x → P.Maximum x) (hs' : ∀ P x, s' P = some x → P.Maximum x) (bs bs' : List ℕ)
    (h : preemptPrioFifoBounds priority fuel s info = some bs) (h' : preemptFifoBounds s' info = some bs') (i b b' : ℕ)
    (hi : i < info.length) (hb : bs[i]? = some b) (hb' : bs'[i]? = some b') : b = b' := by
  have ht : info[i]? = some info[i] := List.getElem?_eq_getElem hi
  have hmem : info[i] ∈ info := List.getElem_mem hi
  obtain ⟨P, hP, hs1⟩ := Option.bind_eq_some_iff.1 (getElem_bounds h ht hb)
  have hs2 := getElem_bounds h' ht hb'
  change preemptPrioFifoProgram flat fuel info i info[i] = some P at hP
  unfold preemptPrioFifoProgram at hP
  obtain ⟨Q, hQ, rfl⟩ := Option.map_eq_some_iff.1 hP
  rw [preemptPrioLower_flat _ hmem] at hQ
  have hobj : (preemptPrioFifoSame flat info info[i] Q).objective = (preemptFifoConstraints info i info[i] {}).objective := by
    rw [(extends_preemptPrioFifoSame Q).objective, (extends_preemptPrioFifoDirect hQ).objective]
    exact (extends_preemptDirect _).objective.symm
  have hob2 : (setObjective info i info[i] (preemptPrioFifoSame flat info info[i] Q)).objective =
      (preemptFifoProgram info i info[i]).objective := by
    unfold preemptFifoProgram setObjective
    dsimp only
    rw [hobj]
  refine le_antisymm (solved_le hs hs' (fun x hx => ⟨x, feasible_setObjective ?_, le_of_eq (by rw [hob2]; rfl)⟩) hs1 hs2)
    (solved_le hs' hs (fun x hx => ⟨x, feasible_setObjective ?_, le_of_eq (by rw [hob2])⟩) hs2 hs1)
  · exact (preemptPrioFifo_feasible hmem hQ).1 (feasible_of_setObjective hx)
  · exact (preemptPrioFifo_feasible hmem hQ).2 (feasible_of_setObjective hx)

end Verif.SR.Lp
