/-
What happens in a run is a feasible assignment of the linear programs for priority-ordered spin locks, if all requests
have the same priority in the program.
-/
import Verif.Model.LpSpinPrio
import Verif.Lemmas.LpSpinCount

namespace Verif.SR.Lp
open Verif.Spec Finset
open Verif.SR.Msrp (system uses_iff)

/-- A program without objective that an assignment satisfies. -/
def Fits (x : Key → ℚ) (P : Program) : Prop := P.objective = [] ∧ P.Feasible x

theorem Fits.add {x : Key → ℚ} {P : Program} (h : Fits x P) {e : Exp} {b : ℚ} (hle : termSum x e ≤ b) :
    Fits x (addInequality P e b) := ⟨(objective_addInequality _ _ _).trans h.1, feasible_addInequality h.2 hle⟩

theorem Fits.binary {x : Key → ℚ} {P : Program} (h : Fits x P) {k : Key} (hk : x k = 0 ∨ x k = 1) :
    Fits x (declareBinary P k) := ⟨h.1, feasible_declareBinary h.2 hk⟩

theorem Fits.foldl {α : Type} {x : Key → ℚ} {f : Program → α → Program} {l : List α}
    (hf : ∀ a ∈ l, ∀ P, Fits x P → Fits x (f P a)) : ∀ {P}, Fits x P → Fits x (l.foldl f P) := by
  induction l with
  | nil => intro P h; exact h
  | cons a l ih =>
    intro P h
    exact ih (fun b hb => hf b (List.mem_cons_of_mem _ hb)) (hf a List.mem_cons_self P h)

theorem Fits.foldlM {α : Type} {x : Key → ℚ} {f : Program → α → Option Program} {l : List α}
    (hf : ∀ a ∈ l, ∀ P P', Fits x P → f P a = some P' → Fits x P') :
    ∀ {P P'}, Fits x P → l.foldlM f P = some P' → Fits x P' := by
  induction l with
  | nil => intro P P' h e; cases e; exact h
  | cons a l ih =>
    intro P P' h e
    rw [List.foldlM_cons] at e
    rcases h1 : f P a with _ | P1
    · rw [h1] at e; cases e
    · rw [h1] at e
      exact ih (fun b hb => hf b (List.mem_cons_of_mem _ hb)) (hf a List.mem_cons_self P P1 h h1) e

/-- The variables of one task. -/
theorem varsFor_single {info : Info} (ti : TaskInfo) (ty : BlockingType) (q : ℕ) (x : Fin info.length) :
    varsFor ti ty q [((x : ℕ), info.get x)] =
      varsFor ti ty q ((tasks info).filter (fun t => t = ((x : ℕ), info.get x))) := by
  congr 1
  rw [tasks_eq, List.filter_map]
  have : (List.finRange info.length).filter ((fun t => decide (t = ((x : ℕ), info.get x))) ∘
      fun i : Fin info.length => ((i : ℕ), info.get i)) = [x] := by
    have h2 : ((fun t => decide (t = ((x : ℕ), info.get x))) ∘ fun i : Fin info.length => ((i : ℕ), info.get i)) =
        fun i : Fin info.length => decide (i = x) := by
      funext i
      simp only [Function.comp_apply, decide_eq_decide, Prod.mk.injEq]
      constructor
      · intro h; exact Fin.ext h.1
      · rintro rfl; exact ⟨rfl, rfl⟩
    rw [h2]
    have hp := List.perm_of_nodup_nodup_toFinset_eq
      ((List.nodup_finRange info.length).filter (fun i => decide (i = x))) (List.nodup_singleton x) (by
        ext i
        simp)
    exact List.perm_singleton.1 hp
  rw [this]
  rfl

variable {info : Info} {k : Fin info.length} {V : Finset ℕ} {sec : ℕ → Section info.length}
  {kind : ℕ → BlockingType} {r0 : Option ℕ}

theorem varsWith_same (ti : TaskInfo) (ty : BlockingType) (q : ℕ) (p : ℕ → Bool) (ts : List (ℕ × TaskInfo)) :
    varsWith (fun _ _ => 0) ti ty q p ts = if p 0 then varsFor ti ty q ts else [] := by
  unfold varsWith varsFor
  by_cases h : p 0 = true
  · rw [if_pos h]
    simp only [h, and_true]
  · rw [if_neg h]
    simp only [h]
    simp

theorem numReqsWith_same (t : ℕ × TaskInfo) (q : ℕ) (p : ℕ → Bool) (w : ℕ) (h : p 0 = true) :
    numReqsWith (fun _ _ => 0) t q p w = numReqsIn t.2 q w := by
  unfold numReqsWith numReqsIn
  simp only [h, and_true]

/-- No local request in the program if the priority is that of none. -/
theorem minPrio_same {ti : TaskInfo} {q : ℕ} {lp : Bool} (h : minPrio (fun _ _ => 0) info ti q lp ≠ 0)
    {x : Fin info.length} (hx : (info.get x).cluster = ti.cluster)
    (hp : if lp then ti.priority < (info.get x).priority else (info.get x).priority ≤ ti.priority)
    {a : Request} (ha : a ∈ (info.get x).requests) : a.resId ≠ q := by
  intro hq
  apply h
  unfold minPrio
  simp only
  rw [if_neg]
  · have : ∀ (l : List ℕ), (∀ a ∈ l, a = 0) → l.foldl max 0 = 0 := by
      intro l
      induction l with
      | nil => intro _; rfl
      | cons a l ih =>
        intro hl
        rw [List.foldl_cons, hl a List.mem_cons_self, Nat.max_self]
        exact ih (fun b hb => hl b (List.mem_cons_of_mem _ hb))
    apply this
    intro a ha
    obtain ⟨t, _, ha⟩ := List.mem_flatMap.1 ha
    obtain ⟨r, _, rfl⟩ := List.mem_map.1 ha
    rfl
  · intro he
    rw [List.isEmpty_iff, List.flatMap_eq_nil_iff] at he
    have := he ((x : ℕ), info.get x) (by
      rw [List.mem_filter, cluster_tasks, List.mem_filter]
      refine ⟨⟨mem_tasks.2 ⟨x, rfl⟩, by simpa using hx⟩, ?_⟩
      cases lp
      · simp only [Bool.false_eq_true, if_false] at hp
        simpa using hp
      · simp only [if_true] at hp
        simpa using hp)
    rw [List.map_eq_nil_iff, List.filter_eq_nil_iff] at this
    exact this a ha (by simpa using hq)

theorem count_same {q : ℕ} (h : minPrio (fun _ _ => 0) info (info.get k) q false ≠ 0) :
    countLocalHpReqs info (info.get k) q = 0 := by
  unfold countLocalHpReqs
  have e1 : (info.get k).requests.filter (fun r => r.resId = q) = [] := by
    rw [List.filter_eq_nil_iff]
    intro a ha
    simpa using minPrio_same h rfl (by simp) ha
  have e2 : ((info.filter (fun t => t.cluster = (info.get k).cluster ∧ t.priority < (info.get k).priority)).flatMap
      (fun t => (t.requests.filter (fun r => r.resId = q)).map (fun r =>
        localJobs t (info.get k).response * r.num))) = [] := by
    rw [List.flatMap_eq_nil_iff]
    intro t ht
    obtain ⟨ht, hc⟩ := List.mem_filter.1 ht
    obtain ⟨x, rfl⟩ := List.get_of_mem ht
    have hc : (info.get x).cluster = (info.get k).cluster ∧ (info.get x).priority < (info.get k).priority := by
      simpa using hc
    rw [List.map_eq_nil_iff, List.filter_eq_nil_iff]
    intro a ha
    simpa using minPrio_same h hc.1 (by simpa using hc.2.le) ha
  rw [e1, e2]
  rfl

/-- Direct blocking by one task. -/
theorem SpinCharge.direct_task (h : SpinCharge info k V sec kind r0) (h1 : OneEntry info) (q : ℕ) (x : Fin info.length)
    {m : ℕ} (hm : ((slots V sec kind .direct x q).image sec).card ≤ m) :
    termSum (assign k V sec kind r0) (varsFor (info.get k) .direct q [((x : ℕ), info.get x)]) ≤ (m : ℕ) := by
  classical
  rw [varsFor_single]
  refine (h.tasks_le h1 (kind := kind) (assign_direct (r0 := r0)) (fun t => t = ((x : ℕ), info.get x)) q).trans ?_
  refine Nat.cast_le.2 (le_trans (card_le_card ?_) hm)
  intro z hz
  obtain ⟨u, hu, rfl⟩ := mem_image.1 hz
  obtain ⟨u1, u2, u3, u4⟩ := mem_filter.1 hu
  simp only [Prod.mk.injEq] at u2
  exact mem_image_of_mem _ (mem_slots.2 ⟨u1, u2.1, u3, u4⟩)

/-- Arrival blocking by one task. -/
theorem SpinCharge.arrival_task (h : SpinCharge info k V sec kind r0) (h1 : OneEntry info) (q : ℕ)
    (x : Fin info.length) {m : ℕ} (hm : ((slots V sec kind arrival x q).image sec).card ≤ m) :
    termSum (assign k V sec kind r0) (varsFor (info.get k) arrival q [((x : ℕ), info.get x)] ++
      [(-(m : ℚ), arrivalEnabled q)]) ≤ 0 := by
  classical
  rw [varsFor_single]
  refine h.sub_le h1 (fun t => t = ((x : ℕ), info.get x)) q m (le_trans (card_le_card ?_) hm)
  intro z hz
  obtain ⟨u, hu, rfl⟩ := mem_image.1 hz
  obtain ⟨u1, u2, u3, u4⟩ := mem_filter.1 hu
  simp only [Prod.mk.injEq] at u2
  exact mem_image_of_mem _ (mem_slots.2 ⟨u1, u2.1, u3, u4⟩)

/-- The constraints on requests of lower priority are void. -/
theorem prioLower_same (info : Info) (ti : TaskInfo) (P : Program) : prioLower (fun _ _ => 0) info ti P = P := by
  unfold prioLower
  have : ∀ (l : List ℕ) (P : Program), l.foldl (fun lp q =>
      let ts := (tasks info).filter (fun t => t.2.cluster ≠ ti.cluster)
      let d := varsWith (fun _ _ => 0) ti .direct q (fun p => p > minPrio (fun _ _ => 0) info ti q false) ts
      if d.isEmpty then lp
      else
        addInequality (addInequality lp d (countLocalHpReqs info ti q : ℕ))
          (varsWith (fun _ _ => 0) ti arrival q (fun p => p > minPrio (fun _ _ => 0) info ti q false) ts ++
            [(-1, arrivalEnabled q)]) 0) P = P := by
    intro l
    induction l with
    | nil => intro P; rfl
    | cons q l ih =>
      intro P
      rw [List.foldl_cons]
      simp only [varsWith_same]
      simp only [gt_iff_lt, not_lt_zero', decide_false, Bool.false_eq_true, if_false, List.isEmpty_nil, if_true]
      simpa only [varsWith_same, gt_iff_lt, not_lt_zero', decide_false, Bool.false_eq_true, if_false,
        List.isEmpty_nil, if_true] using ih P
  exact this _ P

/-- FIFO order. -/
theorem SpinCharge.prioFifo (h : SpinCharge info k V sec kind r0) (h1 : OneEntry info)
    (hd : ∀ (q c : ℕ) (F : Finset (Section info.length)), (∀ z ∈ F, ∃ u ∈ V, kind u = .direct ∧ sec u = z ∧
      (system info).For z q ∧ (info.get z.job.1).cluster = c) → F.card ≤ countLocalHpReqs info (info.get k) q)
    (ha : ∀ u ∈ V, ∀ v ∈ V, kind u = arrival → kind v = arrival →
      (info.get (sec u).job.1).cluster = (info.get (sec v).job.1).cluster →
      (info.get (sec u).job.1).cluster ≠ (info.get k).cluster → sec u = sec v) {fuel : ℕ} {P P1 P2 : Program}
    (hP : Fits (assign k V sec kind r0) P)
    (hP1 : prioFifoDirect (fun _ _ => 0) fuel info k (info.get k) P = some P1)
    (hP2 : prioFifoArrival (fun _ _ => 0) fuel info k (info.get k)
      (prioFifoSame (fun _ _ => 0) info (info.get k) P1) = some P2) :
    Fits (assign k V sec kind r0) (prioFifoOnce (fun _ _ => 0) info (info.get k) P2) := by
  classical
  have hx : ∀ {l : List (ℕ × TaskInfo)}, l ∈ otherClusters info (info.get k) → ∀ t ∈ l,
      ∃ x : Fin info.length, t = ((x : ℕ), info.get x) ∧ (info.get x).cluster ≠ (info.get k).cluster := by
    intro l hl t ht
    obtain ⟨c, hc, rfl⟩ := mem_otherClusters hl
    obtain ⟨ht, htc⟩ := List.mem_filter.1 ht
    obtain ⟨x, rfl⟩ := mem_tasks.1 ht
    refine ⟨x, rfl, ?_⟩
    have : (info.get x).cluster = c := by simpa using htc
    rw [this]
    exact hc
  have s1 : Fits (assign k V sec kind r0) P1 := by
    refine Fits.foldlM (fun q _ P P' hP e => ?_) hP hP1
    obtain ⟨w, _, rfl⟩ := Option.map_eq_some_iff.1 e
    unfold higherDirectFor
    refine Fits.foldl (fun l hl P hP => Fits.foldl (fun t ht P hP => ?_) hP) hP
    obtain ⟨x, rfl, hx⟩ := hx hl t ht
    apply hP.add
    rw [varsWith_same]
    by_cases h0 : 0 < minPrio (fun _ _ => 0) info (info.get k) q false
    · rw [if_pos (by simpa using h0)]
      have hz := count_same (k := k) h0.ne'
      refine h.direct_task h1 q x ?_
      rw [hz, Nat.mul_zero, ← hz]
      apply hd q (info.get x).cluster
      intro z hz
      obtain ⟨u, hu, rfl⟩ := mem_image.1 hz
      obtain ⟨u1, u2, u3, u4⟩ := mem_slots.1 hu
      refine ⟨u, u1, u4, rfl, u3, ?_⟩
      rw [show (sec u).job.1 = x from Fin.ext u2]
    · rw [if_neg (by simpa using h0)]
      have : termSum (assign k V sec kind r0) [] = 0 := by simp [termSum]
      rw [this]
      exact Nat.cast_nonneg _
  have s2 : Fits (assign k V sec kind r0) (prioFifoSame (fun _ _ => 0) info (info.get k) P1) := by
    unfold prioFifoSame
    refine Fits.foldl (fun q _ P hP => Fits.foldl (fun l hl P hP => ?_) hP) s1
    obtain ⟨c, hc, rfl⟩ := mem_otherClusters hl
    apply hP.add
    rw [varsWith_same]
    by_cases h0 : 0 = minPrio (fun _ _ => 0) info (info.get k) q false
    · rw [if_pos (by simpa using h0)]
      unfold varsFor
      refine (h.tasks_le h1 (kind := kind) (assign_direct (r0 := r0)) (fun t => t.2.cluster = c) q).trans ?_
      refine Nat.cast_le.2 (hd q c _ ?_)
      intro z hz
      obtain ⟨u, hu, rfl⟩ := mem_image.1 hz
      obtain ⟨u1, u2, u3, u4⟩ := mem_filter.1 hu
      exact ⟨u, u1, u4, rfl, u3, u2⟩
    · rw [if_neg (by simpa using h0)]
      have : termSum (assign k V sec kind r0) [] = 0 := by simp [termSum]
      rw [this]
      exact Nat.cast_nonneg _
  have s3 : Fits (assign k V sec kind r0) P2 := by
    refine Fits.foldlM (fun q _ P P' hP e => ?_) s2 hP2
    obtain ⟨w, _, rfl⟩ := Option.map_eq_some_iff.1 e
    unfold higherArrivalFor
    refine Fits.foldl (fun l hl P hP => Fits.foldl (fun t ht P hP => ?_) hP) hP
    obtain ⟨x, rfl, hx⟩ := hx hl t ht
    by_cases h0 : 0 < minPrio (fun _ _ => 0) info (info.get k) q true
    · simp only [varsWith_same, decide_eq_true h0, if_true]
      by_cases he : (varsFor (info.get k) arrival q [((x : ℕ), info.get x)]).isEmpty = true
      · rw [if_pos he]; exact hP
      · rw [if_neg he]
        apply hP.add
        refine h.arrival_task h1 q x ?_
        refine le_trans (le_of_eq (card_eq_zero.2 (image_eq_empty.2 (eq_empty_of_forall_notMem ?_)))) (Nat.zero_le _)
        intro u hu
        obtain ⟨u1, u2, u3, u4⟩ := mem_slots.1 hu
        obtain ⟨r, hr, hf⟩ := h.resource u u1 u4
        obtain ⟨y, y1, y2, b, y3, y4, _⟩ := h.used r hr
        have e : r = q := by rw [← for_resOf hf, for_resOf u3]
        exact minPrio_same h0.ne' y1 (by simpa using y2) y3 (y4.trans e)
    · simp only [varsWith_same, decide_eq_false h0, Bool.false_eq_true, if_false, List.isEmpty_nil, if_true]
      exact hP
  unfold prioFifoOnce
  refine Fits.foldl (fun q _ P hP => Fits.foldl (fun l hl P hP => ?_) hP) s3
  by_cases h0 : 0 = minPrio (fun _ _ => 0) info (info.get k) q true
  · simp only [varsWith_same, decide_eq_true h0, if_true]
    by_cases he : (varsFor (info.get k) arrival q l).isEmpty = true
    · rw [if_pos he]; exact hP
    · rw [if_neg he]
      obtain ⟨c, hc, rfl⟩ := mem_otherClusters hl
      apply (hP.binary (assign_binary q)).add
      have := h.sub_le h1 (fun t => t.2.cluster = c) q 1 (by
        rw [card_le_one]
        intro a ha' b hb
        obtain ⟨u, hu, rfl⟩ := mem_image.1 ha'
        obtain ⟨v, hv, rfl⟩ := mem_image.1 hb
        obtain ⟨u1, u2, u3, u4⟩ := mem_filter.1 hu
        obtain ⟨v1, v2, v3, v4⟩ := mem_filter.1 hv
        simp only at u2 v2
        exact ha u u1 v v1 u4 v4 (u2.trans v2.symm) (by rw [u2]; exact hc))
      simpa using this
  · simp only [varsWith_same, decide_eq_false h0, Bool.false_eq_true, if_false, List.isEmpty_nil, if_true]
    exact hP

/-- Any order. -/
theorem SpinCharge.prioAny (h : SpinCharge info k V sec kind r0) (h1 : OneEntry info)
    (hd : ∀ (q w : ℕ) (x : Fin info.length), (info.get x).cluster ≠ (info.get k).cluster →
      ((slots V sec kind .direct x q).image sec).card ≤
        numReqsIn (info.get x) q w * countLocalHpReqs info (info.get k) q)
    (ha : ∀ (q w : ℕ) (x : Fin info.length), (info.get x).cluster ≠ (info.get k).cluster →
      ((slots V sec kind arrival x q).image sec).card ≤ numReqsIn (info.get x) q w) {fuel : ℕ} {P P1 P2 : Program}
    (hP : Fits (assign k V sec kind r0) P)
    (hP1 : prioDirect (fun _ _ => 0) fuel info k (info.get k) P = some P1)
    (hP2 : prioArrival (fun _ _ => 0) fuel info k (info.get k)
      (prioLower (fun _ _ => 0) info (info.get k) P1) = some P2) :
    Fits (assign k V sec kind r0) P2 := by
  classical
  have hx : ∀ {l : List (ℕ × TaskInfo)}, l ∈ otherClusters info (info.get k) → ∀ t ∈ l,
      ∃ x : Fin info.length, t = ((x : ℕ), info.get x) ∧ (info.get x).cluster ≠ (info.get k).cluster := by
    intro l hl t ht
    obtain ⟨c, hc, rfl⟩ := mem_otherClusters hl
    obtain ⟨ht, htc⟩ := List.mem_filter.1 ht
    obtain ⟨x, rfl⟩ := mem_tasks.1 ht
    refine ⟨x, rfl, ?_⟩
    have : (info.get x).cluster = c := by simpa using htc
    rw [this]
    exact hc
  have s1 : Fits (assign k V sec kind r0) P1 := by
    refine Fits.foldlM (fun q _ P P' hP e => ?_) hP hP1
    obtain ⟨w, _, rfl⟩ := Option.map_eq_some_iff.1 e
    unfold higherDirectFor
    refine Fits.foldl (fun l hl P hP => Fits.foldl (fun t ht P hP => ?_) hP) hP
    obtain ⟨x, rfl, hx⟩ := hx hl t ht
    apply hP.add
    rw [varsWith_same, if_pos (by simp)]
    refine h.direct_task h1 q x ?_
    rw [numReqsWith_same _ _ _ _ (by simp)]
    exact hd q w x hx
  rw [prioLower_same] at hP2
  refine Fits.foldlM (fun q _ P P' hP e => ?_) s1 hP2
  obtain ⟨w, _, rfl⟩ := Option.map_eq_some_iff.1 e
  unfold higherArrivalFor
  refine Fits.foldl (fun l hl P hP => Fits.foldl (fun t ht P hP => ?_) hP) hP
  obtain ⟨x, rfl, hx⟩ := hx hl t ht
  simp only [varsWith_same, Nat.zero_le, decide_true, if_true]
  by_cases he : (varsFor (info.get k) arrival q [((x : ℕ), info.get x)]).isEmpty = true
  · rw [if_pos he]; exact hP
  · rw [if_neg he]
    apply hP.add
    refine h.arrival_task h1 q x ?_
    rw [numReqsWith_same _ _ _ _ (by simp), Nat.mul_one]
    exact ha q w x hx

section
variable {R : LockRun info.length} {Q : Section info.length → Section info.length → Prop}
  {src : ℕ → Section info.length} {arr : ℕ → Bool}
  {c : Option (Section info.length)} {W : Fin info.length → ℕ} {H a q : ℕ}
  (h : NpSpinFp (system info) (prio info) R) (h1 : OneEntry info) (hT : ∀ t ∈ info, 0 < t.period)
  (hprio : ∀ i j : Fin info.length, (info.get i).cluster = (info.get j).cluster →
    (info.get i).priority = (info.get j).priority → i = j)
  (hW : ∀ i, W i ≤ (info.get i).response) (hb : BoundedBefore R.work R.sched W H)
  (hwin : SpinWindow (system info) (prio info) R k q a (a + W k)) (haH : a + W k ≤ H)
  (hv : SpinView (system info) (prio info) R Q k V sec src arr c) (hV : ∀ u ∈ V, a ≤ u ∧ u < a + W k)
  (hshort : ∀ t ∈ info, ∀ x ∈ info, t.cluster ≠ x.cluster → x.requests ≠ [] →
    0 < x.response ∧ t.response + x.response ≤ x.period)
include h h1 hT hW hb haH hv hV hshort

/-- The requests of a task of another processor in a window. -/
theorem window_reqs (w r : ℕ) {x : Fin info.length} (hx : (info.get x).cluster ≠ (info.get k).cluster)
    {F : Finset (Section info.length)}
    (hF : ∀ z ∈ F, z.job.1 = x ∧ (system info).For z r ∧ ∃ u ∈ V, sec u = z) :
    F.card ≤ numReqsIn (info.get x) r w := by
  rw [h1.reqsIn]
  have h2 := served_for_le h.toSpinBase h1 hb hT hW (x := x) (r := r) haH (l := (info.get k).response)
    (F := F) (lo := a) (by have := hW k; omega) (by
      intro z hz
      obtain ⟨e1, e2, u, hu, rfl⟩ := hF z hz
      exact ⟨e1, e2, u, (hV u hu).1, (hV u hu).2, hv.served u hu⟩)
  rcases F.eq_empty_or_nonempty with rfl | ⟨z0, hz0⟩
  · simp
  obtain ⟨e1, e2, _⟩ := hF z0 hz0
  obtain ⟨b, hb1, _⟩ := for_iff.1 e2
  have hne : (info.get x).requests ≠ [] := by
    rw [← e1]
    intro hc
    rw [hc] at hb1
    cases hb1
  obtain ⟨g1, g2⟩ := hshort _ (List.get_mem info k) _ (List.get_mem info x) hx.symm hne
  refine h2.trans (Nat.mul_le_mul_right _ ?_)
  have hTx := hT _ (List.get_mem info x)
  have e1 : (info.get x).maxNumJobs (info.get k).response ≤ 1 := by
    unfold TaskInfo.maxNumJobs Native.divideWithCeil
    rcases Nat.lt_or_ge ((info.get k).response + (info.get x).response) (info.get x).period with hlt | hge
    · rw [Nat.div_eq_of_lt hlt]
      split_ifs <;> omega
    · rw [show (info.get k).response + (info.get x).response = (info.get x).period by omega, Nat.div_self hTx,
        Nat.mod_self]
      simp
  have e2 : 1 ≤ (info.get x).maxNumJobs w := by
    unfold TaskInfo.maxNumJobs Native.divideWithCeil
    split_ifs with hm
    · exact Nat.div_pos (Nat.le_of_dvd (by omega) (Nat.dvd_of_mod_eq_zero hm)) hTx
    · exact Nat.le_add_left 1 _
  omega

include hprio hwin in
theorem short_direct (w r : ℕ) {x : Fin info.length} (hx : (info.get x).cluster ≠ (info.get k).cluster) :
    ((slots V sec (kindOf arr) .direct x r).image sec).card ≤
      numReqsIn (info.get x) r w * countLocalHpReqs info (info.get k) r := by
  classical
  have h2 := window_reqs h h1 hT hW hb haH hv hV hshort w r hx
    (F := (slots V sec (kindOf arr) .direct x r).image sec) (by
      intro z hz
      obtain ⟨u, hu, rfl⟩ := mem_image.1 hz
      obtain ⟨u1, u2, u3, _⟩ := mem_slots.1 hu
      exact ⟨Fin.ext u2, u3, u, u1, rfl⟩)
  rcases (slots V sec (kindOf arr) .direct x r).eq_empty_or_nonempty with he | ⟨u, hu⟩
  · rw [he]; simp
  refine h2.trans (Nat.le_mul_of_pos_right _ ?_)
  obtain ⟨u1, u2, u3, u4⟩ := mem_slots.1 hu
  obtain ⟨h6, h7, h8⟩ := hv.direct u u1 (kindOf_direct.1 u4)
  have h3 := local_requests h hwin h1 hT hprio (hW k) (r := r) (D := {src u}) (by
    intro s hs
    rw [mem_singleton.1 hs]
    refine ⟨h6.issued, h7, h8, ?_, u, (hV u u1).1, (hV u u1).2, h6.sched⟩
    obtain ⟨r', h9, h10, _⟩ := h6.res
    rw [← for_resOf u3, for_resOf h10]
    exact h9)
  rw [card_singleton] at h3
  exact h3

theorem short_arrival (w r : ℕ) {x : Fin info.length} (hx : (info.get x).cluster ≠ (info.get k).cluster) :
    ((slots V sec (kindOf arr) arrival x r).image sec).card ≤ numReqsIn (info.get x) r w := by
  classical
  apply window_reqs h h1 hT hW hb haH hv hV hshort w r hx
  intro z hz
  obtain ⟨u, hu, rfl⟩ := mem_image.1 hz
  obtain ⟨u1, u2, u3, _⟩ := mem_slots.1 hu
  exact ⟨Fin.ext u2, u3, u, u1, rfl⟩

end

end Verif.SR.Lp
