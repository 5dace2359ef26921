/-
The constraints of the LP-based analysis of the DPCP hold in every run in which the wait-time bounds are solutions of
the recurrence and in which tasks without remote blocking use only resources on their own processors.
-/
import Verif.Lemmas.LpDpcpWait
import Verif.Lemmas.LpAgent

namespace Verif.SR.Lp
open Verif.Spec Finset
open Verif.Spec.Dpcp (Delayed Served Ceil)
open Verif.SR.Msrp (system ceilingOf)
open Verif.SR.Dpcp (Locality topology)

variable {info : Info} {m : ℕ} {l : Locality} {loc : ℕ → ℕ} {R : LockRun info.length} {W : Fin info.length → ℕ} {H : ℕ}
  {E : ℕ → ℕ} {ws : List (ℕ × Option ℕ)}

/-- The sections that may delay a request: those of tasks with no lower priority, and those of other tasks with resources
that have a ceiling of at least that priority. -/
def DpcpDelay (info : Info) (s z : Section info.length) : Prop :=
  (info.get z.job.1).priority ≤ (info.get s.job.1).priority ∨
    Ceil (system info) (fun i => (info.get i).priority) z s.job.1

variable {j : Job info.length} {V : Finset ℕ} {sec : ℕ → Section info.length} {kind : ℕ → BlockingType} {lo hi : ℕ}

namespace DpcpView

section
variable {P : Program}

/-- Constraint 7: no blocking is regarded as direct. -/
theorem once (hv : AgentView info l loc R (DpcpDelay info) j V sec kind lo hi) (h : Charge info j.1 V sec)
    (h1 : OneEntry info) (hP : P.Feasible (assignment j.1 V sec kind)) :
    (dpcpOnce info l j.1 (info.get j.1) P).Feasible (assignment j.1 V sec kind) := by
  refine feasible_foldl (fun c hc P hP => ?_) hP
  apply feasible_addInequality hP
  refine le_trans (le_of_eq (h.termsFor_zero h1 (kind := kind) (by decide) (fun ty _ x v r => rfl)
    (fun t => t.1 ≠ (j.1 : ℕ) ∧ t.2.priority ≥ (info.get j.1).priority) _ ?_)) (Nat.cast_nonneg _)
  intro u hu _ hk
  rcases hv.cases u hu with ⟨h1, _⟩ | ⟨h1, _⟩ <;> rw [h1] at hk <;> simp at hk

/-- Constraint 6. -/
theorem conflict (hv : AgentView info l loc R (DpcpDelay info) j V sec kind lo hi) (h : Charge info j.1 V sec) (h1 : OneEntry info)
    (hP : P.Feasible (assignment j.1 V sec kind)) :
    (dpcpConflict info j.1 (info.get j.1) P).Feasible (assignment j.1 V sec kind) := by
  apply feasible_addEquality hP
  unfold others
  refine h.termsFor_zero h1 (kind := kind) (by decide) (fun ty _ x v r => rfl) _ _ ?_
  intro u hu _ hk r hr hf
  obtain ⟨s, d, d1, _, _, d4⟩ := hv.direct hu hk
  unfold DpcpDelay at d4
  rw [d1] at d4
  have : ceilingOf info r.resId ≤ (info.get j.1).priority := by
    rcases d4 with d4 | ⟨r', x, e1, e2, e3⟩
    · exact Msrp.ceilingOf_le_of ⟨_, hf.uses, d4⟩
    · rw [for_unique e1 hf] at e2
      exact Msrp.ceilingOf_le_of ⟨x, e2, e3⟩
  simpa using this

/-- The substitute for constraint 8. -/
theorem independent (hv : AgentView info l loc R (DpcpDelay info) j V sec kind lo hi) (h : Charge info j.1 V sec) (h1 : OneEntry info)
    (hloc : ∀ t ∈ info, ∀ r ∈ t.requests, l.at r.resId = some (loc r.resId))
    (hP : P.Feasible (assignment j.1 V sec kind)) :
    (dpcpIndependent info l j.1 (info.get j.1) P).Feasible (assignment j.1 V sec kind) := by
  apply feasible_addEquality hP
  unfold others
  refine h.termsFor_zero h1 (kind := kind) (by decide) (fun ty _ x v r => rfl) _ _ ?_
  intro u hu _ hk r hr hf
  obtain ⟨s, d, d1, ⟨_, _, _, _, q, e5, e6⟩, d3, _⟩ := hv.direct hu hk
  obtain ⟨b, hb, rfl⟩ := for_iff.1 e5
  have hb' := List.mem_of_getElem? hb
  have h2 := hloc _ (List.get_mem info _) b hb'
  rw [d1] at hb'
  rw [served_at hloc d3 hr hf]
  intro hc
  exact (of_decide_eq_true hc) (List.mem_map.2 ⟨b, hb', by rw [h2, e6]⟩)

/-- The limit of constraint 8. -/
theorem _root_.Verif.SR.Lp.waitLimit_eq {ti tx : TaskInfo} {r : Request} {n : ℕ}
    (hE : ∀ y ∈ ti.requests, waitOf ws y.resId = some (E y.resId)) (hn : waitLimit l ws ti tx r = some n) :
    n = ((ti.requests.filter (fun y => l.at y.resId = l.at r.resId)).map (fun y =>
      tx.maxNumJobs (E y.resId) * r.num * y.num)).sum := by
  unfold waitLimit at hn
  have : (ti.requests.filter (fun y => l.at y.resId = l.at r.resId)).mapM (fun y =>
      (waitOf ws y.resId).map (fun w => tx.maxNumJobs w * r.num * y.num)) =
      some ((ti.requests.filter (fun y => l.at y.resId = l.at r.resId)).map (fun y =>
        tx.maxNumJobs (E y.resId) * r.num * y.num)) := by
    have hE' : ∀ y ∈ ti.requests.filter (fun y => l.at y.resId = l.at r.resId), waitOf ws y.resId = some (E y.resId) :=
      fun y hy => hE y (List.mem_filter.1 hy).1
    generalize ti.requests.filter (fun y => l.at y.resId = l.at r.resId) = L at hE'
    induction L with
    | nil => rfl
    | cons b L ih =>
      rw [List.mapM_cons, hE' b (List.mem_cons_self ..), ih (fun y hy => hE' y (List.mem_cons_of_mem _ hy))]
      rfl
  rw [this] at hn
  exact (Option.some.inj hn).symm

/-- Constraint 8. -/
theorem wait (hv : AgentView info l loc R (DpcpDelay info) j V sec kind lo hi) (hr : RequestRun m (system info) R)
    (hb : BoundedBefore R.work R.sched W H) (hT : ∀ t ∈ info, 0 < t.period)
    (hW : ∀ i, W i ≤ (info.get i).response) (hhi : hi ≤ H) (h : Charge info j.1 V sec) (h1 : OneEntry info)
    (hloc : ∀ t ∈ info, ∀ r ∈ t.requests, l.at r.resId = some (loc r.resId))
    (hE : ∀ y ∈ (info.get j.1).requests, waitOf ws y.resId = some (E y.resId))
    (hwait : ∀ s c u, s.job = j → Delayed (system info) loc R s c u → u < H →
      ∀ a, (info.get s.job.1).requests[s.idx]? = some a → u < R.enter s + E a.resId)
    (hP : P.Feasible (assignment j.1 V sec kind)) :
    (dpcpWait info l ws (info.get j.1) P).Feasible (assignment j.1 V sec kind) := by
  classical
  refine feasible_foldl (fun t ht P hP => feasible_foldl (fun r hrq P hP => ?_) hP) hP
  obtain ⟨ht, hne⟩ := List.mem_filter.1 ht
  obtain ⟨x, rfl⟩ := mem_tasks.1 ht
  simp only at hrq
  rcases hn : waitLimit l ws (info.get j.1) (info.get x) r with _ | n
  · simp only [hn]; exact hP
  simp only [hn]
  apply feasible_addInequality hP
  refine (h.terms_le h1 (kind := kind) (by decide) (fun ty _ x v r => rfl) hrq).trans (Nat.cast_le.2 ?_)
  rw [waitLimit_eq hE hn]
  set F := (slotsIn V sec kind [.direct, .indirect] x r.resId).image sec with hF
  have hex : ∀ z ∈ F, ∃ s, ∃ u c, z.job.1 = x ∧ (info.get x).requests[z.idx]? = some r ∧ u < hi ∧ s.job = j ∧
      Delayed (system info) loc R s c u ∧ Served (system info) loc R z c u := by
    intro z hz
    obtain ⟨u, hu, rfl⟩ := mem_image.1 hz
    obtain ⟨u1, u2, u3, u4⟩ := mem_slotsIn.1 hu
    obtain ⟨s, c, d1, d2, d3, _⟩ := hv.direct u1 u4
    have hx : (sec u).job.1 = x := Fin.ext u2
    obtain ⟨b, hb', hbr⟩ := for_iff.1 u3
    rw [hx] at hb'
    rw [h1.eq_of_mem (List.mem_of_getElem? hb') hrq hbr] at hb'
    exact ⟨s, u, c, hx, hb', (hv.range u u1).2, d1, d2, d3⟩
  rcases F.eq_empty_or_nonempty with h0 | ⟨z0, hz0⟩
  · rw [h0]; simp
  have : Nonempty (Section info.length) := ⟨z0⟩
  choose! f hf using hex
  have hnd : (info.get j.1).requests.Nodup := List.Nodup.of_map _ (h1 _ (List.get_mem info j.1))
  rw [← List.sum_toFinset _ (hnd.filter _)]
  have hsub : F ⊆ ((info.get j.1).requests.filter (fun y => l.at y.resId = l.at r.resId)).toFinset.biUnion (fun y =>
      F.filter (fun z => (system info).For (f z) y.resId)) := by
    intro z hz
    obtain ⟨u, c, e1, e2, e3, e4, ⟨d1, d2, d3, d4, q, d5, d6⟩, e6⟩ := hf z hz
    obtain ⟨b, hb', rfl⟩ := for_iff.1 d5
    have hat := hloc _ (List.get_mem info _) b (List.mem_of_getElem? hb')
    rw [e4] at hb'
    refine mem_biUnion.2 ⟨b, List.mem_toFinset.2 (List.mem_filter.2 ⟨List.mem_of_getElem? hb', ?_⟩),
      mem_filter.2 ⟨hz, d5⟩⟩
    have h2 := served_at hloc e6 (r := r) (by rw [e1]; exact hrq) (for_iff.2 ⟨r, by rw [e1]; exact e2, rfl⟩)
    rw [decide_eq_true_eq, hat, h2, d6]
  refine (card_le_card hsub).trans (card_biUnion_le.trans (sum_le_sum ?_))
  intro y hy
  obtain ⟨hy, _⟩ := List.mem_filter.1 (List.mem_toFinset.1 hy)
  have hfib : ∀ s ∈ (F.filter (fun z => (system info).For (f z) y.resId)).image f,
      ((F.filter (fun z => (system info).For (f z) y.resId)).filter (fun z => f z = s)).card ≤
        (info.get x).maxNumJobs (E y.resId) * r.num := by
    intro s hs
    refine entry_sections_le hr hb hT hW (hf z0 hz0).choose_spec.choose_spec.2.1 (lo := R.enter s)
      (hi := min hi (R.enter s + E y.resId)) (by omega) (by omega) ?_
    intro z hz
    obtain ⟨hz, hzs⟩ := mem_filter.1 hz
    obtain ⟨hz, hzy⟩ := mem_filter.1 hz
    obtain ⟨u, c, e1, e2, e3, e4, e5, e6⟩ := hf z hz
    obtain ⟨b, hb', hby⟩ := for_iff.1 hzy
    have hlt := hwait _ c u e4 e5 (by omega) b hb'
    rw [hby] at hlt
    rw [hzs] at hlt e5
    have hact := hr.owns_active e6.1
    exact ⟨e6.1.1, e1, (h1.eq e2 (hf z0 hz0).choose_spec.choose_spec.2.1 rfl).1, u, e5.2.1, lt_min e3 hlt, hact.1, hact.2⟩
  refine (card_le_mul_card_image _ _ hfib).trans (Nat.mul_le_mul_left _ ?_)
  have hy1 : (((info.get j.1).requests.filter (fun a => decide (a.resId = y.resId))).map Request.num).sum = y.num := by
    rw [h1.filter hy]; simp
  rw [← hy1]
  refine sections_count hr (fun a => decide (a.resId = y.resId)) ?_
  intro s hs
  obtain ⟨z, hz, rfl⟩ := mem_image.1 hs
  obtain ⟨hz, hzy⟩ := mem_filter.1 hz
  obtain ⟨u, c, e1, e2, e3, e4, e5, e6⟩ := hf z hz
  obtain ⟨b, hb', hby⟩ := for_iff.1 hzy
  exact ⟨e5.1, e4, b, by rw [← e4]; exact hb', by simpa using hby⟩

/-- All constraints. -/
theorem feasible (hv : AgentView info l loc R (DpcpDelay info) j V sec kind lo hi)
    (hr : RequestRun m (system info) R)
    (hb : BoundedBefore R.work R.sched W H) (hT : ∀ t ∈ info, 0 < t.period)
    (hW : ∀ i, W i ≤ (info.get i).response) (hhi : hi ≤ H) (hl : hi - lo ≤ (info.get j.1).response) (h1 : OneEntry info)
    (hinj : Function.Injective (fun i : Fin info.length => (info.get i).priority))
    (hloc : ∀ t ∈ info, ∀ r ∈ t.requests, l.at r.resId = some (loc r.resId)) (wo : Option (List (ℕ × Option ℕ)))
    (hwo : ∀ ws, wo = some ws → ∃ E : ℕ → ℕ, (∀ y ∈ (info.get j.1).requests, waitOf ws y.resId = some (E y.resId)) ∧
      ∀ s c u, s.job = j → Delayed (system info) loc R s c u → u < H →
        ∀ a, (info.get s.job.1).requests[s.idx]? = some a → u < R.enter s + E a.resId) (obj : Exp) :
    (dpcpConstraints info l wo j.1 (info.get j.1) { objective := obj }).Feasible (assignment j.1 V sec kind) := by
  have h := hv.charge hr hb hT hW hhi hl
  have h0 : ({ objective := obj } : Program).Feasible (assignment j.1 V sec kind) := by
    have := feasible_empty (x := assignment j.1 V sec kind) (assignment_range h h1)
    exact ⟨this.eq, this.le, this.integer, this.binary, this.range⟩
  have h2 := conflict hv h h1 (once hv h h1 (hv.lowers h h1 hinj (hv.topology h h1 hloc
    (AgentView.semMutex (kind := kind) h h1 h0))))
  unfold dpcpConstraints
  simp only
  rcases wo with _ | ws
  · exact independent hv h h1 hloc h2
  · obtain ⟨E, hE, hwait⟩ := hwo ws rfl
    exact wait hv hr hb hT hW hhi h h1 hloc hE hwait h2

end
end DpcpView

end Verif.SR.Lp
