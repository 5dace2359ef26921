/-
Runs of protocols with agents: the constraints that the LP-based analyses of the DFLP and of the DPCP have in common.
-/
import Verif.Lemmas.LpDpcpTerms

namespace Verif.SR.Lp
open Verif.Spec Finset
open Verif.Spec.Dpcp (Delayed Served AgentPrompt)
open Verif.SR.Msrp (system)
open Verif.SR.Dpcp (Locality)

variable {info : Info} {m : ℕ} {l : Locality} {loc : ℕ → ℕ} {R : LockRun info.length} {W : Fin info.length → ℕ} {H : ℕ}
  {D : Section info.length → Section info.length → Prop}

open Classical in
/-- In each slot of `V`, job `j` is delayed by section `sec u`; `D s z` says that section `z` may delay section `s`. -/
structure AgentView (info : Info) (l : Locality) (loc : ℕ → ℕ) (R : LockRun info.length)
    (D : Section info.length → Section info.length → Prop) (j : Job info.length)
    (V : Finset ℕ) (sec : ℕ → Section info.length) (kind : ℕ → BlockingType) (lo hi : ℕ) : Prop where
  range : ∀ u ∈ V, lo ≤ u ∧ u < hi
  other : ∀ u ∈ V, (sec u).job.1 ≠ j.1
  cases : ∀ u ∈ V, (kind u = .preempt ∧ Served (system info) loc R (sec u) (info.get j.1).cluster u) ∨
    (kind u = .indirect ∧ ∃ s c, s.job = j ∧ Delayed (system info) loc R s c u ∧
      Served (system info) loc R (sec u) c u ∧ D s (sec u))
  lower : ∀ x, (info.get x).cluster = (info.get j.1).cluster → (info.get j.1).priority < (info.get x).priority →
    ((V.filter (fun u => kind u = .preempt ∧ (sec u).job.1 = x)).image sec).card ≤ distArrivals l (info.get j.1)

variable {j : Job info.length} {V : Finset ℕ} {sec : ℕ → Section info.length} {kind : ℕ → BlockingType} {lo hi : ℕ}

/-- The processor of a request that is served. -/
theorem served_at (hloc : ∀ t ∈ info, ∀ r ∈ t.requests, l.at r.resId = some (loc r.resId)) {z : Section info.length}
    {c u : ℕ} (h : Served (system info) loc R z c u) {r : Request} (hr : r ∈ (info.get z.job.1).requests)
    (hf : (system info).For z r.resId) : l.at r.resId = some c := by
  obtain ⟨_, _, q, hq, rfl⟩ := h
  rw [for_unique hq hf]
  exact hloc _ (List.get_mem info _) r hr

/-- One task. -/
theorem single_task (x : Fin info.length) :
    [((x : ℕ), info.get x)] = (tasks info).filter (fun t => t.1 = (x : ℕ)) := by
  rw [tasks_eq, List.filter_map]
  have : (List.finRange info.length).filter ((fun t : ℕ × TaskInfo => decide (t.1 = (x : ℕ))) ∘
      (fun i : Fin info.length => ((i : ℕ), info.get i))) = [x] := by
    have hp : ((List.finRange info.length).filter ((fun t : ℕ × TaskInfo => decide (t.1 = (x : ℕ))) ∘
        (fun i : Fin info.length => ((i : ℕ), info.get i)))).Perm [x] := by
      rw [List.perm_ext_iff_of_nodup ((List.nodup_finRange _).filter _) (List.nodup_singleton x)]
      intro y
      simp only [List.mem_filter, List.mem_finRange, true_and, Function.comp_apply, decide_eq_true_eq,
        List.mem_singleton]
      exact ⟨fun hh => Fin.ext hh, fun hh => by rw [hh]⟩
    exact List.perm_singleton.1 hp
  rw [this]
  rfl

namespace AgentView

theorem direct (hv : AgentView info l loc R D j V sec kind lo hi) {u : ℕ} (hu : u ∈ V)
    (hk : kind u ∈ [BlockingType.direct, .indirect]) : ∃ s c, s.job = j ∧ Delayed (system info) loc R s c u ∧
      Served (system info) loc R (sec u) c u ∧ D s (sec u) := by
  rcases hv.cases u hu with ⟨h1, _⟩ | ⟨_, h1⟩
  · rw [h1] at hk; simp at hk
  · exact h1

theorem preempt (hv : AgentView info l loc R D j V sec kind lo hi) {u : ℕ} (hu : u ∈ V)
    (hk : kind u ∈ [BlockingType.preempt]) : Served (system info) loc R (sec u) (info.get j.1).cluster u := by
  rcases hv.cases u hu with ⟨_, h1⟩ | ⟨h1, _⟩
  · exact h1
  · rw [h1] at hk; simp at hk

theorem charge (hv : AgentView info l loc R D j V sec kind lo hi) (h : RequestRun m (system info) R)
    (hb : BoundedBefore R.work R.sched W H) (hT : ∀ t ∈ info, 0 < t.period)
    (hW : ∀ i, W i ≤ (info.get i).response) (hhi : hi ≤ H) (hl : hi - lo ≤ (info.get j.1).response) :
    Charge info j.1 V sec := by
  refine charge_of_owns h hb hT hW hhi hl hv.range ?_
  intro u hu
  rcases hv.cases u hu with ⟨_, h1⟩ | ⟨_, _, _, _, _, h1, _⟩ <;> exact ⟨h1.1, h1.2.1, hv.other u hu⟩

theorem objective_le (hv : AgentView info l loc R D j V sec kind lo hi) (h : Charge info j.1 V sec) (h1 : OneEntry info) :
    (V.card : ℚ) ≤ termSum (assignment j.1 V sec kind) (partObjective info j.1 (info.get j.1)) := by
  refine h.objective h1 [.direct, .indirect, .preempt] (fun _ _ _ _ _ => rfl) ?_
  intro u hu
  rcases hv.cases u hu with ⟨h1, _⟩ | ⟨h1, _⟩ <;> rw [h1] <;> simp

section
variable {P : Program}

theorem semMutex (h : Charge info j.1 V sec) (h1 : OneEntry info) (hP : P.Feasible (assignment j.1 V sec kind)) :
    (semMutex info j.1 (info.get j.1) P).Feasible (assignment j.1 V sec kind) := by
  refine feasible_foldl (fun t _ P hP => feasible_foldl (fun r _ P hP => feasible_foldl (fun v _ P hP => ?_) hP) hP) hP
  apply feasible_addInequality hP
  have := h.share_add_le h1 (kind := kind) (tys := {.direct, .indirect, .preempt}) (x := t.1) (r := r.resId)
  rw [sum_insert (by decide), sum_insert (by decide), sum_singleton] at this
  simp only [termSum, assignment, List.map_cons, List.map_nil, List.sum_cons, List.sum_nil, one_mul, add_zero]
  exact this

/-- Constraint 2. -/
theorem topology (hv : AgentView info l loc R D j V sec kind lo hi) (h : Charge info j.1 V sec) (h1 : OneEntry info)
    (hloc : ∀ t ∈ info, ∀ r ∈ t.requests, l.at r.resId = some (loc r.resId))
    (hP : P.Feasible (assignment j.1 V sec kind)) :
    (distTopology info l j.1 (info.get j.1) P).Feasible (assignment j.1 V sec kind) := by
  apply feasible_addEquality hP
  unfold others
  refine h.termsFor_zero h1 (kind := kind) (by decide) (fun ty _ x v r => rfl) _ _ ?_
  intro u hu _ hk r hr hf
  have := served_at hloc (hv.preempt hu hk) hr hf
  intro hc
  exact (of_decide_eq_true hc) this

/-- Constraint 3. -/
theorem lowers (hv : AgentView info l loc R D j V sec kind lo hi) (h : Charge info j.1 V sec) (h1 : OneEntry info)
    (hinj : Function.Injective (fun i : Fin info.length => (info.get i).priority))
    (hP : P.Feasible (assignment j.1 V sec kind)) :
    (distLower info l j.1 (info.get j.1) P).Feasible (assignment j.1 V sec kind) := by
  classical
  refine feasible_foldl (fun t ht P hP => ?_) hP
  obtain ⟨ht, hc⟩ := List.mem_filter.1 ht
  obtain ⟨x, rfl⟩ := mem_tasks.1 ht
  simp only [decide_eq_true_eq] at hc
  obtain ⟨c1, c2, c3⟩ := hc
  apply feasible_addInequality hP
  rw [single_task]
  refine (h.termsFor_le h1 (kind := kind) (by decide) (fun ty _ x v r => rfl) (fun t => t.1 = (x : ℕ)) _).trans ?_
  refine Nat.cast_le.2 (le_trans (card_le_card (image_subset_image ?_)) (hv.lower x c1 ?_))
  · intro u hu
    obtain ⟨h3, h4, h5, _⟩ := mem_filter.1 hu
    exact mem_filter.2 ⟨h3, by simpa using h5, Fin.ext h4⟩
  · exact lt_of_le_of_ne c3 (fun hh => c2 (by rw [hinj hh.symm]))

end
end AgentView

/-- A local lower-priority request that delays task `k` while it has no request on another processor is incomplete when
the window begins or when a request of the job of task `k` on another processor is complete. -/
theorem agent_instant (h : AgentPrompt (system info) (fun i => (info.get i).priority) loc R)
    (hb : BoundedBefore R.work R.sched W H) (hWT : ∀ i, W i ≤ (info.get i).period)
    {k : Fin info.length} {Z : Fin info.length → Prop} {q0 q1 a e : ℕ}
    (hwin : Window R.work R.sched k Z q0 q1 a e) (heH : e ≤ H)
    (hown : ∀ t p, a ≤ t → t < e → Ready R.work R.sched (k, p) t → p = q1)
    (hZp : ∀ i, Z i → (info.get i).cluster = (info.get k).cluster ∧ (info.get i).priority < (info.get k).priority)
    (hZ : ∀ i, Z i → ∀ r ∈ (info.get i).requests, loc r.resId = (info.get i).cluster)
    {t : ℕ} (h1 : a ≤ t) (h2 : t < e) (hk : ∀ j ∈ R.sched t, j.1 ≠ k) {z : Section info.length} (ho : R.Owns z t)
    (hproc : (info.get z.job.1).cluster = (info.get k).cluster)
    (hprio : (info.get k).priority < (info.get z.job.1).priority)
    (hnw : ∀ s c, s.job = (k, q1) → c ≠ (info.get k).cluster → ¬ Delayed (system info) loc R s c t) :
    (R.enter z ≤ a ∧ a < R.leave z) ∨
    ∃ s r, R.issued s ∧ s.job = (k, q1) ∧ (system info).For s r ∧ loc r ≠ (info.get k).cluster ∧
      R.enter z ≤ R.leave s ∧ R.leave s < R.leave z := by
  have hact := h.owns_active ho
  by_cases hea : R.enter z ≤ a
  · exact Or.inl ⟨hea, by omega⟩
  right
  obtain ⟨x, hx, hrel, hinc⟩ : ∃ x : Job info.length, (x.1 = k ∨ Z x.1) ∧ R.work.release x < R.enter z ∧
      ¬ Completed R.work R.sched x (R.enter z) := by
    by_cases hr : R.enter z ≤ R.work.release (k, q0)
    · exact hwin.busy _ (not_le.1 hea) hr
    · exact ⟨(k, q0), Or.inl rfl, by omega, fun hc => hwin.incomplete (hc.mono (by omega))⟩
  have hr1 : Ready R.work R.sched x (R.enter z) :=
    pending_ready h.sporadic hb (hWT _) (by omega) ⟨hrel.le, hinc⟩
  have hr0 : Ready R.work R.sched x (R.enter z - 1) :=
    pending_ready h.sporadic hb (hWT _) (by omega) ⟨by omega, fun hc => hinc (hc.mono (by omega))⟩
  have hxp : (info.get x.1).cluster = (info.get z.job.1).cluster ∧
      (info.get x.1).priority < (info.get z.job.1).priority := by
    rcases hx with hx | hx
    · rw [hx]; exact ⟨hproc.symm, hprio⟩
    · have := hZp _ hx
      exact ⟨this.1.trans hproc.symm, this.2.trans hprio⟩
  have key : ∀ u, R.Away (system info) loc x u → R.enter z - 1 ≤ u → u ≤ R.enter z →
      ∃ s r, R.issued s ∧ s.job = (k, q1) ∧ (system info).For s r ∧ loc r ≠ (info.get k).cluster ∧
      R.enter z ≤ R.leave s ∧ R.leave s < R.leave z := by
    rintro u ⟨s, r, hsx, hi, he, hl, hf, hlr⟩ hu1 hu2
    have hlr : loc r ≠ (info.get x.1).cluster := hlr
    have hkx : x.1 = k := by
      rcases hx with hx | hx
      · exact hx
      · obtain ⟨b, hb', rfl⟩ := for_iff.1 hf
        rw [hsx] at hb'
        exact absurd (hZ _ hx b (List.mem_of_getElem? hb')) hlr
    have hj : s.job = (k, q1) := by
      have hrd := h.active s u hi he hl
      rw [hsx] at hrd ⊢
      have h4 := hown u x.2 (by omega) (by omega) (by rw [← hkx]; exact hrd)
      rw [← hkx, ← h4]
    rw [hkx] at hlr
    refine ⟨s, r, hi, hj, hf, hlr, by omega, ?_⟩
    by_contra hc
    refine hnw s (loc r) hj hlr ⟨hi, by omega, by omega, fun hm => ?_, r, hf, rfl⟩
    exact hk _ hm (by rw [hj])
  by_cases haw : R.Away (system info) loc x (R.enter z - 1)
  · exact key _ haw le_rfl (by omega)
  · exact key _ (h.issue z x ho.1 (by omega) hxp.1 hxp.2 hr0 haw hr1) (by omega) le_rfl

/-- The slots of a window. -/
theorem agent_window_view (h : AgentPrompt (system info) (fun i => (info.get i).priority) loc R)
    (hD : ∀ s c t, Delayed (system info) loc R s c t → ∃ z, Served (system info) loc R z c t ∧ D s z)
    (hb : BoundedBefore R.work R.sched W H) (hWT : ∀ i, W i ≤ (info.get i).period)
    (hinj : Function.Injective (fun i : Fin info.length => (info.get i).priority))
    (hloc : ∀ t ∈ info, ∀ r ∈ t.requests, l.at r.resId = some (loc r.resId))
    {k : Fin info.length} {Z : Fin info.length → Prop} {q0 q1 a e : ℕ}
    (hwin : Window R.work R.sched k Z q0 q1 a e) (heH : e ≤ H)
    (hown : ∀ t p, a ≤ t → t < e → Ready R.work R.sched (k, p) t → p = q1)
    (hZp : ∀ i, Z i → (info.get i).cluster = (info.get k).cluster ∧ (info.get i).priority < (info.get k).priority)
    (hZ : ∀ i, Z i → ∀ r ∈ (info.get i).requests, loc r.resId = (info.get i).cluster) {V : Finset ℕ}
    (hV : ∀ t ∈ V, a ≤ t ∧ t < e ∧ ∀ j ∈ R.sched t, j.1 ≠ k ∧ ¬ ((info.get j.1).cluster = (info.get k).cluster ∧
      (info.get j.1).priority < (info.get k).priority)) :
    ∃ sec kind, AgentView info l loc R D (k, q1) V sec kind a e := by
  classical
  have hZd : ∀ s c u, Z s.job.1 → u < H → c ≠ (info.get k).cluster → ¬ Delayed (system info) loc R s c u := by
    rintro s c u hs _ hc ⟨_, _, _, _, q, hq, rfl⟩
    obtain ⟨b, hb', rfl⟩ := for_iff.1 hq
    exact hc ((hZ _ hs b (List.mem_of_getElem? hb')).trans (hZp _ hs).1)
  have hall : ∀ t ∈ V, ∃ (z : Section info.length) (ty : BlockingType), z.job.1 ≠ k ∧
      ((ty = .preempt ∧ Served (system info) loc R z (info.get k).cluster t ∧
        ∀ s c, s.job = (k, q1) → c ≠ (info.get k).cluster → ¬ Delayed (system info) loc R s c t) ∨
      (ty = .indirect ∧ ∃ s c, s.job = (k, q1) ∧ Delayed (system info) loc R s c t ∧ Served (system info) loc R z c t ∧
        D s z)) := by
    intro t ht
    obtain ⟨t1, t2, t3⟩ := hV t ht
    by_cases hd : ∃ s c, s.job = (k, q1) ∧ c ≠ (info.get k).cluster ∧ Delayed (system info) loc R s c t
    · obtain ⟨s, c, hj, hc, hd⟩ := hd
      obtain ⟨z, hz, hcase⟩ := hD s c t hd
      exact ⟨z, .indirect, (t3 _ hz.2.1).1, Or.inr ⟨rfl, s, c, hj, hd, hz, hcase⟩⟩
    · push Not at hd
      rcases h.idle_cases hb hWT hwin heH (fun i _ hp => hinj hp) hZp hZd t1 t2 t3 with
        ⟨s, c, hk, _, _, hc, hd'⟩ | ⟨z, hz, hzk⟩
      · have hj : s.job = (k, q1) := by
          have h4 := hown t s.job.2 t1 t2 (by rw [← hk]; exact h.active s t hd'.1 hd'.2.1 hd'.2.2.1)
          rw [← hk, ← h4]
        exact absurd hd' (hd s c hj hc)
      · exact ⟨z, .preempt, hzk, Or.inl ⟨rfl, hz, hd⟩⟩
  rcases V.eq_empty_or_nonempty with hV0 | ⟨t0, ht0⟩
  · refine ⟨fun _ => ⟨(k, q1), 0, 0⟩, fun _ => .preempt, ⟨?_, ?_, ?_, ?_⟩⟩
    · intro u hu; rw [hV0] at hu; simp at hu
    · intro u hu; rw [hV0] at hu; simp at hu
    · intro u hu; rw [hV0] at hu; simp at hu
    · intro x _ _; rw [hV0]; simp
  obtain ⟨z0, _⟩ := hall t0 ht0
  have : Nonempty (Section info.length) := ⟨z0⟩
  have : Nonempty BlockingType := ⟨.preempt⟩
  choose! sec kind hsec using hall
  refine ⟨sec, kind, fun u hu => ⟨(hV u hu).1, (hV u hu).2.1⟩, fun u hu => (hsec u hu).1, ?_, ?_⟩
  · intro u hu
    rcases (hsec u hu).2 with ⟨c1, c2, _⟩ | c
    · exact Or.inl ⟨c1, c2⟩
    · exact Or.inr c
  · intro x hx hxp
    simp only at hx hxp
    set F := (V.filter (fun u => kind u = .preempt ∧ (sec u).job.1 = x)).image sec with hF
    set B := ((system info).sections (k, q1)).filter (fun s => R.issued s ∧ ∃ r, (system info).For s r ∧
      loc r ≠ (info.get k).cluster) with hB
    have hBc : B.card ≤ (((info.get k).requests.filter (fun r => decide (¬ IsLocal l (info.get k) r))).map
        Request.num).sum := by
      refine sections_count h.toRequestRun (j := (k, q1)) _ ?_
      intro s hs
      obtain ⟨hs, hi, r, hf, hr⟩ := mem_filter.1 hs
      have hj := (LockSystem.mem_sections.1 hs).1
      obtain ⟨b, hb', rfl⟩ := for_iff.1 hf
      have hat := hloc _ (List.get_mem info _) b (List.mem_of_getElem? hb')
      rw [hj] at hb'
      refine ⟨hi, hj, b, hb', ?_⟩
      rw [decide_eq_true_eq]
      unfold IsLocal
      rw [hat]
      intro hc
      exact hr (Option.some.inj hc)
    have hI : (insert a (B.image R.leave)).card ≤ distArrivals l (info.get k) := by
      have h2 := card_insert_le a (B.image R.leave)
      have h3 : (B.image R.leave).card ≤ B.card := card_image_le
      unfold distArrivals
      omega
    refine le_trans (h.card_le_instants (i := x) (I := insert a (B.image R.leave)) ?_) hI
    intro z hz
    obtain ⟨u, hu, rfl⟩ := mem_image.1 hz
    obtain ⟨hu, hk', hxz⟩ := mem_filter.1 hu
    obtain ⟨u1, u2, u3⟩ := hV u hu
    obtain ⟨_, hc⟩ := hsec u hu
    rcases hc with ⟨_, hz, hnw⟩ | ⟨hc, _⟩
    · rcases agent_instant h hb hWT hwin heH hown hZp hZ u1 u2 (fun j hj => (u3 j hj).1) hz.1 (by rw [hxz]; exact hx)
        (by rw [hxz]; exact hxp) hnw with hh | ⟨s, r, c1, c2, c3, c4, c5, c6⟩
      · exact ⟨hz.1.1, hxz, a, mem_insert_self _ _, hh⟩
      · refine ⟨hz.1.1, hxz, R.leave s, mem_insert_of_mem (mem_image_of_mem _ (mem_filter.2 ⟨?_, c1, r, c3, c4⟩)),
          c5, c6⟩
        exact LockSystem.mem_sections.2 ⟨c2, h.declared s c1⟩
    · rw [hk'] at hc; cases hc

end Verif.SR.Lp
