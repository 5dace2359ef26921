/-
The constraints of the LP-based analysis of the FMLP+ hold in every run.
-/
import Verif.Lemmas.LpSem

namespace Verif.SR.Lp
open Verif.Spec Finset
open Verif.SR.Msrp (system)

variable {info : Info} {R : LockRun info.length} {W : Fin info.length → ℕ} {H : ℕ}
  {prio : Fin info.length → ℕ} {ticket : Section info.length → ℕ}

/-- In slot `u`, job `j` waits for a resource that is owned by section `s0` on another processor, which serves
section `z`. -/
def RemoteDelay (info : Info) (R : LockRun info.length) (j : Job info.length) (u : ℕ) (z s s0 : Section info.length) :
    Prop :=
  s.job = j ∧ R.Waits s u ∧ R.Owns s0 u ∧ (∃ r, (system info).For s r ∧ (system info).For s0 r) ∧
    (info.get s0.job.1).cluster ≠ (info.get j.1).cluster ∧
    (info.get z.job.1).cluster = (info.get s0.job.1).cluster ∧ R.enter z ≤ R.enter s

open Classical in
/-- In each slot of `V`, job `j` is delayed by section `sec u`. -/
structure FmlpView (info : Info) (R : LockRun info.length) (j : Job info.length) (V : Finset ℕ)
    (sec : ℕ → Section info.length) (kind : ℕ → BlockingType) (lo hi : ℕ) : Prop where
  range : ∀ u ∈ V, lo ≤ u ∧ u < hi
  served : ∀ u ∈ V, R.Owns (sec u) u ∧ (sec u).job ∈ R.sched u
  cases : ∀ u ∈ V, (kind u = .preempt ∧ (info.get (sec u).job.1).cluster = (info.get j.1).cluster ∧
      (info.get j.1).priority < (info.get (sec u).job.1).priority) ∨
    ∃ s s0, RemoteDelay info R j u (sec u) s s0 ∧ ((kind u = .direct ∧ sec u = s0) ∨ (kind u = .indirect ∧ sec u ≠ s0))
  lower : ∀ x, (info.get x).cluster = (info.get j.1).cluster →
    ((V.filter (fun u => (sec u).job.1 = x)).image sec).card ≤ arrivalsShm info (info.get j.1)

variable {j : Job info.length} {V : Finset ℕ} {sec : ℕ → Section info.length} {kind : ℕ → BlockingType} {lo hi : ℕ}

/-- Slots that are not preemptions. -/
theorem FmlpView.remote (hv : FmlpView info R j V sec kind lo hi) {u : ℕ} (hu : u ∈ V)
    (hk : kind u = .direct ∨ kind u = .indirect) :
    ∃ s s0, RemoteDelay info R j u (sec u) s s0 ∧ ((kind u = .direct ∧ sec u = s0) ∨ (kind u = .indirect ∧ sec u ≠ s0)) := by
  rcases hv.cases u hu with ⟨h1, _⟩ | h1
  · rw [h1] at hk
    rcases hk with hk | hk <;> cases hk
  · exact h1

theorem FmlpView.charge (hv : FmlpView info R j V sec kind lo hi) (h : PartRun (system info) R)
    (hb : BoundedBefore R.work R.sched W H) (hT : ∀ t ∈ info, 0 < t.period)
    (hW : ∀ i, W i ≤ (info.get i).response) (hhi : hi ≤ H) (hl : hi - lo ≤ (info.get j.1).response) :
    SemCharge info j.1 V sec kind where
  toCharge := by
    refine charge_of_owns h.toRequestRun hb hT hW hhi hl hv.range ?_
    intro u hu
    obtain ⟨h1, h2⟩ := hv.served u hu
    refine ⟨h1, h2, ?_⟩
    rcases hv.cases u hu with ⟨_, h3, h4⟩ | ⟨s, s0, ⟨_, _, _, _, h3, h4, _⟩, _⟩
    · intro hc; rw [hc] at h4; omega
    · intro hc; rw [hc] at h4; exact h3 h4.symm
  kinds := by
    intro u hu
    rcases hv.cases u hu with ⟨h3, _⟩ | ⟨s, s0, _, ⟨h3, _⟩ | ⟨h3, _⟩⟩ <;> rw [h3] <;> simp
  topology := by
    intro u hu hc hp
    rcases hv.cases u hu with ⟨_, h3, _⟩ | ⟨s, s0, _, ⟨h3, _⟩ | ⟨h3, _⟩⟩
    · exact hc h3
    · rw [hp] at h3; cases h3
    · rw [hp] at h3; cases h3
  higher := by
    intro u hu hc
    rcases hv.cases u hu with ⟨_, _, h3⟩ | ⟨s, s0, ⟨_, _, _, _, h3, h4, _⟩, _⟩
    · exact h3.le
    · exact absurd (h4.symm.trans hc) h3
  lower := hv.lower

open Classical in
/-- The sections of a task that delay the job: one for each request of the job. -/
theorem FmlpView.card_le (hv : FmlpView info R j V sec kind lo hi) (h : PartRun (system info) R) (x : Fin info.length)
    (Q : ℕ → Section info.length → Section info.length → Prop) {Y : Finset ℕ} (hY : Y ⊆ V)
    (hQ : ∀ u ∈ Y, (sec u).job.1 = x ∧ ∃ s s0, RemoteDelay info R j u (sec u) s s0 ∧ Q u s s0)
    {b : ℕ} (hB : ∀ B : Finset (Section info.length), (∀ s ∈ B, ∃ u ∈ Y, ∃ s0, (sec u).job.1 = x ∧
      RemoteDelay info R j u (sec u) s s0 ∧ Q u s s0) → B.card ≤ b) : (Y.image sec).card ≤ b := by
  rcases Y.eq_empty_or_nonempty with h0 | ⟨u0, hu0⟩
  · rw [h0]; simp
  have : Nonempty (Section info.length) := ⟨sec u0⟩
  have hQ' : ∀ u ∈ Y, ∃ s, ∃ s0, RemoteDelay info R j u (sec u) s s0 ∧ Q u s s0 := fun u hu => (hQ u hu).2
  choose! f hf using hQ'
  refine le_trans ?_ (hB (Y.image f) ?_)
  · refine le_trans (h.card_le_instants (i := x) (I := (Y.image f).image R.enter) ?_) card_image_le
    intro z hz
    obtain ⟨u, hu, rfl⟩ := mem_image.1 hz
    obtain ⟨s0, ⟨_, hw, _, _, _, _, hle⟩, _⟩ := hf u hu
    obtain ⟨ho, _⟩ := hv.served u (hY hu)
    refine ⟨ho.1, (hQ u hu).1, R.enter (f u), mem_image_of_mem _ (mem_image_of_mem _ hu), hle, ?_⟩
    have := hw.2.1
    have := ho.2.2
    omega
  · intro s hs
    obtain ⟨u, hu, rfl⟩ := mem_image.1 hs
    obtain ⟨s0, h1, h2⟩ := hf u hu
    exact ⟨u, hu, s0, (hQ u hu).1, h1, h2⟩

theorem perResource_eq (h1 : OneEntry info) {i : Fin info.length} {a : Request} (ha : a ∈ (info.get i).requests) :
    perResource (info.get i) a.resId = a.num := by
  have hn : ((info.get i).requests.map Request.resId).Nodup := h1 _ (List.get_mem info i)
  unfold perResource
  generalize (info.get i).requests = l at ha hn
  have hskip : ∀ (l : List Request) (c : ℕ), a.resId ∉ l.map Request.resId →
      l.foldl (fun c r => if r.resId = a.resId then r.num else c) c = c := by
    intro l
    induction l with
    | nil => intro c _; rfl
    | cons b l ih =>
      intro c hb
      rw [List.map_cons, List.mem_cons, not_or] at hb
      rw [List.foldl_cons, if_neg (fun e => hb.1 e.symm), ih _ hb.2]
  have : ∀ c, l.foldl (fun c r => if r.resId = a.resId then r.num else c) c = a.num := by
    induction l with
    | nil => cases ha
    | cons b l ih =>
      intro c
      rw [List.map_cons, List.nodup_cons] at hn
      rw [List.foldl_cons]
      rcases List.mem_cons.1 ha with rfl | ha
      · rw [if_pos rfl]
        exact hskip l _ hn.1
      · exact ih ha hn.2 _
  exact this 0

section
variable {P : Program}

/-- Constraint 12. -/
theorem FmlpView.fifoResource (hv : FmlpView info R j V sec kind lo hi) (h : PartRun (system info) R)
    (h1 : OneEntry info) (hs : SemCharge info j.1 V sec kind) (hP : P.Feasible (assignment j.1 V sec kind)) :
    (fifoResource info j.1 (info.get j.1) P).Feasible (assignment j.1 V sec kind) := by
  classical
  refine feasible_foldl (fun t ht P hP => feasible_foldl (fun r hr P hP => ?_) hP) hP
  obtain ⟨ht, hne⟩ := List.mem_filter.1 ht
  obtain ⟨x, rfl⟩ := mem_tasks.1 ht
  apply feasible_addInequality hP
  refine (hs.terms_le h1 (kind := kind) (by decide) (fun ty _ x v r => rfl) hr).trans ?_
  refine Nat.cast_le.2 ?_
  refine hv.card_le h x (fun u s s0 => (system info).For s r.resId) (Y := slotsIn V sec kind [.direct] x r.resId)
    (fun u hu => (mem_slotsIn.1 hu).1) ?_ ?_
  · intro u hu
    obtain ⟨hu, hx, hf, hk⟩ := mem_slotsIn.1 hu
    rw [List.mem_singleton] at hk
    obtain ⟨s, s0, hd, hc⟩ := hv.remote hu (Or.inl hk)
    refine ⟨Fin.ext hx, s, s0, hd, ?_⟩
    obtain ⟨q, hq1, hq2⟩ := hd.2.2.2.1
    rcases hc with ⟨_, hc⟩ | ⟨hc, _⟩
    · rw [hc] at hf
      obtain ⟨b, hb, hbr⟩ := for_iff.1 hf
      obtain ⟨b', hb', hbr'⟩ := for_iff.1 hq2
      rw [hb] at hb'
      cases hb'
      rw [← hbr, hbr']
      exact hq1
    · rw [hk] at hc; cases hc
  · intro B hB
    rcases B.eq_empty_or_nonempty with h0 | ⟨s0, hs0⟩
    · rw [h0]; simp
    obtain ⟨u, hu, z, hx, hd, hf⟩ := hB s0 hs0
    obtain ⟨a, ha, har⟩ := for_iff.1 hf
    rw [hd.1] at ha
    rw [← har, perResource_eq h1 (List.mem_of_getElem? ha), ← card_range a.num]
    apply card_le_card_of_injOn (fun s => s.inst)
    · intro s hs
      obtain ⟨u, hu, z, hx, hd, hf⟩ := hB s (mem_coe.1 hs)
      obtain ⟨q, hq, hlt⟩ := h.declared s hd.2.1.1
      obtain ⟨b, hb', rfl⟩ := lock_req hq
      obtain ⟨b', hb1, hb2⟩ := for_iff.1 hf
      rw [hb'] at hb1
      cases hb1
      rw [hd.1] at hb'
      rw [(h1.eq hb' ha (hb2.trans har.symm)).2] at hlt
      exact mem_coe.2 (mem_range.2 hlt)
    · intro s hs s' hs' heq
      obtain ⟨u, hu, z, hx, hd, hf⟩ := hB s (mem_coe.1 hs)
      obtain ⟨u', hu', z', hx', hd', hf'⟩ := hB s' (mem_coe.1 hs')
      obtain ⟨q, hq, hr⟩ := for_iff.1 hf
      obtain ⟨q', hq', hr'⟩ := for_iff.1 hf'
      have e1 := hd.1
      have e2 := hd'.1
      rw [e1] at hq
      rw [e2] at hq'
      have e3 := (h1.eq hq hq' (hr.trans hr'.symm)).1
      obtain ⟨sj, si, sn⟩ := s
      obtain ⟨sj', si', sn'⟩ := s'
      simp only at e1 e2 e3 heq
      rw [e1, e2, e3, heq]

/-- Constraint 13. -/
theorem FmlpView.totalFifo (hv : FmlpView info R j V sec kind lo hi) (h : PartRun (system info) R)
    (hb : BoundedBefore R.work R.sched W H) (hT : ∀ t ∈ info, 0 < t.period)
    (hW : ∀ i, W i ≤ (info.get i).response) (hhi : hi ≤ H) (hl : hi - lo ≤ (info.get j.1).response)
    (h1 : OneEntry info) (hs : SemCharge info j.1 V sec kind) (hP : P.Feasible (assignment j.1 V sec kind)) :
    (totalFifo info j.1 (info.get j.1) P).Feasible (assignment j.1 V sec kind) := by
  classical
  refine feasible_foldl (fun t ht P hP => ?_) hP
  obtain ⟨ht, hne⟩ := List.mem_filter.1 ht
  obtain ⟨x, rfl⟩ := mem_tasks.1 ht
  apply feasible_addInequality hP
  refine (hs.allTerms_le h1 (kind := kind) (by decide) (fun ty _ x v r => rfl) x).trans ?_
  refine Nat.cast_le.2 ?_
  refine hv.card_le h x (fun _ _ _ => True) (filter_subset _ _) ?_ ?_
  · intro u hu
    obtain ⟨hu, hx, hk⟩ := mem_filter.1 hu
    obtain ⟨s, s0, hd, _⟩ := hv.remote hu (by simpa using hk)
    exact ⟨hx, s, s0, hd, trivial⟩
  · intro B hB
    refine conflicts_count h hb hT hW h1 hhi j hl (lo := lo)
      (fun y => y.2.cluster = (info.get x).cluster ∧ y.1 ≠ (j.1 : ℕ)) ?_
    intro s hs
    obtain ⟨u, hu, s0, hx, ⟨d1, d2, d3, ⟨r, d4, d5⟩, d6, d7, _⟩, _⟩ := hB s hs
    obtain ⟨r1, r2⟩ := hv.range u (mem_filter.1 hu).1
    refine ⟨d1, s0, u, r, r1, r2, d2, d3, d4, d5, by rw [← d7, hx], ?_⟩
    intro hc
    rw [Fin.ext hc] at d6
    exact d6 rfl

/-- Constraint 14. -/
theorem FmlpView.fifoCluster (hv : FmlpView info R j V sec kind lo hi) (h : PartRun (system info) R)
    (hb : BoundedBefore R.work R.sched W H) (hT : ∀ t ∈ info, 0 < t.period)
    (hW : ∀ i, W i ≤ (info.get i).response) (hhi : hi ≤ H) (hl : hi - lo ≤ (info.get j.1).response)
    (h1 : OneEntry info) (hs : SemCharge info j.1 V sec kind) (hP : P.Feasible (assignment j.1 V sec kind)) :
    (fifoCluster info (info.get j.1) P).Feasible (assignment j.1 V sec kind) := by
  classical
  refine feasible_foldl (fun t ht P hP => ?_) hP
  obtain ⟨ht, hne⟩ := List.mem_filter.1 ht
  obtain ⟨x, rfl⟩ := mem_tasks.1 ht
  apply feasible_addInequality hP
  refine (hs.allTerms_le h1 (kind := kind) (by decide) (fun ty _ x v r => rfl) x).trans ?_
  refine Nat.cast_le.2 ?_
  refine hv.card_le h x (fun u _ s0 => sec u ≠ s0) (filter_subset _ _) ?_ ?_
  · intro u hu
    obtain ⟨hu, hx, hk⟩ := mem_filter.1 hu
    rw [List.mem_singleton] at hk
    obtain ⟨s, s0, hd, hc⟩ := hv.remote hu (Or.inr hk)
    refine ⟨hx, s, s0, hd, ?_⟩
    rcases hc with ⟨hc, _⟩ | ⟨_, hc⟩
    · rw [hk] at hc; cases hc
    · exact hc
  · intro B hB
    refine conflicts_count h hb hT hW h1 hhi j hl (lo := lo)
      (fun y => y.2.cluster = (info.get x).cluster ∧ y.1 ≠ (x : ℕ)) ?_
    intro s hs
    obtain ⟨u, hu, s0, hx, ⟨d1, d2, d3, ⟨r, d4, d5⟩, d6, d7, _⟩, hne⟩ := hB s hs
    have hu := (mem_filter.1 hu).1
    obtain ⟨r1, r2⟩ := hv.range u hu
    refine ⟨d1, s0, u, r, r1, r2, d2, d3, d4, d5, by rw [← d7, hx], ?_⟩
    intro hc
    obtain ⟨ho, _⟩ := hv.served u hu
    have a1 := h.owns_active ho
    have a2 := h.owns_active d3
    exact hne (h.incomplete_unique ho.1 d3.1 (hx.trans (Fin.ext hc).symm) a1.1 a1.2 a2.1 a2.2)

/-- **The assignment that describes delays under the FMLP+ is feasible.** -/
theorem FmlpView.feasible (hv : FmlpView info R j V sec kind lo hi) (h : PartRun (system info) R)
    (hb : BoundedBefore R.work R.sched W H) (hT : ∀ t ∈ info, 0 < t.period)
    (hW : ∀ i, W i ≤ (info.get i).response) (hhi : hi ≤ H) (hl : hi - lo ≤ (info.get j.1).response)
    (h1 : OneEntry info) (o : Exp) :
    (fmlpConstraints info j.1 (info.get j.1) { objective := o }).Feasible (assignment j.1 V sec kind) := by
  have hs := hv.charge h hb hT hW hhi hl
  have h0 : ({ objective := o } : Program).Feasible (assignment j.1 V sec kind) :=
    ⟨by simp, by simp, by simp, by simp, fun v _ => assignment_range hs.toCharge h1 v⟩
  unfold fmlpConstraints
  exact hv.fifoCluster h hb hT hW hhi hl h1 hs (hv.totalFifo h hb hT hW hhi hl h1 hs (hv.fifoResource h h1 hs
    (hs.lowerShm h1 (hs.topologyShm (hs.higherShm (hs.semMutex h1 h0))))))

end
end Verif.SR.Lp

namespace Verif.SR.Lp
open Verif.Spec Finset
open Verif.SR.Msrp (system)

variable {info : Info} {R : LockRun info.length} {W : Fin info.length → ℕ} {H : ℕ}
  {prio : Fin info.length → ℕ} {ticket : Section info.length → ℕ}

/-- Who is served while a job waits for a resource owned on another processor. -/
theorem remote_delay (h : FmlpPlus (system info) prio ticket R) {s : Section info.length} {u : ℕ} (hw : R.Waits s u)
    (hl : ¬ R.LocalWait (system info) s u) :
    ∃ z s0, R.Owns z u ∧ z.job ∈ R.sched u ∧ RemoteDelay info R s.job u z s s0 := by
  obtain ⟨s0, r, ho0, hf, hf0, hne, s', ho', hs', hp', hle⟩ := h.remote_served hw hl
  exact ⟨s', s0, ho', hs', rfl, hw, ho0, ⟨r, hf, hf0⟩, hne, hp', hle⟩

/-- A slot in which a job waits for a resource owned on another processor. -/
theorem remote_view (h : FmlpPlus (system info) prio ticket R) {s : Section info.length} {u : ℕ} (hw : R.Waits s u)
    (hl : ¬ R.LocalWait (system info) s u) :
    ∃ z ty, FmlpView info R s.job {u} (fun _ => z) (fun _ => ty) u (u + 1) ∧
      (info.get z.job.1).cluster ≠ (info.get s.job.1).cluster := by
  classical
  obtain ⟨z, s0, ho, hz, hd⟩ := remote_delay h hw hl
  have hc : (info.get z.job.1).cluster ≠ (info.get s.job.1).cluster := by
    obtain ⟨_, _, _, _, d6, d7, _⟩ := hd
    rw [d7]; exact d6
  refine ⟨z, if z = s0 then .direct else .indirect, ⟨?_, ?_, ?_, ?_⟩, hc⟩
  · intro v hv
    rw [mem_singleton] at hv
    omega
  · intro v hv
    rw [mem_singleton.1 hv]
    exact ⟨ho, hz⟩
  · intro v hv
    rw [mem_singleton.1 hv]
    refine Or.inr ⟨s, s0, hd, ?_⟩
    by_cases hzs : z = s0
    · exact Or.inl ⟨if_pos hzs, hzs⟩
    · exact Or.inr ⟨if_neg hzs, hzs⟩
  · intro x hx
    have : ({u} : Finset ℕ).filter (fun _ => z.job.1 = x) = ∅ := by
      rw [filter_eq_empty_iff]
      intro v _ hzx
      rw [hzx] at hc
      exact hc hx
    rw [this]
    simp

/-- The slots of a busy window in which neither task `k` nor a higher-priority one executes. -/
theorem window_view (h : FmlpPlus (system info) (fun i => (info.get i).priority) ticket R)
    (hb : BoundedBefore R.work R.sched W H) (hT : ∀ t ∈ info, 0 < t.period)
    (hW : ∀ i, W i ≤ (info.get i).response) (hWT : ∀ i, W i ≤ (info.get i).period) (h1 : OneEntry info)
    {k : Fin info.length} {Z : Fin info.length → Prop} {q0 q1 a e : ℕ}
    (hwin : Window R.work R.sched k Z q0 q1 a e) (heH : e ≤ H) (hlen : e - a ≤ (info.get k).response)
    (hown : ∀ t p, a ≤ t → t < e → Ready R.work R.sched (k, p) t → p = q1)
    (hinj : ∀ i : Fin info.length, (info.get i).cluster = (info.get k).cluster →
      (info.get i).priority = (info.get k).priority → i = k)
    (hZp : ∀ i, Z i → (info.get i).cluster = (info.get k).cluster ∧ (info.get i).priority < (info.get k).priority)
    (hZ : ∀ s u, Z s.job.1 → u < H → R.Waits s u → R.LocalWait (system info) s u) {V : Finset ℕ}
    (hV : ∀ t ∈ V, a ≤ t ∧ t < e ∧ ∀ j ∈ R.sched t, j.1 ≠ k ∧ ¬ ((info.get j.1).cluster = (info.get k).cluster ∧
      (info.get j.1).priority < (info.get k).priority)) :
    ∃ sec kind, FmlpView info R (k, q1) V sec kind a e := by
  classical
  have hall : ∀ t ∈ V, ∃ (z : Section info.length) (ty : BlockingType), R.Owns z t ∧ z.job ∈ R.sched t ∧
      ((ty = .preempt ∧ (info.get z.job.1).cluster = (info.get k).cluster ∧
        (info.get k).priority < (info.get z.job.1).priority ∧
        ∀ s, s.job.1 = k → R.Waits s t → ticket z < ticket s) ∨
      ∃ s s0, RemoteDelay info R (k, q1) t z s s0 ∧ ((ty = .direct ∧ z = s0) ∨ (ty = .indirect ∧ z ≠ s0))) := by
    intro t ht
    obtain ⟨t1, t2, t3⟩ := hV t ht
    rcases h.idle_cases hb hWT hwin heH hinj hZp hZ t1 t2 t3 with ⟨s, hk, _, _, hw, hl⟩ | ⟨z, ho, hz, hp, hpr, htk⟩
    · obtain ⟨z, s0, ho, hz, hd⟩ := remote_delay h hw hl
      have hj : s.job = (k, q1) := by
        have h4 := hown t s.job.2 t1 t2 (by rw [← hk]; exact h.waits_ready hw)
        rw [← hk, ← h4]
      rw [hj] at hd
      refine ⟨z, if z = s0 then .direct else .indirect, ho, hz, Or.inr ⟨s, s0, hd, ?_⟩⟩
      by_cases hzs : z = s0
      · exact Or.inl ⟨if_pos hzs, hzs⟩
      · exact Or.inr ⟨if_neg hzs, hzs⟩
    · exact ⟨z, .preempt, ho, hz, Or.inl ⟨rfl, hp, hpr, htk⟩⟩
  rcases V.eq_empty_or_nonempty with hV0 | ⟨t0, ht0⟩
  · refine ⟨fun _ => ⟨(k, q1), 0, 0⟩, fun _ => .preempt, ⟨?_, ?_, ?_, ?_⟩⟩
    · intro u hu; rw [hV0] at hu; simp at hu
    · intro u hu; rw [hV0] at hu; simp at hu
    · intro u hu; rw [hV0] at hu; simp at hu
    · intro x _; rw [hV0]; simp
  obtain ⟨z0, _⟩ := hall t0 ht0
  have : Nonempty (Section info.length) := ⟨z0⟩
  have : Nonempty BlockingType := ⟨.preempt⟩
  choose! sec kind hsec using hall
  refine ⟨sec, kind, fun u hu => ⟨(hV u hu).1, (hV u hu).2.1⟩, fun u hu => ⟨(hsec u hu).1, (hsec u hu).2.1⟩, ?_, ?_⟩
  · intro u hu
    rcases (hsec u hu).2.2 with ⟨c1, c2, c3, _⟩ | c
    · exact Or.inl ⟨c1, c2, c3⟩
    · exact Or.inr c
  · intro x hx
    set B := ((system info).sections (k, q1)).filter (fun s => ∃ u, a ≤ u ∧ u < e ∧ R.Waits s u ∧
      ¬ R.LocalWait (system info) s u) with hB
    have hBc : B.card ≤ conflicts (info.get k) ((tasks info).filter (fun t => t.2.cluster ≠ (info.get k).cluster)) := by
      refine conflicts_count h.toPartRun hb hT hW h1 heH (k, q1) hlen (lo := a)
        (fun t => t.2.cluster ≠ (info.get k).cluster) ?_
      intro s hs
      obtain ⟨hs, u, u1, u2, hw, hl⟩ := mem_filter.1 hs
      have hj := (LockSystem.mem_sections.1 hs).1
      obtain ⟨s0, r, ho0, hf, hf0, hne, _⟩ := h.remote_served hw hl
      rw [hj] at hne
      exact ⟨hj, s0, u, r, u1, u2, hw, ho0, hf, hf0, hne⟩
    have hI : (insert a (B.image R.acquire)).card ≤ arrivalsShm info (info.get k) := by
      have h2 := card_insert_le a (B.image R.acquire)
      have h3 : (B.image R.acquire).card ≤ B.card := card_image_le
      unfold arrivalsShm
      omega
    refine le_trans (h.card_le_instants (i := x) (I := insert a (B.image R.acquire)) ?_) hI
    intro z hz
    obtain ⟨u, hu, rfl⟩ := mem_image.1 hz
    obtain ⟨hu, hxz⟩ := mem_filter.1 hu
    obtain ⟨u1, u2, _⟩ := hV u hu
    obtain ⟨ho, _, hc⟩ := hsec u hu
    rcases hc with ⟨_, hp, hpr, htk⟩ | ⟨s, s0, ⟨_, _, _, _, d6, d7, _⟩, _⟩
    · rcases h.instant hb hWT hwin heH hZp hZ u1 u2 ho hp hpr htk with hh | ⟨s, v, c1, c2, c3, c4, c5, c0, c6, c7, c8⟩
      · exact ⟨ho.1, hxz, a, mem_insert_self _ _, hh⟩
      · have hj : s.job = (k, q1) := by
          have h4 := hown v s.job.2 c0 c6 (by rw [← c1]; exact h.waits_ready c4)
          rw [← c1, ← h4]
        refine ⟨ho.1, hxz, R.acquire s, mem_insert_of_mem (mem_image_of_mem _ (mem_filter.2 ⟨?_, v, c0, c6, c4, c5⟩)),
          c7, c8⟩
        exact LockSystem.mem_sections.2 ⟨hj, h.declared s c4.1⟩
    · rw [hxz] at d7
      exact absurd (d7.symm.trans hx) d6

end Verif.SR.Lp
