/-
The constraints of the LP-based analysis of the DFLP hold in every run in which tasks without remote blocking use only
resources on their own processors.
-/
import Verif.Spec.Dflp
import Verif.Model.LpDflp
import Verif.Lemmas.LpAgent

namespace Verif.SR.Lp
open Verif.Spec Finset
open Verif.Spec.Dpcp (Delayed Served AgentRun AgentPrompt)
open Verif.SR.Msrp (system)
open Verif.SR.Dpcp (Locality topology)

theorem dflp_prompt {n : ℕ} {S : LockSystem n} {prio : Fin n → ℕ} {loc : ℕ → ℕ} {ticket : Section n → ℕ} {R : LockRun n}
    (h : Dflp S prio loc ticket R) : AgentPrompt S prio loc R where
  toRequestRun := h.toRequestRun
  busy := by
    rintro s c t ⟨h1, h2, h3, h4, r, h5, rfl⟩
    obtain ⟨s', r', a1, a2, a3, a4, _⟩ := h.agents s r t h1 h2 h3 h4 h5
    exact ⟨s', a2, a1, r', a3, a4⟩
  jobs := h.jobs
  issue := h.issue

/-- Who delays a request. -/
theorem dflp_delayed {n : ℕ} {S : LockSystem n} {prio : Fin n → ℕ} {loc : ℕ → ℕ} {ticket : Section n → ℕ} {R : LockRun n}
    (h : Dflp S prio loc ticket R) : ∀ s c t, Delayed S loc R s c t → ∃ z, Served S loc R z c t ∧ R.enter z ≤ R.enter s := by
  rintro s c t ⟨h1, h2, h3, h4, r, h5, rfl⟩
  obtain ⟨s', r', a1, a2, a3, a4, a5⟩ := h.agents s r t h1 h2 h3 h4 h5
  refine ⟨s', ⟨a2, a1, r', a3, a4⟩, ?_⟩
  by_contra hc
  have := h.tickets s s' h1 a2.1 (not_le.1 hc)
  omega

variable {info : Info} {m : ℕ} {l : Locality} {loc : ℕ → ℕ} {R : LockRun info.length} {W : Fin info.length → ℕ} {H : ℕ}
variable {j : Job info.length} {V : Finset ℕ} {sec : ℕ → Section info.length} {kind : ℕ → BlockingType} {lo hi : ℕ}

/-- The sections that may delay a request: those issued no later. -/
def DflpDelay (R : LockRun info.length) (s z : Section info.length) : Prop := R.enter z ≤ R.enter s

namespace DflpView
variable {P : Program}

/-- Constraint 4: no blocking is regarded as direct. -/
theorem resource (hv : AgentView info l loc R (DflpDelay R) j V sec kind lo hi) (h : Charge info j.1 V sec)
    (h1 : OneEntry info) (hP : P.Feasible (assignment j.1 V sec kind)) :
    (dflpResource info j.1 (info.get j.1) P).Feasible (assignment j.1 V sec kind) := by
  classical
  refine feasible_foldl (fun t ht P hP => feasible_foldl (fun r hr P hP => ?_) hP) hP
  obtain ⟨ht, _⟩ := List.mem_filter.1 ht
  obtain ⟨x, rfl⟩ := mem_tasks.1 ht
  apply feasible_addInequality hP
  refine (h.terms_le h1 (kind := kind) (by decide) (fun ty _ x v r => rfl) hr).trans ?_
  have : slotsIn V sec kind [.direct] x r.resId = ∅ := by
    rw [eq_empty_iff_forall_notMem]
    intro u hu
    obtain ⟨h3, _, _, h6⟩ := mem_slotsIn.1 hu
    rcases hv.cases u h3 with ⟨h1, _⟩ | ⟨h1, _⟩ <;> rw [h1] at h6 <;> simp at h6
  rw [this]
  simp

/-- Constraint 5. -/
theorem cluster (hv : AgentView info l loc R (DflpDelay R) j V sec kind lo hi) (hr : RequestRun m (system info) R)
    (h : Charge info j.1 V sec) (h1 : OneEntry info)
    (hloc : ∀ t ∈ info, ∀ r ∈ t.requests, l.at r.resId = some (loc r.resId))
    (hP : P.Feasible (assignment j.1 V sec kind)) :
    (dflpCluster info l j.1 (info.get j.1) P).Feasible (assignment j.1 V sec kind) := by
  classical
  refine feasible_foldl (fun t ht P hP => feasible_foldl (fun c hc P hP => ?_) hP) hP
  obtain ⟨ht, _⟩ := List.mem_filter.1 ht
  obtain ⟨x, rfl⟩ := mem_tasks.1 ht
  apply feasible_addInequality hP
  rw [single_task]
  refine (h.termsFor_le h1 (kind := kind) (by decide) (fun ty _ x v r => rfl) (fun t => t.1 = (x : ℕ)) _).trans
    (Nat.cast_le.2 ?_)
  set B := ((system info).sections j).filter (fun s => R.issued s ∧ ∃ b ∈ (info.get j.1).requests,
    (system info).For s b.resId ∧ l.at b.resId = c) with hB
  have hBc : (B.image R.enter).card ≤ clusterCount l (info.get j.1) c := by
    refine card_image_le.trans ?_
    unfold clusterCount
    refine sections_count hr (fun r => decide (l.at r.resId = c)) ?_
    intro s hs
    obtain ⟨hs, hi, b, hb, hf, hc⟩ := mem_filter.1 hs
    have hj := (LockSystem.mem_sections.1 hs).1
    obtain ⟨b', hb', hr'⟩ := for_iff.1 hf
    rw [hj] at hb'
    have := h1.eq_of_mem (List.mem_of_getElem? hb') hb hr'
    rw [this] at hb'
    exact ⟨hi, hj, b, hb', by simpa using hc⟩
  refine le_trans (hr.card_le_instants (i := x) ?_) hBc
  intro z hz
  obtain ⟨u, hu, rfl⟩ := mem_image.1 hz
  obtain ⟨u1, u2, u3, r, u4, u5, u6⟩ := mem_filter.1 hu
  obtain ⟨s, d, d1, d2, d3, d4⟩ := hv.direct u1 u3
  have hat := served_at hloc d3 u4 u5
  obtain ⟨e1, e2, e3, e4, q, e5, e6⟩ := d2
  obtain ⟨b, hb, rfl⟩ := for_iff.1 e5
  have hbm : b ∈ (info.get j.1).requests := by rw [← d1]; exact List.mem_of_getElem? hb
  refine ⟨d3.1.1, Fin.ext u2, R.enter s, mem_image_of_mem _ (mem_filter.2 ⟨?_, e1, b, hbm, e5, ?_⟩), d4, ?_⟩
  · exact LockSystem.mem_sections.2 ⟨d1, hr.declared s e1⟩
  · rw [hloc _ (List.get_mem info _) b hbm, e6, ← hat]
    exact of_decide_eq_true u6
  · have := d3.1.2.2
    omega

/-- All constraints. -/
theorem feasible (hv : AgentView info l loc R (DflpDelay R) j V sec kind lo hi)
    (hr : RequestRun m (system info) R)
    (hb : BoundedBefore R.work R.sched W H) (hT : ∀ t ∈ info, 0 < t.period)
    (hW : ∀ i, W i ≤ (info.get i).response) (hhi : hi ≤ H) (hl : hi - lo ≤ (info.get j.1).response) (h1 : OneEntry info)
    (hinj : Function.Injective (fun i : Fin info.length => (info.get i).priority))
    (hloc : ∀ t ∈ info, ∀ r ∈ t.requests, l.at r.resId = some (loc r.resId)) (obj : Exp) :
    (dflpConstraints info l j.1 (info.get j.1) { objective := obj }).Feasible (assignment j.1 V sec kind) := by
  have h := hv.charge hr hb hT hW hhi hl
  have h0 : ({ objective := obj } : Program).Feasible (assignment j.1 V sec kind) := by
    have := feasible_empty (x := assignment j.1 V sec kind) (assignment_range h h1)
    exact ⟨this.eq, this.le, this.integer, this.binary, this.range⟩
  exact cluster hv hr h h1 hloc (resource hv h h1 (hv.lowers h h1 hinj (hv.topology h h1 hloc
    (AgentView.semMutex (kind := kind) h h1 h0))))

end DflpView
end Verif.SR.Lp
