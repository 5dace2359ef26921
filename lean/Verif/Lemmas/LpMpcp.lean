/-
The constraints of the LP-based analysis of the MPCP hold in every run in which jobs wait only for resources that are
owned on other processors.
-/
import Verif.Lemmas.LpMpcpModel

namespace Verif.SR.Lp
open Verif.Spec Finset
open Verif.SR.Msrp (system)
open Verif.SR.Mpcp (mpcpCeilings ceilingAt ceiling_le)

variable {info : Info} {R : LockRun info.length} {W : Fin info.length → ℕ} {H : ℕ} {E : ℕ → ℕ}
  {ds : List (ℕ × Option ℕ)}

/-- In slot `u`, request `s` of job `j` waits for resource `r`, owned by section `s0` on another processor, which serves
section `z`. -/
structure MpcpDelay (info : Info) (R : LockRun info.length) (E : ℕ → ℕ) (j : Job info.length) (u : ℕ)
    (z s s0 : Section info.length) (r : ℕ) : Prop where
  job : s.job = j
  waits : R.Waits s u
  owns : R.Owns s0 u
  for_s : (system info).For s r
  for_s0 : (system info).For s0 r
  remote : (info.get s0.job.1).cluster ≠ (info.get j.1).cluster
  same : (info.get z.job.1).cluster = (info.get s0.job.1).cluster
  early : u < R.enter s + E r
  preempts : z ≠ s0 → z.job.1 ≠ s0.job.1 ∧ ∃ r', (system info).For z r' ∧
    (system info).CeilingGe (fun i => (info.get i).priority) (info.get s0.job.1).cluster r' r

open Classical in
/-- In each slot of `V`, job `j` is delayed by section `sec u`. -/
structure MpcpView (info : Info) (R : LockRun info.length) (E : ℕ → ℕ) (j : Job info.length) (V : Finset ℕ)
    (sec : ℕ → Section info.length) (kind : ℕ → BlockingType) (lo hi : ℕ) : Prop where
  range : ∀ u ∈ V, lo ≤ u ∧ u < hi
  served : ∀ u ∈ V, R.Owns (sec u) u ∧ (sec u).job ∈ R.sched u
  cases : ∀ u ∈ V, (kind u = .preempt ∧ (info.get (sec u).job.1).cluster = (info.get j.1).cluster ∧
      (info.get j.1).priority < (info.get (sec u).job.1).priority) ∨
    ∃ s s0 r, MpcpDelay info R E j u (sec u) s s0 r ∧
      ((kind u = .direct ∧ sec u = s0) ∨ (kind u = .indirect ∧ sec u ≠ s0))
  lower : ∀ x, (info.get x).cluster = (info.get j.1).cluster →
    ((V.filter (fun u => (sec u).job.1 = x)).image sec).card ≤ arrivalsShm info (info.get j.1)

variable {j : Job info.length} {V : Finset ℕ} {sec : ℕ → Section info.length} {kind : ℕ → BlockingType} {lo hi : ℕ}

theorem MpcpView.direct (hv : MpcpView info R E j V sec kind lo hi) {u : ℕ} (hu : u ∈ V) (hk : kind u = .direct) :
    ∃ s r, MpcpDelay info R E j u (sec u) s (sec u) r := by
  rcases hv.cases u hu with ⟨h1, _⟩ | ⟨s, s0, r, hd, ⟨_, h1⟩ | ⟨h1, _⟩⟩
  · rw [h1] at hk; cases hk
  · rw [← h1] at hd; exact ⟨s, r, hd⟩
  · rw [h1] at hk; cases hk

theorem MpcpView.indirect (hv : MpcpView info R E j V sec kind lo hi) {u : ℕ} (hu : u ∈ V) (hk : kind u = .indirect) :
    ∃ s s0 r, MpcpDelay info R E j u (sec u) s s0 r ∧ sec u ≠ s0 := by
  rcases hv.cases u hu with ⟨h1, _⟩ | ⟨s, s0, r, hd, ⟨h1, _⟩ | ⟨_, h1⟩⟩
  · rw [h1] at hk; cases hk
  · rw [h1] at hk; cases hk
  · exact ⟨s, s0, r, hd, h1⟩

theorem MpcpView.charge (hv : MpcpView info R E j V sec kind lo hi) (h : PartRun (system info) R)
    (hb : BoundedBefore R.work R.sched W H) (hT : ∀ t ∈ info, 0 < t.period)
    (hW : ∀ i, W i ≤ (info.get i).response) (hhi : hi ≤ H) (hl : hi - lo ≤ (info.get j.1).response) :
    SemCharge info j.1 V sec kind where
  toCharge := by
    refine charge_of_owns h.toRequestRun hb hT hW hhi hl hv.range ?_
    intro u hu
    obtain ⟨h1, h2⟩ := hv.served u hu
    refine ⟨h1, h2, ?_⟩
    rcases hv.cases u hu with ⟨_, h3, h4⟩ | ⟨s, s0, r, hd, _⟩
    · intro hc; rw [hc] at h4; omega
    · intro hc
      have := hd.same
      rw [hc] at this
      exact hd.remote this.symm
  kinds := by
    intro u hu
    rcases hv.cases u hu with ⟨h3, _⟩ | ⟨s, s0, r, _, ⟨h3, _⟩ | ⟨h3, _⟩⟩ <;> rw [h3] <;> simp
  topology := by
    intro u hu hc hp
    rcases hv.cases u hu with ⟨_, h3, _⟩ | ⟨s, s0, r, _, ⟨h3, _⟩ | ⟨h3, _⟩⟩
    · exact hc h3
    · rw [hp] at h3; cases h3
    · rw [hp] at h3; cases h3
  higher := by
    intro u hu hc
    rcases hv.cases u hu with ⟨_, _, h3⟩ | ⟨s, s0, r, hd, _⟩
    · exact h3.le
    · exact absurd (hd.same.symm.trans hc) hd.remote
  lower := hv.lower

/-! ### How many sections own resources for which a job waits -/

/-- Section `s0` owns resource `q` while a request of job `j` waits for it. -/
def Owner (info : Info) (R : LockRun info.length) (E : ℕ → ℕ) (j : Job info.length) (lo hi q : ℕ)
    (s0 : Section info.length) : Prop :=
  (system info).For s0 q ∧ ∃ s u, lo ≤ u ∧ u < hi ∧ s.job = j ∧ R.Waits s u ∧ R.Owns s0 u ∧ (system info).For s q ∧
    u < R.enter s + E q

theorem MpcpDelay.owner {u : ℕ} {z s s0 : Section info.length} {r : ℕ} (hd : MpcpDelay info R E j u z s s0 r)
    (h1 : lo ≤ u) (h2 : u < hi) : Owner info R E j lo hi r s0 :=
  ⟨hd.for_s0, s, u, h1, h2, hd.job, hd.waits, hd.owns, hd.for_s, hd.early⟩

/-- The lower-priority sections that own a resource. -/
theorem lower_owners_le (h : Spec.Mpcp (system info) (fun i => (info.get i).priority) R) (h1 : OneEntry info) {q : ℕ}
    {F : Finset (Section info.length)}
    (hF : ∀ s0 ∈ F, Owner info R E j lo hi q s0 ∧ (info.get j.1).priority < (info.get s0.job.1).priority) :
    F.card ≤ resourceCount (info.get j.1) q := by
  classical
  rcases F.eq_empty_or_nonempty with h0 | ⟨z0, _⟩
  · rw [h0]; simp
  have : Nonempty (Section info.length) := ⟨z0⟩
  have hF' : ∀ s0 ∈ F, ∃ s, ∃ u, s.job = j ∧ R.Waits s u ∧ R.Owns s0 u ∧ (system info).For s q := by
    intro s0 hs0
    obtain ⟨⟨_, s, u, _, _, h3, h4, h5, h6, _⟩, _⟩ := hF s0 hs0
    exact ⟨s, u, h3, h4, h5, h6⟩
  choose! f hf using hF'
  have hinj : Set.InjOn f F := by
    intro a ha b hb hab
    obtain ⟨u, h3, h4, h5, h6⟩ := hf a (mem_coe.1 ha)
    obtain ⟨u', h3', h4', h5', h6'⟩ := hf b (mem_coe.1 hb)
    obtain ⟨⟨fa, _⟩, pa⟩ := hF a (mem_coe.1 ha)
    obtain ⟨⟨fb, _⟩, pb⟩ := hF b (mem_coe.1 hb)
    have oa := h.lower_owner h4 h5 h6 fa (by rw [h3]; exact pa)
    have ob := h.lower_owner h4' h5' h6' fb (by rw [h3']; exact pb)
    rw [hab] at oa
    exact h.exclusive a b q _ oa ob fa fb
  rw [← card_image_of_injOn hinj]
  refine requests_card h.toRequestRun h1 j ?_
  intro s hs
  obtain ⟨a, ha, rfl⟩ := mem_image.1 hs
  obtain ⟨u, h3, h4, _, h6⟩ := hf a ha
  exact ⟨h4.1, h3, h6⟩

/-- The sections of a task that own a resource. -/
theorem task_owners_le (h : Spec.Mpcp (system info) (fun i => (info.get i).priority) R)
    (hb : BoundedBefore R.work R.sched W H) (hT : ∀ t ∈ info, 0 < t.period)
    (hW : ∀ i, W i ≤ (info.get i).response) (hhi : hi ≤ H) (h1 : OneEntry info) {x : Fin info.length} {a : Request}
    (ha : a ∈ (info.get x).requests) {F : Finset (Section info.length)}
    (hF : ∀ s0 ∈ F, Owner info R E j lo hi a.resId s0 ∧ s0.job.1 = x) :
    F.card ≤ requestCount (info.get j.1) (info.get x) a (E a.resId) := by
  classical
  rcases F.eq_empty_or_nonempty with h0 | ⟨z0, _⟩
  · rw [h0]; simp
  have : Nonempty (Section info.length) := ⟨z0⟩
  have hF' : ∀ s0 ∈ F, ∃ s, ∃ u, u < hi ∧ s.job = j ∧ R.Waits s u ∧ R.Owns s0 u ∧ (system info).For s a.resId ∧
      u < R.enter s + E a.resId := by
    intro s0 hs0
    obtain ⟨⟨_, s, u, _, h2, h3, h4, h5, h6, h7⟩, _⟩ := hF s0 hs0
    exact ⟨s, u, h2, h3, h4, h5, h6, h7⟩
  choose! f hf using hF'
  obtain ⟨d, hd⟩ := List.getElem?_of_mem ha
  have hfib : ∀ s ∈ F.image f, (F.filter (fun s0 => f s0 = s)).card ≤ (info.get x).maxNumJobs (E a.resId) * a.num := by
    intro s hs
    refine sections_le_jobs h.toRequestRun hb hT hW hd (lo := R.enter s) (hi := min hi (R.enter s + E a.resId))
      (by omega) (by omega) ?_
    intro z hz
    obtain ⟨hz1, hz2⟩ := mem_filter.1 hz
    obtain ⟨u, h2, h3, h4, h5, h6, h7⟩ := hf z hz1
    obtain ⟨⟨fz, _⟩, hx⟩ := hF z hz1
    rw [hz2] at h4 h7
    obtain ⟨b, hb1, hb2⟩ := for_iff.1 fz
    rw [hx] at hb1
    have hact := h.owns_active h5
    exact ⟨h5.1, hx, (h1.eq hb1 hd hb2).1, u, h4.2.1, lt_min h2 h7, hact.1, hact.2⟩
  refine (card_le_mul_card_image F _ hfib).trans ?_
  unfold requestCount
  apply Nat.mul_le_mul_left
  refine requests_card h.toRequestRun h1 j ?_
  intro s hs
  obtain ⟨z, hz, rfl⟩ := mem_image.1 hs
  obtain ⟨u, _, h3, h4, _, h6, _⟩ := hf z hz
  exact ⟨h4.1, h3, h6⟩

/-- The bounds on direct blocking are values of the iteration. -/
def Delays (info : Info) (ds : List (ℕ × Option ℕ)) (E : ℕ → ℕ) (k : Fin info.length) : Prop :=
  ∀ r ∈ (info.get k).requests, delayOf ds r.resId = some (E r.resId)

theorem owners_le (h : Spec.Mpcp (system info) (fun i => (info.get i).priority) R)
    (hb : BoundedBefore R.work R.sched W H) (hT : ∀ t ∈ info, 0 < t.period)
    (hW : ∀ i, W i ≤ (info.get i).response) (hhi : hi ≤ H) (hl : hi - lo ≤ (info.get j.1).response)
    (h1 : OneEntry info) (hinj : Function.Injective (fun i : Fin info.length => (info.get i).priority))
    (hds : Delays info ds E j.1) {x : Fin info.length} (hx : x ≠ j.1) {a : Request}
    (ha : a ∈ (info.get x).requests) {F : Finset (Section info.length)}
    (hF : ∀ s0 ∈ F, Owner info R E j lo hi a.resId s0 ∧ s0.job.1 = x) :
    F.card ≤ dbBound ds (info.get j.1) (info.get x) a.resId := by
  rcases F.eq_empty_or_nonempty with h0 | ⟨z0, hz0⟩
  · rw [h0]; simp
  obtain ⟨⟨_, s, u, _, _, hj, _, _, hfs, _⟩, _⟩ := hF z0 hz0
  obtain ⟨b, hb1, hb2⟩ := for_iff.1 hfs
  rw [hj] at hb1
  have hbm := List.mem_of_getElem? hb1
  have hacc : accessed (info.get j.1) a.resId = true := accessed_iff.2 ⟨b, hbm, hb2⟩
  have hins : F.card ≤ instances (info.get j.1) (info.get x) a := by
    obtain ⟨d, hd⟩ := List.getElem?_of_mem ha
    refine sections_le_instances h.toRequestRun hb hT hW hd hhi hl ?_
    intro z hz
    obtain ⟨⟨fz, s, u, h2, h3, _, _, h5, _⟩, hx⟩ := hF z hz
    obtain ⟨b, hb1, hb2⟩ := for_iff.1 fz
    rw [hx] at hb1
    have hact := h.owns_active h5
    exact ⟨h5.1, hx, (h1.eq hb1 hd hb2).1, u, h2, h3, hact.1, hact.2⟩
  rw [dbBound_eq ds _ h1 ha]
  unfold directBound
  rw [if_pos hacc]
  by_cases hp : (info.get x).priority < (info.get j.1).priority
  · rw [if_pos hp, ← hb2, hds b hbm]
    simp only
    rw [hb2]
    exact le_min hins (task_owners_le h hb hT hW hhi h1 ha hF)
  · rw [if_neg hp]
    refine le_min hins (lower_owners_le h h1 (lo := lo) (hi := hi) (E := E) (fun s0 hs0 => ⟨(hF s0 hs0).1, ?_⟩))
    rw [(hF s0 hs0).2]
    exact lt_of_le_of_ne (not_lt.1 hp) (fun hh => hx (hinj hh.symm))

/-- The sections of several tasks that own resources. -/
theorem owners_sum (h : Spec.Mpcp (system info) (fun i => (info.get i).priority) R)
    (hb : BoundedBefore R.work R.sched W H) (hT : ∀ t ∈ info, 0 < t.period)
    (hW : ∀ i, W i ≤ (info.get i).response) (hhi : hi ≤ H) (hl : hi - lo ≤ (info.get j.1).response)
    (h1 : OneEntry info) (hinj : Function.Injective (fun i : Fin info.length => (info.get i).priority))
    (hds : Delays info ds E j.1) (p : ℕ × TaskInfo → Prop) [DecidablePred p] (c : ℕ × TaskInfo → Request → Prop)
    [∀ t, DecidablePred (c t)] {O : Finset (Section info.length)}
    (hO : ∀ s0 ∈ O, s0.job.1 ≠ j.1 ∧ p ((s0.job.1 : ℕ), info.get s0.job.1) ∧ ∃ a ∈ (info.get s0.job.1).requests,
      c ((s0.job.1 : ℕ), info.get s0.job.1) a ∧ Owner info R E j lo hi a.resId s0) :
    O.card ≤ ∑ x ∈ univ.filter (fun x : Fin info.length => p ((x : ℕ), info.get x)),
      (((info.get x).requests.filter (fun r => dbBound ds (info.get j.1) (info.get x) r.resId > 0 ∧
        c ((x : ℕ), info.get x) r)).map (fun r => dbBound ds (info.get j.1) (info.get x) r.resId)).sum := by
  classical
  have hmaps : ∀ y ∈ O, y.job.1 ∈ univ.filter (fun i : Fin info.length => p ((i : ℕ), info.get i)) := by
    intro y hy
    exact mem_filter.2 ⟨mem_univ _, (hO y hy).2.1⟩
  rw [card_eq_sum_card_fiberwise hmaps]
  apply sum_le_sum
  intro x _
  set G := O.filter (fun y => y.job.1 = x) with hG
  have hnd : (info.get x).requests.Nodup := List.Nodup.of_map _ (h1 _ (List.get_mem info x))
  rw [← List.sum_toFinset _ (hnd.filter _)]
  have hsub : G ⊆ ((info.get x).requests.filter (fun r => dbBound ds (info.get j.1) (info.get x) r.resId > 0 ∧
        c ((x : ℕ), info.get x) r)).toFinset.biUnion (fun a => G.filter (fun y => Owner info R E j lo hi a.resId y)) := by
    intro y hy
    obtain ⟨hy', hx⟩ := mem_filter.1 hy
    obtain ⟨hne, _, a, ha, hc, ho⟩ := hO y hy'
    rw [hx] at hne ha hc
    have := owners_le h hb hT hW hhi hl h1 hinj hds hne ha (F := {y}) (by
      intro z hz
      rw [mem_singleton.1 hz]
      exact ⟨ho, hx⟩)
    rw [card_singleton] at this
    refine mem_biUnion.2 ⟨a, List.mem_toFinset.2 (List.mem_filter.2 ⟨ha, by simp only [decide_eq_true_eq]; exact ⟨this, hc⟩⟩),
      mem_filter.2 ⟨hy, ho⟩⟩
  refine (card_le_card hsub).trans (card_biUnion_le.trans (sum_le_sum ?_))
  intro a ha
  have ha := (List.mem_filter.1 (List.mem_toFinset.1 ha)).1
  by_cases hx : x = j.1
  · have : G.filter (fun y => Owner info R E j lo hi a.resId y) = ∅ := by
      rw [filter_eq_empty_iff]
      intro y hy
      obtain ⟨hy', hyx⟩ := mem_filter.1 hy
      exact absurd (hyx.trans hx) (hO y hy').1
    rw [this]
    simp
  · refine owners_le h hb hT hW hhi hl h1 hinj hds hx ha ?_
    intro z hz
    obtain ⟨hz, ho⟩ := mem_filter.1 hz
    exact ⟨ho, (mem_filter.1 hz).2⟩

/-- Sections that are determined by owners. -/
theorem card_image_le_of_factor {α β γ : Type} [DecidableEq β] [DecidableEq γ] {Y : Finset α} {f : α → β} {g : α → γ}
    (hfg : ∀ u ∈ Y, ∀ v ∈ Y, f u = f v → g u = g v) : (Y.image g).card ≤ (Y.image f).card := by
  rcases Y.eq_empty_or_nonempty with h0 | ⟨y0, _⟩
  · rw [h0]; simp
  have : Nonempty α := ⟨y0⟩
  have hex : ∀ b ∈ Y.image f, ∃ u, u ∈ Y ∧ f u = b := fun b hb => mem_image.1 hb
  choose! w hw using hex
  apply card_le_card_of_surjOn (fun b => g (w b))
  intro c hc
  obtain ⟨u, hu, rfl⟩ := mem_image.1 (mem_coe.1 hc)
  have hm := mem_image_of_mem f hu
  exact ⟨f u, mem_coe.2 hm, hfg _ (hw _ hm).1 _ hu (hw _ hm).2⟩

/-- A sum of cardinalities of disjoint sets. -/
theorem sum_disjoint_le {n : ℕ} {γ : Type} [DecidableEq γ] {S : Finset (Fin n)} {L : Fin n → Finset Request}
    {A : Fin n → Request → Finset γ} {T : Finset γ} (hsub : ∀ x ∈ S, ∀ a ∈ L x, A x a ⊆ T)
    (hdis : ∀ x ∈ S, ∀ a ∈ L x, ∀ x' ∈ S, ∀ a' ∈ L x', ∀ z, z ∈ A x a → z ∈ A x' a' → x = x' ∧ a = a') :
    ∑ x ∈ S, ∑ a ∈ L x, (A x a).card ≤ T.card := by
  rw [sum_sigma']
  rw [← card_biUnion]
  · apply card_le_card
    intro z hz
    obtain ⟨y, hy, hz⟩ := mem_biUnion.1 hz
    rw [mem_sigma] at hy
    exact hsub _ hy.1 _ hy.2 hz
  · rintro ⟨x, a⟩ hy ⟨x', a'⟩ hy' hne
    change Disjoint _ _
    rw [disjoint_left]
    intro z hz hz'
    rw [mem_coe, mem_sigma] at hy hy'
    obtain ⟨rfl, h2⟩ := hdis x hy.1 a hy.2 x' hy'.1 a' hy'.2 z hz hz'
    apply hne
    rw [h2]

theorem for_unique {z : Section info.length} {r r' : ℕ} (h : (system info).For z r) (h' : (system info).For z r') :
    r = r' := by
  obtain ⟨q, hq, hr⟩ := for_iff.1 h
  obtain ⟨q', hq', hr'⟩ := for_iff.1 h'
  rw [hq] at hq'
  cases hq'
  exact hr.symm.trans hr'

section
variable {P : Program}

/-- Constraints 15, 16 and 19. -/
theorem MpcpView.directConstraints (hv : MpcpView info R E j V sec kind lo hi)
    (h : Spec.Mpcp (system info) (fun i => (info.get i).priority) R)
    (hb : BoundedBefore R.work R.sched W H) (hT : ∀ t ∈ info, 0 < t.period)
    (hW : ∀ i, W i ≤ (info.get i).response) (hhi : hi ≤ H)
    (h1 : OneEntry info) (hinj : Function.Injective (fun i : Fin info.length => (info.get i).priority))
    (hds : Delays info ds E j.1)
    (hs : SemCharge info j.1 V sec kind) (hP : P.Feasible (assignment j.1 V sec kind)) :
    (directConstraints info ds j.1 (info.get j.1) P).Feasible (assignment j.1 V sec kind) := by
  classical
  unfold Lp.directConstraints
  refine feasible_foldl (fun q hq P hP => ?_) (feasible_foldl (fun t ht P hP => feasible_foldl (fun r hr P hP => ?_) hP) hP)
  · apply feasible_addInequality hP
    unfold directExp others
    rw [termSum_flatMap, tasks_sum]
    have hle : ∀ x : Fin info.length, termSum (assignment j.1 V sec kind)
        (((perResourceRequests (info.get j.1) (info.get x)).filter (fun r => r.resId = q)).flatMap (fun r =>
          terms (info.get j.1) [.direct] ((x : ℕ), info.get x) r 1)) ≤
        ((∑ a ∈ ((perResourceRequests (info.get j.1) (info.get x)).filter (fun r => r.resId = q)).toFinset,
          ((slotsIn V sec kind [.direct] x a.resId).image sec).card : ℕ) : ℚ) := by
      intro x
      have hnd : ((perResourceRequests (info.get j.1) (info.get x)).filter (fun r => r.resId = q)).Nodup :=
        ((List.Nodup.of_map _ (h1 _ (List.get_mem info x))).filter _).filter _
      rw [termSum_flatMap, Nat.cast_sum, ← List.sum_toFinset _ hnd]
      apply sum_le_sum
      intro a ha
      have ha := (List.mem_filter.1 (List.mem_filter.1 (List.mem_toFinset.1 ha)).1).1
      exact hs.terms_le h1 (kind := kind) (by decide) (fun ty _ x v r => rfl) ha
    refine (sum_le_sum (fun x _ => hle x)).trans ?_
    rw [← Nat.cast_sum]
    refine Nat.cast_le.2 ?_
    set S := univ.filter (fun i : Fin info.length => (i : ℕ) ≠ (j.1 : ℕ)) with hS
    refine le_trans (sum_disjoint_le (T := (V.filter (fun u => kind u = .direct ∧ (system info).For (sec u) q ∧
      (sec u).job.1 ≠ j.1 ∧ ∃ a ∈ perResourceRequests (info.get j.1) (info.get (sec u).job.1), a.resId = q)).image sec)
      ?_ ?_) (lower_owners_le h h1 (E := E) (lo := lo) (hi := hi) (j := j) ?_)
    · intro x hx a ha z hz
      obtain ⟨u, hu, rfl⟩ := mem_image.1 hz
      obtain ⟨u1, u2, u3, u4⟩ := mem_slotsIn.1 hu
      obtain ⟨ha1, ha2⟩ := List.mem_filter.1 (List.mem_toFinset.1 ha)
      have ha2 : a.resId = q := by simpa using ha2
      have e : (sec u).job.1 = x := Fin.ext u2
      refine mem_image_of_mem _ (mem_filter.2 ⟨u1, by simpa using u4, ha2 ▸ u3, ?_, a, ?_, ha2⟩)
      · rw [e]
        intro hc
        rw [hc] at hx
        simp [hS] at hx
      · rw [e]; exact ha1
    · intro x hx a ha x' hx' a' ha' z hz hz'
      obtain ⟨u, hu, rfl⟩ := mem_image.1 hz
      obtain ⟨u', hu', he⟩ := mem_image.1 hz'
      obtain ⟨u1, u2, u3, u4⟩ := mem_slotsIn.1 hu
      obtain ⟨u1', u2', u3', u4'⟩ := mem_slotsIn.1 hu'
      rw [he] at u2' u3'
      have e : x = x' := Fin.ext (u2.symm.trans u2')
      refine ⟨e, ?_⟩
      subst e
      have ha := (List.mem_filter.1 (List.mem_filter.1 (List.mem_toFinset.1 ha)).1).1
      have ha' := (List.mem_filter.1 (List.mem_filter.1 (List.mem_toFinset.1 ha')).1).1
      exact h1.eq_of_mem ha ha' (for_unique u3 u3')
    · intro s0 hs0
      obtain ⟨u, hu, rfl⟩ := mem_image.1 hs0
      obtain ⟨hu, u1, u2, u3, a, ha, u4⟩ := mem_filter.1 hu
      obtain ⟨s, r, hd⟩ := hv.direct hu u1
      obtain ⟨r1, r2⟩ := hv.range u hu
      have er : r = q := for_unique hd.for_s0 u2
      subst er
      refine ⟨hd.owner r1 r2, ?_⟩
      obtain ⟨b, hb1, hb2⟩ := for_iff.1 hd.for_s
      rw [hd.job] at hb1
      have hacc : accessed (info.get j.1) a.resId = true :=
        accessed_iff.2 ⟨b, List.mem_of_getElem? hb1, hb2.trans u4.symm⟩
      have := (List.mem_filter.1 ha).2
      rw [hacc] at this
      simp only [not_true_eq_false, or_false, decide_eq_true_eq] at this
      exact lt_of_le_of_ne (not_lt.1 this) (fun hh => u3 (hinj hh.symm))
  · obtain ⟨ht, hne⟩ := List.mem_filter.1 ht
    obtain ⟨x, rfl⟩ := mem_tasks.1 ht
    simp only at hr ⊢
    by_cases hc : (info.get x).priority < (info.get j.1).priority ∧ accessed (info.get j.1) r.resId = true
    · rw [if_pos hc]
      obtain ⟨b, hb1, hb2⟩ := accessed_iff.1 hc.2
      rw [← hb2, hds b hb1]
      simp only
      apply feasible_addInequality hP
      refine (hs.terms_le h1 (kind := kind) (by decide) (fun ty _ x v r => rfl) hr).trans ?_
      refine Nat.cast_le.2 ?_
      rw [hb2]
      refine task_owners_le h hb hT hW hhi h1 (lo := lo) (hi := hi) hr ?_
      intro z hz
      obtain ⟨u, hu, rfl⟩ := mem_image.1 hz
      obtain ⟨u1, u2, u3, u4⟩ := mem_slotsIn.1 hu
      obtain ⟨s, q, hd⟩ := hv.direct u1 (by simpa using u4)
      obtain ⟨r1, r2⟩ := hv.range u u1
      have er : q = r.resId := for_unique hd.for_s0 u3
      rw [er] at hd
      exact ⟨hd.owner r1 r2, Fin.ext u2⟩
    · rw [if_neg hc]
      exact hP

/-- Sections that delay a job indirectly, and the owners of the resources for which it waits. -/
theorem MpcpView.indirect_le (hv : MpcpView info R E j V sec kind lo hi)
    (h : Spec.Mpcp (system info) (fun i => (info.get i).priority) R)
    (hb : BoundedBefore R.work R.sched W H) (hT : ∀ t ∈ info, 0 < t.period)
    (hW : ∀ i, W i ≤ (info.get i).response) (hhi : hi ≤ H) (hl : hi - lo ≤ (info.get j.1).response)
    (h1 : OneEntry info) (hinj : Function.Injective (fun i : Fin info.length => (info.get i).priority))
    (hds : Delays info ds E j.1) (p : ℕ × TaskInfo → Prop) [DecidablePred p] (c : ℕ × TaskInfo → Request → Prop)
    [∀ t, DecidablePred (c t)] {x : Fin info.length} {Y : Finset ℕ} (hY : ∀ u ∈ Y, u ∈ V ∧ kind u = .indirect ∧
      (sec u).job.1 = x)
    (hO : ∀ u ∈ Y, ∀ s s0 a b, MpcpDelay info R E j u (sec u) s s0 a.resId → s0.job.1 ≠ x →
      (info.get s0.job.1).cluster = (info.get x).cluster → (info.get s0.job.1).cluster ≠ (info.get j.1).cluster →
      a ∈ (info.get s0.job.1).requests → b ∈ (info.get x).requests → (system info).For (sec u) b.resId →
      ceilingAt (mpcpCeilings info) (info.get x).cluster b.resId ≤
        ceilingAt (mpcpCeilings info) (info.get s0.job.1).cluster a.resId →
      p ((s0.job.1 : ℕ), info.get s0.job.1) ∧ c ((s0.job.1 : ℕ), info.get s0.job.1) a) [DecidableEq (Section info.length)] :
    (Y.image sec).card ≤ ∑ x ∈ univ.filter (fun x : Fin info.length => p ((x : ℕ), info.get x)),
      (((info.get x).requests.filter (fun r => dbBound ds (info.get j.1) (info.get x) r.resId > 0 ∧
        c ((x : ℕ), info.get x) r)).map (fun r => dbBound ds (info.get j.1) (info.get x) r.resId)).sum := by
  classical
  rcases Y.eq_empty_or_nonempty with h0 | ⟨u0, hu0⟩
  · rw [h0]; simp
  have : Nonempty (Section info.length) := ⟨sec u0⟩
  have hex : ∀ u ∈ Y, ∃ s0, ∃ s r, MpcpDelay info R E j u (sec u) s s0 r ∧ sec u ≠ s0 := by
    intro u hu
    obtain ⟨hu, hk, _⟩ := hY u hu
    obtain ⟨s, s0, r, hd, hne⟩ := hv.indirect hu hk
    exact ⟨s0, s, r, hd, hne⟩
  choose! f hf using hex
  refine le_trans (card_image_le_of_factor (f := f) ?_) (owners_sum h hb hT hW hhi hl h1 hinj hds p c ?_)
  · intro u hu v hv' huv
    obtain ⟨s, r, hd, hne⟩ := hf u hu
    obtain ⟨s', r', hd', hne'⟩ := hf v hv'
    obtain ⟨u1, _, u3⟩ := hY u hu
    obtain ⟨v1, _, v3⟩ := hY v hv'
    have hz := (hv.served u u1).1
    have hz' := (hv.served v v1).1
    exact h.preempt_unique hz hz' hd.owns (huv ▸ hd'.owns) (u3.trans v3.symm) hd.same (hd.preempts hne).1
  · intro s0 hs0
    obtain ⟨u, hu, rfl⟩ := mem_image.1 hs0
    obtain ⟨s, r, hd, hne⟩ := hf u hu
    obtain ⟨u1, _, u3⟩ := hY u hu
    obtain ⟨r1, r2⟩ := hv.range u u1
    obtain ⟨n1, r', hf', hce⟩ := hd.preempts hne
    obtain ⟨a, ha, rfl⟩ := for_iff.1 hd.for_s0
    obtain ⟨b, hb', rfl⟩ := for_iff.1 hf'
    have ha := List.mem_of_getElem? ha
    have hb' := List.mem_of_getElem? hb'
    have hsame := hd.same
    rw [u3] at n1 hb' hsame
    have hcl := ceiling_le ha hb' hsame hce
    have hnj : (f u).job.1 ≠ j.1 := by
      intro hc
      have := hd.remote
      rw [hc] at this
      exact this rfl
    obtain ⟨p1, p2⟩ := hO u hu s (f u) a b hd n1.symm hsame.symm hd.remote ha hb' hf' hcl
    exact ⟨hnj, p1, a, ha, p2, hd.owner r1 r2⟩

/-- Constraint 17. -/
theorem MpcpView.taskIndirect (hv : MpcpView info R E j V sec kind lo hi)
    (h : Spec.Mpcp (system info) (fun i => (info.get i).priority) R)
    (hb : BoundedBefore R.work R.sched W H) (hT : ∀ t ∈ info, 0 < t.period)
    (hW : ∀ i, W i ≤ (info.get i).response) (hhi : hi ≤ H) (hl : hi - lo ≤ (info.get j.1).response)
    (h1 : OneEntry info) (hinj : Function.Injective (fun i : Fin info.length => (info.get i).priority))
    (hds : Delays info ds E j.1)
    (hs : SemCharge info j.1 V sec kind) (hP : P.Feasible (assignment j.1 V sec kind)) :
    (taskIndirect info ds (info.get j.1) P).Feasible (assignment j.1 V sec kind) := by
  classical
  refine feasible_foldl (fun t ht P hP => ?_) hP
  obtain ⟨ht, hne⟩ := List.mem_filter.1 ht
  obtain ⟨x, rfl⟩ := mem_tasks.1 ht
  apply feasible_addInequality hP
  refine (hs.allTerms_le h1 (kind := kind) (by decide) (fun ty _ x v r => rfl) x).trans ?_
  refine Nat.cast_le.2 ?_
  unfold taskIndirectBound remoteTasks
  rw [tasks_sum]
  simp only
  rw [← sum_filter, filter_filter]
  refine le_trans (hv.indirect_le h hb hT hW hhi hl h1 hinj hds (x := x)
    (fun t => t.2.cluster ≠ (info.get j.1).cluster ∧ ((info.get x).cluster = t.2.cluster ∧ (x : ℕ) ≠ t.1))
    (fun t r => ((info.get x).requests.any (fun l => ceilingAt (mpcpCeilings info) (info.get x).cluster l.resId ≤
      ceilingAt (mpcpCeilings info) t.2.cluster r.resId)) = true) ?_ ?_) (le_of_eq ?_)
  · intro u hu
    obtain ⟨u1, u2, u3⟩ := mem_filter.1 hu
    exact ⟨u1, by simpa using u3, u2⟩
  · intro u _ s s0 a b hd n1 n2 n3 ha hb' _ hcl
    refine ⟨⟨n3, n2.symm, fun hc => n1 (Fin.ext hc.symm)⟩, ?_⟩
    rw [List.any_eq_true]
    exact ⟨b, hb', by simpa using hcl⟩
  · rfl

/-- Constraint 18. -/
theorem MpcpView.requestIndirect (hv : MpcpView info R E j V sec kind lo hi)
    (h : Spec.Mpcp (system info) (fun i => (info.get i).priority) R)
    (hb : BoundedBefore R.work R.sched W H) (hT : ∀ t ∈ info, 0 < t.period)
    (hW : ∀ i, W i ≤ (info.get i).response) (hhi : hi ≤ H) (hl : hi - lo ≤ (info.get j.1).response)
    (h1 : OneEntry info) (hinj : Function.Injective (fun i : Fin info.length => (info.get i).priority))
    (hds : Delays info ds E j.1)
    (hs : SemCharge info j.1 V sec kind) (hP : P.Feasible (assignment j.1 V sec kind)) :
    (requestIndirect info ds j.1 (info.get j.1) P).Feasible (assignment j.1 V sec kind) := by
  classical
  refine feasible_foldl (fun t ht P hP => feasible_foldl (fun r hr P hP => ?_) hP) hP
  obtain ⟨ht, hne⟩ := List.mem_filter.1 ht
  obtain ⟨x, rfl⟩ := mem_tasks.1 ht
  apply feasible_addInequality hP
  refine (hs.terms_le h1 (kind := kind) (by decide) (fun ty _ x v r => rfl) hr).trans ?_
  refine Nat.cast_le.2 ?_
  unfold preemptionOpportunities
  rw [tasks_sum]
  simp only
  refine le_trans (hv.indirect_le h hb hT hW hhi hl h1 hinj hds (x := x)
    (fun t => t.2.cluster = (info.get x).cluster ∧ t.1 ≠ (x : ℕ) ∧ t.1 ≠ (j.1 : ℕ))
    (fun t a => a.resId ≠ r.resId ∧ ceilingAt (mpcpCeilings info) t.2.cluster a.resId ≥
      ceilingAt (mpcpCeilings info) (info.get x).cluster r.resId) ?_ ?_) (le_of_eq ?_)
  · intro u hu
    obtain ⟨u1, u2, u3, u4⟩ := mem_slotsIn.1 hu
    exact ⟨u1, by simpa using u4, Fin.ext u2⟩
  · intro u hu s s0 a b hd n1 n2 n3 ha hb' hfb hcl
    obtain ⟨u1, u2, u3, u4⟩ := mem_slotsIn.1 hu
    have e := for_unique u3 hfb
    rw [← e] at hcl
    refine ⟨⟨n2, fun hc => n1 (Fin.ext hc), fun hc => ?_⟩, ?_, hcl⟩
    · rw [Fin.ext hc] at n3
      exact n3 rfl
    · intro hc
      have := h.exclusive s0 (sec u) a.resId u hd.owns (hv.served u u1).1 hd.for_s0 (hc ▸ u3)
      rw [this] at n1
      exact n1 (Fin.ext u2)
  · apply sum_congr rfl
    intro y _
    congr 2
    apply List.filter_congr
    intro a _
    simp only [decide_eq_decide]
    tauto

/-- Constraint 20. -/
theorem MpcpView.remoteConstraint (hv : MpcpView info R E j V sec kind lo hi)
    (h : Spec.Mpcp (system info) (fun i => (info.get i).priority) R) (hhi : hi ≤ H)
    (h1 : OneEntry info) (hds : Delays info ds E j.1)
    (hone : ∀ s : Section info.length, s.job = j → ∀ r, (info.get s.job.1).requests[s.idx]? = some r →
      ∀ t, t < H → R.Waits s t → t < R.enter s + E r.resId)
    (hs : SemCharge info j.1 V sec kind) (hP : P.Feasible (assignment j.1 V sec kind)) :
    (remoteConstraint info ds (info.get j.1) P).Feasible (assignment j.1 V sec kind) := by
  classical
  unfold Lp.remoteConstraint
  apply feasible_addInequality hP
  have hrb : remoteBound ds (info.get j.1) = ((info.get j.1).requests.map (fun r => E r.resId * r.num)).sum := by
    unfold remoteBound
    congr 1
    apply List.map_congr_left
    intro r hr
    rw [hds r hr]
    rfl
  rw [hrb]
  have hw := Verif.SR.Mpcp.waits_le_of h.toRequestRun j hone
  refine le_trans ?_ (Nat.cast_le.2 hw)
  unfold remoteTasks
  rw [termSum_flatMap, tasks_sum]
  have hle : ∀ x : Fin info.length, termSum (assignment j.1 V sec kind)
      ((info.get x).requests.flatMap (fun r =>
        terms (info.get j.1) [.direct, .indirect] ((x : ℕ), info.get x) r r.length)) ≤
      ((∑ a ∈ (info.get x).requests.toFinset, (slotsIn V sec kind [.direct, .indirect] x a.resId).card : ℕ) : ℚ) := by
    intro x
    rw [termSum_flatMap, Nat.cast_sum, ← List.sum_toFinset _ (List.Nodup.of_map _ (h1 _ (List.get_mem info x)))]
    apply sum_le_sum
    intro a ha
    rw [hs.terms_sum h1 (kind := kind) (by decide) (fun ty _ x v r => rfl) (List.mem_toFinset.1 ha)]
    by_cases hl : a.length = 0
    · rw [hl]; simp
    · rw [mul_div_assoc, mul_div_cancel₀ _ (by exact_mod_cast hl)]
  refine (sum_le_sum (fun x _ => hle x)).trans ?_
  rw [← Nat.cast_sum]
  refine Nat.cast_le.2 ?_
  apply sum_disjoint_le
  · intro x _ a _ u hu
    obtain ⟨u1, u2, u3, u4⟩ := mem_slotsIn.1 hu
    obtain ⟨r1, r2⟩ := hv.range u u1
    refine mem_filter.2 ⟨mem_range.2 (by omega), ?_⟩
    rcases hv.cases u u1 with ⟨hc, _⟩ | ⟨s, s0, r, hd, _⟩
    · rw [hc] at u4; simp at u4
    · exact ⟨s, hd.job, hd.waits⟩
  · intro x _ a ha x' _ a' ha' u hu hu'
    obtain ⟨u1, u2, u3, u4⟩ := mem_slotsIn.1 hu
    obtain ⟨_, u2', u3', _⟩ := mem_slotsIn.1 hu'
    have e : x = x' := Fin.ext (u2.symm.trans u2')
    refine ⟨e, ?_⟩
    subst e
    exact h1.eq_of_mem (List.mem_toFinset.1 ha) (List.mem_toFinset.1 ha') (for_unique u3 u3')

/-- **The assignment that describes delays under the MPCP is feasible.** -/
theorem MpcpView.feasible (hv : MpcpView info R E j V sec kind lo hi)
    (h : Spec.Mpcp (system info) (fun i => (info.get i).priority) R)
    (hb : BoundedBefore R.work R.sched W H) (hT : ∀ t ∈ info, 0 < t.period)
    (hW : ∀ i, W i ≤ (info.get i).response) (hhi : hi ≤ H) (hl : hi - lo ≤ (info.get j.1).response)
    (h1 : OneEntry info) (hinj : Function.Injective (fun i : Fin info.length => (info.get i).priority))
    (hds : Delays info ds E j.1)
    (hone : ∀ s : Section info.length, s.job = j → ∀ r, (info.get s.job.1).requests[s.idx]? = some r →
      ∀ t, t < H → R.Waits s t → t < R.enter s + E r.resId) (o : Exp) :
    (mpcpConstraints info ds j.1 (info.get j.1) { objective := o }).Feasible (assignment j.1 V sec kind) := by
  have hs := hv.charge h.toPartRun hb hT hW hhi hl
  have h0 : ({ objective := o } : Program).Feasible (assignment j.1 V sec kind) :=
    ⟨by simp, by simp, by simp, by simp, fun v _ => assignment_range hs.toCharge h1 v⟩
  unfold mpcpConstraints
  exact hv.remoteConstraint h hhi h1 hds hone hs (hv.requestIndirect h hb hT hW hhi hl h1 hinj hds hs
    (hv.taskIndirect h hb hT hW hhi hl h1 hinj hds hs (hv.directConstraints h hb hT hW hhi h1 hinj hds hs
      (hs.lowerShm h1 (hs.topologyShm (hs.higherShm (hs.semMutex h1 h0)))))))

end
end Verif.SR.Lp

namespace Verif.SR.Lp
open Verif.Spec Finset
open Verif.SR.Msrp (system)

variable {info : Info} {R : LockRun info.length} {W : Fin info.length → ℕ} {H : ℕ} {E : ℕ → ℕ}

/-- Tasks of one processor do not share resources. -/
def NoLocalSharing (info : Info) : Prop :=
  ∀ x y : Fin info.length, x ≠ y → (info.get x).cluster = (info.get y).cluster →
    ∀ r ∈ (info.get x).requests, ∀ r' ∈ (info.get y).requests, r.resId ≠ r'.resId

/-- Who is served while a job waits. -/
theorem mpcp_delay (h : Spec.Mpcp (system info) (fun i => (info.get i).priority) R) (hsep : NoLocalSharing info)
    {s : Section info.length} {u : ℕ} (hw : R.Waits s u)
    (hE : ∀ r, (info.get s.job.1).requests[s.idx]? = some r → u < R.enter s + E r.resId) :
    ∃ z s0 r, R.Owns z u ∧ z.job ∈ R.sched u ∧ MpcpDelay info R E s.job u z s s0 r := by
  obtain ⟨q, hq, _⟩ := h.declared s hw.1
  obtain ⟨a, ha, rfl⟩ := lock_req hq
  have hf : (system info).For s a.resId := for_iff.2 ⟨a, ha, rfl⟩
  obtain ⟨s0, z, h1, h2, h3, h4, h5, h6, h7⟩ := h.served hw hf
  refine ⟨z, s0, a.resId, h4, h5, rfl, hw, h1, hf, h2, ?_, h6, hE a ha, ?_⟩
  · intro hc
    obtain ⟨b, hb, hb'⟩ := for_iff.1 h2
    exact hsep _ _ h3 hc b (List.mem_of_getElem? hb) a (List.mem_of_getElem? ha) hb'
  · intro hne
    rcases h7 with h7 | h7
    · exact absurd h7 hne
    · exact h7

/-- A slot in which a job waits. -/
theorem mpcp_remote_view (h : Spec.Mpcp (system info) (fun i => (info.get i).priority) R) (hsep : NoLocalSharing info)
    {s : Section info.length} {u : ℕ} (hw : R.Waits s u)
    (hE : ∀ r, (info.get s.job.1).requests[s.idx]? = some r → u < R.enter s + E r.resId) :
    ∃ z ty, MpcpView info R E s.job {u} (fun _ => z) (fun _ => ty) u (u + 1) ∧
      (info.get z.job.1).cluster ≠ (info.get s.job.1).cluster := by
  classical
  obtain ⟨z, s0, r, ho, hz, hd⟩ := mpcp_delay h hsep hw hE
  have hc : (info.get z.job.1).cluster ≠ (info.get s.job.1).cluster := by
    rw [hd.same]; exact hd.remote
  refine ⟨z, if z = s0 then .direct else .indirect, ⟨?_, ?_, ?_, ?_⟩, hc⟩
  · intro v hv
    rw [mem_singleton] at hv
    omega
  · intro v hv
    rw [mem_singleton.1 hv]
    exact ⟨ho, hz⟩
  · intro v hv
    rw [mem_singleton.1 hv]
    refine Or.inr ⟨s, s0, r, hd, ?_⟩
    by_cases hzs : z = s0
    · exact Or.inl ⟨if_pos hzs, hzs⟩
    · exact Or.inr ⟨if_neg hzs, hzs⟩
  · intro x hx
    have : ({u} : Finset ℕ).filter (fun _ => z.job.1 = x) = ∅ := by
      rw [filter_eq_empty_iff]
      intro v _ hzx
      rw [hzx] at hc
      exact hc hx
    rw [this]
    simp

/-- The slots of a busy window in which neither task `k` nor a higher-priority one executes. -/
theorem mpcp_window_view (h : Spec.Mpcp (system info) (fun i => (info.get i).priority) R) (hsep : NoLocalSharing info)
    (hb : BoundedBefore R.work R.sched W H) (hT : ∀ t ∈ info, 0 < t.period)
    (hW : ∀ i, W i ≤ (info.get i).response) (hWT : ∀ i, W i ≤ (info.get i).period) (h1 : OneEntry info)
    {k : Fin info.length} {Z : Fin info.length → Prop} {q0 q1 a e : ℕ}
    (hwin : Window R.work R.sched k Z q0 q1 a e) (heH : e ≤ H) (hlen : e - a ≤ (info.get k).response)
    (hown : ∀ t p, a ≤ t → t < e → Ready R.work R.sched (k, p) t → p = q1)
    (hinj : ∀ i : Fin info.length, (info.get i).cluster = (info.get k).cluster →
      (info.get i).priority = (info.get k).priority → i = k)
    (hE : ∀ s : Section info.length, s.job.1 = k → ∀ r, (info.get s.job.1).requests[s.idx]? = some r →
      ∀ t, t < H → R.Waits s t → t < R.enter s + E r.resId)
    (hZp : ∀ i, Z i → (info.get i).cluster = (info.get k).cluster ∧ (info.get i).priority < (info.get k).priority)
    (hZ : ∀ s u, Z s.job.1 → u < H → ¬ R.Waits s u) {V : Finset ℕ}
    (hV : ∀ t ∈ V, a ≤ t ∧ t < e ∧ ∀ j ∈ R.sched t, j.1 ≠ k ∧ ¬ ((info.get j.1).cluster = (info.get k).cluster ∧
      (info.get j.1).priority < (info.get k).priority)) :
    ∃ sec kind, MpcpView info R E (k, q1) V sec kind a e := by
  classical
  have hall : ∀ t ∈ V, ∃ (z : Section info.length) (ty : BlockingType), R.Owns z t ∧ z.job ∈ R.sched t ∧
      ((ty = .preempt ∧ (info.get z.job.1).cluster = (info.get k).cluster ∧
        (info.get k).priority < (info.get z.job.1).priority ∧ ∀ s, s.job.1 = k → ¬ R.Waits s t) ∨
      ∃ s s0 r, MpcpDelay info R E (k, q1) t z s s0 r ∧ ((ty = .direct ∧ z = s0) ∨ (ty = .indirect ∧ z ≠ s0))) := by
    intro t ht
    obtain ⟨t1, t2, t3⟩ := hV t ht
    rcases h.idle_cases hb hWT hwin heH hinj hZp hZ t1 t2 t3 with ⟨s, hk, _, _, hw⟩ | ⟨⟨z, ho, hz, hp, hpr⟩, hnw⟩
    · obtain ⟨z, s0, r, ho, hz, hd⟩ := mpcp_delay (E := E) h hsep hw (fun r hr => hE s hk r hr t (by omega) hw)
      have hj : s.job = (k, q1) := by
        have h4 := hown t s.job.2 t1 t2 (by rw [← hk]; exact h.waits_ready hw)
        rw [← hk, ← h4]
      rw [hj] at hd
      refine ⟨z, if z = s0 then .direct else .indirect, ho, hz, Or.inr ⟨s, s0, r, hd, ?_⟩⟩
      by_cases hzs : z = s0
      · exact Or.inl ⟨if_pos hzs, hzs⟩
      · exact Or.inr ⟨if_neg hzs, hzs⟩
    · exact ⟨z, .preempt, ho, hz, Or.inl ⟨rfl, hp, hpr, hnw⟩⟩
  rcases V.eq_empty_or_nonempty with hV0 | ⟨t0, ht0⟩
  · refine ⟨fun _ => ⟨(k, q1), 0, 0⟩, fun _ => .preempt, ⟨?_, ?_, ?_, ?_⟩⟩
    · intro u hu; rw [hV0] at hu; simp at hu
    · intro u hu; rw [hV0] at hu; simp at hu
    · intro u hu; rw [hV0] at hu; simp at hu
    · intro x _; rw [hV0]; simp
  obtain ⟨z0, _⟩ := hall t0 ht0
  have : Nonempty (Section info.length) := ⟨z0⟩
  have : Nonempty BlockingType := ⟨.preempt⟩
  choose! sec kind hsec using hall
  refine ⟨sec, kind, fun u hu => ⟨(hV u hu).1, (hV u hu).2.1⟩, fun u hu => ⟨(hsec u hu).1, (hsec u hu).2.1⟩, ?_, ?_⟩
  · intro u hu
    rcases (hsec u hu).2.2 with ⟨c1, c2, c3, _⟩ | c
    · exact Or.inl ⟨c1, c2, c3⟩
    · exact Or.inr c
  · intro x hx
    set B := ((system info).sections (k, q1)).filter (fun s => ∃ u, a ≤ u ∧ u < e ∧ R.Waits s u) with hB
    have hBc : B.card ≤ conflicts (info.get k) ((tasks info).filter (fun t => t.2.cluster ≠ (info.get k).cluster)) := by
      refine conflicts_count h.toPartRun hb hT hW h1 heH (k, q1) hlen (lo := a)
        (fun t => t.2.cluster ≠ (info.get k).cluster) ?_
      intro s hs
      obtain ⟨hs, u, u1, u2, hw⟩ := mem_filter.1 hs
      have hj := (LockSystem.mem_sections.1 hs).1
      obtain ⟨z, s0, r, _, _, hd⟩ := mpcp_delay (E := E) h hsep hw
        (fun r hr => hE s (by rw [hj]) r hr u (by omega) hw)
      have hrem := hd.remote
      rw [hj] at hrem
      exact ⟨hj, s0, u, r, u1, u2, hw, hd.owns, hd.for_s, hd.for_s0, hrem⟩
    have hI : (insert a (B.image R.acquire)).card ≤ arrivalsShm info (info.get k) := by
      have h2 := card_insert_le a (B.image R.acquire)
      have h3 : (B.image R.acquire).card ≤ B.card := card_image_le
      unfold arrivalsShm
      omega
    refine le_trans (h.card_le_instants (i := x) (I := insert a (B.image R.acquire)) ?_) hI
    intro z hz
    obtain ⟨u, hu, rfl⟩ := mem_image.1 hz
    obtain ⟨hu, hxz⟩ := mem_filter.1 hu
    obtain ⟨u1, u2, _⟩ := hV u hu
    obtain ⟨ho, _, hc⟩ := hsec u hu
    rcases hc with ⟨_, hp, hpr, hnw⟩ | ⟨s, s0, r, hd, _⟩
    · rcases h.instant hb hWT hwin heH hZp hZ u1 u2 ho hp hpr hnw with hh | ⟨s, v, c4, c0, c6, c1, _, _, c7, c8⟩
      · exact ⟨ho.1, hxz, a, mem_insert_self _ _, hh⟩
      · have hj : s.job = (k, q1) := by
          have h4 := hown v s.job.2 c0 c6 (by rw [← c1]; exact h.waits_ready c4)
          rw [← c1, ← h4]
        refine ⟨ho.1, hxz, R.acquire s, mem_insert_of_mem (mem_image_of_mem _ (mem_filter.2 ⟨?_, v, c0, c6, c4⟩)),
          c7, c8⟩
        exact LockSystem.mem_sections.2 ⟨hj, h.declared s c4.1⟩
    · have hsame := hd.same
      rw [hxz] at hsame
      exact absurd (hsame.symm.trans hx) hd.remote

end Verif.SR.Lp
