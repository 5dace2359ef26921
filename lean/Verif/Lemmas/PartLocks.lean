/-
Counting requests in runs of partitioned systems with suspension-based locks.
-/
import Verif.Spec.Fmlp
import Verif.Lemmas.Pip
import Verif.Lemmas.PartFp
import Verif.Lemmas.Global
import Verif.Lemmas.MsrpModel
import Verif.Lemmas.RwModel
import Verif.Lemmas.Qpa

namespace Verif.Spec
open Finset

variable {n m : ℕ} {S : LockSystem n} {R : LockRun n} {W : Fin n → ℕ} {H : ℕ}

/-- A pending job of a task that respects a bound no larger than its period is ready. -/
theorem pending_ready {C T E : Fin n → ℕ} {w : Workload n} {σ : Schedule n} (hs : w.Sporadic C T) {H t : ℕ}
    (hb : BoundedBefore w σ E H) {j : Job n} (hE : E j.1 ≤ T j.1) (ht : t < H) (hp : Pending w σ j t) :
    Ready w σ j t := by
  refine ⟨hp, fun p hpj => ?_⟩
  have h1 := release_mono hs j.1 (show p + 1 ≤ j.2 from hpj)
  have h2 := hs.separated j.1 p
  have h3 := hp.1
  have h4 : w.release (j.1, j.2) ≤ t := h3
  have h5 : w.release (j.1, p) + E j.1 ≤ t := by omega
  exact (hb (j.1, p) (lt_of_le_of_lt h5 ht)).mono h5

/-- A pending job is pending in the interval given by its bound. -/
theorem lt_of_pending {E : Fin n → ℕ} {w : Workload n} {σ : Schedule n} {H t : ℕ} (hb : BoundedBefore w σ E H)
    {j : Job n} (ht : t < H) (hp : ¬ Completed w σ j t) : t < w.release j + E j.1 := by
  by_contra hc
  exact hp ((hb j (by omega)).mono (by omega))

/-- Requests of one kind that are incomplete at some time in an interval. -/
theorem RequestRun.requests_le (h : RequestRun m S R) (hb : BoundedBefore R.work R.sched W H) {i : Fin n}
    (hT : 0 < S.period i) {F : Finset (Section n)} {lo hi d : ℕ} {q : Req} (hq : (S.reqs i)[d]? = some q)
    (hiH : hi ≤ H)
    (hF : ∀ s ∈ F, R.issued s ∧ s.job.1 = i ∧ s.idx = d ∧ ∃ u, lo ≤ u ∧ u < hi ∧ R.enter s ≤ u ∧ u < R.leave s) :
    F.card ≤ cdiv (hi - lo + W i) (S.period i) * q.num := by
  classical
  set J := F.image (fun s => s.job.2) with hJ
  have hJb : ∀ p ∈ J, lo < R.work.release (i, p) + W i ∧ R.work.release (i, p) < hi := by
    intro p hp
    obtain ⟨s, hs, rfl⟩ := mem_image.1 hp
    obtain ⟨h1, h2, _, u, h3, h4, h5, h6⟩ := hF s hs
    have hr := h.active s u h1 h5 h6
    have hl := lt_of_pending hb (by omega) hr.1.2
    have hrel := hr.1.1
    have e : s.job = (i, s.job.2) := by rw [← h2]
    rw [e] at hl hrel
    exact ⟨by simp only at hl; omega, by omega⟩
  have hJc : J.card ≤ cdiv (hi - lo + W i) (S.period i) := by
    rcases J.eq_empty_or_nonempty with he | ⟨p, hp⟩
    · rw [he]; simp
    · have hp' := hJb p hp
      have := card_released_le h.sporadic i hT J (a := lo + 1 - W i) (b := hi - 1) (by
        intro p hp
        have := hJb p hp
        omega) (by omega)
      refine this.trans ?_
      have hlt : lo < hi ∨ hi ≤ lo := by omega
      rcases hlt with hlt | hlt
      · rw [← succ_div_eq_cdiv hT (by omega)]
        have := Nat.div_le_div_right (c := S.period i) (show hi - 1 - (lo + 1 - W i) ≤ hi - lo + W i - 1 by omega)
        omega
      · exfalso
        obtain ⟨s, hs, _⟩ := mem_image.1 hp
        obtain ⟨_, _, _, u, h3, h4, _, _⟩ := hF s hs
        omega
  have hcard : F.card ≤ (J ×ˢ range q.num).card := by
    apply card_le_card_of_injOn (fun s => (s.job.2, s.inst))
    · intro s hs
      simp only [coe_product, Set.mem_prod, mem_coe, mem_range]
      refine ⟨mem_image_of_mem _ hs, ?_⟩
      obtain ⟨h1, h2, h3, _⟩ := hF s hs
      obtain ⟨q', h4, h5⟩ := h.declared s h1
      rw [h2, h3, hq] at h4
      cases h4
      exact h5
    · intro a ha b hb hab
      simp only [Prod.mk.injEq] at hab
      obtain ⟨_, a1, a2, _⟩ := hF a ha
      obtain ⟨_, b1, b2, _⟩ := hF b hb
      obtain ⟨⟨aj, ap⟩, ai, an⟩ := a
      obtain ⟨⟨bj, bp⟩, bi, bn⟩ := b
      simp only at a1 a2 b1 b2 hab
      rw [a1, a2, b1, b2, hab.1, hab.2]
  rw [card_product, card_range] at hcard
  exact hcard.trans (Nat.mul_le_mul_right _ hJc)

/-- Two requests of a task that are incomplete at the same time are the same. -/
theorem RequestRun.incomplete_unique (h : RequestRun m S R) {s s' : Section n} {t : ℕ} (hi : R.issued s)
    (hi' : R.issued s') (hj : s.job.1 = s'.job.1) (h1 : R.enter s ≤ t) (h2 : t < R.leave s)
    (h1' : R.enter s' ≤ t) (h2' : t < R.leave s') : s = s' :=
  h.section_unique hi hi' (ready_eq (h.active s t hi h1 h2) (h.active s' t hi' h1' h2') hj) h1 h2 h1' h2'

/-- Requests of a task of which each is incomplete at one of several instants. -/
theorem RequestRun.card_le_instants (h : RequestRun m S R) {i : Fin n} {F : Finset (Section n)} {I : Finset ℕ}
    (hF : ∀ s ∈ F, R.issued s ∧ s.job.1 = i ∧ ∃ x ∈ I, R.enter s ≤ x ∧ x < R.leave s) : F.card ≤ I.card := by
  classical
  have hF' : ∀ s ∈ F, ∃ x, x ∈ I ∧ R.enter s ≤ x ∧ x < R.leave s := fun s hs => by
    obtain ⟨_, _, x, h1, h2⟩ := hF s hs
    exact ⟨x, h1, h2⟩
  choose! f hf using hF'
  apply card_le_card_of_injOn f (fun s hs => mem_coe.2 (hf s hs).1)
  intro a ha b hb hab
  have h1 := hf a ha
  have h2 := hf b hb
  rw [← hab] at h2
  exact h.incomplete_unique (hF a ha).1 (hF b hb).1 ((hF a ha).2.1.trans (hF b hb).2.1.symm) h1.2.1 h1.2.2
    h2.2.1 h2.2.2

/-- Processor time of a section. -/
noncomputable def LockRun.use (R : LockRun n) (s : Section n) : ℕ :=
  open Classical in ((Ico (R.acquire s) (R.leave s)).filter (fun t => s.job ∈ R.sched t)).card

/-- Slots in which one of several sections is served. -/
theorem LockRun.slots_le {Y : Finset ℕ} {F : Finset (Section n)}
    (hY : ∀ t ∈ Y, ∃ s ∈ F, R.Owns s t ∧ s.job ∈ R.sched t) : Y.card ≤ ∑ s ∈ F, R.use s := by
  classical
  have : Y ⊆ F.biUnion (fun s => (Ico (R.acquire s) (R.leave s)).filter (fun t => s.job ∈ R.sched t)) := by
    intro t ht
    obtain ⟨s, hs, ho, hj⟩ := hY t ht
    exact mem_biUnion.2 ⟨s, hs, mem_filter.2 ⟨mem_Ico.2 ho.2, hj⟩⟩
  refine (card_le_card this).trans (card_biUnion_le.trans (le_of_eq ?_))
  unfold LockRun.use
  apply sum_congr rfl
  intro s _
  congr

/-- The possible sections of a job. -/
def LockSystem.sections (S : LockSystem n) (j : Job n) : Finset (Section n) :=
  univ.biUnion (fun x : Fin (S.reqs j.1).length =>
    (range ((S.reqs j.1).get x).num).image (fun a => (⟨j, x, a⟩ : Section n)))

theorem LockSystem.mem_sections {j : Job n} {s : Section n} :
    s ∈ S.sections j ↔ s.job = j ∧ ∃ q, (S.reqs s.job.1)[s.idx]? = some q ∧ s.inst < q.num := by
  unfold LockSystem.sections
  simp only [mem_biUnion, mem_univ, true_and, mem_image, mem_range]
  constructor
  · rintro ⟨x, a, ha, rfl⟩
    exact ⟨rfl, (S.reqs j.1).get x, by simp, ha⟩
  · rintro ⟨rfl, q, hq, hi⟩
    obtain ⟨hlt, hget⟩ := List.getElem?_eq_some_iff.1 hq
    refine ⟨⟨s.idx, hlt⟩, s.inst, ?_, rfl⟩
    rw [List.get_eq_getElem, hget]
    exact hi

theorem LockSystem.sections_card (j : Job n) : (S.sections j).card ≤ ((S.reqs j.1).map Req.num).sum := by
  unfold LockSystem.sections
  rw [sum_reqs]
  refine card_biUnion_le.trans (sum_le_sum (fun x _ => card_image_le.trans ?_))
  simp

end Verif.Spec

namespace Verif.SR
open Verif.Spec
open Verif.SR.Msrp (system)
open Verif.SR.Rw (From events_rel)

/-- A request object whose number of requests is multiplied. -/
def scale (M : ℕ) (r : RB) : RB := { r with req := { r.req with num := M * r.req.num } }

theorem scale_max (M : ℕ) (r : RB) (x : ℕ) : (scale M r).maxNumRequests x = M * r.maxNumRequests x := by
  unfold RB.maxNumRequests scale
  simp only
  ring

theorem boundLoop_scale (M interval per : ℕ) (ok : RB → Bool) (hok : ∀ r, ok (scale M r) = ok r) (cont : List RB) :
    ∀ rem, boundLoop interval (M * per) ok (M * rem) (cont.map (scale M)) =
      ⟨M * (boundLoop interval per ok rem cont).count, M * (boundLoop interval per ok rem cont).total⟩ := by
  induction cont with
  | nil => intro rem; simp [boundLoop]
  | cons r cont ih =>
    intro rem
    rw [List.map_cons, boundLoop_step, boundLoop_step]
    simp only [Interference.add, hok, scale_max]
    have e : (if ok r = true then min (min (M * r.maxNumRequests interval) (M * per)) (M * rem) else 0) =
        M * (if ok r = true then min (min (r.maxNumRequests interval) per) rem else 0) := by
      split_ifs
      · rw [Nat.mul_min_mul_left, Nat.mul_min_mul_left]
      · simp
    rw [e]
    generalize (if ok r = true then min (min (r.maxNumRequests interval) per) rem else 0) = x
    rw [← Nat.mul_sub, ih]
    have e2 : (scale M r).req.length = r.req.length := rfl
    rw [e2]
    simp only [Interference.mk.injEq]
    constructor <;> ring

theorem longest_scale (M : ℕ) {cont : List RB} (h : LongestFirst cont) : LongestFirst (cont.map (scale M)) := by
  unfold LongestFirst at *
  rw [List.pairwise_map]
  exact h

variable {info : Info} {m : ℕ} {R : LockRun info.length}

theorem fin_get? (i : Fin info.length) : info[(i : ℕ)]? = some (info.get i) := by simp

theorem lock_req {i : Fin info.length} {d : ℕ} {q : Req} (h : ((system info).reqs i)[d]? = some q) :
    ∃ r, (info.get i).requests[d]? = some r ∧ q = ⟨r.resId, r.num, r.length⟩ := by
  unfold system at h
  simp only [List.getElem?_map, Option.map_eq_some_iff] at h
  obtain ⟨r, h1, h2⟩ := h
  exact ⟨r, h1, h2.symm⟩

theorem lock_req' {i : Fin info.length} {d : ℕ} {r : Request} (h : (info.get i).requests[d]? = some r) :
    ((system info).reqs i)[d]? = some ⟨r.resId, r.num, r.length⟩ := by
  unfold system
  simp only [List.getElem?_map, h, Option.map_some]

theorem mem_sorted {i : Fin info.length} {r : RB} :
    r ∈ sortByLength (pointers (i, info.get i)) ↔
      r.task = i ∧ r.info = info.get i ∧ (info.get i).requests[r.idx]? = some r.req := by
  rw [(C39_sorted (pointers (i, info.get i))).2.mem_iff, mem_pointers]

theorem nodup_sorted (i : Fin info.length) : (sortByLength (pointers (i, info.get i))).Nodup := by
  rw [(C39_sorted (pointers (i, info.get i))).2.nodup_iff]
  have h := nodup_requestsFor (ts := [((i : ℕ), info.get i)]) (by simp)
  unfold pointers
  rw [List.nodup_map_iff_inj_on]
  · intro a ha b hb hab
    simp only [RB.mk.injEq, true_and] at hab
    exact Prod.ext hab.2 hab.1
  · exact List.Nodup.of_map Prod.snd (by rw [List.zipIdx_map_snd]; exact List.nodup_range')

/-- The requests of one task, limited in total, in an interval of which the length is a multiple. -/
theorem task_bound (h : RequestRun m (system info) R) {W : Fin info.length → ℕ} {H : ℕ}
    (hb : BoundedBefore R.work R.sched W H) {i : Fin info.length} (hT : 0 < (info.get i).period)
    (hW : W i ≤ (info.get i).response) {M interval total unl exclude minPrio lo hi : ℕ} (hM : 1 ≤ M)
    (hi' : hi ≤ H) (hlen : hi - lo ≤ M * interval) (htot : total ≤ unl) {F : Finset (Section info.length)}
    (hF : ∀ s ∈ F, R.issued s ∧ s.job.1 = i ∧ ∃ u, lo ≤ u ∧ u < hi ∧ R.enter s ≤ u ∧ u < R.leave s)
    (hc : F.card ≤ M * total) (hne : (i : ℕ) ≠ exclude) (hp : minPrio ≤ (info.get i).priority) :
    ∑ s ∈ F, R.use s ≤
      M * (boundBlocking (sortByLength (pointers (i, info.get i))) interval total unl exclude minPrio).total := by
  classical
  set cont := sortByLength (pointers (i, info.get i)) with hcont
  let ok : RB → Bool := fun r => decide (r.task ≠ exclude) && decide (r.info.priority ≥ minPrio)
  have hsc := boundLoop_scale M interval unl ok (fun _ => rfl) cont total
  have hgoal : M * (boundBlocking cont interval total unl exclude minPrio).total =
      (boundLoop interval (M * unl) ok (M * total) (cont.map (scale M))).total := by
    rw [hsc]; rfl
  rw [hgoal]
  have hinj : Function.Injective (scale M) := by
    intro a b hab
    have h0 : 0 < M := hM
    obtain ⟨a1, a2, a3, ⟨a4, a5, a6, a7⟩⟩ := a
    obtain ⟨b1, b2, b3, ⟨b4, b5, b6, b7⟩⟩ := b
    unfold scale at hab
    simp only [RB.mk.injEq, Request.mk.injEq] at hab ⊢
    obtain ⟨c1, c2, c3, c4, c5, c6, c7⟩ := hab
    exact ⟨c1, c2, c3, c4, Nat.eq_of_mul_eq_mul_left h0 c5, c6, c7⟩
  have hmem : ∀ r ∈ cont.map (scale M), ∃ r0 : RB, r = scale M r0 ∧ r0.task = i ∧ r0.info = info.get i ∧
      (info.get i).requests[r0.idx]? = some r0.req := by
    intro r hr
    obtain ⟨r0, hr0, rfl⟩ := List.mem_map.1 hr
    exact ⟨r0, rfl, mem_sorted.1 hr0⟩
  refine (events_rel (α := Section info.length) From (fun s => R.use s) ((nodup_sorted i).map hinj)
    (longest_scale M (C39_sorted _).1) (F := F) ?_ ?_ ?_ ?_ hc).1
  · intro s _ a ha b hb h1 h2
    obtain ⟨a0, rfl, a1, a2, a3⟩ := hmem a ha
    obtain ⟨b0, rfl, b1, b2, b3⟩ := hmem b hb
    have hidx : a0.idx = b0.idx := h1.2.symm.trans h2.2
    congr 1
    have hreq : a0.req = b0.req := by
      rw [hidx, b3] at a3
      exact (Option.some.inj a3).symm
    obtain ⟨x1, x2, x3, x4⟩ := a0
    obtain ⟨y1, y2, y3, y4⟩ := b0
    simp only at a1 a2 b1 b2 hidx hreq
    rw [a1, a2, hidx, hreq, b1, b2]
  · intro s hs
    obtain ⟨h1, h2, _⟩ := hF s hs
    obtain ⟨q, hq, _⟩ := h.declared s h1
    rw [h2] at hq
    obtain ⟨r, hr, _⟩ := lock_req hq
    refine ⟨scale M ⟨i, info.get i, s.idx, r⟩, List.mem_map_of_mem (mem_sorted.2 ⟨rfl, rfl, hr⟩), ⟨?_, rfl⟩, ?_⟩
    · exact congrArg Fin.val h2
    · change (decide ((i : ℕ) ≠ exclude) && decide ((info.get i).priority ≥ minPrio)) = true
      simp only [Bool.and_eq_true, decide_eq_true_eq]
      exact ⟨hne, hp⟩
  · intro s hs r hr hsr
    obtain ⟨r0, rfl, a1, a2, a3⟩ := hmem r hr
    obtain ⟨h1, h2, _⟩ := hF s hs
    have hidx : s.idx = r0.idx := hsr.2
    have := h.length s ⟨r0.req.resId, r0.req.num, r0.req.length⟩ h1 (by
      rw [h2, hidx]; exact lock_req' a3)
    unfold LockRun.use
    refine le_trans (le_of_eq ?_) this
    congr
  · intro r hr
    obtain ⟨r0, rfl, a1, a2, a3⟩ := hmem r hr
    rw [scale_max, le_min_iff]
    constructor
    · have := h.requests_le hb (i := i) (S := system info) hT (F := F.filter (fun s => From s (scale M r0)))
        (lo := lo) (hi := hi) (d := r0.idx) (q := ⟨r0.req.resId, r0.req.num, r0.req.length⟩) (lock_req' a3) hi' (by
          intro s hs
          obtain ⟨hs, hsr⟩ := Finset.mem_filter.1 hs
          obtain ⟨h1, h2, h3⟩ := hF s hs
          exact ⟨h1, h2, hsr.2, h3⟩)
      refine this.trans ?_
      unfold RB.maxNumRequests TaskInfo.maxNumJobs
      rw [a2, ← Nat.mul_assoc]
      apply Nat.mul_le_mul_right
      rw [Native.divideWithCeil_eq _ hT]
      change cdiv _ _ ≤ M * cdiv _ _
      refine le_trans (cdiv_mono hT ?_) (cdiv_scale hT hM)
      have hW' : W i ≤ (info.get i).response := hW
      omega
    · exact (Finset.card_filter_le _ _).trans (hc.trans (Nat.mul_le_mul_left _ htot))

end Verif.SR
