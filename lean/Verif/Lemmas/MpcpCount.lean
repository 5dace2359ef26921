/-
The bounds of the analysis of the MPCP cover what happens in a run.
-/
import Verif.Lemmas.Mpcp
import Verif.Lemmas.MpcpModel
import Verif.Lemmas.FmlpCount

namespace Verif.SR.Mpcp
open Verif.Spec
open Verif.SR.Msrp (system)

variable {info : Info} {m : ℕ} {R : LockRun info.length} {W : Fin info.length → ℕ} {H : ℕ}

/-- How long a section holds its resource. -/
theorem hold (h : Spec.Mpcp (system info) (fun i => (info.get i).priority) R) {z : Section info.length}
    (hz : R.issued z) {r : Request} (hr : (info.get z.job.1).requests[z.idx]? = some r) :
    R.leave z - R.acquire z ≤ resp info z.job.1 r := by
  have := h.hold_le hz (lock_req' hr) (fun x => maxGcsLength (info.get x) (mpcpCeilings info)
    (ceilingAt (mpcpCeilings info) (info.get z.job.1).cluster r.resId)) (by
      intro x hx hne q' hq' hc
      obtain ⟨d, hd⟩ := List.getElem?_of_mem hq'
      obtain ⟨r', hr', rfl⟩ := lock_req hd
      exact le_maxGcsLength (List.mem_of_getElem? hr')
        (ceiling_le (List.mem_of_getElem? hr) (List.mem_of_getElem? hr') hx hc))
  exact this

/-- A request does not wait longer than the bound at which the loop ends. -/
theorem wait_bound (h : Spec.Mpcp (system info) (fun i => (info.get i).priority) R)
    (hb : BoundedBefore R.work R.sched W H) (hT : ∀ t ∈ info, 0 < t.period)
    (hn : ∀ t ∈ info, (t.requests.map Request.resId).Nodup)
    (hinj : Function.Injective (fun i : Fin info.length => (info.get i).priority))
    (hWT : ∀ i, W i ≤ (info.get i).period) {s : Section info.length} {r : Request}
    (hr : (info.get s.job.1).requests[s.idx]? = some r) {B : ℕ} (hB : Fixed info r.resId s.job.1 B)
    (hH : R.enter s + B < H) (hi : R.issued s) : R.acquire s ≤ R.enter s + B := by
  classical
  by_contra hc
  have hfor : ∀ {z : Section info.length} {q : ℕ}, (system info).For z q →
      ∃ r, (info.get z.job.1).requests[z.idx]? = some r ∧ r.resId = q := by
    rintro z q ⟨x, hx, hxq⟩
    obtain ⟨r, hr, rfl⟩ := lock_req hx
    exact ⟨r, hr, hxq⟩
  have hdiv : ∀ x : Fin info.length, (B + 1 + W x - 2) / (info.get x).period + 1 ≤
      Native.divideWithCeil B (info.get x).period + 1 := by
    intro x
    have h0 := hT _ (List.get_mem info x)
    rw [Native.divideWithCeil_eq _ h0]
    have h1 := hWT x
    have h2 := Nat.div_le_div_right (c := (info.get x).period)
      (show B + 1 + W x - 2 ≤ B + (info.get x).period - 1 by omega)
    have h3 : (B + (info.get x).period - 1) / (info.get x).period = cdiv B (info.get x).period := rfl
    change _ ≤ cdiv B _ + 1
    omega
  have key := h.wait_le hinj (s := s) (r := r.resId) (B := B) ⟨_, lock_req' hr, rfl⟩
    (fun t h1 h2 => ⟨hi, h1, by omega⟩)
    (fun x => respFor info r.resId B x false) (fun x => respFor info r.resId B x true)
    (remoteAll info r.resId B (s.job.1, info.get s.job.1)).2
    (by
      intro z hz hf
      obtain ⟨r', hr', hq⟩ := hfor hf
      unfold respFor
      rw [responseTimeFor_eq (List.mem_of_getElem? hr') hq (hn _ (List.get_mem info z.job.1)), if_neg (by simp)]
      exact hold h hz hr')
    (by
      intro z hz hf hne hp
      exact le_remoteAll_snd _ _ _ _ hne hp)
    (by
      intro x hx F hF
      rcases F.eq_empty_or_nonempty with h0 | ⟨z, hz⟩
      · rw [h0]; simp
      obtain ⟨a1, a2, a3, _⟩ := hF z hz
      obtain ⟨r', hr', hq⟩ := hfor a3
      rw [a2] at hr'
      unfold respFor
      rw [responseTimeFor_eq (List.mem_of_getElem? hr') hq (hn _ (List.get_mem info x)),
        responseTimeFor_eq (List.mem_of_getElem? hr') hq (hn _ (List.get_mem info x)), if_neg (by simp), if_pos rfl]
      have hcard := h.requests_le' hb (i := x) (hT _ (List.get_mem info x)) (F := F) (lo := R.enter s)
        (hi := R.enter s + B + 1) (d := z.idx) (lock_req' hr') (by omega) (by
          intro y hy
          obtain ⟨b1, b2, b3, b4⟩ := hF y hy
          refine ⟨b1, b2, ?_, b4⟩
          obtain ⟨ry, hry, hqy⟩ := hfor b3
          rw [b2] at hry
          obtain ⟨l1, g1⟩ := List.getElem?_eq_some_iff.1 hry
          obtain ⟨l2, g2⟩ := List.getElem?_eq_some_iff.1 hr'
          have := (hn _ (List.get_mem info x)).getElem_inj_iff (i := y.idx) (j := z.idx)
            (hi := by rw [List.length_map]; exact l1) (hj := by rw [List.length_map]; exact l2)
          rw [List.getElem_map, List.getElem_map, g1, g2, hqy, hq] at this
          exact this.1 rfl)
      have e : R.enter s + B + 1 - R.enter s + W x - 2 = B + 1 + W x - 2 := by omega
      rw [e] at hcard
      have h1 := hcard.trans (Nat.mul_le_mul_right _ (hdiv x))
      refine (Nat.mul_le_mul_right _ h1).trans (le_of_eq ?_)
      simp only
      ring)
  have hfix := hB
  unfold Fixed at hfix
  rw [remoteAll_fst] at hfix
  omega

/-- Bounds for the requests of a task that add up to the remote blocking. -/
def Covers (info : Info) (k : Fin info.length) (rem : ℕ) : Prop :=
  ∃ B : ℕ → ℕ, (∀ r ∈ (info.get k).requests, Fixed info r.resId k (B r.resId)) ∧
    rem = ((info.get k).requests.map (fun r => B r.resId * r.num)).sum

open Classical in
/-- The time in which a job waits, from bounds for its requests. -/
theorem waits_le_of (h : RequestRun m (system info) R) (j : Job info.length) {B : ℕ → ℕ}
    (hone : ∀ s : Section info.length, s.job = j → ∀ r, (info.get s.job.1).requests[s.idx]? = some r →
      ∀ t, t < H → R.Waits s t → t < R.enter s + B r.resId) :
    ((Finset.range H).filter (fun t => ∃ s, s.job = j ∧ R.Waits s t)).card ≤
      ((info.get j.1).requests.map (fun r => B r.resId * r.num)).sum := by
  have hL : ((info.get j.1).requests.map (fun r => B r.resId * r.num)).sum =
      ∑ d : Fin (info.get j.1).requests.length, B ((info.get j.1).requests.get d).resId *
        ((info.get j.1).requests.get d).num := by
    rw [← Fin.sum_univ_fun_getElem]
    rfl
  rw [hL]
  have hsub : (Finset.range H).filter (fun t => ∃ s, s.job = j ∧ R.Waits s t) ⊆
      Finset.univ.biUnion (fun d : Fin (info.get j.1).requests.length =>
        (Finset.range ((info.get j.1).requests.get d).num).biUnion (fun a =>
          (Finset.range H).filter (fun t => R.Waits ⟨j, d, a⟩ t))) := by
    intro t ht
    obtain ⟨h1, s, rfl, hw⟩ := Finset.mem_filter.1 ht
    obtain ⟨q, hq, hlt⟩ := h.declared s hw.1
    obtain ⟨r, hr, rfl⟩ := lock_req hq
    obtain ⟨l1, g1⟩ := List.getElem?_eq_some_iff.1 hr
    refine Finset.mem_biUnion.2 ⟨⟨s.idx, l1⟩, Finset.mem_univ _, Finset.mem_biUnion.2 ⟨s.inst, ?_,
      Finset.mem_filter.2 ⟨h1, hw⟩⟩⟩
    rw [Finset.mem_range, List.get_eq_getElem, g1]
    exact hlt
  refine (Finset.card_le_card hsub).trans (Finset.card_biUnion_le.trans (Finset.sum_le_sum ?_))
  intro d _
  refine Finset.card_biUnion_le.trans ?_
  have : ∀ a ∈ Finset.range ((info.get j.1).requests.get d).num,
      ((Finset.range H).filter (fun t => R.Waits ⟨j, d, a⟩ t)).card ≤ B ((info.get j.1).requests.get d).resId := by
    intro a _
    have hs : (Finset.range H).filter (fun t => R.Waits ⟨j, d, a⟩ t) ⊆ Finset.Ico (R.enter ⟨j, d, a⟩)
        (R.enter ⟨j, d, a⟩ + B ((info.get j.1).requests.get d).resId) := by
      intro t ht
      obtain ⟨h1, h2⟩ := Finset.mem_filter.1 ht
      exact Finset.mem_Ico.2 ⟨h2.2.1, hone ⟨j, d, a⟩ rfl ((info.get j.1).requests.get d) (by simp) t
        (Finset.mem_range.1 h1) h2⟩
    have := Finset.card_le_card hs
    rw [Nat.card_Ico] at this
    omega
  refine (Finset.sum_le_sum this).trans (le_of_eq ?_)
  rw [Finset.sum_const, Finset.card_range, smul_eq_mul, Nat.mul_comm]

open Classical in
/-- The time in which a job waits. -/
theorem waits_le (h : Spec.Mpcp (system info) (fun i => (info.get i).priority) R)
    (hb : BoundedBefore R.work R.sched W H) (hT : ∀ t ∈ info, 0 < t.period)
    (hn : ∀ t ∈ info, (t.requests.map Request.resId).Nodup)
    (hinj : Function.Injective (fun i : Fin info.length => (info.get i).priority))
    (hWT : ∀ i, W i ≤ (info.get i).period) (j : Job info.length) {rem : ℕ} (hrem : Covers info j.1 rem) :
    ((Finset.range H).filter (fun t => ∃ s, s.job = j ∧ R.Waits s t)).card ≤ rem := by
  obtain ⟨B, hB, rfl⟩ := hrem
  refine waits_le_of h.toRequestRun j ?_
  rintro s rfl r hr t ht hw
  by_contra hc
  have := wait_bound h hb hT hn hinj hWT hr (hB r (List.mem_of_getElem? hr)) (by omega) hw.1
  have := hw.2
  omega

open Classical in
/-- The slots of a window in which other tasks execute. -/
theorem idle_le (h : Spec.Mpcp (system info) (fun i => (info.get i).priority) R)
    (hb : BoundedBefore R.work R.sched W H) (hT : ∀ t ∈ info, 0 < t.period)
    (hn : ∀ t ∈ info, (t.requests.map Request.resId).Nodup)
    (hinj : Function.Injective (fun i : Fin info.length => (info.get i).priority))
    (hWT : ∀ i, W i ≤ (info.get i).period) (rem : Fin info.length → ℕ) (hrem : ∀ i, Covers info i (rem i))
    {k : Fin info.length} {Z : Fin info.length → Prop} {q0 q1 a e : ℕ}
    (hZ : ∀ i, Z i → (info.get i).cluster = (info.get k).cluster ∧ (info.get i).priority < (info.get k).priority ∧
      rem i = 0)
    (hwin : Window R.work R.sched k Z q0 q1 a e) (heH : e ≤ H) :
    ((Finset.Ico a e).filter (fun t => ∀ j ∈ R.sched t, j.1 ≠ k ∧ ¬ ((info.get j.1).cluster = (info.get k).cluster ∧
      (info.get j.1).priority < (info.get k).priority))).card ≤ (q0 - q1 + 1) *
      (rem k + arrivalBlocking (k, info.get k) ((splitByCluster info).getD (info.get k).cluster []) false) := by
  have hZp : ∀ i, Z i → (system info).proc i = (system info).proc k ∧
      (info.get i).priority < (info.get k).priority := fun i hi => ⟨(hZ i hi).1, (hZ i hi).2.1⟩
  have hZw : ∀ s u, Z s.job.1 → u < H → ¬ R.Waits s u := by
    intro s u hs hu hw
    have := waits_le h hb hT hn hinj hWT s.job (hrem s.job.1)
    rw [(hZ _ hs).2.2, Nat.le_zero, Finset.card_eq_zero] at this
    have hm : u ∈ (Finset.range H).filter (fun t => ∃ s', s'.job = s.job ∧ R.Waits s' t) :=
      Finset.mem_filter.2 ⟨Finset.mem_range.2 hu, s, rfl, hw⟩
    rw [this] at hm
    simp at hm
  set M := q0 - q1 + 1 with hM
  set idle := (Finset.Ico a e).filter (fun t => ∀ j ∈ R.sched t, j.1 ≠ k ∧ ¬ ((info.get j.1).cluster =
    (info.get k).cluster ∧ (info.get j.1).priority < (info.get k).priority)) with hidle
  set X := (Finset.Icc q1 q0).biUnion (fun q => (Finset.range H).filter (fun t => ∃ s, s.job = (k, q) ∧ R.Waits s t)) with hX
  set Y := idle.filter (fun t => (∃ s', R.Owns s' t ∧ s'.job ∈ R.sched t ∧ (info.get s'.job.1).cluster =
    (info.get k).cluster ∧ (info.get k).priority < (info.get s'.job.1).priority) ∧ ∀ s, s.job.1 = k → ¬ R.Waits s t) with hY
  have hsub : idle ⊆ X ∪ Y := by
    intro t ht
    obtain ⟨h1, h2⟩ := Finset.mem_filter.1 ht
    obtain ⟨h3, h4⟩ := Finset.mem_Ico.1 h1
    rcases h.idle_cases hb hWT hwin heH (fun i _ hp => hinj hp) hZp hZw h3 h4 h2 with ⟨s, hk, c1, c2, hw⟩ | hc
    · apply Finset.mem_union_left
      refine Finset.mem_biUnion.2 ⟨s.job.2, Finset.mem_Icc.2 ⟨c1, c2⟩, Finset.mem_filter.2 ⟨Finset.mem_range.2 (by omega),
        s, by rw [← hk], hw⟩⟩
    · exact Finset.mem_union_right _ (Finset.mem_filter.2 ⟨ht, hc⟩)
  have hXc : X.card ≤ M * rem k := by
    refine Finset.card_biUnion_le.trans ?_
    refine (Finset.sum_le_sum (fun q _ => waits_le h hb hT hn hinj hWT (k, q) (hrem k))).trans (le_of_eq ?_)
    rw [Finset.sum_const, Nat.card_Icc, smul_eq_mul]
    congr 1
    have := hwin.jobs
    omega
  set I := insert a (((Finset.Icc q1 q0).biUnion (fun q => (system info).sections (k, q))).image R.acquire) with hI
  have hIc : I.card ≤ M * numArrivals (info.get k) := by
    have h1 : I.card ≤ ((Finset.Icc q1 q0).biUnion (fun q => (system info).sections (k, q))).card + 1 :=
      (Finset.card_insert_le _ _).trans (Nat.add_le_add_right Finset.card_image_le _)
    have h2 : ((Finset.Icc q1 q0).biUnion (fun q => (system info).sections (k, q))).card ≤
        M * ((info.get k).requests.map Request.num).sum := by
      refine Finset.card_biUnion_le.trans ?_
      have h3 : ∀ q ∈ Finset.Icc q1 q0, ((system info).sections (k, q)).card ≤
          ((info.get k).requests.map Request.num).sum := by
        intro q _
        have := Fmlp.sections_le (info := info) (k, q)
        rw [Fmlp.totalNum_eq] at this
        exact this
      refine (Finset.sum_le_sum h3).trans (le_of_eq ?_)
      rw [Finset.sum_const, Nat.card_Icc, smul_eq_mul]
      congr 1
      have := hwin.jobs
      omega
    rw [numArrivals_eq, Nat.mul_add, Nat.mul_one]
    omega
  have hYc : Y.card ≤ M * arrivalBlocking (k, info.get k)
      ((splitByCluster info).getD (info.get k).cluster []) false := by
    rw [arrivalBlocking_eq, if_neg (by simp), Finset.sum_mul, Finset.mul_sum]
    apply Fmlp.slots_by_task (R := R) (fun s' t => (info.get s'.job.1).cluster = (info.get k).cluster ∧
      (info.get k).priority < (info.get s'.job.1).priority)
    · intro t ht
      obtain ⟨_, ⟨s', h1, h2, h3, h4⟩, _⟩ := Finset.mem_filter.1 ht
      refine ⟨s', ⟨h3, h4⟩, h1, h2, Finset.mem_filter.2 ⟨Finset.mem_univ _, h3, ?_, h4.le⟩⟩
      rintro hh
      rw [hh] at h4
      omega
    · intro x hx F hF
      have hcard : F.card ≤ I.card := by
        refine h.card_le_instants (i := x) ?_
        intro s' hs'
        obtain ⟨h1, t, ht, ⟨h2, h3⟩, ho, hj⟩ := hF s' hs'
        obtain ⟨ht1, _, hnw⟩ := Finset.mem_filter.1 ht
        obtain ⟨h4, h5⟩ := Finset.mem_Ico.1 (Finset.mem_filter.1 ht1).1
        refine ⟨ho.1, h1, ?_⟩
        rcases h.instant hb hWT hwin heH hZp hZw h4 h5 ho h2 h3 hnw with c | ⟨s, u, ci, _, _, ck, c1, c2, c3, c4⟩
        · exact ⟨a, Finset.mem_insert_self _ _, c⟩
        · refine ⟨R.acquire s, Finset.mem_insert_of_mem (Finset.mem_image_of_mem _ (Finset.mem_biUnion.2
            ⟨s.job.2, Finset.mem_Icc.2 ⟨c1, c2⟩, LockSystem.mem_sections.2 ⟨by rw [← ck], h.declared s ci.1⟩⟩)), c3, c4⟩
      have huse : ∀ s' ∈ F, R.use s' ≤ maxRequestLength (info.get x) := by
        intro s' hs'
        obtain ⟨h1, t, ht, _, ho, _⟩ := hF s' hs'
        obtain ⟨q, hq, _⟩ := h.declared s' ho.1
        have hl := h.length s' q ho.1 hq
        obtain ⟨r, hr, rfl⟩ := lock_req hq
        rw [h1] at hr
        refine le_trans (le_trans (le_of_eq ?_) hl) (le_maxRequestLength (List.mem_of_getElem? hr))
        unfold LockRun.use
        congr
      refine (Finset.sum_le_sum huse).trans ?_
      rw [Finset.sum_const, smul_eq_mul]
      refine (Nat.mul_le_mul_right _ (hcard.trans hIc)).trans (le_of_eq ?_)
      ring
  have h1 := (Finset.card_le_card hsub).trans (Finset.card_union_le _ _)
  rw [Nat.mul_add]
  omega

end Verif.SR.Mpcp
