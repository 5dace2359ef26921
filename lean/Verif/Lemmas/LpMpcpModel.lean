/-
Lemmas on the model of the LP-based analysis of the MPCP: the delay of a request.
-/
import Verif.Model.LpMpcp
import Verif.Lemmas.MpcpCount
import Verif.Lemmas.LpSem

namespace Verif.SR.Lp
open Verif.Spec Finset
open Verif.SR.Msrp (system)
open Verif.SR.Mpcp (resp clusterTimes gcsResponseTimes mpcpCeilings)

variable {info : Info} {R : LockRun info.length} {W : Fin info.length → ℕ} {H : ℕ}

theorem mem_clusterTimes {y : (ℕ × TaskInfo) × List ℕ} (hy : y ∈ (clusterTimes info).flatten) :
    ∃ x : Fin info.length, y = (((x : ℕ), info.get x), (info.get x).requests.map (resp info x)) := by
  obtain ⟨l, hl, hy⟩ := List.mem_flatten.1 hy
  obtain ⟨c, hc⟩ := List.getElem?_of_mem hl
  have h1 := Mpcp.getD_clusterTimes info c
  rw [List.getD_eq_getElem?_getD, hc, Option.getD_some] at h1
  rw [h1] at hy
  obtain ⟨t, ht, rfl⟩ := List.mem_map.1 hy
  obtain ⟨ht, hcl⟩ := List.mem_filter.1 ht
  simp only [decide_eq_true_eq] at hcl
  obtain ⟨x, rfl⟩ := mem_tasks.1 (tasks_eq_indexed info ▸ ht)
  refine ⟨x, ?_⟩
  have := Mpcp.gcsResponseTimes_eq x
  simp only at hcl
  rw [hcl] at this
  rw [this]

theorem exists_clusterTimes (x : Fin info.length) :
    (((x : ℕ), info.get x), (info.get x).requests.map (resp info x)) ∈ (clusterTimes info).flatten := by
  rw [List.mem_flatten]
  refine ⟨(clusterTimes info).getD (info.get x).cluster [], ?_, ?_⟩
  · have hlt : (info.get x).cluster < (clusterTimes info).length := by
      unfold clusterTimes
      rw [List.length_map]
      exact cluster_lt_split x
    rw [List.getD_eq_getElem?_getD, List.getElem?_eq_getElem hlt, Option.getD_some]
    exact List.getElem_mem hlt
  · rw [Mpcp.getD_clusterTimes]
    apply List.mem_map.2
    exact ⟨(x, info.get x), List.mem_filter.2 ⟨mem_indexed.2 (fin_get? x), by simp⟩, by
      rw [Mpcp.gcsResponseTimes_eq]⟩

theorem gcsResponse_eq (h1 : OneEntry info) (x : Fin info.length) {r : Request} (hr : r ∈ (info.get x).requests) :
    gcsResponse info x r.resId = resp info x r := by
  have hinner : ∀ c, ((info.get x).requests.zip ((info.get x).requests.map (resp info x))).foldl
      (fun c p => if p.1.resId = r.resId then p.2 else c) c = resp info x r := by
    have e : (info.get x).requests.zip ((info.get x).requests.map (resp info x)) =
        (info.get x).requests.map (fun r => (r, resp info x r)) := by
      apply List.ext_getElem
      · simp
      · intro i h1 h2; simp
    rw [e]
    simp only [List.foldl_map]
    have hn : ((info.get x).requests.map Request.resId).Nodup := h1 _ (List.get_mem info x)
    generalize (info.get x).requests = l at hr hn
    have hskip : ∀ (l : List Request) (c : ℕ), r.resId ∉ l.map Request.resId →
        l.foldl (fun c p => if p.resId = r.resId then resp info x p else c) c = c := by
      intro l
      induction l with
      | nil => intro c _; rfl
      | cons b l ih =>
        intro c hb
        rw [List.map_cons, List.mem_cons, not_or] at hb
        rw [List.foldl_cons, if_neg (fun e => hb.1 e.symm), ih _ hb.2]
    induction l with
    | nil => cases hr
    | cons b l ih =>
      intro c
      rw [List.map_cons, List.nodup_cons] at hn
      rw [List.foldl_cons]
      rcases List.mem_cons.1 hr with rfl | hr
      · rw [if_pos rfl]
        exact hskip l _ hn.1
      · exact ih hr hn.2 _
  unfold gcsResponse
  set L := (clusterTimes info).flatten.filter (fun y => y.1.1 = (x : ℕ)) with hL
  have hmem : ∀ y ∈ L, y = (((x : ℕ), info.get x), (info.get x).requests.map (resp info x)) := by
    intro y hy
    obtain ⟨hy, he⟩ := List.mem_filter.1 hy
    obtain ⟨x', rfl⟩ := mem_clusterTimes hy
    simp only [decide_eq_true_eq] at he
    rw [Fin.ext he]
  have hne : L ≠ [] := by
    have : (((x : ℕ), info.get x), (info.get x).requests.map (resp info x)) ∈ L :=
      List.mem_filter.2 ⟨exists_clusterTimes x, by simp⟩
    exact List.ne_nil_of_mem this
  have key : ∀ (L : List ((ℕ × TaskInfo) × List ℕ)) (c : ℕ),
      (∀ y ∈ L, y = (((x : ℕ), info.get x), (info.get x).requests.map (resp info x))) → (L ≠ [] ∨ c = resp info x r) →
      L.foldl (fun c y => (y.1.2.requests.zip y.2).foldl (fun c p => if p.1.resId = r.resId then p.2 else c) c) c =
        resp info x r := by
    intro L
    induction L with
    | nil =>
      intro c _ h
      rcases h with h | h
      · exact absurd rfl h
      · exact h
    | cons y L ih =>
      intro c hm _
      rw [List.foldl_cons]
      apply ih _ (fun z hz => hm z (List.mem_cons_of_mem _ hz))
      right
      rw [hm y List.mem_cons_self]
      exact hinner c
  exact key L 0 hmem (Or.inl hne)

/-- The delay by a lower-priority task. -/
theorem le_delayByLower {k x : Fin info.length} (hne : x ≠ k) (hp : (info.get k).priority < (info.get x).priority) {r : Request}
    (hr : r ∈ (info.get x).requests) :
    gcsResponse info x r.resId ≤ delayByLower info k (info.get k) r.resId := by
  unfold delayByLower
  simp only
  set f : ℕ × ℕ → ℕ × TaskInfo → ℕ × ℕ := fun d t =>
    (t.2.requests.filter (fun q => q.resId = r.resId)).foldl (fun (d : ℕ × ℕ) _ =>
      if t.2.priority > (info.get k).priority then (max d.1 (gcsResponse info t.1 r.resId), d.2)
      else (d.1, d.2 + gcsResponse info t.1 r.resId)) d with hf
  have hmono : ∀ (l : List Request) (t : ℕ × TaskInfo) (d : ℕ × ℕ), d.1 ≤ (l.foldl (fun (d : ℕ × ℕ) _ =>
      if t.2.priority > (info.get k).priority then (max d.1 (gcsResponse info t.1 r.resId), d.2)
      else (d.1, d.2 + gcsResponse info t.1 r.resId)) d).1 := by
    intro l t
    induction l with
    | nil => intro d; exact le_rfl
    | cons b l ih =>
      intro d
      rw [List.foldl_cons]
      refine le_trans ?_ (ih _)
      split_ifs
      · exact Nat.le_max_left _ _
      · exact le_rfl
  have hmono2 : ∀ (l : List (ℕ × TaskInfo)) (d : ℕ × ℕ), d.1 ≤ (l.foldl f d).1 := by
    intro l
    induction l with
    | nil => intro d; exact le_rfl
    | cons t l ih =>
      intro d
      rw [List.foldl_cons]
      exact le_trans (hmono _ t d) (ih _)
  have hx : ((x : ℕ), info.get x) ∈ (others info k).filter (fun t => t.2.priority ≥ (info.get k).priority) := by
    refine List.mem_filter.2 ⟨List.mem_filter.2 ⟨mem_tasks.2 ⟨x, rfl⟩, ?_⟩, decide_eq_true hp.le⟩
    simpa [Fin.val_inj] using hne
  generalize (others info k).filter (fun t => t.2.priority ≥ (info.get k).priority) = l at hx
  have : ∀ d, gcsResponse info x r.resId ≤ (l.foldl f d).1 := by
    induction l with
    | nil => cases hx
    | cons t l ih =>
      intro d
      rw [List.foldl_cons]
      rcases List.mem_cons.1 hx with h | h
      · refine le_trans ?_ (hmono2 l _)
        rw [← h]
        simp only [hf]
        have hr' : r ∈ (info.get x).requests.filter (fun q => q.resId = r.resId) := List.mem_filter.2 ⟨hr, by simp⟩
        generalize (info.get x).requests.filter (fun q => q.resId = r.resId) = m at hr'
        cases m with
        | nil => cases hr'
        | cons b m =>
          rw [List.foldl_cons]
          refine le_trans ?_ (hmono m (x, info.get x) _)
          rw [if_pos (show (info.get x).priority > (info.get k).priority from hp)]
          exact Nat.le_max_right _ _
      · exact ih h _
  have := this (0, 0)
  omega

/-- The delay by higher-priority tasks. -/
theorem delayByHigher_eq (k : Fin info.length) (q E : ℕ) : delayByHigher info (info.get k) q E =
    ∑ x ∈ univ.filter (fun x : Fin info.length => (info.get x).priority < (info.get k).priority),
      (((info.get x).requests.filter (fun r => r.resId = q)).map (fun r =>
        (info.get x).maxNumJobs E * r.num * gcsResponse info x q)).sum := by
  unfold delayByHigher higherTasks
  exact tasks_sum (fun t => t.2.priority < (info.get k).priority) (fun t => ((t.2.requests.filter (fun r => r.resId = q)).map
    (fun r => t.2.maxNumJobs E * r.num * gcsResponse info t.1 q)).sum)

/-- Sections that are incomplete at some time in an interval. -/
theorem sections_le_jobs {m : ℕ} (h : RequestRun m (system info) R) (hb : BoundedBefore R.work R.sched W H)
    (hT : ∀ t ∈ info, 0 < t.period) (hW : ∀ i, W i ≤ (info.get i).response) {x : Fin info.length} {d lo hi E : ℕ}
    {r : Request} (hr : (info.get x).requests[d]? = some r) (hhi : hi ≤ H) (hl : hi - lo ≤ E)
    {F : Finset (Section info.length)}
    (hF : ∀ z ∈ F, R.issued z ∧ z.job.1 = x ∧ z.idx = d ∧ ∃ u, lo ≤ u ∧ u < hi ∧ R.enter z ≤ u ∧ u < R.leave z) :
    F.card ≤ (info.get x).maxNumJobs E * r.num := by
  refine (h.requests_le hb (i := x) (hT _ (List.get_mem info x)) (lock_req' hr) hhi (lo := lo) (F := F) hF).trans ?_
  apply Nat.mul_le_mul_right
  unfold TaskInfo.maxNumJobs
  rw [Native.divideWithCeil_eq _ (hT _ (List.get_mem info x))]
  change cdiv _ _ ≤ cdiv _ _
  apply cdiv_mono (hT _ (List.get_mem info x))
  have h1 := hW x
  omega

/-- A request does not wait longer than a fixed point of the iteration. -/
theorem wait_slot (h : Spec.Mpcp (system info) (fun i => (info.get i).priority) R)
    (hb : BoundedBefore R.work R.sched W H) (hT : ∀ t ∈ info, 0 < t.period)
    (h1 : OneEntry info) (hinj : Function.Injective (fun i : Fin info.length => (info.get i).priority))
    (hW : ∀ i, W i ≤ (info.get i).response) {s : Section info.length} {r : Request}
    (hr : (info.get s.job.1).requests[s.idx]? = some r) {E : ℕ}
    (hE : nextDelay info s.job.1 (info.get s.job.1) r.resId E = E) {t : ℕ} (ht : t < H) (hw : R.Waits s t) :
    t < R.enter s + E := by
  classical
  by_contra hc
  have hw2 := hw.2
  have key := h.wait_le hinj (s := s) (r := r.resId) (B := E) ⟨_, lock_req' hr, rfl⟩
    (fun v h1 h2 => ⟨hw.1, h1, by omega⟩)
    (fun x => gcsResponse info x r.resId)
    (fun x => (((info.get x).requests.filter (fun q => q.resId = r.resId)).map (fun q =>
        (info.get x).maxNumJobs E * q.num * gcsResponse info x r.resId)).sum)
    (delayByLower info s.job.1 (info.get s.job.1) r.resId)
    (by
      intro z hz hf
      obtain ⟨r', hr', hq⟩ := for_iff.1 hf
      have := gcsResponse_eq h1 z.job.1 (List.mem_of_getElem? hr')
      rw [hq] at this
      rw [this]
      exact Mpcp.hold h hz hr')
    (by
      intro z hz hf hne hp
      obtain ⟨r', hr', hq⟩ := for_iff.1 hf
      have hlt : (info.get s.job.1).priority < (info.get z.job.1).priority :=
        lt_of_le_of_ne (not_lt.1 hp) (fun hh => hne (hinj hh.symm))
      have := le_delayByLower hne hlt (List.mem_of_getElem? hr')
      rw [hq] at this
      exact this)
    (by
      intro x hx F hF
      rcases F.eq_empty_or_nonempty with h0 | ⟨z, hz⟩
      · rw [h0]; simp
      obtain ⟨a1, a2, a3, u, a4, a5, a6, a7⟩ := hF z hz
      obtain ⟨r', hr', hq⟩ := for_iff.1 a3
      rw [a2] at hr'
      have hfl := h1.filter (List.mem_of_getElem? hr')
      rw [hq] at hfl
      rw [hfl, List.map_singleton, List.sum_singleton]
      apply Nat.mul_le_mul_right
      have hcard := h.requests_le' hb (i := x) (hT _ (List.get_mem info x)) (F := F) (lo := R.enter s)
        (hi := R.enter s + E + 1) (d := z.idx) (lock_req' hr') (by omega) (by
          intro y hy
          obtain ⟨b1, b2, b3, b4⟩ := hF y hy
          obtain ⟨ry, hry, hqy⟩ := for_iff.1 b3
          rw [b2] at hry
          exact ⟨b1, b2, (h1.eq hry hr' (hqy.trans hq.symm)).1, b4⟩)
      refine hcard.trans (Nat.mul_le_mul_right _ ?_)
      have hT' := hT _ (List.get_mem info x)
      have hWp : 0 < W x := by
        have hr := h.active z u a1 a6 a7
        have hl := lt_of_pending hb (show u < H by omega) hr.1.2
        have hrel := hr.1.1
        rw [a2] at hl
        omega
      unfold TaskInfo.maxNumJobs
      rw [Native.divideWithCeil_eq _ hT']
      have e1 : cdiv (E + W x) (info.get x).period = (R.enter s + E + 1 - R.enter s + W x - 2) / (info.get x).period + 1 := by
        unfold cdiv
        rw [← Nat.add_div_right _ hT']
        congr 1
        omega
      change (R.enter s + E + 1 - R.enter s + W x - 2) / (info.get x).period + 1 ≤ cdiv _ _
      rw [← e1]
      apply cdiv_mono hT'
      have := hW x
      omega)
  unfold nextDelay at hE
  rw [delayByHigher_eq] at hE
  omega

/-! ### Direct blocking -/

theorem resourceCount_eq (h1 : OneEntry info) {i : Fin info.length} {a : Request} (ha : a ∈ (info.get i).requests) :
    resourceCount (info.get i) a.resId = a.num := by
  unfold resourceCount
  rw [h1.filter ha, List.map_singleton, List.sum_singleton]

theorem accessed_iff {ti : TaskInfo} {q : ℕ} : accessed ti q = true ↔ ∃ r ∈ ti.requests, r.resId = q := by
  unfold accessed
  rw [List.any_eq_true]
  simp

theorem dbBound_eq (ds : List (ℕ × Option ℕ)) (ti : TaskInfo) (h1 : OneEntry info) {i : Fin info.length} {a : Request}
    (ha : a ∈ (info.get i).requests) :
    dbBound ds ti (info.get i) a.resId = directBound ds ti (info.get i) a := by
  have hn : ((info.get i).requests.map Request.resId).Nodup := h1 _ (List.get_mem info i)
  unfold dbBound
  generalize directBound ds ti (info.get i) = f
  generalize (info.get i).requests = l at ha hn
  have hskip : ∀ (l : List Request) (c : ℕ), a.resId ∉ l.map Request.resId →
      l.foldl (fun c r => if r.resId = a.resId then f r else c) c = c := by
    intro l
    induction l with
    | nil => intro c _; rfl
    | cons b l ih =>
      intro c hb
      rw [List.map_cons, List.mem_cons, not_or] at hb
      rw [List.foldl_cons, if_neg (fun e => hb.1 e.symm), ih _ hb.2]
  have : ∀ c, l.foldl (fun c r => if r.resId = a.resId then f r else c) c = f a := by
    induction l with
    | nil => cases ha
    | cons b l ih =>
      intro c
      rw [List.map_cons, List.nodup_cons] at hn
      rw [List.foldl_cons]
      rcases List.mem_cons.1 ha with rfl | ha
      · rw [if_pos rfl]
        exact hskip l _ hn.1
      · exact ih ha hn.2 _
  exact this 0

/-- The requests of a job for a resource. -/
theorem requests_card {m : ℕ} (h : RequestRun m (system info) R) (h1 : OneEntry info) (j : Job info.length) {q : ℕ}
    {B : Finset (Section info.length)} (hB : ∀ s ∈ B, R.issued s ∧ s.job = j ∧ (system info).For s q) :
    B.card ≤ resourceCount (info.get j.1) q := by
  classical
  rcases B.eq_empty_or_nonempty with h0 | ⟨s0, hs0⟩
  · rw [h0]; simp
  obtain ⟨_, e0, hf⟩ := hB s0 hs0
  obtain ⟨a, ha, har⟩ := for_iff.1 hf
  rw [e0] at ha
  rw [← har, resourceCount_eq h1 (List.mem_of_getElem? ha), ← card_range a.num]
  apply card_le_card_of_injOn (fun s => s.inst)
  · intro s hs
    obtain ⟨hi, e1, hf⟩ := hB s (mem_coe.1 hs)
    obtain ⟨q, hq, hlt⟩ := h.declared s hi
    obtain ⟨b, hb', rfl⟩ := lock_req hq
    obtain ⟨b', hb1, hb2⟩ := for_iff.1 hf
    rw [hb'] at hb1
    cases hb1
    rw [e1] at hb'
    rw [(h1.eq hb' ha (hb2.trans har.symm)).2] at hlt
    exact mem_coe.2 (mem_range.2 hlt)
  · intro s hs s' hs' heq
    obtain ⟨_, e1, hf⟩ := hB s (mem_coe.1 hs)
    obtain ⟨_, e2, hf'⟩ := hB s' (mem_coe.1 hs')
    obtain ⟨q, hq, hr⟩ := for_iff.1 hf
    obtain ⟨q', hq', hr'⟩ := for_iff.1 hf'
    rw [e1] at hq
    rw [e2] at hq'
    have e3 := (h1.eq hq hq' (hr.trans hr'.symm)).1
    obtain ⟨sj, si, sn⟩ := s
    obtain ⟨sj', si', sn'⟩ := s'
    simp only at e1 e2 e3 heq
    rw [e1, e2, e3, heq]

end Verif.SR.Lp
