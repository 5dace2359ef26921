/-
C100: response-time analysis of partitioned fixed-priority scheduling with the MSRP and the
holistic analysis of blocking.
-/
import Verif.Lemmas.MsrpHolisticCore
import Verif.Lemmas.MsrpHolisticModel
import Verif.Lemmas.PartAccepted
import Verif.Props.Mpcp

namespace Verif.SR.Msrp
open Verif.Spec

/-- The tasks of all processors, with response times computed per processor. -/
theorem accepted_all (info : Info) (n : ℕ) (get : Fin n → TaskInfo) (hget : info = (List.finRange n).map get)
    (loc : Fin n → ℕ) (fuel : ℕ) (hT : ∀ t ∈ info, 0 < t.period)
    (hprio : info.Pairwise (fun a b => a.cluster = b.cluster → a.priority < b.priority))
    (done : ℕ → List (Fp.FpTask × ℚ))
    (h : ∀ t ∈ info, Fp.boundResponseTimes fuel 1
      (((List.finRange n).filter (fun i => (get i).cluster = t.cluster)).map (fun i =>
        { cost := ((get i).cost : ℚ), period := ((get i).period : ℚ), deadline := ((get i).deadline : ℚ),
          suspended := 0, blocked := some (loc i : ℚ) })) = some (true, done t.cluster)) :
    ∃ W : Fin n → ℕ,
      (∀ i, (done (get i).cluster).map Prod.snd =
        ((List.finRange n).filter (fun x => (get x).cluster = (get i).cluster)).map (fun i => (W i : ℚ))) ∧
      ∀ x, W x ≤ (get x).deadline ∧ W x ≤ (get x).period ∧
        loc x + (get x).cost + ∑ i ∈ Finset.univ.filter (fun i : Fin n => (get i).cluster = (get x).cluster ∧
          (get i).priority < (get x).priority), cdiv (W x) (get i).period * (get i).cost ≤ W x := by
  have hlen : n = info.length := by rw [hget]; simp
  subst hlen
  have e : get = info.get := by
    funext i
    have h1 : info[(i : ℕ)]? = some (get i) := by
      have := congrArg (fun l : Info => l[(i : ℕ)]?) hget
      simp only [List.getElem?_map] at this
      rw [this]
      simp
    rw [fin_get?] at h1
    exact (Option.some.inj h1).symm
  subst e
  have hacc : ∀ i : Fin info.length, ∃ W : Fin info.length → ℕ, _ := fun i =>
    part_accepted info (fun _ => 0) loc (info.get i).cluster fuel hT hprio (done (info.get i).cluster) (by
      refine Eq.trans ?_ (h _ (List.get_mem info i))
      congr 1
      unfold partTasks
      apply List.map_congr_left
      intro x _
      simp [partTask])
  choose Wf hWf using hacc
  have hsame : ∀ i x : Fin info.length, (info.get x).cluster = (info.get i).cluster → Wf i x = Wf x x := by
    intro i x hx
    have h1 := (hWf i).1
    have h2 := (hWf x).1
    rw [hx] at h2
    rw [h2] at h1
    have := List.map_inj_left.1 h1 x (List.mem_filter.2 ⟨List.mem_finRange x, by simpa using hx⟩)
    exact_mod_cast this.symm
  refine ⟨fun i => Wf i i, fun i => ?_, fun x => ?_⟩
  · rw [(hWf i).1]
    apply List.map_congr_left
    intro x hx
    have hx := (List.mem_filter.1 hx).2
    simp only [decide_eq_true_eq] at hx
    rw [hsame i x hx]
  · obtain ⟨h1, h2, h3⟩ := (hWf x).2 x rfl
    simp only [if_true, Nat.add_zero, Nat.zero_add] at h3
    exact ⟨h1, h2, h3⟩

/-! ### The bounds -/

/-- The bounds of task `i`. -/
def holisticBound (info : Info) (irq : ℤ) (i : Fin info.length) : Bound := ((msrpHolistic info irq)[(i : ℕ)]?).getD {}

theorem holistic_get (info : Info) (irq : ℤ) (i : Fin info.length) :
    (msrpHolistic info irq)[(i : ℕ)]? = some (holisticBound info irq i) ∧
    (holisticBound info irq i).remote = (chargeArrival (extract info (localResources info) false)
      (omlpDirect (extract info (localResources info) false) 1 irq) i
      (extractTask (localResources info) false (info.get i))).remote ∧
    (holisticBound info irq i).arrival.total = max
      (chargeArrival (extract info (localResources info) false)
        (omlpDirect (extract info (localResources info) false) 1 irq) i
        (extractTask (localResources info) false (info.get i))).arrival.total
      (pcpBlocking (extract info (localResources info) true) i
        (extractTask (localResources info) true (info.get i))).total := by
  have hx : ∀ w, (extract info (localResources info) w)[(i : ℕ)]? =
      some (extractTask (localResources info) w (info.get i)) := by
    intro w
    rw [extract_eq, List.getElem?_map, fin_get?]
    rfl
  have h1 := omlpBounds_get (hx false) 1 irq
  have h2 : ((extract info (localResources info) true).zipIdx.map (fun t =>
      pcpBlocking (extract info (localResources info) true) t.2 t.1))[(i : ℕ)]? = some
      (pcpBlocking (extract info (localResources info) true) i
        (extractTask (localResources info) true (info.get i))) := by
    rw [List.getElem?_map, List.getElem?_zipIdx, hx true]
    simp
  have h3 : ∃ b, (msrpHolistic info irq)[(i : ℕ)]? = some b ∧
      b.remote = (chargeArrival (extract info (localResources info) false)
        (omlpDirect (extract info (localResources info) false) 1 irq) i
        (extractTask (localResources info) false (info.get i))).remote ∧
      b.arrival.total = max
        (chargeArrival (extract info (localResources info) false)
          (omlpDirect (extract info (localResources info) false) 1 irq) i
          (extractTask (localResources info) false (info.get i))).arrival.total
        (pcpBlocking (extract info (localResources info) true) i
          (extractTask (localResources info) true (info.get i))).total := by
    unfold msrpHolistic
    simp only
    generalize chargeArrival _ _ _ _ = b at h1 ⊢
    generalize pcpBlocking _ i _ = p at h2 ⊢
    have h12 : ((omlpBounds (extract info (localResources info) false) 1 irq).zip
      ((extract info (localResources info) true).zipIdx.map (fun t =>
        pcpBlocking (extract info (localResources info) true) t.2 t.1)))[(i : ℕ)]? = some (b, p) :=
      List.getElem?_zip_eq_some.2 ⟨h1, h2⟩
    rw [List.getElem?_map, h12]
    simp only [Option.map_some]
    refine ⟨_, rfl, ?_⟩
    by_cases hc : p.total > b.arrival.total
    · rw [if_pos hc]
      refine ⟨rfl, ?_⟩
      simp only
      omega
    · rw [if_neg hc]
      refine ⟨rfl, ?_⟩
      omega
  obtain ⟨b, hb, hb'⟩ := h3
  have : holisticBound info irq i = b := by
    unfold holisticBound
    rw [hb]
    rfl
  rw [this]
  exact ⟨hb, hb'⟩

theorem afterMsrpHolistic_eq (info : Info) (irq : ℤ) (k : ℕ) : afterMsrpHolistic info irq k =
    ((List.finRange info.length).filter (fun i => (info.get i).cluster = k)).map (fun i =>
      { cost := (((info.get i).cost + (holisticBound info irq i).remote.total : ℕ) : ℚ),
        period := ((info.get i).period : ℚ), deadline := ((info.get i).deadline : ℚ),
        suspended := 0, blocked := some ((holisticBound info irq i).arrival.total : ℚ) }) := by
  unfold afterMsrpHolistic
  have hz : info.zip (msrpHolistic info irq) =
      (List.finRange info.length).map (fun i => (info.get i, holisticBound info irq i)) := by
    apply List.ext_getElem?
    intro a
    by_cases ha : a < info.length
    · have h1 := (holistic_get info irq ⟨a, ha⟩).1
      have h2 := fin_get? (info := info) ⟨a, ha⟩
      have h12 : (info.zip (msrpHolistic info irq))[a]? = some (info.get ⟨a, ha⟩, holisticBound info irq ⟨a, ha⟩) :=
        List.getElem?_zip_eq_some.2 ⟨h2, h1⟩
      have h3 : (List.finRange info.length)[a]? = some ⟨a, ha⟩ := by
        rw [List.getElem?_eq_getElem (by simpa using ha)]
        simp
      rw [h12, List.getElem?_map, h3]
      rfl
    · rw [List.getElem?_eq_none, List.getElem?_eq_none]
      · simp; omega
      · rw [List.length_zip]; omega
  rw [hz, List.filterMap_map]
  induction (List.finRange info.length) with
  | nil => rfl
  | cons i l ih =>
    rw [List.filterMap_cons, List.filter_cons]
    simp only [Function.comp_apply]
    by_cases hc : (info.get i).cluster = k
    · simp only [hc, if_true, decide_true, List.map_cons]
      rw [← ih]
      rfl
    · simp only [hc, if_false, decide_false]
      exact ih

theorem sum_map_filter {α : Type} (p : α → Bool) (f : α → ℕ) (l : List α) :
    ((l.filter p).map f).sum = (l.map (fun x => if p x then f x else 0)).sum := by
  induction l with
  | nil => rfl
  | cons x l ih =>
    by_cases hp : p x = true
    · rw [List.filter_cons_of_pos hp, List.map_cons, List.map_cons, List.sum_cons, List.sum_cons, ih, if_pos hp]
    · rw [List.filter_cons_of_neg hp, List.map_cons, List.sum_cons, ih, if_neg hp, Nat.zero_add]

theorem extract_false {locals : List ℕ} {r : ℕ} (h : r ∉ locals) :
    ((decide (r ∈ locals) && false) || (!decide (r ∈ locals) && !false)) = true := by simp [h]

theorem extract_true {locals : List ℕ} {r : ℕ} (h : r ∈ locals) :
    ((decide (r ∈ locals) && true) || (!decide (r ∈ locals) && !true)) = true := by simp [h]

/-- The time that a job spins. -/
theorem remote_eq (info : Info) (irq : ℤ) (i : Fin info.length) : (holisticBound info irq i).remote.total =
    ((info.get i).requests.map (fun r => if r.resId ∈ localResources info then 0 else
      (npFifo i (info.get i) (clusterResources info) 1 r.resId r.num irq).total)).sum := by
  rw [(holistic_get info irq i).2.1]
  unfold chargeArrival omlpDirect
  have hx : (extract info (localResources info) false)[(i : ℕ)]? =
      some (extractTask (localResources info) false (info.get i)) := by
    rw [extract_eq, List.getElem?_map, fin_get?]
    rfl
  simp only [hx]
  rw [omlpLoop_fst, show (({} : Interference)).total = 0 from rfl, Nat.zero_add]
  conv_lhs => rw [show (extractTask (localResources info) false (info.get i)).requests =
    ((info.get i).requests.filter (fun r => (decide (r.resId ∈ localResources info) && false) ||
      (!decide (r.resId ∈ localResources info) && !false))).map (fun r => { r with isRead := false }) from rfl]
  rw [List.map_map, sum_map_filter]
  congr 1
  apply List.map_congr_left
  intro r _
  by_cases hr : r.resId ∈ localResources info
  · rw [if_pos hr, if_neg (by simp [hr])]
  · rw [if_neg hr, if_pos (extract_false hr)]
    exact npFifo_extract info _ false r.resId (extract_false hr) _ _ _ _ _

/-- The blocking due to a request for a global resource. -/
theorem arrival_global {info : Info} {irq : ℤ} {k a : Fin info.length} (hne : a ≠ k)
    (hcl : (info.get a).cluster = (info.get k).cluster) (hp : (info.get k).priority ≤ (info.get a).priority)
    {r : Request} (hr : r ∈ (info.get a).requests) (hl : r.resId ∉ localResources info) :
    (npFifo a (info.get a) (clusterResources info) 1 r.resId 1 (if r.num = 1 then irq else noCpu)).total + r.length ≤
      (holisticBound info irq k).arrival.total := by
  rw [(holistic_get info irq k).2.2]
  refine le_trans ?_ (le_max_left _ _)
  unfold chargeArrival
  simp only
  have hx : (extract info (localResources info) false)[(a : ℕ)]? =
      some (extractTask (localResources info) false (info.get a)) := by
    rw [extract_eq, List.getElem?_map, fin_get?]
    rfl
  refine le_trans ?_ ((maxLocalSpan_ge _ _ _ _ _).2 (extractTask (localResources info) false (info.get a), (a : ℕ))
    (List.mem_zipIdx_iff_getElem?.2 hx) (fun he => hne (Fin.ext he)) hcl hp)
  unfold omlpDirect
  simp only [hx]
  have := (omlpLoop_snd a (extractTask (localResources info) false (info.get a))
    (clusterResources (extract info (localResources info) false)) 1 irq
    (extractTask (localResources info) false (info.get a)).requests {} {}).2 { r with isRead := false }
    (List.mem_map.2 ⟨r, List.mem_filter.2 ⟨hr, extract_false hl⟩, rfl⟩)
  simp only at this
  rw [npFifo_extract info _ false r.resId (extract_false hl)] at this
  exact this

/-- The blocking due to a request for a local resource. -/
theorem arrival_local {info : Info} {irq : ℤ} {k a x : Fin info.length} (hne : a ≠ k)
    (hcl : (info.get a).cluster = (info.get k).cluster) (hp : (info.get k).priority ≤ (info.get a).priority)
    {r : Request} (hr : r ∈ (info.get a).requests) (hl : r.resId ∈ localResources info)
    (hx : (system info).Uses x r.resId) (hxp : (info.get x).priority ≤ (info.get k).priority) :
    r.length ≤ (holisticBound info irq k).arrival.total := by
  rw [(holistic_get info irq k).2.2]
  refine le_trans ?_ (le_max_right _ _)
  have ha : (extract info (localResources info) true)[(a : ℕ)]? =
      some (extractTask (localResources info) true (info.get a)) := by
    rw [extract_eq, List.getElem?_map, fin_get?]
    rfl
  have hlen : (extract info (localResources info) true).length = info.length := by
    rw [extract_eq, List.length_map]
  have hget : (extract info (localResources info) true).get (x.cast hlen.symm) =
      extractTask (localResources info) true (info.get x) := by
    simp [extract_eq]
    rfl
  refine pcpBlocking_ge _ _ _ ha (fun he => hne (Fin.ext he.symm)) hcl hp (r := { r with isRead := false })
    (List.mem_map.2 ⟨r, List.mem_filter.2 ⟨hr, extract_true hl⟩, rfl⟩) ?_
  apply ceilingOf_le_of
  refine ⟨x.cast hlen.symm, ?_, ?_⟩
  · obtain ⟨q, hq, hqr⟩ := uses_iff.1 hx
    refine uses_iff.2 ⟨{ q with isRead := false }, ?_, hqr⟩
    rw [hget]
    exact List.mem_map.2 ⟨q, List.mem_filter.2 ⟨hq, extract_true (hqr ▸ hl)⟩, rfl⟩
  · rw [hget]
    exact hxp

/-! ### C100 -/

section
variable {info : Info} {R : LockRun info.length} {W : Fin info.length → ℕ} {H : ℕ} {irq : ℤ}

/-- The slots in which a job spins. -/
theorem spinSlots_le (h : SpinRun (system info) R) (hb : BoundedBefore R.work R.sched W H)
    (hT : ∀ t ∈ info, 0 < t.period) (hW : ∀ i, W i ≤ (info.get i).response)
    (hirq : ∀ t ∈ info, (t.cluster : ℤ) ≠ irq) (j : Job info.length) :
    (R.spinSlots j H).card ≤ (holisticBound info irq j.1).remote.total := by
  classical
  rw [remote_eq]
  let Y : ℕ → Finset ℕ := fun d => (Finset.range H).filter (fun u =>
    ∃ s, R.issued s ∧ s.job = j ∧ s.idx = d ∧ R.enter s ≤ u ∧ u < R.acquire s)
  have hcov : R.spinSlots j H ⊆ (Finset.range (info.get j.1).requests.length).biUnion Y := by
    intro u hu
    obtain ⟨hu, s, hi, hj, h1, h2⟩ := LockRun.mem_spinSlots.1 hu
    obtain ⟨q, hq, _⟩ := h.declared s hi
    obtain ⟨r, hr, _⟩ := lock_req hq
    rw [hj] at hr
    refine Finset.mem_biUnion.2 ⟨s.idx, Finset.mem_range.2 (List.getElem?_eq_some_iff.1 hr).1, ?_⟩
    exact Finset.mem_filter.2 ⟨Finset.mem_range.2 hu, s, hi, hj, rfl, h1, h2⟩
  refine (Finset.card_le_card hcov).trans (Finset.card_biUnion_le.trans ?_)
  apply sum_requests
  intro d r hr
  by_cases hg : (system info).Global r.resId
  · have hl : r.resId ∉ localResources info := by
      rw [mem_localResources (uses_iff.2 ⟨r, List.mem_of_getElem? hr, rfl⟩)]
      exact not_not.2 hg
    rw [if_neg hl]
    let D := (LockSystem.sections (system info) j).filter (fun s => R.issued s ∧ s.idx = d)
    refine spin_count h hb hT hW hirq (D := D) ?_ hg ?_ ?_
    · intro s hs
      obtain ⟨hs, hi, hd⟩ := Finset.mem_filter.1 hs
      obtain ⟨hj, _⟩ := LockSystem.mem_sections.1 hs
      refine ⟨hi, hj, ⟨r.resId, r.num, r.length⟩, ?_, rfl⟩
      rw [hd, hj]
      exact lock_req' hr
    · rw [← Finset.card_range r.num]
      apply Finset.card_le_card_of_injOn (fun s => s.inst)
      · intro s hs
        obtain ⟨hs, hi, hd⟩ := Finset.mem_filter.1 (Finset.mem_coe.1 hs)
        obtain ⟨hj, q, hq, hn⟩ := LockSystem.mem_sections.1 hs
        rw [hd, hj, lock_req' hr] at hq
        cases hq
        exact Finset.mem_coe.2 (Finset.mem_range.2 hn)
      · intro a ha b hb hab
        obtain ⟨ha, _, had⟩ := Finset.mem_filter.1 (Finset.mem_coe.1 ha)
        obtain ⟨hb, _, hbd⟩ := Finset.mem_filter.1 (Finset.mem_coe.1 hb)
        obtain ⟨haj, _⟩ := LockSystem.mem_sections.1 ha
        obtain ⟨hbj, _⟩ := LockSystem.mem_sections.1 hb
        cases a
        cases b
        simp_all
    · intro t ht
      obtain ⟨ht, s, hi, hj, hd, h1, h2⟩ := Finset.mem_filter.1 ht
      exact ⟨Finset.mem_range.1 ht, s, Finset.mem_filter.2
        ⟨LockSystem.mem_sections.2 ⟨hj, h.declared s hi⟩, hi, hd⟩, h1, h2⟩
  · apply le_trans _ (Nat.zero_le _)
    rw [Nat.le_zero, Finset.card_eq_zero]
    apply Finset.filter_eq_empty_iff.2
    rintro u _ ⟨s, hi, hj, hd, h1, h2⟩
    have hq := lock_req' hr
    have := h.immediate s _ hi (by rw [hj, hd]; exact hq) hg
    omega

open Classical in
/-- The longest time from a request until the resource is released. -/
noncomputable def spanOf (info : Info) (irq : ℤ) (i : Fin info.length) (q : Req) : ℕ :=
  if (system info).Global q.res then
    (npFifo i (info.get i) (clusterResources info) 1 q.res 1 (if q.num = 1 then irq else noCpu)).total + q.len
  else q.len

theorem span_le (h : SpinRun (system info) R) (hb : BoundedBefore R.work R.sched W H)
    (hT : ∀ t ∈ info, 0 < t.period) (hW : ∀ i, W i ≤ (info.get i).response)
    (hirq : ∀ t ∈ info, (t.cluster : ℤ) ≠ irq) (s : Section info.length) (q : Req) (hi : R.issued s)
    (hq : ((system info).reqs s.job.1)[s.idx]? = some q) :
    open Classical in
    ((Finset.Ico (R.enter s) (min (R.leave s) H)).filter (fun t => s.job ∈ R.sched t)).card ≤
      spanOf info irq s.job.1 q := by
  classical
  have hlen := h.length s q hi hq
  have hord := h.order s hi
  unfold spanOf
  by_cases hg : (system info).Global q.res
  · rw [if_pos hg]
    have h1 := spin_count h hb hT hW (irq := if q.num = 1 then irq else noCpu) (by
      intro t ht
      split_ifs
      · exact hirq t ht
      · unfold noCpu
        omega) (j := s.job) (D := {s}) (issued := 1) (r := q.res) (by
      intro x hx
      rw [Finset.mem_singleton] at hx
      subst hx
      exact ⟨hi, rfl, q, hq, rfl⟩) hg (by simp) (Y := Finset.Ico (R.enter s) (min (R.acquire s) H)) (by
      intro t ht
      rw [Finset.mem_Ico, lt_min_iff] at ht
      exact ⟨ht.2.2, s, Finset.mem_singleton_self s, ht.1, ht.2.1⟩)
    refine le_trans ?_ (Nat.add_le_add h1 hlen)
    refine le_trans (Finset.card_le_card ?_) (Finset.card_union_le _ _)
    intro t ht
    rw [Finset.mem_filter, Finset.mem_Ico, lt_min_iff] at ht
    rw [Finset.mem_union, Finset.mem_Ico, lt_min_iff, Finset.mem_filter, Finset.mem_Ico]
    by_cases hc : t < R.acquire s
    · exact Or.inl ⟨ht.1.1, hc, ht.1.2.2⟩
    · exact Or.inr ⟨⟨by omega, ht.1.2.1⟩, ht.2⟩
  · rw [if_neg hg]
    have he := h.immediate s q hi hq hg
    rw [he] at hlen
    refine le_trans (Finset.card_le_card (Finset.filter_subset_filter _
      (Finset.Ico_subset_Ico le_rfl (min_le_left _ _)))) ?_
    refine le_trans (le_of_eq ?_) hlen
    congr

end

/-- **C100**: let the response-time analysis accept the tasks of each processor after
`apply_msrp_bounds_holistic`, and let no computed response time exceed the one assumed in the computation of the
bounds.  Then in every run of partitioned fixed-priority scheduling with the MSRP no job takes longer than the
computed response time, which is at most the deadline.  The priorities on each processor decrease in the order of the
tasks, no task runs on the processor dedicated to interrupts, and a job that had to wait for a resource
uses it. -/
theorem C100_msrp_holistic_safe (info : Info) (irq : ℤ) (fuel : ℕ) (hT : ∀ t ∈ info, 0 < t.period)
    (hirq : ∀ t ∈ info, (t.cluster : ℤ) ≠ irq)
    (hprio : info.Pairwise (fun a b => a.cluster = b.cluster → a.priority < b.priority))
    (done : ℕ → List (Fp.FpTask × ℚ))
    (h : ∀ t ∈ info, Fp.boundResponseTimes fuel 1 (afterMsrpHolistic info irq t.cluster) =
      some (true, done t.cluster)) :
    ∃ resp : Fin info.length → ℚ,
      (∀ t ∈ info, (done t.cluster).map Prod.snd =
        ((List.finRange info.length).filter (fun i => (info.get i).cluster = t.cluster)).map resp) ∧
      (∀ i, resp i ≤ (info.get i).deadline) ∧
      ((∀ i, resp i ≤ (info.get i).response) →
        ∀ R, MsrpFp (system info) (fun i => (info.get i).priority) R →
          (∀ s, R.issued s → R.enter s < R.acquire s → R.acquire s < R.leave s) → ∀ i (q t : ℕ),
          (R.work.release (i, q) : ℚ) + resp i ≤ t → Completed R.work R.sched (i, q) t) := by
  classical
  let rem : Fin info.length → ℕ := fun i => (holisticBound info irq i).remote.total
  let arr : Fin info.length → ℕ := fun i => (holisticBound info irq i).arrival.total
  let get' : Fin info.length → TaskInfo := fun i => { info.get i with cost := (info.get i).cost + rem i }
  have hlt : ∀ a b : Fin info.length, a < b → (info.get a).cluster = (info.get b).cluster →
      (info.get a).priority < (info.get b).priority := fun a b hab => (List.pairwise_iff_get.1 hprio) a b hab
  obtain ⟨W, hdone, hW⟩ := accepted_all ((List.finRange info.length).map get') info.length get' rfl arr fuel
    (by
      intro t ht
      obtain ⟨i, _, rfl⟩ := List.mem_map.1 ht
      exact hT (info.get i) (List.get_mem info i))
    (by
      rw [List.pairwise_map]
      refine (List.sortedLT_finRange _).pairwise.imp ?_
      intro a b hab
      exact hlt a b hab) done
    (by
      intro t ht
      obtain ⟨i, _, rfl⟩ := List.mem_map.1 ht
      have := h _ (List.get_mem info i)
      rw [afterMsrpHolistic_eq] at this
      exact this)
  refine ⟨fun i => (W i : ℚ), ?_, ?_, ?_⟩
  · intro t ht
    obtain ⟨i, rfl⟩ := List.get_of_mem ht
    exact hdone i
  · intro i
    have := (hW i).1
    beta_reduce
    exact_mod_cast this
  · intro hresp R hR huse i q t ht
    have hresp : ∀ i, W i ≤ (info.get i).response := fun i => by
      have := hresp i
      beta_reduce at this
      exact_mod_cast this
    have hinj : ∀ a b : Fin info.length, (info.get a).cluster = (info.get b).cluster →
        (info.get a).priority = (info.get b).priority → a = b := by
      intro a b h1 h2
      rcases lt_trichotomy a b with h3 | h3 | h3
      · have := hlt a b h3 h1; omega
      · exact h3
      · have := hlt b a h3 h1.symm; omega
    have hsafe := hR.safe huse (fun i => hT _ (List.get_mem info i)) hinj W rem arr (spanOf info irq)
      (fun H hb j => spinSlots_le hR.toSpinRun hb hT hresp hirq j)
      (fun H hb s q hi hq => by
        refine le_trans (le_of_eq ?_) (span_le hR.toSpinRun hb hT hresp hirq s q hi hq)
        congr)
      (by
        intro k a hpr hp q hq _ hor
        obtain ⟨r, hr, rfl⟩ := mem_reqs.1 hq
        have hne : a ≠ k := by
          rintro rfl
          omega
        have hu : (system info).Uses a r.resId := uses_iff.2 ⟨r, hr, rfl⟩
        unfold spanOf
        by_cases hg : (system info).Global r.resId
        · rw [if_pos hg]
          exact arrival_global hne hpr hp.le hr (fun hc => (mem_localResources hu).1 hc hg)
        · rw [if_neg hg]
          rcases hor with hor | ⟨x, hx1, hx2⟩
          · exact absurd hor hg
          · exact arrival_local hne hpr hp.le hr ((mem_localResources hu).2 hg) hx1 hx2)
      (fun k => by
        refine le_trans (le_of_eq ?_) (hW k).2.2
        congr 1)
      (fun k => (hW k).2.1) (R.work.release (i, q) + W i + 1) (i, q) (Nat.lt_succ_self _)
    have ht : R.work.release (i, q) + W i ≤ t := by
      beta_reduce at ht
      exact_mod_cast ht
    exact hsafe.mono ht

/-- **C100**: if the assumed response times are at least the deadlines, accepted tasks meet their
deadlines. -/
theorem C100_msrp_holistic_schedulable (info : Info) (irq : ℤ) (fuel : ℕ) (hT : ∀ t ∈ info, 0 < t.period)
    (hirq : ∀ t ∈ info, (t.cluster : ℤ) ≠ irq)
    (hprio : info.Pairwise (fun a b => a.cluster = b.cluster → a.priority < b.priority))
    (hresp : ∀ t ∈ info, t.deadline ≤ t.response)
    (h : ∀ t ∈ info, ∃ done, Fp.boundResponseTimes fuel 1 (afterMsrpHolistic info irq t.cluster) =
      some (true, done)) (R : LockRun info.length)
    (hR : MsrpFp (system info) (fun i => (info.get i).priority) R)
    (huse : ∀ s, R.issued s → R.enter s < R.acquire s → R.acquire s < R.leave s) :
    MeetsDeadlines R.work (system info).deadline R.sched := by
  classical
  let done : ℕ → List (Fp.FpTask × ℚ) := fun k =>
    ((Fp.boundResponseTimes fuel 1 (afterMsrpHolistic info irq k)).getD (true, [])).2
  obtain ⟨resp, _, h2, h3⟩ := C100_msrp_holistic_safe info irq fuel hT hirq hprio done (by
    intro t ht
    obtain ⟨d, hd⟩ := h t ht
    simp only [done, hd, Option.getD_some])
  rintro ⟨i, q⟩
  refine h3 (fun i => (h2 i).trans (by exact_mod_cast hresp _ (List.get_mem info i))) R hR huse i q _ ?_
  have := h2 i
  change _ ≤ ((R.work.release (i, q) + (info.get i).deadline : ℕ) : ℚ)
  push_cast
  linarith

end Verif.SR.Msrp
