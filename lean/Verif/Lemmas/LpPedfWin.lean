/-
Windows of runs under partitioned EDF with the MSRP, and deadline misses.
-/
import Verif.Lemmas.LpPedfRun

namespace Verif.Spec
open Finset

variable {n : ℕ} {S : LockSystem n} {R : LockRun n}

theorem SpinBase.quiet_valid (h : SpinBase S R)
    (huse : ∀ s, R.issued s → R.enter s < R.acquire s → R.acquire s < R.leave s) (H : ℕ) :
    ValidSchedule n (quietWork R S H) (quietSched R H) := by
  have hcc : ∀ (j : Job n) t, t ≤ H → (Completed (quietWork R S H) (quietSched R H) j t ↔
      Completed R.work R.sched j t) := fun j t ht => h.completed_quiet huse ht j
  constructor
  · intro t
    refine le_trans (card_le_card ?_) (h.valid.procs t)
    intro j hj
    exact (mem_quietSched.1 hj).2.1
  · intro t j hj
    obtain ⟨hlt, hj, _⟩ := mem_quietSched.1 hj
    obtain ⟨⟨a1, a2⟩, a3⟩ := h.ready t j hj
    exact ⟨⟨a1, fun hc => a2 ((hcc j t hlt.le).1 hc)⟩, fun k hk => (hcc _ t hlt.le).2 (a3 k hk)⟩

/-- If one of some jobs is incomplete at the end of a window, their costs and the slots in which none of them makes
progress exceed the window. -/
theorem SpinBase.window_lt (h : SpinBase S R)
    (huse : ∀ s, R.issued s → R.enter s < R.acquire s → R.acquire s < R.leave s) {lo hi H : ℕ} (hl : lo ≤ hi)
    (hH : hi ≤ H) {A : Finset (Job n)} {x0 : Job n} (hx0 : x0 ∈ A) (hno : ¬ Completed R.work R.sched x0 hi)
    {V : Finset ℕ} (hV : ∀ t, lo ≤ t → t < hi → (∀ x ∈ A, x ∉ quietSched R H t) → t ∈ V) :
    hi - lo < ∑ x ∈ A, S.cost x.1 + V.card := by
  classical
  have hsum : hi - lo ≤ ∑ t ∈ Ico lo hi, (quietSched R H t ∩ A).card + V.card := by
    have hsub : (Ico lo hi).filter (fun t => quietSched R H t ∩ A = ∅) ⊆ V := by
      intro t ht
      obtain ⟨h1, h2⟩ := mem_filter.1 ht
      rw [mem_Ico] at h1
      refine hV t h1.1 h1.2 (fun x hx hq => ?_)
      have : x ∈ quietSched R H t ∩ A := mem_inter.2 ⟨hq, hx⟩
      rw [h2] at this
      simp at this
    refine le_trans ?_ (Nat.add_le_add_left (card_le_card hsub) _)
    rw [card_filter, ← sum_add_distrib]
    calc hi - lo = ∑ _t ∈ Ico lo hi, 1 := by simp
      _ ≤ _ := by
        apply sum_le_sum
        intro t _
        split_ifs with hc
        · omega
        · have := card_pos.2 (nonempty_iff_ne_empty.2 hc); omega
  rw [sum_card_eq_sum_service] at hsum
  have hv := h.quiet_valid huse H
  have hlt : ∑ x ∈ A, serviceIn (quietSched R H) x lo hi < ∑ x ∈ A, (quietWork R S H).exec x := by
    apply sum_lt_sum (fun x _ => serviceIn_le_exec hv x lo hi)
    refine ⟨x0, hx0, ?_⟩
    have h1 := service_add (quietSched R H) x0 hl
    have h2 : ¬ Completed (quietWork R S H) (quietSched R H) x0 hi := fun hc =>
      hno ((h.completed_quiet huse hH x0).1 hc)
    unfold Completed at h2
    omega
  have hle : ∑ x ∈ A, (quietWork R S H).exec x ≤ ∑ x ∈ A, S.cost x.1 := sum_le_sum (fun x _ => h.quiet_wcet H x)
  omega

end Verif.Spec

namespace Verif.SR.Pedf
open Verif.Spec Finset
open Verif.SR.Msrp (system uses_iff)
open Verif.SR.Lp (resOf for_resOf for_iff)

variable {info : Info} {R : LockRun info.length} {k H : ℕ}

theorem sum_cost_le {A : Finset (Job info.length)} {m : Fin info.length → ℕ}
    (hk : ∀ j ∈ A, (info.get j.1).cluster = k)
    (hm : ∀ i, (info.get i).cluster = k → ((A.filter (fun j => j.1 = i)).image Prod.snd).card ≤ m i) :
    ∑ x ∈ A, (system info).cost x.1 ≤ ∑ i ∈ procTasks info k, m i * (info.get i).cost := by
  classical
  rw [← sum_fiberwise_of_maps_to (g := Prod.fst) (t := procTasks info k) (fun j hj => mem_procTasks.2 (hk j hj))]
  apply sum_le_sum
  intro i hi
  have e : ∑ x ∈ A.filter (fun j => j.1 = i), (system info).cost x.1 =
      (A.filter (fun j => j.1 = i)).card * (info.get i).cost := by
    rw [sum_const_nat (m := (info.get i).cost)]
    intro x hx
    rw [(mem_filter.1 hx).2]
    rfl
  rw [e]
  apply Nat.mul_le_mul_right
  have hinj : Set.InjOn Prod.snd ((A.filter (fun j => j.1 = i) : Finset (Job info.length)) : Set (Job info.length)) := by
    intro a ha b hb hab
    exact Prod.ext ((mem_filter.1 (mem_coe.1 ha)).2.trans (mem_filter.1 (mem_coe.1 hb)).2.symm) hab
  rw [← card_image_of_injOn hinj]
  exact hm i (mem_procTasks.1 hi)

section
variable (h : Spec.Msrp (system info) R) (hu : Usual info)
  (huse : ∀ s, R.issued s → R.enter s < R.acquire s → R.acquire s < R.leave s)
  (hb : BoundedBefore R.work R.sched (system info).deadline H)
include h hu huse hb

omit huse hb in
theorem release_sporadic :
    Workload.Sporadic (⟨R.work.release, fun _ => 0⟩ : Workload info.length) (fun _ => 0) (system info).period :=
  ⟨h.separated, fun _ _ => le_rfl⟩

omit huse hb in
/-- A pending job is ready or another job of the task is. -/
theorem pending_ready {i : Fin info.length} {p t : ℕ} (hp : Pending R.work R.sched (i, p) t) :
    ∃ p', Ready R.work R.sched (i, p') t ∧ R.work.release (i, p') ≤ R.work.release (i, p) := by
  classical
  have hex : ∃ k', ¬ Completed R.work R.sched (i, k') t := ⟨p, hp.2⟩
  have hrel : R.work.release (i, Nat.find hex) ≤ R.work.release (i, p) := by
    have := release_mono (release_sporadic h hu) i (Nat.find_min' hex hp.2)
    simp only at this
    omega
  refine ⟨Nat.find hex, ⟨⟨hrel.trans hp.1, Nat.find_spec hex⟩, fun k' hk' => ?_⟩, hrel⟩
  by_contra hc
  exact Nat.find_min hex hk' hc

omit huse hb in
theorem released_finite (t : ℕ) : {j : Job info.length | R.work.release j ≤ t}.Finite :=
  sporadic_finite (release_sporadic h hu) (fun i => hu.period (List.get_mem info i)) t

/-- A job of the processor is pending throughout a window of length `L`: impossible if the arrivals and delays of such a
window fit into it. -/
theorem ac_window {t1 L : ℕ} (hL : 0 < L) (hH : t1 + L ≤ H)
    (hfit : ∀ spin arr, Sol info .ac k L spin arr none → arrivalCurve info k L + delay info k spin arr none ≤ L)
    (hquiet : ∀ x : Job info.length, (info.get x.1).cluster = k → R.work.release x < t1 → Completed R.work R.sched x t1)
    (hbusy : ∀ u, t1 ≤ u → u < t1 + L → ∃ x : Job info.length, (info.get x.1).cluster = k ∧ Pending R.work R.sched x u)
    (hend : ∃ x : Job info.length, (info.get x.1).cluster = k ∧ R.work.release x < t1 + L ∧
      ¬ Completed R.work R.sched x (t1 + L)) : False := by
  classical
  set A := (released_finite h hu (t1 + L)).toFinset.filter (fun x => (info.get x.1).cluster = k ∧
    t1 ≤ R.work.release x ∧ R.work.release x < t1 + L) with hA
  have hmemA : ∀ x, x ∈ A ↔ (info.get x.1).cluster = k ∧ t1 ≤ R.work.release x ∧ R.work.release x < t1 + L := by
    intro x
    rw [hA, mem_filter, Set.Finite.mem_toFinset]
    exact ⟨fun a => a.2, fun a => ⟨a.2.2.le, a⟩⟩
  have hnew : ∀ (x : Job info.length) u, (info.get x.1).cluster = k → t1 ≤ u → ¬ Completed R.work R.sched x u →
      t1 ≤ R.work.release x := by
    intro x u h1 h2 h3
    by_contra hc
    exact h3 ((hquiet x h1 (by omega)).mono h2)
  set V := (Ico t1 (t1 + L)).filter (fun t => ∀ x ∈ A, x ∉ quietSched R H t) with hV
  have key : ∀ u ∈ V, ∃ z s, R.Served z u ∧ R.Blocks (system info) (fifo R) s z u ∧ s.job ∈ A := by
    intro u hu'
    obtain ⟨h1, h2⟩ := mem_filter.1 hu'
    rw [mem_Ico] at h1
    obtain ⟨⟨i, p⟩, h3, h4⟩ := hbusy u h1.1 h1.2
    obtain ⟨p', h5, _⟩ := pending_ready h hu h4
    have : ∃ y ∈ R.sched u, (info.get y.1).cluster = k := by
      by_cases hin : (i, p') ∈ R.sched u
      · exact ⟨_, hin, h3⟩
      · obtain ⟨y, hy, hyp, _⟩ := h.edf u (i, p') h5 hin
        exact ⟨y, hy, Eq.trans hyp h3⟩
    obtain ⟨y, hy, hyk⟩ := this
    have hr := h.ready u y hy
    have hyA : y ∈ A := (hmemA y).2 ⟨hyk, hnew y u hyk h1.1 hr.1.2, by have := hr.1.1; omega⟩
    have hsp : R.Spins y u := by
      by_contra hc
      exact h2 y hyA (mem_quietSched.2 ⟨by omega, hy, hc⟩)
    obtain ⟨s, hi, rfl, h6, h7⟩ := hsp
    obtain ⟨z, hz, hbl⟩ := h.toSpinBase.blocks (Q := fifo R) h.fifo hi h6 h7
    exact ⟨z, s, hz, hbl, hyA⟩
  obtain ⟨x0, hx1, hx2, hx3⟩ := hend
  haveI : Nonempty (Section info.length) := ⟨⟨x0, 0, 0⟩⟩
  choose! sec src hk using key
  have hview : View info R k t1 (t1 + L) A V sec src (fun _ => false) none :=
    { range := fun u hu' => by
        have := mem_Ico.1 (mem_filter.1 hu').1
        exact this
      jobs := fun j hj => ((hmemA j).1 hj).1
      served := fun u hu' => (hk u hu').1
      direct := fun u hu' _ => (hk u hu').2
      arrival := fun u _ hc => by cases hc
      source := fun c0 hc => by cases hc }
  have hcount : ∀ i, (info.get i).cluster = k → ((A.filter (fun j => j.1 = i)).image Prod.snd).card ≤
      localJobs .ac (info.get i) (t1 + L - t1) := by
    intro i _
    have hT := hu.period (List.get_mem info i)
    have := card_released_le (release_sporadic h hu) i hT ((A.filter (fun j => j.1 = i)).image Prod.snd) (a := t1)
      (b := t1 + L - 1) (by
        intro p hp
        obtain ⟨x, hx, rfl⟩ := mem_image.1 hp
        obtain ⟨hx, he⟩ := mem_filter.1 hx
        obtain ⟨_, h2, h3⟩ := (hmemA x).1 hx
        rw [← he]
        exact ⟨h2, by change R.work.release x ≤ _; omega⟩) (by omega)
    refine this.trans ?_
    show _ ≤ acJobs (info.get i) _
    unfold acJobs
    rw [dwc_eq _ hT, ← succ_div_eq_cdiv hT (by omega)]
    have e : t1 + L - 1 - t1 = t1 + L - t1 - 1 := by omega
    rw [e]
    exact le_rfl
  have hsol := hview.sol h.toSpinBase hu hb hH hcount (fun _ => rfl)
  have hcard := hview.card_le h.toSpinBase hu
  have hlt := h.toSpinBase.window_lt huse (lo := t1) (hi := t1 + L) (H := H) (by omega) hH (A := A)
    ((hmemA x0).2 ⟨hx1, hnew x0 _ hx1 (by omega) hx3, hx2⟩) hx3
    (V := V) (fun t a b c => mem_filter.2 ⟨mem_Ico.2 ⟨a, b⟩, c⟩)
  have hcost := sum_cost_le hview.jobs hcount
  have e : t1 + L - t1 = L := by omega
  rw [e] at hsol hlt hcost
  have hf := hfit _ _ hsol
  rw [arrivalCurve_eq] at hf
  have e2 : ∀ i, localJobs .ac (info.get i) L = acJobs (info.get i) L := fun _ => rfl
  simp only [e2] at hcost
  simp only [Option.map_none] at hcard
  omega

variable (hshare : ∀ a b r, (system info).Uses a r → (system info).Uses b r → a ≠ b → (system info).Global r)
include hshare

omit hu huse hb in
/-- Blocking by a job with a late deadline is due to a global resource. -/
theorem blocking_global {s : Section info.length} {q : Req} {x : Fin info.length}
    (hq : ((system info).reqs s.job.1)[s.idx]? = some q) (hlt : (info.get x).deadline < (info.get s.job.1).deadline)
    (hc : (system info).Global q.res ∨ ∃ y, (system info).Uses y q.res ∧ (system info).deadline y ≤ (system info).deadline x) :
    (system info).Global q.res := by
  rcases hc with hc | ⟨y, hy1, hy2⟩
  · exact hc
  · refine hshare y s.job.1 q.res hy1 ⟨q, List.mem_of_getElem? hq, rfl⟩ ?_
    rintro rfl
    change (info.get _).deadline ≤ (info.get _).deadline at hy2
    omega

/-- The window before a deadline miss. -/
theorem pdc_window {j : Job info.length} (hk : (info.get j.1).cluster = k)
    (hH : R.work.release j + (info.get j.1).deadline = H) (hmiss : ¬ Completed R.work R.sched j H) {t0 : ℕ}
    (ht0 : t0 ≤ R.work.release j)
    (hquiet : ∀ x : Job info.length, (info.get x.1).cluster = k → R.work.release x + (info.get x.1).deadline ≤ H →
      R.work.release x < t0 → Completed R.work R.sched x t0)
    (hpend : ∀ u, t0 ≤ u → u < H → ∃ x : Job info.length, (info.get x.1).cluster = k ∧
      R.work.release x + (info.get x.1).deadline ≤ H ∧ Pending R.work R.sched x u)
    (hfit : ∀ d, Demand info k (H - t0) d → d ≤ H - t0) : False := by
  classical
  set A := (released_finite h hu H).toFinset.filter (fun x => (info.get x.1).cluster = k ∧
    t0 ≤ R.work.release x ∧ R.work.release x + (info.get x.1).deadline ≤ H) with hA
  have hmemA : ∀ x, x ∈ A ↔ (info.get x.1).cluster = k ∧ t0 ≤ R.work.release x ∧
      R.work.release x + (info.get x.1).deadline ≤ H := by
    intro x
    rw [hA, mem_filter, Set.Finite.mem_toFinset]
    exact ⟨fun a => a.2, fun a => ⟨(Nat.le_add_right _ _).trans a.2.2, a⟩⟩
  have hnew : ∀ (x : Job info.length) u, (info.get x.1).cluster = k → R.work.release x + (info.get x.1).deadline ≤ H →
      t0 ≤ u → ¬ Completed R.work R.sched x u → t0 ≤ R.work.release x := by
    intro x u h0 h1 h2 h3
    by_contra hc
    exact h3 ((hquiet x h0 h1 (by omega)).mono h2)
  -- slots without a job of `A`
  have hslot : ∀ t, t0 ≤ t → t < H → (∀ x ∈ R.sched t, x ∉ A) → ∃ s q, R.issued s ∧ s.job ∈ R.sched t ∧
      ((system info).reqs s.job.1)[s.idx]? = some q ∧ (info.get s.job.1).cluster = k ∧
      H < R.work.release s.job + (info.get s.job.1).deadline ∧ R.enter s < t ∧ t < R.leave s ∧
      (t0 ≤ R.enter s ∨ (system info).Global q.res) := by
    intro t h1 h2 hemp
    obtain ⟨⟨i, p⟩, hxp, hd, hpe⟩ := hpend t h1 h2
    obtain ⟨p', hr, hrel⟩ := pending_ready h hu hpe
    simp only at hxp hd
    have hd' : R.work.release (i, p') + (info.get i).deadline ≤ H := by omega
    have hrel' := hnew (i, p') t hxp hd' h1 hr.1.2
    have hnin : (i, p') ∉ R.sched t := fun hin => hemp _ hin ((hmemA _).2 ⟨hxp, hrel', hd'⟩)
    obtain ⟨y, hy, hyp, hor⟩ := h.edf t (i, p') hr hnin
    have hyp' : (info.get y.1).cluster = k := Eq.trans hyp hxp
    have hlate : H < R.work.release y + (info.get y.1).deadline := by
      by_contra hle
      push Not at hle
      exact hemp y hy ((hmemA _).2 ⟨hyp', hnew y t hyp' hle h1 (h.ready t y hy).1.2, hle⟩)
    rcases hor with hor | ⟨s, q, hi, hsj, hq, he, hl, hc⟩
    · change R.work.release y + (info.get y.1).deadline ≤ R.work.release (i, p') + (info.get i).deadline at hor
      omega
    · subst hsj
      refine ⟨s, q, hi, hy, hq, hyp', hlate, he, hl, ?_⟩
      by_cases hge : t0 ≤ R.enter s
      · exact Or.inl hge
      · right
        have hst := h.starts s hi (by omega)
        have hrs := (h.ready _ _ hst).1.1
        exact blocking_global (x := i) h hshare hq (by omega) hc
  -- the blocking section was entered before the window
  have hearly : ∀ t s, t0 ≤ t → t < H → R.issued s → (info.get s.job.1).cluster = k →
      H < R.work.release s.job + (info.get s.job.1).deadline → R.enter s < t → t < R.leave s → R.enter s < t0 := by
    intro t s h1 h2 hi hsp hlate he hl
    by_contra hge
    push Not at hge
    have hex := h.starts s hi (by omega)
    have hemp : ∀ x ∈ R.sched (R.enter s), x ∉ A := by
      intro x hx hxA
      obtain ⟨a1, _, a3⟩ := (hmemA x).1 hxA
      have := h.one _ x hx s.job hex (Eq.trans a1 hsp.symm)
      rw [this] at a3
      omega
    obtain ⟨s2, q2, hi2, hj2, _, hp2, _, he2, hl2, _⟩ := hslot (R.enter s) hge (by omega) hemp
    have hjob := h.one _ _ hex _ hj2 (Eq.trans hsp hp2.symm)
    have := h.section_unique (t := R.enter s) hi hi2 hjob le_rfl (by omega) (by omega) hl2
    subst this
    omega
  -- blocking sections, with all that is known of them
  have hblk : ∀ t, t0 ≤ t → t < H → (∀ x ∈ R.sched t, x ∉ A) → ∃ s q, R.issued s ∧ s.job ∈ R.sched t ∧
      ((system info).reqs s.job.1)[s.idx]? = some q ∧ (info.get s.job.1).cluster = k ∧
      H < R.work.release s.job + (info.get s.job.1).deadline ∧ R.enter s < t0 ∧ t < R.leave s ∧
      (system info).Global q.res := by
    intro t h1 h2 h3
    obtain ⟨s, q, a1, a2, a3, a4, a5, a6, a7, a8⟩ := hslot t h1 h2 h3
    have he := hearly t s h1 h2 a1 a4 a5 a6 a7
    exact ⟨s, q, a1, a2, a3, a4, a5, he, a7, a8.resolve_left (by omega)⟩
  have hone : ∀ s q s' q', R.issued s → ((system info).reqs s.job.1)[s.idx]? = some q → (info.get s.job.1).cluster = k →
      R.enter s < t0 → t0 < R.leave s → (system info).Global q.res →
      R.issued s' → ((system info).reqs s'.job.1)[s'.idx]? = some q' → (info.get s'.job.1).cluster = k →
      R.enter s' < t0 → t0 < R.leave s' → (system info).Global q'.res → s = s' := by
    intro s q s' q' a1 a2 a3 a4 a5 a6 b1 b2 b3 b4 b5 b6
    have x := h.nonpreemptive s q t0 a1 a2 a6 a4.le a5
    have y := h.nonpreemptive s' q' t0 b1 b2 b6 b4.le b5
    exact h.section_unique (t := t0) a1 b1 (h.one _ _ x _ y (Eq.trans a3 b3.symm)) a4.le a5 b4.le b5
  set V := (Ico t0 H).filter (fun t => ∀ x ∈ A, x ∉ quietSched R H t) with hV
  set V2 := V.filter (fun t => ∀ x ∈ R.sched t, x ∉ A) with hV2
  have hVr : ∀ u ∈ V, t0 ≤ u ∧ u < H := fun u hu' => mem_Ico.1 (mem_filter.1 hu').1
  have hc : ∃ c : Option (Section info.length), (∀ c0, c = some c0 → R.issued c0 ∧ (info.get c0.job.1).cluster = k ∧
      H - t0 < (info.get c0.job.1).deadline ∧ (system info).For c0 (resOf info c0) ∧
      (system info).Global (resOf info c0)) ∧
      ∀ u ∈ V2, ∃ c0, c = some c0 ∧ c0.job ∈ R.sched u ∧ R.enter c0 ≤ u ∧ u < R.leave c0 := by
    rcases V2.eq_empty_or_nonempty with he | ⟨u0, hu0⟩
    · refine ⟨none, by simp, ?_⟩
      rw [he]
      simp
    · obtain ⟨h1, h2⟩ := mem_filter.1 hu0
      obtain ⟨s, q, a1, a2, a3, a4, a5, a6, a7, a8⟩ := hblk u0 (hVr u0 h1).1 (hVr u0 h1).2 h2
      refine ⟨some s, ?_, ?_⟩
      · intro c0 hc0
        cases hc0
        have hst := h.starts s a1 (by have := (hVr u0 h1).1; omega)
        have hrs := (h.ready _ _ hst).1.1
        have hf : (system info).For s q.res := ⟨q, a3, rfl⟩
        refine ⟨a1, a4, by omega, ?_, ?_⟩
        · rw [for_resOf hf]; exact hf
        · rw [for_resOf hf]; exact a8
      · intro u hu'
        obtain ⟨g1, g2⟩ := mem_filter.1 hu'
        obtain ⟨s', q', b1, b2, b3, b4, b5, b6, b7, b8⟩ := hblk u (hVr u g1).1 (hVr u g1).2 g2
        have r1 := (hVr u g1).1
        have r2 := (hVr u0 h1).1
        have : s = s' := by
          have ha : t0 < R.leave s ∨ t0 = u0 := by omega
          have l1 : t0 < R.leave s := by omega
          have l2 : t0 < R.leave s' := by omega
          exact hone s q s' q' a1 a3 a4 a6 l1 a8 b1 b3 b4 b6 l2 b8
        subst this
        exact ⟨s, rfl, b2, by omega, b7⟩
  obtain ⟨c, hc1, hc2⟩ := hc
  have key : ∀ u ∈ V, ∃ z s, R.Served z u ∧ ((u ∉ V2 ∧ R.Blocks (system info) (fifo R) s z u ∧ s.job ∈ A) ∨
      (u ∈ V2 ∧ ∃ c0, c = some c0 ∧ (z = c0 ∨ R.Blocks (system info) (fifo R) c0 z u))) := by
    intro u hu'
    by_cases h2 : u ∈ V2
    · obtain ⟨c0, hc, h3, h4, h5⟩ := hc2 u h2
      have hi := (hc1 c0 hc).1
      by_cases hs : u < R.acquire c0
      · obtain ⟨z, hz, hbl⟩ := h.toSpinBase.blocks (Q := fifo R) h.fifo hi h4 hs
        exact ⟨z, z, hz, Or.inr ⟨h2, c0, hc, Or.inr hbl⟩⟩
      · exact ⟨c0, c0, ⟨hi, by omega, h5, h3⟩, Or.inr ⟨h2, c0, hc, Or.inl rfl⟩⟩
    · have : ∃ x ∈ R.sched u, x ∈ A := by
        by_contra hno
        push Not at hno
        exact h2 (mem_filter.2 ⟨hu', hno⟩)
      obtain ⟨x, hx, hxA⟩ := this
      have hsp : R.Spins x u := by
        by_contra hc
        exact (mem_filter.1 hu').2 x hxA (mem_quietSched.2 ⟨(hVr u hu').2, hx, hc⟩)
      obtain ⟨s, hi, rfl, h3, h4⟩ := hsp
      obtain ⟨z, hz, hbl⟩ := h.toSpinBase.blocks (Q := fifo R) h.fifo hi h3 h4
      exact ⟨z, s, hz, Or.inl ⟨h2, hbl, hxA⟩⟩
  haveI : Nonempty (Section info.length) := ⟨⟨j, 0, 0⟩⟩
  choose! sec src hks using key
  have hview : View info R k t0 H A V sec src (fun u => decide (u ∈ V2)) c :=
    { range := hVr
      jobs := fun j hj => ((hmemA j).1 hj).1
      served := fun u hu' => (hks u hu').1
      direct := fun u hu' hd => by
        simp only [decide_eq_false_iff_not] at hd
        rcases (hks u hu').2 with h1 | h1
        · exact h1.2
        · exact absurd h1.1 hd
      arrival := fun u hu' hd => by
        simp only [decide_eq_true_eq] at hd
        rcases (hks u hu').2 with h1 | h1
        · exact absurd hd h1.1
        · exact h1.2
      source := hc1 }
  have hcount : ∀ i, (info.get i).cluster = k → ((A.filter (fun j => j.1 = i)).image Prod.snd).card ≤
      localJobs .pdc (info.get i) (H - t0) := by
    intro i _
    have hT := hu.period (List.get_mem info i)
    have hjobs : ∀ p ∈ (A.filter (fun j => j.1 = i)).image Prod.snd, t0 ≤ R.work.release (i, p) ∧
        R.work.release (i, p) + (info.get i).deadline ≤ H := by
      intro p hp
      obtain ⟨x, hx, rfl⟩ := mem_image.1 hp
      obtain ⟨hx, he⟩ := mem_filter.1 hx
      obtain ⟨_, h2, h3⟩ := (hmemA x).1 hx
      rw [← he]
      exact ⟨h2, h3⟩
    show _ ≤ pdcJobs (info.get i) (H - t0)
    rw [pdcJobs_eq (hu.deadline _ (List.get_mem info i)) (hu.constrained _ (List.get_mem info i))]
    by_cases hD : (info.get i).deadline ≤ H - t0
    · rw [if_pos hD]
      have := card_released_le (release_sporadic h hu) i hT _ (a := t0) (b := H - (info.get i).deadline) (by
        intro p hp
        have := hjobs p hp
        simp only
        exact ⟨this.1, by omega⟩) (by omega)
      have e : H - (info.get i).deadline - t0 = H - t0 - (info.get i).deadline := by omega
      rw [e] at this
      exact this
    · rw [if_neg hD, Nat.le_zero, card_eq_zero, eq_empty_iff_forall_notMem]
      intro p hp
      have := hjobs p hp
      omega
  have hsol := hview.sol h.toSpinBase hu hb le_rfl hcount (fun hm => by cases hm)
  have hcard := hview.card_le h.toSpinBase hu
  have hlt := h.toSpinBase.window_lt huse (lo := t0) (hi := H) (H := H) (by omega) le_rfl (A := A)
    ((hmemA j).2 ⟨hk, ht0, hH.le⟩) hmiss (V := V) (fun t a b c => mem_filter.2 ⟨mem_Ico.2 ⟨a, b⟩, c⟩)
  have hcost := sum_cost_le hview.jobs hcount
  have hf := hfit _ ⟨_, _, _, hsol, rfl⟩
  rw [dbf_eq] at hf
  have e2 : ∀ i, localJobs .pdc (info.get i) (H - t0) = pdcJobs (info.get i) (H - t0) := fun _ => rfl
  simp only [e2] at hcost
  omega

/-- No deadline is missed first on a processor that passes the test. -/
theorem no_miss {L : ℕ} (hL : 0 < L)
    (hac : ∀ spin arr, Sol info .ac k L spin arr none → arrivalCurve info k L + delay info k spin arr none ≤ L)
    (hpdc : ∀ t d, (∃ i : Fin info.length, (info.get i).cluster = k ∧ (info.get i).deadline ≤ t) → t < L →
      Demand info k t d → d ≤ t) {j : Job info.length} (hk : (info.get j.1).cluster = k)
    (hH : R.work.release j + (info.get j.1).deadline = H) : Completed R.work R.sched j H := by
  classical
  by_contra hmiss
  let P1 : ℕ → Prop := fun s => ∀ x : Job info.length, (info.get x.1).cluster = k → R.work.release x < s →
    Completed R.work R.sched x s
  let P : ℕ → Prop := fun s => ∀ x : Job info.length, (info.get x.1).cluster = k →
    R.work.release x + (info.get x.1).deadline ≤ H → R.work.release x < s → Completed R.work R.sched x s
  have hP10 : P1 0 := fun _ _ h => absurd h (Nat.not_lt_zero _)
  have hP0 : P 0 := fun _ _ _ h => absurd h (Nat.not_lt_zero _)
  obtain ⟨t1, ht1⟩ : ∃ t1, t1 = Nat.findGreatest P1 (R.work.release j) := ⟨_, rfl⟩
  obtain ⟨t0, ht0⟩ : ∃ t0, t0 = Nat.findGreatest P (R.work.release j) := ⟨_, rfl⟩
  have hP1 : P1 t1 := by
    rw [ht1]
    exact Nat.findGreatest_spec (Nat.zero_le _) hP10
  have hP : P t0 := by
    rw [ht0]
    exact Nat.findGreatest_spec (Nat.zero_le _) hP0
  have hle1 : t1 ≤ R.work.release j := ht1 ▸ Nat.findGreatest_le _
  have hle0 : t0 ≤ R.work.release j := ht0 ▸ Nat.findGreatest_le _
  have h10 : t1 ≤ t0 := by
    rw [ht0]
    exact Nat.le_findGreatest hle1 (fun x a _ b => hP1 x a b)
  have hmax1 : ∀ s, t1 < s → s ≤ R.work.release j → ∃ x : Job info.length, (info.get x.1).cluster = k ∧
      R.work.release x < s ∧ ¬ Completed R.work R.sched x s := by
    intro s h1 h2
    by_contra hno
    push Not at hno
    have := Nat.le_findGreatest (P := P1) h2 (fun x a b => hno x a b)
    omega
  have hmax0 : ∀ s, t0 < s → s ≤ R.work.release j → ∃ x : Job info.length, (info.get x.1).cluster = k ∧
      R.work.release x + (info.get x.1).deadline ≤ H ∧ R.work.release x < s ∧ ¬ Completed R.work R.sched x s := by
    intro s h1 h2
    by_contra hno
    push Not at hno
    have := Nat.le_findGreatest (P := P) h2 (fun x a b c => hno x a b c)
    omega
  have hjp : ∀ u, R.work.release j ≤ u → u < H → Pending R.work R.sched j u := fun u h1 h2 =>
    ⟨h1, fun hc => hmiss (hc.mono h2.le)⟩
  have hlen : H < t1 + L := by
    by_contra hge
    push Not at hge
    refine ac_window h hu huse hb hL hge hac hP1 ?_ ?_
    · intro u h1 h2
      by_cases hj : R.work.release j ≤ u
      · exact ⟨j, hk, hjp u hj (by omega)⟩
      · obtain ⟨x, a1, a2, a3⟩ := hmax1 (u + 1) (by omega) (by omega)
        exact ⟨x, a1, by omega, fun hc => a3 (hc.mono (by omega))⟩
    · by_cases hj : R.work.release j < t1 + L
      · exact ⟨j, hk, hj, fun hc => hmiss (hc.mono hge)⟩
      · exact hmax1 (t1 + L) (by omega) (by omega)
  refine pdc_window h hu huse hb hshare hk hH hmiss hle0 hP ?_ ?_
  · intro u h1 h2
    by_cases hj : R.work.release j ≤ u
    · exact ⟨j, hk, hH.le, hjp u hj h2⟩
    · obtain ⟨x, a1, a2, a3, a4⟩ := hmax0 (u + 1) (by omega) (by omega)
      exact ⟨x, a1, a2, by omega, fun hc => a4 (hc.mono (by omega))⟩
  · intro d hd
    exact hpdc (H - t0) d ⟨j.1, hk, by omega⟩ (by omega) hd

end

end Verif.SR.Pedf
