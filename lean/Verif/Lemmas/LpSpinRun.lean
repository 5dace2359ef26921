/-
The slots of a busy window in which spin locks delay a task, and the sections that are to blame.
-/
import Verif.Lemmas.LpSpin
import Verif.Lemmas.SpinFpCore

namespace Verif.Spec
open Finset

variable {n : ℕ} {S : LockSystem n} {prio : Fin n → ℕ} {R : LockRun n} {Q : Section n → Section n → Prop}

/-- Section `z` owns its resource in slot `u`. -/
structure LockRun.Served (R : LockRun n) (z : Section n) (u : ℕ) : Prop where
  issued : R.issued z
  acquire : R.acquire z ≤ u
  leave : u < R.leave z
  sched : z.job ∈ R.sched u

/-- Section `s` spins in slot `u` due to `z`. -/
structure LockRun.Blocks (R : LockRun n) (S : LockSystem n) (Q : Section n → Section n → Prop) (s z : Section n)
    (u : ℕ) : Prop where
  issued : R.issued s
  enter : R.enter s ≤ u
  acquire : u < R.acquire s
  sched : s.job ∈ R.sched u
  res : ∃ r, S.For s r ∧ S.For z r ∧ S.Global r
  remote : S.proc z.job.1 ≠ S.proc s.job.1
  order : Q s z

/-- Requests are served in some order. -/
def LockRun.SpinOrder (R : LockRun n) (S : LockSystem n) (Q : Section n → Section n → Prop) : Prop :=
  ∀ s q t, R.issued s → (S.reqs s.job.1)[s.idx]? = some q → S.Global q.res →
    R.enter s ≤ t → t < R.acquire s →
    ∃ s' q', R.issued s' ∧ (S.reqs s'.job.1)[s'.idx]? = some q' ∧ q'.res = q.res ∧ Q s s' ∧
      R.acquire s' ≤ t ∧ t < R.leave s'

theorem SpinBase.blocks (h : SpinBase S R) (hw : R.SpinOrder S Q) {s : Section n} {u : ℕ} (hi : R.issued s)
    (h1 : R.enter s ≤ u) (h2 : u < R.acquire s) : ∃ z, R.Served z u ∧ R.Blocks S Q s z u := by
  obtain ⟨q, hq, hg⟩ := h.spins_global hi (by omega)
  obtain ⟨z, q', hi', hq', hr, h3, h4, h5⟩ := hw s q u hi hq hg h1 h2
  have ho := h.order z hi'
  have ho' := h.order s hi
  have hx := h.nonpreemptive z q' u hi' hq' (hr ▸ hg) (by omega) h5
  have hy := h.nonpreemptive s q u hi hq hg h1 (by omega)
  refine ⟨z, ⟨hi', h4, h5, hx⟩, ⟨hi, h1, h2, hy, ⟨q.res, ⟨q, hq, rfl⟩, ⟨q', hq', hr⟩, hg⟩, ?_, h3⟩⟩
  intro hp
  have hjob := h.one _ _ hx _ hy hp
  have := h.section_unique (t := u) hi' hi hjob (by omega) h5 h1 (by omega)
  subst this
  omega

/-- Who is to blame for the slots of a busy window in which the processor serves no job of high priority or one that
spins: `sec u` is served in slot `u`.  Either `src u` of a job of high priority spins due to it, or it delays or
is the section `c` of a job of low priority. -/
structure SpinView (S : LockSystem n) (prio : Fin n → ℕ) (R : LockRun n) (Q : Section n → Section n → Prop) (k : Fin n)
    (V : Finset ℕ) (sec src : ℕ → Section n) (arr : ℕ → Bool) (c : Option (Section n)) : Prop where
  served : ∀ u ∈ V, R.Served (sec u) u
  direct : ∀ u ∈ V, arr u = false → R.Blocks S Q (src u) (sec u) u ∧ S.proc (src u).job.1 = S.proc k ∧
    prio (src u).job.1 ≤ prio k
  arrival : ∀ u ∈ V, arr u = true → ∃ c0, c = some c0 ∧ (sec u = c0 ∨ R.Blocks S Q c0 (sec u) u)
  source : ∀ c0, c = some c0 → R.issued c0 ∧ S.proc c0.job.1 = S.proc k ∧ prio k < prio c0.job.1 ∧
    ∃ q, (S.reqs c0.job.1)[c0.idx]? = some q ∧ (S.Global q.res ∨ ∃ y, S.Uses y q.res ∧ prio y ≤ prio k)

theorem NpSpinFp.view (h : NpSpinFp S prio R) (hw : R.SpinOrder S Q) {k : Fin n} {q a e : ℕ}
    (hwin : SpinWindow S prio R k q a e) {V : Finset ℕ}
    (hV : ∀ t ∈ V, a ≤ t ∧ t < e ∧ ∀ j ∈ R.sched t, S.proc j.1 = S.proc k → prio j.1 ≤ prio k → R.Spins j t) :
    ∃ sec src arr c, SpinView S prio R Q k V sec src arr c := by
  classical
  rcases V.eq_empty_or_nonempty with rfl | ⟨u0, hu0⟩
  · refine ⟨fun _ => ⟨(k, 0), 0, 0⟩, fun _ => ⟨(k, 0), 0, 0⟩, fun _ => true, none, ?_, ?_, ?_, ?_⟩ <;> simp
  let V2 := V.filter (fun t => ∀ x ∈ R.sched t, S.proc x.1 = S.proc k → prio k < prio x.1)
  have hV2 : ∃ c : Option (Section n), (∀ c0, c = some c0 → R.issued c0 ∧ S.proc c0.job.1 = S.proc k ∧
      prio k < prio c0.job.1 ∧ (∃ q, (S.reqs c0.job.1)[c0.idx]? = some q ∧
        (S.Global q.res ∨ ∃ y, S.Uses y q.res ∧ prio y ≤ prio k))) ∧
      ∀ u ∈ V2, ∃ c0, c = some c0 ∧ c0.job ∈ R.sched u ∧ R.enter c0 < u ∧ u < R.leave c0 := by
    rcases V2.eq_empty_or_nonempty with he | hne
    · refine ⟨none, by simp, ?_⟩
      rw [he]
      simp
    · obtain ⟨c, q, h1, h2, h3, h4, h5, h6, h7⟩ := h.inversion_section (S.proc k) (prio k) a e hwin.busy V2 (by
        intro t ht
        obtain ⟨ht1, ht2⟩ := mem_filter.1 ht
        exact ⟨(hV t ht1).1, (hV t ht1).2.1, ht2⟩) hne
      refine ⟨some c, ?_, fun u hu => ⟨c, rfl, h7 u hu⟩⟩
      intro c0 hc
      cases hc
      exact ⟨h1, h3, h4, q, h2, h6⟩
  obtain ⟨c, hc1, hc2⟩ := hV2
  have key : ∀ u ∈ V, ∃ z s, R.Served z u ∧ ((u ∉ V2 ∧ R.Blocks S Q s z u ∧ S.proc s.job.1 = S.proc k ∧
      prio s.job.1 ≤ prio k) ∨ (u ∈ V2 ∧ ∃ c0, c = some c0 ∧ (z = c0 ∨ R.Blocks S Q c0 z u))) := by
    intro u hu
    by_cases h2 : u ∈ V2
    · obtain ⟨c0, hc, h3, h4, h5⟩ := hc2 u h2
      have hi := (hc1 c0 hc).1
      by_cases hs : u < R.acquire c0
      · obtain ⟨z, hz, hb⟩ := h.blocks hw hi h4.le hs
        exact ⟨z, z, hz, Or.inr ⟨h2, c0, hc, Or.inr hb⟩⟩
      · exact ⟨c0, c0, ⟨hi, by omega, h5, h3⟩, Or.inr ⟨h2, c0, hc, Or.inl rfl⟩⟩
    · have : ∃ x ∈ R.sched u, S.proc x.1 = S.proc k ∧ prio x.1 ≤ prio k := by
        by_contra hno
        push Not at hno
        exact h2 (mem_filter.2 ⟨hu, hno⟩)
      obtain ⟨x, hx, hx1, hx2⟩ := this
      obtain ⟨s, hi, rfl, h3, h4⟩ := (hV u hu).2.2 x hx hx1 hx2
      obtain ⟨z, hz, hb⟩ := h.blocks hw hi h3 h4
      exact ⟨z, s, hz, Or.inl ⟨h2, hb, hx1, hx2⟩⟩
  haveI : Nonempty (Section n) := ⟨⟨(k, 0), 0, 0⟩⟩
  choose! sec src hk using key
  refine ⟨sec, src, fun u => decide (u ∈ V2), c, fun u hu => (hk u hu).1, ?_, ?_, hc1⟩
  · intro u hu hd
    simp only [decide_eq_false_iff_not] at hd
    rcases (hk u hu).2 with h1 | h1
    · exact h1.2
    · exact absurd h1.1 hd
  · intro u hu hd
    simp only [decide_eq_true_eq] at hd
    rcases (hk u hu).2 with h1 | h1
    · exact absurd hd h1.1
    · exact h1.2

end Verif.Spec

namespace Verif.SR.Lp
open Verif.Spec Finset
open Verif.SR.Msrp (system uses_iff)

variable {info : Info} {R : LockRun info.length} {Q : Section info.length → Section info.length → Prop}
  {k : Fin info.length} {V : Finset ℕ} {sec src : ℕ → Section info.length} {arr : ℕ → Bool}
  {c : Option (Section info.length)} {W : Fin info.length → ℕ} {H a q : ℕ}

/-- The priorities of the tasks. -/
abbrev prio (info : Info) (i : Fin info.length) : ℕ := (info.get i).priority

/-- The kind of blocking in a slot. -/
def kindOf (arr : ℕ → Bool) (u : ℕ) : BlockingType := if arr u then arrival else .direct

theorem kindOf_direct {u : ℕ} : kindOf arr u = .direct ↔ arr u = false := by
  unfold kindOf
  cases arr u <;> simp [arrival]

theorem kindOf_arrival {u : ℕ} : kindOf arr u = arrival ↔ arr u = true := by
  unfold kindOf
  cases arr u <;> simp [arrival]

/-- The resource of a section. -/
def resOf (info : Info) (s : Section info.length) : ℕ :=
  (((info.get s.job.1).requests[s.idx]?).map Request.resId).getD 0

theorem for_resOf {s : Section info.length} {r : ℕ} (h : (system info).For s r) : resOf info s = r := by
  obtain ⟨x, hx, rfl⟩ := for_iff.1 h
  unfold resOf
  rw [hx]
  rfl

theorem card_maxNumJobs (hT : ∀ t ∈ info, 0 < t.period) (hW : ∀ i, W i ≤ (info.get i).response) (x : Fin info.length)
    {m l : ℕ} (h : m ≤ l) : cdiv (m + W x) (info.get x).period ≤ (info.get x).maxNumJobs l := by
  unfold TaskInfo.maxNumJobs
  rw [Native.divideWithCeil_eq _ (hT _ (List.get_mem info x))]
  apply cdiv_mono (hT _ (List.get_mem info x))
  have := hW x
  omega

/-- The sections of one request that are served in an interval. -/
theorem served_le (h : SpinBase (system info) R) (hb : BoundedBefore R.work R.sched W H)
    (hT : ∀ t ∈ info, 0 < t.period) (hW : ∀ i, W i ≤ (info.get i).response) {x : Fin info.length} {d lo hi l : ℕ}
    {r : Request} (hr : (info.get x).requests[d]? = some r) (hhi : hi ≤ H) (hl : hi - lo ≤ l)
    {F : Finset (Section info.length)}
    (hF : ∀ z ∈ F, z.job.1 = x ∧ z.idx = d ∧ ∃ u, lo ≤ u ∧ u < hi ∧ R.Served z u) :
    F.card ≤ (info.get x).maxNumJobs l * r.num := by
  refine (h.requests_le hb (i := x) (hT _ (List.get_mem info x)) (lock_req' hr) hhi (lo := lo) (F := F) ?_).trans
    (Nat.mul_le_mul_right _ (card_maxNumJobs hT hW x hl))
  intro z hz
  obtain ⟨h1, h2, u, h3, h4, h5⟩ := hF z hz
  exact ⟨h5.issued, h1, h2, u, h3, h4, h5.sched⟩

theorem SpinView.charge (h : NpSpinFp (system info) (prio info) R) (hb : BoundedBefore R.work R.sched W H)
    (hT : ∀ t ∈ info, 0 < t.period) (hW : ∀ i, W i ≤ (info.get i).response)
    (hv : SpinView (system info) (prio info) R Q k V sec src arr c) (haH : a + W k ≤ H)
    (hV : ∀ u ∈ V, a ≤ u ∧ u < a + W k) :
    SpinCharge info k V sec (kindOf arr) (c.map (resOf info)) where
  other := by
    intro u hu he
    cases hc : arr u
    · obtain ⟨h1, h2, _⟩ := hv.direct u hu hc
      apply h1.remote
      rw [h2, he]
    · obtain ⟨c0, hc0, h1 | h1⟩ := hv.arrival u hu hc
      · have := (hv.source c0 hc0).2.2.1
        rw [← h1, he] at this
        omega
      · apply h1.remote
        rw [(hv.source c0 hc0).2.1, he]
  count := by
    intro x d r hr
    have := served_le h.toSpinBase hb hT hW hr haH (lo := a) (l := (info.get k).response) (by have := hW k; omega)
      (F := (V.image sec).filter (fun z => z.job.1 = x ∧ z.idx = d)) (by
        intro z hz
        obtain ⟨hz, h1, h2⟩ := mem_filter.1 hz
        obtain ⟨u, hu, rfl⟩ := mem_image.1 hz
        exact ⟨h1, h2, u, (hV u hu).1, (hV u hu).2, hv.served u hu⟩)
    exact this
  length := by
    intro u hu
    obtain ⟨q, hq, _⟩ := h.declared _ (hv.served u hu).issued
    obtain ⟨r, hr, rfl⟩ := lock_req hq
    refine ⟨r, hr, ?_⟩
    have := h.length _ _ (hv.served u hu).issued hq
    simp only at this
    refine le_trans (card_le_card ?_) this
    intro v hvv
    obtain ⟨hvv, he⟩ := mem_filter.1 hvv
    have hs := hv.served v hvv
    rw [he] at hs
    rw [mem_filter, mem_Ico]
    exact ⟨⟨hs.acquire, hs.leave⟩, hs.sched⟩
  kinds := by
    intro u _
    rw [kindOf_direct, kindOf_arrival]
    cases arr u <;> simp
  direct := by
    intro u hu hk
    obtain ⟨h1, h2, _⟩ := hv.direct u hu (kindOf_direct.1 hk)
    intro he
    exact h1.remote (Eq.trans he h2.symm)
  lower := by
    intro u hu hk hcl
    obtain ⟨c0, hc0, h1 | h1⟩ := hv.arrival u hu (kindOf_arrival.1 hk)
    · rw [h1]
      exact (hv.source c0 hc0).2.2.1
    · exact absurd (Eq.trans hcl (hv.source c0 hc0).2.1.symm) h1.remote
  resource := by
    intro u hu hk
    obtain ⟨c0, hc0, h1⟩ := hv.arrival u hu (kindOf_arrival.1 hk)
    refine ⟨resOf info c0, by rw [hc0]; rfl, ?_⟩
    rcases h1 with h1 | h1
    · obtain ⟨_, _, _, q, hq, _⟩ := hv.source c0 hc0
      rw [h1, for_resOf ⟨q, hq, rfl⟩]
      exact ⟨q, hq, rfl⟩
    · obtain ⟨r, h2, h3, _⟩ := h1.res
      rw [for_resOf h2]
      exact h3
  used := by
    intro r hr
    obtain ⟨c0, hc0, rfl⟩ := Option.map_eq_some_iff.1 hr
    obtain ⟨h1, h2, h3, _⟩ := hv.source c0 hc0
    obtain ⟨q, hq, hn⟩ := h.declared _ h1
    obtain ⟨x, hx, rfl⟩ := lock_req hq
    refine ⟨c0.job.1, h2, h3, x, List.mem_of_getElem? hx, ?_, lt_of_le_of_lt (Nat.zero_le _) hn⟩
    exact (for_resOf ⟨_, hq, rfl⟩).symm
  conflict := by
    intro r hr
    obtain ⟨c0, hc0, rfl⟩ := Option.map_eq_some_iff.1 hr
    obtain ⟨_, _, _, q, hq, h4⟩ := hv.source c0 hc0
    rw [for_resOf ⟨q, hq, rfl⟩]
    exact h4
  once := by
    intro u hu v hv' hku hkv hcu hcv
    obtain ⟨c0, hc0, h1 | h1⟩ := hv.arrival u hu (kindOf_arrival.1 hku)
    · obtain ⟨c1, hc1, h2 | h2⟩ := hv.arrival v hv' (kindOf_arrival.1 hkv)
      · rw [hc0] at hc1
        rw [h1, h2, Option.some.inj hc1]
      · exact absurd (Eq.trans hcv (hv.source c1 hc1).2.1.symm) h2.remote
    · exact absurd (Eq.trans hcu (hv.source c0 hc0).2.1.symm) h1.remote

/-- The sections of a task for a resource, if the number of jobs is bounded. -/
theorem jobs_sections_of
    (hd : ∀ s, R.issued s → ∃ q, ((system info).reqs s.job.1)[s.idx]? = some q ∧ s.inst < q.num)
    (h1 : OneEntry info) {i : Fin info.length} {r m : ℕ}
    {F : Finset (Section info.length)} (hF : ∀ s ∈ F, R.issued s ∧ s.job.1 = i ∧ (system info).For s r)
    (hm : (F.image (fun s => s.job.2)).card ≤ m) :
    F.card ≤ ((((info.get i).requests.filter (fun a => a.resId = r)).map (fun a => m * a.num)).sum) := by
  classical
  rcases F.eq_empty_or_nonempty with rfl | ⟨s0, hs0⟩
  · simp
  obtain ⟨_, hi0, hf0⟩ := hF s0 hs0
  obtain ⟨a, ha, rfl⟩ := for_iff.1 hf0
  rw [hi0] at ha
  rw [h1.filter (List.mem_of_getElem? ha)]
  simp only [List.map_cons, List.map_nil, List.sum_cons, List.sum_nil, Nat.add_zero]
  have hcard : F.card ≤ ((F.image (fun s => s.job.2)) ×ˢ range a.num).card := by
    apply card_le_card_of_injOn (fun s => (s.job.2, s.inst))
    · intro s hs
      simp only [coe_product, Set.mem_prod, mem_coe, mem_range]
      refine ⟨mem_image_of_mem _ hs, ?_⟩
      obtain ⟨h2, h3, h4⟩ := hF s hs
      obtain ⟨q, h5, h6⟩ := hd s h2
      obtain ⟨b, hb, rfl⟩ := lock_req h5
      obtain ⟨b', hb', hr'⟩ := for_iff.1 h4
      cases hb.symm.trans hb'
      rw [h3] at hb
      rw [(h1.eq hb ha hr').2] at h6
      exact h6
    · intro s hs t ht hst
      simp only [Prod.mk.injEq] at hst
      obtain ⟨_, h3, h4⟩ := hF s hs
      obtain ⟨_, h5, h6⟩ := hF t ht
      obtain ⟨b, hb, hbr⟩ := for_iff.1 h4
      obtain ⟨b', hb', hbr'⟩ := for_iff.1 h6
      rw [h3] at hb
      rw [h5] at hb'
      have := (h1.eq hb hb' (hbr.trans hbr'.symm)).1
      obtain ⟨⟨sj, sp⟩, si, sn⟩ := s
      obtain ⟨⟨tj, tp⟩, ti, tn⟩ := t
      simp only at h3 h5 hst this
      rw [h3, h5, hst.1, hst.2, this]
  rw [card_product, card_range] at hcard
  exact hcard.trans (Nat.mul_le_mul_right _ hm)

theorem jobs_sections (h : SpinBase (system info) R) (h1 : OneEntry info) {i : Fin info.length} {r m : ℕ}
    {F : Finset (Section info.length)} (hF : ∀ s ∈ F, R.issued s ∧ s.job.1 = i ∧ (system info).For s r)
    (hm : (F.image (fun s => s.job.2)).card ≤ m) :
    F.card ≤ ((((info.get i).requests.filter (fun a => a.resId = r)).map (fun a => m * a.num)).sum) :=
  jobs_sections_of h.declared h1 hF hm

theorem flatMap_sum {α : Type} (l : List α) (f : α → List ℕ) : (l.flatMap f).sum = (l.map (fun x => (f x).sum)).sum := by
  induction l with
  | nil => rfl
  | cons a l ih => rw [List.flatMap_cons, List.sum_append, ih, List.map_cons, List.sum_cons]

theorem info_sum {M : Type} [AddCommMonoid M] (p : TaskInfo → Prop) [DecidablePred p] (g : TaskInfo → M) :
    ((info.filter (fun t => p t)).map g).sum =
      ∑ i ∈ univ.filter (fun i : Fin info.length => p (info.get i)), g (info.get i) := by
  have hinfo : info = (tasks info).map Prod.snd := by
    rw [tasks_eq, List.map_map]
    exact (List.map_get_finRange info).symm
  conv_lhs => rw [hinfo]
  rw [List.filter_map, List.map_map]
  exact tasks_sum (fun t : ℕ × TaskInfo => p t.2) (fun t => g t.2)

section
variable (h : NpSpinFp (system info) (prio info) R) (hT : ∀ t ∈ info, 0 < t.period)
  (hprio : ∀ i j : Fin info.length, (info.get i).cluster = (info.get j).cluster →
    (info.get i).priority = (info.get j).priority → i = j)
  (hwin : SpinWindow (system info) (prio info) R k q a (a + W k))
include h hwin

/-- The jobs of a task of the same processor and higher priority that are served in a busy window. -/
theorem window_jobs (hT : ∀ t ∈ info, 0 < t.period) (hWk : W k ≤ (info.get k).response)
    {i : Fin info.length} (hcl : (info.get i).cluster = (info.get k).cluster)
    (hp : (info.get i).priority ≤ (info.get k).priority) {J : Finset ℕ}
    (hJ : ∀ p ∈ J, ∃ u, a ≤ u ∧ u < a + W k ∧ (i, p) ∈ R.sched u) :
    J.card ≤ localJobs (info.get i) (info.get k).response := by
  rcases J.eq_empty_or_nonempty with rfl | ⟨p0, hp0⟩
  · simp
  obtain ⟨u0, hu0, hu0', _⟩ := hJ p0 hp0
  have hTi := hT _ (List.get_mem info i)
  have hsp : Workload.Sporadic (⟨R.work.release, fun _ => 0⟩ : Workload info.length) (fun _ => 0) (system info).period :=
    ⟨h.separated, fun _ _ => le_rfl⟩
  have := card_released_le hsp i hTi J (a := a) (b := a + W k - 1) (by
    intro p hp'
    obtain ⟨u, h1, h2, h3⟩ := hJ p hp'
    have hr := h.ready u _ h3
    refine ⟨?_, ?_⟩
    · by_contra hc
      push Not at hc
      exact hr.1.2 ((hwin.fresh (i, p) hcl hp hc).mono h1)
    · have := hr.1.1
      simp only
      omega) (by omega)
  refine this.trans ?_
  unfold localJobs
  rw [Native.divideWithCeil_eq _ hTi]
  refine le_trans ?_ (cdiv_mono hTi hWk)
  rw [← succ_div_eq_cdiv hTi (by omega)]
  have : a + W k - 1 - a = W k - 1 := by omega
  rw [this]
  rfl

/-- The requests of a task and the local tasks with higher priority. -/
theorem local_requests (h1 : OneEntry info) (hT : ∀ t ∈ info, 0 < t.period)
    (hprio : ∀ i j : Fin info.length, (info.get i).cluster = (info.get j).cluster →
      (info.get i).priority = (info.get j).priority → i = j) (hWk : W k ≤ (info.get k).response)
    {r : ℕ} {D : Finset (Section info.length)}
    (hD : ∀ s ∈ D, R.issued s ∧ (info.get s.job.1).cluster = (info.get k).cluster ∧
      (info.get s.job.1).priority ≤ (info.get k).priority ∧ (system info).For s r ∧
      ∃ u, a ≤ u ∧ u < a + W k ∧ s.job ∈ R.sched u) :
    D.card ≤ countLocalHpReqs info (info.get k) r := by
  classical
  set hp : Finset (Fin info.length) := univ.filter (fun i => (info.get i).cluster = (info.get k).cluster ∧
    (info.get i).priority < (info.get k).priority) with hhp
  have hsplit : D ⊆ D.filter (fun s => s.job.1 = k) ∪ hp.biUnion (fun i => D.filter (fun s => s.job.1 = i)) := by
    intro s hs
    obtain ⟨_, h2, h3, _⟩ := hD s hs
    rw [mem_union]
    rcases h3.lt_or_eq with h3 | h3
    · exact Or.inr (mem_biUnion.2 ⟨s.job.1, mem_filter.2 ⟨mem_univ _, h2, h3⟩, mem_filter.2 ⟨hs, rfl⟩⟩)
    · exact Or.inl (mem_filter.2 ⟨hs, hprio _ _ h2 h3⟩)
  refine (card_le_card hsplit).trans ((card_union_le _ _).trans ?_)
  unfold countLocalHpReqs
  apply Nat.add_le_add
  · have := jobs_sections h.toSpinBase h1 (i := k) (r := r) (m := 1) (F := D.filter (fun s => s.job.1 = k)) (by
      intro s hs
      obtain ⟨hs, hk⟩ := mem_filter.1 hs
      obtain ⟨h2, _, _, h3, _⟩ := hD s hs
      exact ⟨h2, hk, h3⟩) (by
      rw [card_le_one]
      have hq : ∀ p ∈ (D.filter (fun s => s.job.1 = k)).image (fun s => s.job.2), p = q := by
        intro p hp'
        obtain ⟨s, hs, rfl⟩ := mem_image.1 hp'
        obtain ⟨hs, hk⟩ := mem_filter.1 hs
        obtain ⟨_, _, _, _, u, h4, h5, h6⟩ := hD s hs
        refine hwin.own u s.job.2 h4 h5 ?_
        rw [← hk]
        exact h.ready u _ h6
      intro x hx y hy
      rw [hq x hx, hq y hy])
    simpa using this
  · refine card_biUnion_le.trans ?_
    have e : ((info.filter (fun t => t.cluster = (info.get k).cluster ∧ t.priority < (info.get k).priority)).flatMap
        (fun t => (t.requests.filter (fun a => a.resId = r)).map (fun a =>
          localJobs t (info.get k).response * a.num))).sum =
        ∑ i ∈ hp, (((info.get i).requests.filter (fun a => a.resId = r)).map (fun a =>
          localJobs (info.get i) (info.get k).response * a.num)).sum := by
      rw [flatMap_sum]
      exact info_sum (fun t => t.cluster = (info.get k).cluster ∧ t.priority < (info.get k).priority) _
    rw [e]
    apply sum_le_sum
    intro i hi
    obtain ⟨_, hcl, hlt⟩ := mem_filter.1 hi
    apply jobs_sections h.toSpinBase h1
    · intro s hs
      obtain ⟨hs, hk⟩ := mem_filter.1 hs
      obtain ⟨h2, _, _, h3, _⟩ := hD s hs
      exact ⟨h2, hk, h3⟩
    · apply window_jobs h hwin hT hWk hcl hlt.le
      intro p hp'
      obtain ⟨s, hs, rfl⟩ := mem_image.1 hp'
      obtain ⟨hs, hk⟩ := mem_filter.1 hs
      obtain ⟨_, _, _, _, u, h4, h5, h6⟩ := hD s hs
      rw [← hk]
      exact ⟨u, h4, h5, h6⟩

end

end Verif.SR.Lp
