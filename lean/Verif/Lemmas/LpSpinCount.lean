/-
How often requests of other processors are served in a busy window.
-/
import Verif.Lemmas.LpSpinRun

namespace Verif.SR.Lp
open Verif.Spec Finset
open Verif.SR.Msrp (system uses_iff)

variable {info : Info} {R : LockRun info.length} {Q : Section info.length → Section info.length → Prop}
  {k : Fin info.length} {V : Finset ℕ} {sec src : ℕ → Section info.length} {arr : ℕ → Bool}
  {c : Option (Section info.length)} {W : Fin info.length → ℕ} {H a q : ℕ}

theorem OneEntry.num (h : OneEntry info) {i : Fin info.length} {b : Request}
    (hb : b ∈ (info.get i).requests) : numRequests (info.get i) b.resId = b.num := by
  unfold Lp.numRequests
  have : (info.get i).requests.find? (fun r => r.resId = b.resId) = some b := by
    rcases hf : (info.get i).requests.find? (fun r => r.resId = b.resId) with _ | a
    · have := List.find?_eq_none.1 hf b hb
      simp at this
    · have h1 := List.mem_of_find?_eq_some hf
      have h2 : a.resId = b.resId := by simpa using List.find?_some hf
      rw [hf, h.eq_of_mem h1 hb h2]
  rw [this]

/-- A task issues only requests that it declares. -/
theorem issued_num_of
    (hd : ∀ s, R.issued s → ∃ q, ((system info).reqs s.job.1)[s.idx]? = some q ∧ s.inst < q.num)
    (h1 : OneEntry info) {s : Section info.length} (hi : R.issued s)
    {r : ℕ} (hf : (system info).For s r) :
    ∃ b, (info.get s.job.1).requests[s.idx]? = some b ∧ b.resId = r ∧ numRequests (info.get s.job.1) r = b.num ∧
      0 < b.num := by
  obtain ⟨q, hq, hn⟩ := hd s hi
  obtain ⟨b, hb, rfl⟩ := lock_req hq
  obtain ⟨b', hb', rfl⟩ := for_iff.1 hf
  cases hb.symm.trans hb'
  exact ⟨b, hb, rfl, h1.num (List.mem_of_getElem? hb), lt_of_le_of_lt (Nat.zero_le _) hn⟩

theorem issued_num (h : SpinBase (system info) R) (h1 : OneEntry info) {s : Section info.length} (hi : R.issued s)
    {r : ℕ} (hf : (system info).For s r) :
    ∃ b, (info.get s.job.1).requests[s.idx]? = some b ∧ b.resId = r ∧ numRequests (info.get s.job.1) r = b.num ∧
      0 < b.num :=
  issued_num_of h.declared h1 hi hf

/-- The sections of a task for a resource that are served in an interval. -/
theorem served_for_le (h : SpinBase (system info) R) (h1 : OneEntry info) (hb : BoundedBefore R.work R.sched W H)
    (hT : ∀ t ∈ info, 0 < t.period) (hW : ∀ i, W i ≤ (info.get i).response) {x : Fin info.length} {r lo hi l : ℕ}
    (hhi : hi ≤ H) (hl : hi - lo ≤ l) {F : Finset (Section info.length)}
    (hF : ∀ z ∈ F, z.job.1 = x ∧ (system info).For z r ∧ ∃ u, lo ≤ u ∧ u < hi ∧ R.Served z u) :
    F.card ≤ (info.get x).maxNumJobs l * numRequests (info.get x) r := by
  rcases F.eq_empty_or_nonempty with rfl | ⟨z0, hz0⟩
  · simp
  obtain ⟨hx0, hf0, u0, _, _, hs0⟩ := hF z0 hz0
  obtain ⟨b, hb1, hb2, hb3, _⟩ := issued_num h h1 hs0.issued hf0
  rw [hx0] at hb1 hb3
  rw [hb3]
  refine served_le h hb hT hW hb1 hhi hl (F := F) ?_
  intro z hz
  obtain ⟨hx, hf, hu⟩ := hF z hz
  refine ⟨hx, ?_, hu⟩
  obtain ⟨b', hb', hr'⟩ := for_iff.1 hf
  rw [hx] at hb'
  exact (h1.eq hb' hb1 (hr'.trans hb2.symm)).1

section
variable (h : NpSpinFp (system info) (prio info) R) (h1 : OneEntry info) (hT : ∀ t ∈ info, 0 < t.period)
  (hprio : ∀ i j : Fin info.length, (info.get i).cluster = (info.get j).cluster →
    (info.get i).priority = (info.get j).priority → i = j)
  (hW : ∀ i, W i ≤ (info.get i).response) (hb : BoundedBefore R.work R.sched W H)
  (hwin : SpinWindow (system info) (prio info) R k q a (a + W k)) (haH : a + W k ≤ H)
  (hv : SpinView (system info) (prio info) R Q k V sec src arr c) (hV : ∀ u ∈ V, a ≤ u ∧ u < a + W k)
include h h1 hT hW hwin hv hV

include hb haH in
/-- Resources that the task does not use. -/
theorem contention_le {r : ℕ} {x : Fin info.length} (hk : numRequests (info.get k) r = 0) :
    ((slots V sec (kindOf arr) .direct x r).image sec).card ≤
      contentionRequests info k (info.get k) (info.get x) r := by
  classical
  set X := slots V sec (kindOf arr) .direct x r with hX
  set F := X.image sec with hF
  rcases F.eq_empty_or_nonempty with he | ⟨z0, hz0⟩
  · rw [he]; simp
  have hdir : ∀ u ∈ X, R.Served (sec u) u ∧ R.Blocks (system info) Q (src u) (sec u) u ∧
      (info.get (src u).job.1).cluster = (info.get k).cluster ∧
      (info.get (src u).job.1).priority ≤ (info.get k).priority ∧ (sec u).job.1 = x ∧ (system info).For (sec u) r ∧
      (system info).For (src u) r ∧ a ≤ u ∧ u < a + W k := by
    intro u hu
    obtain ⟨h2, h3, h4, h5⟩ := mem_slots.1 hu
    obtain ⟨h6, h7, h8⟩ := hv.direct u h2 (kindOf_direct.1 h5)
    refine ⟨hv.served u h2, h6, h7, h8, Fin.ext h3, h4, ?_, hV u h2⟩
    obtain ⟨r', h9, h10, _⟩ := h6.res
    rw [← for_resOf h4, for_resOf h10]
    exact h9
  have hx0 : numRequests (info.get x) r ≠ 0 := by
    obtain ⟨u, hu, rfl⟩ := mem_image.1 hz0
    obtain ⟨h2, _, _, _, h3, h4, _⟩ := hdir u hu
    obtain ⟨b, _, _, h5, h6⟩ := issued_num h.toSpinBase h1 h2.issued h4
    rw [h3] at h5
    omega
  unfold contentionRequests
  rw [if_neg hx0]
  let J : Fin info.length → Finset ℕ := fun i => (X.filter (fun u => (src u).job.1 = i)).image (fun u => (src u).job.2)
  let G : Fin info.length → ℕ → Finset (Section info.length) := fun i p =>
    (X.filter (fun u => (src u).job = (i, p))).image sec
  have e := tasks_sum (info := info) (fun t : ℕ × TaskInfo => t.2.cluster = (info.get k).cluster ∧ t.1 ≠ (k : ℕ) ∧
      t.2.priority ≤ (info.get k).priority ∧ numRequests t.2 r ≠ 0)
    (fun t => localJobs t.2 (info.get k).response * (info.get x).maxNumJobs t.2.response)
  rw [e, sum_mul]
  set T := univ.filter (fun i : Fin info.length => (info.get i).cluster = (info.get k).cluster ∧ (i : ℕ) ≠ (k : ℕ) ∧
      (info.get i).priority ≤ (info.get k).priority ∧ numRequests (info.get i) r ≠ 0) with hTd
  have hcov : F ⊆ T.biUnion (fun i => (J i).biUnion (G i)) := by
    intro z hz
    obtain ⟨u, hu, rfl⟩ := mem_image.1 hz
    obtain ⟨h2, h3, h4, h5, h6, h7, h8, _⟩ := hdir u hu
    obtain ⟨b, _, _, h9, h10⟩ := issued_num h.toSpinBase h1 h3.issued h8
    refine mem_biUnion.2 ⟨(src u).job.1, mem_filter.2 ⟨mem_univ _, h4, ?_, h5, by omega⟩, ?_⟩
    · intro hc
      rw [Fin.ext hc, hk] at h9
      omega
    · exact mem_biUnion.2 ⟨(src u).job.2, mem_image_of_mem _ (mem_filter.2 ⟨hu, rfl⟩),
        mem_image_of_mem _ (mem_filter.2 ⟨hu, rfl⟩)⟩
  refine (card_le_card hcov).trans (card_biUnion_le.trans (sum_le_sum ?_))
  intro i hi
  obtain ⟨_, hcl, _, hpr, _⟩ := mem_filter.1 hi
  have hG : ∀ p ∈ J i, (G i p).card ≤ (info.get x).maxNumJobs (info.get i).response * numRequests (info.get x) r := by
    intro p _
    refine served_for_le h.toSpinBase h1 hb hT hW (lo := R.work.release (i, p))
      (hi := min (R.work.release (i, p) + W i) (a + W k)) ((min_le_right _ _).trans haH)
      (by have := hW i; omega) ?_
    intro z hz
    obtain ⟨u, hu, rfl⟩ := mem_image.1 hz
    obtain ⟨hu, hj⟩ := mem_filter.1 hu
    obtain ⟨h2, h3, h4, h5, h6, h7, h8, h9, h10⟩ := hdir u hu
    have hr := h.ready u _ h3.sched
    rw [hj] at hr
    exact ⟨h6, h7, u, hr.1.1, lt_min (lt_of_pending hb (by omega) hr.1.2) h10, h2⟩
  have hJ : (J i).card ≤ localJobs (info.get i) (info.get k).response := by
    apply window_jobs h hwin hT (hW k) hcl hpr
    intro p hp
    obtain ⟨u, hu, rfl⟩ := mem_image.1 hp
    obtain ⟨hu, hj⟩ := mem_filter.1 hu
    obtain ⟨h2, h3, _, _, _, _, _, h9, h10⟩ := hdir u hu
    refine ⟨u, h9, h10, ?_⟩
    rw [← hj]
    exact h3.sched
  refine (card_biUnion_le_card_mul _ _ _ hG).trans ?_
  rw [mul_assoc]
  exact Nat.mul_le_mul_right _ hJ

end

/-! ### FIFO order -/

theorem fifo_unique (h : SpinBase (system info) R) {s z z' : Section info.length} {u u' : ℕ}
    (hb : R.Blocks (system info) (fun s z => R.enter z ≤ R.enter s) s z u)
    (hb' : R.Blocks (system info) (fun s z => R.enter z ≤ R.enter s) s z' u') (hs : R.Served z u) (hs' : R.Served z' u')
    (hp : (system info).proc z.job.1 = (system info).proc z'.job.1) : z = z' := by
  obtain ⟨r, _, ⟨b, hb1, hb2⟩, hg⟩ := hb.res
  obtain ⟨r', _, ⟨b', hb1', hb2'⟩, hg'⟩ := hb'.res
  have o := hb.order
  have o' := hb'.order
  have e := hb.enter
  have e' := hb'.enter
  have l := hs.leave
  have l' := hs'.leave
  beta_reduce at o o'
  have x := h.nonpreemptive z b (R.enter s) hs.issued hb1 (hb2 ▸ hg) o (by omega)
  have x' := h.nonpreemptive z' b' (R.enter s) hs'.issued hb1' (hb2' ▸ hg') o' (by omega)
  exact h.section_unique (t := R.enter s) hs.issued hs'.issued (h.one _ _ x _ x' hp) o (by omega) o' (by omega)

section
variable (h : NpSpinFp (system info) (prio info) R) (h1 : OneEntry info) (hT : ∀ t ∈ info, 0 < t.period)
  (hprio : ∀ i j : Fin info.length, (info.get i).cluster = (info.get j).cluster →
    (info.get i).priority = (info.get j).priority → i = j)
  (hWk : W k ≤ (info.get k).response)
  (hwin : SpinWindow (system info) (prio info) R k q a (a + W k))
  (hv : SpinView (system info) (prio info) R (fun s z => R.enter z ≤ R.enter s) k V sec src arr c)
  (hV : ∀ u ∈ V, a ≤ u ∧ u < a + W k)
include h hv

include h1 hT hprio hWk hwin hV in
theorem fifo_direct (r cl : ℕ) (F : Finset (Section info.length))
    (hF : ∀ z ∈ F, ∃ u ∈ V, kindOf arr u = .direct ∧ sec u = z ∧ (system info).For z r ∧
      (info.get z.job.1).cluster = cl) : F.card ≤ countLocalHpReqs info (info.get k) r := by
  classical
  choose! g hg using hF
  have hinj : Set.InjOn (fun z => src (g z)) F := by
    intro z hz z' hz' he
    obtain ⟨a1, a2, a3, a4, a5⟩ := hg z hz
    obtain ⟨b1, b2, b3, b4, b5⟩ := hg z' hz'
    have x := (hv.direct _ a1 (kindOf_direct.1 a2)).1
    have y := (hv.direct _ b1 (kindOf_direct.1 b2)).1
    simp only at he
    rw [← he] at y
    rw [a3] at x
    rw [b3] at y
    have s1 := hv.served _ a1
    have s2 := hv.served _ b1
    rw [a3] at s1
    rw [b3] at s2
    exact fifo_unique h.toSpinBase x y s1 s2 (a5.trans b5.symm)
  rw [← card_image_of_injOn hinj]
  apply local_requests h hwin h1 hT hprio hWk
  intro s hs
  obtain ⟨z, hz, rfl⟩ := mem_image.1 hs
  obtain ⟨a1, a2, a3, a4, a5⟩ := hg z hz
  obtain ⟨x1, x2, x3⟩ := hv.direct _ a1 (kindOf_direct.1 a2)
  refine ⟨x1.issued, x2, x3, ?_, g z, (hV _ a1).1, (hV _ a1).2, x1.sched⟩
  obtain ⟨r', h9, h10, _⟩ := x1.res
  rw [a3] at h10
  rw [← for_resOf a4, for_resOf h10]
  exact h9

theorem fifo_arrival : ∀ u ∈ V, ∀ v ∈ V, kindOf arr u = arrival → kindOf arr v = arrival →
    (info.get (sec u).job.1).cluster = (info.get (sec v).job.1).cluster →
    (info.get (sec u).job.1).cluster ≠ (info.get k).cluster → sec u = sec v := by
  intro u hu v hv' hku hkv he hne
  obtain ⟨c0, hc0, x⟩ := hv.arrival u hu (kindOf_arrival.1 hku)
  obtain ⟨c1, hc1, y⟩ := hv.arrival v hv' (kindOf_arrival.1 hkv)
  rw [hc0] at hc1
  cases hc1
  rcases x with x | x
  · rw [x] at hne
    exact absurd (hv.source c0 hc0).2.1 hne
  rcases y with y | y
  · rw [he, y] at hne
    exact absurd (hv.source c0 hc0).2.1 hne
  exact fifo_unique h.toSpinBase x y (hv.served u hu) (hv.served v hv') he

end

/-! ### Any order -/

section
variable (h : SpinBase (system info) R) (h1 : OneEntry info) (hT : ∀ t ∈ info, 0 < t.period)
  (hW : ∀ i, W i ≤ (info.get i).response) (hb : BoundedBefore R.work R.sched W H)
  (hw : R.SpinOrder (system info) Q)
include h h1 hT hW hb hw

/-- The slots in which a section spins: in each interval there are no more than the sections of other processors take. -/
theorem spin_sum {s : Section info.length} (hi : R.issued s) {r : ℕ} (hf : (system info).For s r) {E : ℕ}
    (hE : R.enter s + E ≤ R.acquire s) (hEH : R.enter s + E ≤ H) :
    E ≤ ((info.filter (fun t => t.cluster ≠ (info.get s.job.1).cluster)).flatMap (fun t =>
      (t.requests.filter (fun b => b.resId = r)).map (fun b => b.length * (t.maxNumJobs E * b.num)))).sum := by
  classical
  have key : ∀ u ∈ Ico (R.enter s) (R.enter s + E), ∃ z, R.Served z u ∧ R.Blocks (system info) Q s z u := by
    intro u hu
    rw [mem_Ico] at hu
    exact h.blocks hw hi hu.1 (by omega)
  haveI : Nonempty (Section info.length) := ⟨s⟩
  choose! fz hfz using key
  set Y := Ico (R.enter s) (R.enter s + E) with hY
  have hfor : ∀ u ∈ Y, (system info).For (fz u) r := by
    intro u hu
    obtain ⟨r', h9, h10, _⟩ := (hfz u hu).2.res
    rw [← for_resOf hf, for_resOf h9]
    exact h10
  have hYc : Y.card = E := by rw [hY, Nat.card_Ico]; omega
  rw [← hYc, flatMap_sum]
  rw [info_sum (fun t => t.cluster ≠ (info.get s.job.1).cluster)]
  rw [hYc]
  set T := univ.filter (fun i : Fin info.length => (info.get i).cluster ≠ (info.get s.job.1).cluster) with hTd
  have hcov : Y ⊆ T.biUnion (fun i => Y.filter (fun u => (fz u).job.1 = i)) := by
    intro u hu
    exact mem_biUnion.2 ⟨(fz u).job.1, mem_filter.2 ⟨mem_univ _, (hfz u hu).2.remote⟩, mem_filter.2 ⟨hu, rfl⟩⟩
  conv_lhs => rw [← hYc]
  refine (card_le_card hcov).trans (card_biUnion_le.trans (sum_le_sum ?_))
  intro i _
  set Z := Y.filter (fun u => (fz u).job.1 = i) with hZ
  rcases Z.eq_empty_or_nonempty with he | ⟨u0, hu0⟩
  · rw [he]; simp
  obtain ⟨hu0, hi0⟩ := mem_filter.1 hu0
  obtain ⟨b, hb1, hb2⟩ := for_iff.1 (hfor u0 hu0)
  rw [hi0] at hb1
  rw [← hb2, h1.filter (List.mem_of_getElem? hb1)]
  simp only [List.map_cons, List.map_nil, List.sum_cons, List.sum_nil, Nat.add_zero]
  have hidx : ∀ u ∈ Z, (fz u).idx = (fz u0).idx := by
    intro u hu
    obtain ⟨hu, hx⟩ := mem_filter.1 hu
    obtain ⟨b', hb1', hb2'⟩ := for_iff.1 (hfor u hu)
    rw [hx] at hb1'
    exact (h1.eq hb1' hb1 (hb2'.trans hb2.symm)).1
  have hc : (Z.image fz).card ≤ (info.get i).maxNumJobs E * b.num := by
    apply served_le h hb hT hW hb1 hEH (lo := R.enter s) (by omega)
    intro z hz
    obtain ⟨u, hu, rfl⟩ := mem_image.1 hz
    obtain ⟨hu', hx⟩ := mem_filter.1 hu
    rw [hY, mem_Ico] at hu'
    exact ⟨hx, hidx u hu, u, hu'.1, hu'.2, (hfz u (mem_filter.1 hu).1).1⟩
  have hlen : ∀ z ∈ Z.image fz, (Z.filter (fun u => fz u = z)).card ≤ b.length := by
    intro z hz
    obtain ⟨u, hu, rfl⟩ := mem_image.1 hz
    have hu' := mem_filter.1 hu
    have hs := (hfz u hu'.1).1
    have := h.length (fz u) ⟨b.resId, b.num, b.length⟩ hs.issued (by
      rw [hidx u hu, hu'.2]
      exact lock_req' hb1)
    refine le_trans (card_le_card ?_) this
    intro v hv
    obtain ⟨hv, he⟩ := mem_filter.1 hv
    have hs' := (hfz v (mem_filter.1 hv).1).1
    rw [he] at hs'
    rw [mem_filter, mem_Ico]
    exact ⟨⟨hs'.acquire, hs'.leave⟩, hs'.sched⟩
  have := card_le_mul_card_image_of_maps_to (f := fz) (s := Z) (t := Z.image fz)
    (fun u hu => mem_image_of_mem _ hu) b.length hlen
  exact this.trans (Nat.mul_le_mul_left _ hc)

end

theorem waitLoop_spec {ti : TaskInfo} {r fuel est new E : ℕ} (h : waitLoop info ti r fuel est new = some E) {init : ℕ}
    (h0 : (est = 0 ∧ new = init) ∨ new = waitStep info ti r est) :
    ti.period < E ∨ (E = 0 ∧ init = 0) ∨ E = waitStep info ti r E := by
  induction fuel generalizing est new with
  | zero => cases h
  | succ fuel ih =>
    unfold waitLoop at h
    by_cases hc : est ≤ ti.period ∧ est ≠ new
    · rw [if_pos hc] at h
      exact ih h (Or.inr rfl)
    · rw [if_neg hc] at h
      cases h
      rw [not_and_or] at hc
      rcases hc with hc | hc
      · exact Or.inl (by omega)
      · push Not at hc
        rcases h0 with ⟨h1, h2⟩ | h1
        · exact Or.inr (Or.inl ⟨h1, by omega⟩)
        · exact Or.inr (Or.inr (hc.trans h1))

/-- The interval of a busy window in which a section spins is no longer than the bound. -/
theorem wait_interval (h : SpinBase (system info) R) (h1 : OneEntry info) (hT : ∀ t ∈ info, 0 < t.period)
    (hW : ∀ i, W i ≤ (info.get i).response) (hb : BoundedBefore R.work R.sched W H)
    (hw : R.SpinOrder (system info) Q) (haH : a + W k ≤ H) {fuel r w : ℕ}
    (hwait : waitBound fuel info (info.get k) r = some w) {s : Section info.length} (hi : R.issued s)
    (hf : (system info).For s r) (hcl : (info.get s.job.1).cluster = (info.get k).cluster) :
    ∃ lo hi, hi ≤ H ∧ hi - lo ≤ w ∧ ∀ u, a ≤ u → u < a + W k → R.enter s ≤ u → u < R.acquire s → lo ≤ u ∧ u < hi := by
  unfold waitBound at hwait
  simp only [Option.map_eq_some_iff] at hwait
  obtain ⟨E, hE, rfl⟩ := hwait
  have hspec := waitLoop_spec hE (Or.inl ⟨rfl, rfl⟩)
  by_cases hp : E ≤ (info.get k).period
  · rw [if_pos hp]
    refine ⟨R.enter s, min (R.acquire s) (a + W k), (min_le_right _ _).trans haH, ?_, fun u _ h2 h3 h4 =>
      ⟨h3, lt_min h4 h2⟩⟩
    have hsum := fun E' hE' hEH => spin_sum h h1 hT hW hb hw hi hf (E := E') hE' hEH
    rw [hcl] at hsum
    rcases hspec with hspec | ⟨hE0, hinit⟩ | hspec
    · omega
    · by_contra hc
      have := hsum 1 (by omega) (by omega)
      rw [List.sum_eq_zero] at this
      · omega
      · intro x hx
        rw [List.sum_eq_zero_iff] at hinit
        obtain ⟨t, ht, hx⟩ := List.mem_flatMap.1 hx
        obtain ⟨b, hbm, rfl⟩ := List.mem_map.1 hx
        have := hinit (b.length * b.num) (List.mem_flatMap.2 ⟨t, ht, List.mem_map_of_mem hbm⟩)
        rcases Nat.mul_eq_zero.1 this with h0 | h0 <;> simp [h0]
    · by_contra hc
      have := hsum E (by omega) (by omega)
      unfold waitStep at hspec
      omega
  · rw [if_neg hp]
    refine ⟨a, a + W k, haH, ?_, fun u h2 h3 _ _ => ⟨h2, h3⟩⟩
    have := hW k
    omega

theorem OneEntry.reqsIn (h : OneEntry info) (x : Fin info.length) (r w : ℕ) :
    numReqsIn (info.get x) r w = (info.get x).maxNumJobs w * numRequests (info.get x) r := by
  by_cases hr : ∃ b ∈ (info.get x).requests, b.resId = r
  · obtain ⟨b, hb, rfl⟩ := hr
    unfold Lp.numReqsIn
    rw [h.filter hb, h.num hb]
    simp
  · push Not at hr
    have h1 : (info.get x).requests.filter (fun b => b.resId = r) = [] := by
      rw [List.filter_eq_nil_iff]
      intro b hb
      simpa using hr b hb
    have h2 : (info.get x).requests.find? (fun b => b.resId = r) = none := by
      rw [List.find?_eq_none]
      intro b hb
      simpa using hr b hb
    unfold Lp.numReqsIn Lp.numRequests
    rw [h1, h2]
    simp

section
variable (h : NpSpinFp (system info) (prio info) R) (h1 : OneEntry info) (hT : ∀ t ∈ info, 0 < t.period)
  (hprio : ∀ i j : Fin info.length, (info.get i).cluster = (info.get j).cluster →
    (info.get i).priority = (info.get j).priority → i = j)
  (hW : ∀ i, W i ≤ (info.get i).response) (hb : BoundedBefore R.work R.sched W H)
  (hw : R.SpinOrder (system info) Q)
  (hwin : SpinWindow (system info) (prio info) R k q a (a + W k)) (haH : a + W k ≤ H)
  (hv : SpinView (system info) (prio info) R Q k V sec src arr c) (hV : ∀ u ∈ V, a ≤ u ∧ u < a + W k)
  {fuel r w : ℕ} (hwait : waitBound fuel info (info.get k) r = some w)
include h h1 hT hW hb hw haH hv hV hwait

include hprio hwin in
theorem unordered_direct (x : Fin info.length) : ((slots V sec (kindOf arr) .direct x r).image sec).card ≤
    numReqsIn (info.get x) r w * countLocalHpReqs info (info.get k) r := by
  classical
  set X := slots V sec (kindOf arr) .direct x r with hX
  have hdir : ∀ u ∈ X, R.Served (sec u) u ∧ R.Blocks (system info) Q (src u) (sec u) u ∧
      (info.get (src u).job.1).cluster = (info.get k).cluster ∧
      (info.get (src u).job.1).priority ≤ (info.get k).priority ∧ (sec u).job.1 = x ∧ (system info).For (sec u) r ∧
      (system info).For (src u) r ∧ a ≤ u ∧ u < a + W k := by
    intro u hu
    obtain ⟨h2, h3, h4, h5⟩ := mem_slots.1 hu
    obtain ⟨h6, h7, h8⟩ := hv.direct u h2 (kindOf_direct.1 h5)
    refine ⟨hv.served u h2, h6, h7, h8, Fin.ext h3, h4, ?_, hV u h2⟩
    obtain ⟨r', h9, h10, _⟩ := h6.res
    rw [← for_resOf h4, for_resOf h10]
    exact h9
  have hD : (X.image src).card ≤ countLocalHpReqs info (info.get k) r := by
    apply local_requests h hwin h1 hT hprio (hW k)
    intro s hs
    obtain ⟨u, hu, rfl⟩ := mem_image.1 hs
    obtain ⟨_, h3, h4, h5, _, _, h8, h9, h10⟩ := hdir u hu
    exact ⟨h3.issued, h4, h5, h8, u, h9, h10, h3.sched⟩
  have hcov : X.image sec ⊆ (X.image src).biUnion (fun s => (X.filter (fun u => src u = s)).image sec) := by
    intro z hz
    obtain ⟨u, hu, rfl⟩ := mem_image.1 hz
    exact mem_biUnion.2 ⟨src u, mem_image_of_mem _ hu, mem_image_of_mem _ (mem_filter.2 ⟨hu, rfl⟩)⟩
  rw [h1.reqsIn, mul_comm]
  refine (card_le_card hcov).trans ((card_biUnion_le_card_mul _ _
    ((info.get x).maxNumJobs w * numRequests (info.get x) r) ?_).trans (Nat.mul_le_mul_right _ hD))
  intro s hs
  obtain ⟨u, hu, rfl⟩ := mem_image.1 hs
  obtain ⟨_, h3, h4, _, _, _, h8, _⟩ := hdir u hu
  obtain ⟨lo, hi, g1, g2, g3⟩ := wait_interval h.toSpinBase h1 hT hW hb hw haH hwait h3.issued h8 h4
  apply served_for_le h.toSpinBase h1 hb hT hW g1 g2
  intro z hz
  obtain ⟨v, hv', rfl⟩ := mem_image.1 hz
  obtain ⟨hv', he⟩ := mem_filter.1 hv'
  obtain ⟨e1, e2, _, _, e5, e6, _, e8, e9⟩ := hdir v hv'
  rw [he] at e2
  obtain ⟨f1, f2⟩ := g3 v e8 e9 e2.enter e2.acquire
  exact ⟨e5, e6, v, f1, f2, e1⟩

theorem unordered_arrival {x : Fin info.length} (hx : (info.get x).cluster ≠ (info.get k).cluster) :
    ((slots V sec (kindOf arr) arrival x r).image sec).card ≤ numReqsIn (info.get x) r w := by
  classical
  set X := slots V sec (kindOf arr) arrival x r with hX
  rw [h1.reqsIn]
  have harr : ∀ u ∈ X, R.Served (sec u) u ∧ ∃ c0, c = some c0 ∧ R.Blocks (system info) Q c0 (sec u) u ∧
      (info.get c0.job.1).cluster = (info.get k).cluster ∧ (sec u).job.1 = x ∧ (system info).For (sec u) r ∧
      (system info).For c0 r ∧ a ≤ u ∧ u < a + W k := by
    intro u hu
    obtain ⟨h2, h3, h4, h5⟩ := mem_slots.1 hu
    have h3 : (sec u).job.1 = x := Fin.ext h3
    obtain ⟨c0, hc0, h6 | h6⟩ := hv.arrival u h2 (kindOf_arrival.1 h5)
    · rw [h6] at h3
      rw [← h3] at hx
      exact absurd (hv.source c0 hc0).2.1 hx
    · refine ⟨hv.served u h2, c0, hc0, h6, (hv.source c0 hc0).2.1, h3, h4, ?_, hV u h2⟩
      obtain ⟨r', h9, h10, _⟩ := h6.res
      rw [← for_resOf h4, for_resOf h10]
      exact h9
  rcases X.eq_empty_or_nonempty with he | ⟨u0, hu0⟩
  · rw [he]; simp
  obtain ⟨_, c0, hc0, h3, h4, _, _, h8, _⟩ := harr u0 hu0
  obtain ⟨lo, hi, g1, g2, g3⟩ := wait_interval h.toSpinBase h1 hT hW hb hw haH hwait h3.issued h8 h4
  apply served_for_le h.toSpinBase h1 hb hT hW g1 g2
  intro z hz
  obtain ⟨v, hv', rfl⟩ := mem_image.1 hz
  obtain ⟨e1, c1, hc1, e2, _, e5, e6, _, e8, e9⟩ := harr v hv'
  rw [hc0] at hc1
  cases hc1
  obtain ⟨f1, f2⟩ := g3 v e8 e9 e2.enter e2.acquire
  exact ⟨e5, e6, v, f1, f2, e1⟩

end

end Verif.SR.Lp
