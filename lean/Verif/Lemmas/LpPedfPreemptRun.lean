/-
The delays and cancellations in a window of a run under partitioned EDF with preemptable FIFO spin locks make up a solution
of the linear program.
-/
import Verif.Lemmas.LpPedfPreemptDem
import Verif.Lemmas.LpPedfRun
import Verif.Lemmas.FifoPreemptRun

namespace Verif.SR.Pedf
open Verif.Spec Finset
open Verif.SR.Msrp (system uses_iff)
open Verif.SR.Lp (resOf for_resOf for_iff)

variable {info : Info} {R : LockRun info.length} {tie : Fin info.length → ℕ} {k lo hi H : ℕ} {A : Finset (Job info.length)}
  {V : Finset ℕ} {sec src : ℕ → Section info.length} {isArr : ℕ → Bool} {c : Option (Section info.length)} {mode : Mode}

/-- Slots `V` of a window of processor `k` in which none of the jobs `A` makes progress: `sec u` is served in slot `u`.
Either `src u` of one of the jobs spins due to it, or it is the section `c` of a job with a late deadline. -/
structure PView (info : Info) (R : LockRun info.length) (k lo hi : ℕ) (A : Finset (Job info.length)) (V : Finset ℕ)
    (sec src : ℕ → Section info.length) (isArr : ℕ → Bool) (c : Option (Section info.length)) : Prop where
  range : ∀ u ∈ V, lo ≤ u ∧ u < hi
  jobs : ∀ j ∈ A, (info.get j.1).cluster = k
  served : ∀ u ∈ V, R.Served (sec u) u
  direct : ∀ u ∈ V, isArr u = false → R.Blocks (system info) (R.lastFifo u) (src u) (sec u) u ∧ (src u).job ∈ A
  arrival : ∀ u ∈ V, isArr u = true → c = some (sec u)
  source : ∀ c0, c = some c0 → R.issued c0 ∧ (info.get c0.job.1).cluster = k ∧ hi - lo < (info.get c0.job.1).deadline ∧
    (system info).For c0 (resOf info c0) ∧ (system info).Global (resOf info c0)

open Classical in
/-- Sections that local jobs spin for. -/
noncomputable def dirSecs (V : Finset ℕ) (sec : ℕ → Section info.length) (isArr : ℕ → Bool) : Finset (Section info.length) :=
  (V.filter (fun u => isArr u = false)).image sec

open Classical in
/-- Local requests, with the slots in which they were issued for the last time. -/
noncomputable def attempts (R : LockRun info.length) (V : Finset ℕ) (src : ℕ → Section info.length) (isArr : ℕ → Bool) :
    Finset (Section info.length × ℕ) :=
  (V.filter (fun u => isArr u = false)).image (fun u => (src u, R.since (src u) u))

open Classical in
/-- Those that are not the first ones of their sections. -/
noncomputable def repeats (R : LockRun info.length) (V : Finset ℕ) (src : ℕ → Section info.length) (isArr : ℕ → Bool) :
    Finset (Section info.length × ℕ) :=
  (attempts R V src isArr).filter (fun p => ∃ p' ∈ attempts R V src isArr, p'.1 = p.1 ∧ p'.2 < p.2)

open Classical in
/-- The cancelled requests of a task for a resource. -/
noncomputable def cancels (R : LockRun info.length) (V : Finset ℕ) (src : ℕ → Section info.length) (isArr : ℕ → Bool)
    (i : Fin info.length) (q : ℕ) : ℕ :=
  ((repeats R V src isArr).filter (fun p => p.1.job.1 = i ∧ resOf info p.1 = q)).card

theorem mem_dirSecs {z : Section info.length} : z ∈ dirSecs V sec isArr ↔ ∃ u ∈ V, isArr u = false ∧ sec u = z := by
  classical
  unfold dirSecs
  rw [mem_image]
  simp only [mem_filter, and_assoc]

theorem mem_attempts {p : Section info.length × ℕ} :
    p ∈ attempts R V src isArr ↔ ∃ u ∈ V, isArr u = false ∧ src u = p.1 ∧ R.since p.1 u = p.2 := by
  classical
  unfold attempts
  rw [mem_image]
  simp only [mem_filter, and_assoc]
  constructor
  · rintro ⟨u, h1, h2, rfl⟩
    exact ⟨u, h1, h2, rfl, rfl⟩
  · rintro ⟨u, h1, h2, h3, h4⟩
    refine ⟨u, h1, h2, ?_⟩
    rw [h3, h4]

theorem mem_repeats {p : Section info.length × ℕ} : p ∈ repeats R V src isArr ↔
    p ∈ attempts R V src isArr ∧ ∃ p' ∈ attempts R V src isArr, p'.1 = p.1 ∧ p'.2 < p.2 := by
  classical
  unfold repeats
  rw [mem_filter]

/-! ### Numbers of jobs -/

/-- Jobs of tasks with short deadlines, if the number of jobs of each task is bounded. -/
theorem short_jobs_le {d : ℕ} {Q : Finset (Job info.length)} {m : Fin info.length → ℕ}
    (hQ : ∀ j ∈ Q, (info.get j.1).cluster = k ∧ (info.get j.1).deadline < d)
    (hm : ∀ h ∈ shortTasks info k d, ((Q.filter (fun j => j.1 = h)).image Prod.snd).card ≤ m h) :
    Q.card ≤ ∑ h ∈ shortTasks info k d, m h := by
  classical
  rw [card_eq_sum_card_fiberwise (f := Prod.fst) (t := shortTasks info k d)]
  · apply sum_le_sum
    intro h hh
    have hinj : Set.InjOn Prod.snd ((Q.filter (fun j => j.1 = h) : Finset (Job info.length)) : Set (Job info.length)) := by
      intro a ha b hb hab
      exact Prod.ext ((mem_filter.1 (mem_coe.1 ha)).2.trans (mem_filter.1 (mem_coe.1 hb)).2.symm) hab
    rw [← card_image_of_injOn hinj]
    exact hm h hh
  · intro j hj
    exact mem_coe.2 (mem_shortTasks.2 (hQ j (mem_coe.1 hj)))

/-- Jobs of a task that are released in an interval. -/
theorem released_le (h : FifoPreempt (system info) tie R) (hu : Usual info) {x : Fin info.length} {J : Finset ℕ} {a l : ℕ}
    (hJ : ∀ p ∈ J, a < R.work.release (x, p) ∧ R.work.release (x, p) ≤ a + l) :
    J.card ≤ Native.divideWithCeil l (info.get x).period := by
  have hT := hu.period (List.get_mem info x)
  rcases J.eq_empty_or_nonempty with rfl | ⟨p0, hp0⟩
  · simp
  have hl : 0 < l := by have := hJ p0 hp0; omega
  have hsp : Workload.Sporadic (⟨R.work.release, fun _ => 0⟩ : Workload info.length) (fun _ => 0) (system info).period :=
    ⟨h.separated, fun _ _ => le_rfl⟩
  have := card_released_le hsp x hT J (a := a + 1) (b := a + l) (by
    intro p hp
    have := hJ p hp
    simp only
    omega) (by omega)
  rw [dwc_eq _ hT, ← succ_div_eq_cdiv hT hl]
  have e : a + l - (a + 1) = l - 1 := by omega
  rw [e] at this
  exact this

section
variable (h : FifoPreempt (system info) tie R) (hu : Usual info)
  (hb : BoundedBefore R.work R.sched (system info).deadline H) (hH : hi ≤ H)
  (hv : PView info R k lo hi A V sec src isArr c)
  (hA : ∀ i, (info.get i).cluster = k → ((A.filter (fun j => j.1 = i)).image Prod.snd).card ≤
    localJobs mode (info.get i) (hi - lo))
  (hc : mode = .ac → c = none)
include hv

theorem PView.remote {z : Section info.length} (hz : z ∈ dirSecs V sec isArr) : (info.get z.job.1).cluster ≠ k := by
  obtain ⟨u, h1, h2, rfl⟩ := mem_dirSecs.1 hz
  obtain ⟨h3, h4⟩ := hv.direct u h1 h2
  have h5 : (info.get (src u).job.1).cluster = k := hv.jobs _ h4
  rw [← h5]
  exact h3.remote

include h in
/-- A request that was issued again is due to the release of a job. -/
theorem PView.cause {p : Section info.length × ℕ} (hp : p ∈ repeats R V src isArr) :
    ∃ (j : Job info.length) (v : ℕ), R.work.release j = v + 1 ∧ lo ≤ v ∧ v + 1 < hi ∧ v + 1 < p.2 ∧
      p.1.job ∈ R.sched v ∧ p.1.job ∈ R.sched p.2 ∧ (∀ w, v < w → w < p.2 → p.1.job ∉ R.sched w) ∧
      R.issued p.1 ∧ R.enter p.1 ≤ v ∧ v < R.leave p.1 ∧ p.1.job ∈ A ∧
      (info.get j.1).cluster = k ∧ (info.get j.1).deadline < (info.get p.1.job.1).deadline ∧
      R.work.release p.1.job ≤ v ∧
      R.work.release j + (info.get j.1).deadline ≤ R.work.release p.1.job + (info.get p.1.job.1).deadline := by
  obtain ⟨hp1, p', hp', he, hlt⟩ := mem_repeats.1 hp
  obtain ⟨u, a1, a2, a3, a4⟩ := mem_attempts.1 hp1
  obtain ⟨u0, b1, b2, b3, b4⟩ := mem_attempts.1 hp'
  obtain ⟨x1, x2⟩ := hv.direct u a1 a2
  obtain ⟨y1, y2⟩ := hv.direct u0 b1 b2
  rw [he] at b3 b4
  rw [a3] at x1 x2
  rw [b3] at y1
  have ra := hv.range u a1
  have rb := hv.range u0 b1
  rw [← b4, ← a4] at hlt
  obtain ⟨j, v, c1, c2, c3, c4, c5, c6, c7, c8⟩ := h.cancelled x1.issued y1.enter y1.sched hlt x1.acquire x1.sched
  have hk : (info.get p.1.job.1).cluster = k := hv.jobs _ x2
  have hse := R.since_le p.1 u
  have hac := x1.acquire
  have hord := (h.order _ x1.issued).2
  have hen := y1.enter
  rw [a4] at c2 c4 hse
  refine ⟨j, v, c5, by omega, by omega, c2, c3, ?_, c4, x1.issued, by omega, by omega, x2, Eq.trans c6 hk, c7,
    (h.ready v _ c3).1.1, c8⟩
  rcases Nat.lt_or_ge p.2 u with h1 | h1
  · exact R.since_sched a4.le h1
  · rw [show p.2 = u by omega]
    exact x1.sched

include h in
/-- Different requests that were issued again are due to different jobs. -/
theorem PView.causes : ∃ f : Section info.length × ℕ → Job info.length,
    Set.InjOn f (repeats R V src isArr : Finset (Section info.length × ℕ)) ∧ ∀ p ∈ repeats R V src isArr,
      lo < R.work.release (f p) ∧ R.work.release (f p) < hi ∧ p.1.job ∈ A ∧ (info.get (f p).1).cluster = k ∧
      (info.get (f p).1).deadline < (info.get p.1.job.1).deadline ∧
      R.work.release p.1.job < R.work.release (f p) ∧ R.work.release (f p) + (info.get (f p).1).deadline ≤
        R.work.release p.1.job + (info.get p.1.job.1).deadline := by
  classical
  rcases (repeats R V src isArr).eq_empty_or_nonempty with he | ⟨p0, hp0⟩
  · rw [he]
    exact ⟨fun p => p.1.job, by simp, by simp⟩
  have key := fun p (hp : p ∈ repeats R V src isArr) => hv.cause h hp
  haveI : Nonempty (Job info.length) := ⟨p0.1.job⟩
  choose! f v hf using key
  refine ⟨f, ?_, ?_⟩
  · intro p hp p' hp' he
    obtain ⟨a1, a2, a3, a4, a5, a6, a7, a8, a9, a10, a11, _⟩ := hf p hp
    obtain ⟨b1, b2, b3, b4, b5, b6, b7, b8, b9, b10, b11, _⟩ := hf p' hp'
    have hvv : v p = v p' := by
      rw [he] at a1
      omega
    rw [← hvv] at b4 b5 b7 b9 b10
    have hj := h.one _ _ a5 _ b5 (Eq.trans (hv.jobs _ a11) (hv.jobs _ b11).symm)
    have hs := h.section_unique a8 b8 hj a9 a10 b9 b10
    refine Prod.ext hs ?_
    rw [← hs] at b6 b7
    rcases Nat.lt_trichotomy p.2 p'.2 with h1 | h1 | h1
    · exact absurd a6 (b7 _ (by omega) h1)
    · exact h1
    · exact absurd b6 (a7 _ (by omega) h1)
  · intro p hp
    obtain ⟨a1, a2, a3, a4, a5, a6, a7, a8, a9, a10, a11, a12, a13, a14, a15⟩ := hf p hp
    exact ⟨by omega, by omega, a11, a12, a13, by omega, a15⟩

include h hu hb hH hA hc in
/-- The delays are a solution. -/
theorem PView.sol : PSol info mode k (hi - lo) (fun x q => (ofTask (dirSecs V sec isArr) x q).card)
    (cancels R V src isArr) (c.map (fun c0 => (c0.job.1, resOf info c0))) := by
  classical
  obtain ⟨f, hf1, hf2⟩ := hv.causes h
  have hsum : ∀ i, ∑ q ∈ (Lp.allResources info).toFinset, cancels R V src isArr i q ≤
      ((repeats R V src isArr).filter (fun p => p.1.job.1 = i)).card := by
    intro i
    have e : ∀ q, cancels R V src isArr i q = (((repeats R V src isArr).filter (fun p => p.1.job.1 = i)).filter
        (fun p => resOf info p.1 = q)).card := by
      intro q
      unfold cancels
      rw [filter_filter]
    rw [sum_congr rfl (fun q _ => e q), sum_card_fiberwise_eq_card_filter]
    exact card_filter_le _ _
  have hatt : ∀ p ∈ attempts R V src isArr, R.issued p.1 ∧ p.1.job ∈ A ∧ (system info).For p.1 (resOf info p.1) := by
    intro p hp
    obtain ⟨u, a1, a2, a3, a4⟩ := mem_attempts.1 hp
    obtain ⟨x1, x2⟩ := hv.direct u a1 a2
    rw [a3] at x1 x2
    obtain ⟨r, hr, _⟩ := x1.res
    refine ⟨x1.issued, x2, ?_⟩
    rw [for_resOf hr]
    exact hr
  refine ⟨?_, ?_, ?_, ?_, ?_, ?_, ?_⟩
  · intro x hx q
    beta_reduce
    apply sections_le_of h.declared hu.one
    · intro z hz
      obtain ⟨h2, h3, h4⟩ := mem_ofTask.1 hz
      obtain ⟨u, h5, _, rfl⟩ := mem_dirSecs.1 h2
      exact ⟨(hv.served u h5).issued, h3, h4⟩
    · apply jobs_le_of h.ready h.separated hu hb hH le_rfl
      intro p hp
      obtain ⟨z, hz, rfl⟩ := mem_image.1 hp
      obtain ⟨h2, h3, h4⟩ := mem_ofTask.1 hz
      obtain ⟨u, h5, _, rfl⟩ := mem_dirSecs.1 h2
      refine ⟨u, (hv.range u h5).1, (hv.range u h5).2, ?_⟩
      rw [← h3]
      exact (hv.served u h5).sched
  · intro hm
    rw [hc hm]
    rfl
  · intro i q ha
    obtain ⟨c0, hc0, he⟩ := Option.map_eq_some_iff.1 ha
    cases he
    obtain ⟨s1, s2, s3, s4, s5⟩ := hv.source c0 hc0
    obtain ⟨b, _, _, h8, h9⟩ := Lp.issued_num_of h.declared hu.one s1 s4
    exact ⟨s2, s3, by omega, s5⟩
  · intro cl hcl q
    beta_reduce
    set F := (dirSecs V sec isArr).filter (fun z => (info.get z.job.1).cluster = cl ∧ (system info).For z q) with hF
    have e : ∑ x ∈ procTasks info cl, (ofTask (dirSecs V sec isArr) x q).card = F.card := by
      rw [card_eq_sum_card_fiberwise (f := fun z => z.job.1) (t := procTasks info cl)]
      · apply sum_congr rfl
        intro x hx
        congr 1
        ext z
        rw [mem_ofTask, hF, mem_filter, mem_filter]
        constructor
        · rintro ⟨a1, a2, a3⟩
          exact ⟨⟨a1, by rw [a2]; exact mem_procTasks.1 hx, a3⟩, a2⟩
        · rintro ⟨⟨a1, _, a3⟩, a2⟩
          exact ⟨a1, a2, a3⟩
      · intro z hz
        exact mem_coe.2 (mem_procTasks.2 (mem_filter.1 (mem_coe.1 hz)).2.1)
    rw [e]
    have key : ∀ z ∈ F, ∃ u ∈ V, isArr u = false ∧ sec u = z := by
      intro z hz
      exact mem_dirSecs.1 (mem_filter.1 hz).1
    choose! g hg using key
    set P := (attempts R V src isArr).filter (fun p => resOf info p.1 = q) with hP
    have hFP : F.card ≤ P.card := by
      apply card_le_card_of_injOn (fun z => (src (g z), R.since (src (g z)) (g z)))
      · intro z hz
        obtain ⟨a1, a2, a3⟩ := hg z hz
        refine mem_coe.2 (mem_filter.2 ⟨mem_attempts.2 ⟨g z, a1, a2, rfl, rfl⟩, ?_⟩)
        have hbl := (hv.direct _ a1 a2).1
        rw [a3] at hbl
        obtain ⟨r, h9, h10, h11⟩ := hbl.res
        have h12 := (mem_filter.1 (mem_coe.1 hz)).2.2
        show resOf info (src (g z)) = q
        rw [for_resOf h9, ← for_resOf h10, for_resOf h12]
      · intro z hz z' hz' he
        obtain ⟨a1, a2, a3⟩ := hg z hz
        obtain ⟨b1, b2, b3⟩ := hg z' hz'
        simp only [Prod.mk.injEq] at he
        obtain ⟨he1, he2⟩ := he
        have x := (hv.direct _ a1 a2).1
        have y := (hv.direct _ b1 b2).1
        rw [← he1] at y he2
        rw [a3] at x
        rw [b3] at y
        have s1 := hv.served _ a1
        have s2 := hv.served _ b1
        rw [a3] at s1
        rw [b3] at s2
        exact h.fifo_unique x y s1 s2 he2
          ((mem_filter.1 (mem_coe.1 hz)).2.1.trans (mem_filter.1 (mem_coe.1 hz')).2.1.symm)
    have hsplit : P.card = (P.filter (fun p => p ∈ repeats R V src isArr)).card +
        (P.filter (fun p => p ∉ repeats R V src isArr)).card := (card_filter_add_card_filter_not _).symm
    have hnew : (P.filter (fun p => p ∉ repeats R V src isArr)).card ≤
        ∑ i ∈ procTasks info k, localJobs mode (info.get i) (hi - lo) * Lp.numRequests (info.get i) q := by
      have hinj : Set.InjOn Prod.fst ((P.filter (fun p => p ∉ repeats R V src isArr) :
          Finset (Section info.length × ℕ)) : Set (Section info.length × ℕ)) := by
        intro p hp p' hp' he
        obtain ⟨h1, h2⟩ := mem_filter.1 (mem_coe.1 hp)
        obtain ⟨h3, h4⟩ := mem_filter.1 (mem_coe.1 hp')
        refine Prod.ext he ?_
        rcases Nat.lt_trichotomy p.2 p'.2 with h5 | h5 | h5
        · exact absurd (mem_repeats.2 ⟨(mem_filter.1 h3).1, p, (mem_filter.1 h1).1, he, h5⟩) h4
        · exact h5
        · exact absurd (mem_repeats.2 ⟨(mem_filter.1 h1).1, p', (mem_filter.1 h3).1, he.symm, h5⟩) h2
      rw [← card_image_of_injOn hinj]
      have hs : ∀ s ∈ (P.filter (fun p => p ∉ repeats R V src isArr)).image Prod.fst, R.issued s ∧ s.job ∈ A ∧
          (system info).For s q := by
        intro s hs
        obtain ⟨p, hp, rfl⟩ := mem_image.1 hs
        obtain ⟨h1, h2⟩ := mem_filter.1 (mem_filter.1 hp).1
        obtain ⟨h3, h4, h5⟩ := hatt p h1
        rw [h2] at h5
        exact ⟨h3, h4, h5⟩
      refine proc_sections_le_of h.declared hu.one (fun s hs' => ⟨(hs s hs').1, hv.jobs _ (hs s hs').2.1, (hs s hs').2.2⟩) ?_
      intro i hi'
      refine le_trans (card_le_card ?_) (hA i hi')
      intro p hp
      obtain ⟨s, hs', rfl⟩ := mem_image.1 hp
      obtain ⟨hs', he⟩ := mem_filter.1 hs'
      exact mem_image.2 ⟨s.job, mem_filter.2 ⟨(hs s hs').2.1, he⟩, rfl⟩
    have hrep : (P.filter (fun p => p ∈ repeats R V src isArr)).card ≤
        ∑ i ∈ procTasks info k, cancels R V src isArr i q := by
      have hcov : P.filter (fun p => p ∈ repeats R V src isArr) ⊆ (procTasks info k).biUnion (fun i =>
          (repeats R V src isArr).filter (fun p => p.1.job.1 = i ∧ resOf info p.1 = q)) := by
        intro p hp
        obtain ⟨h1, h2⟩ := mem_filter.1 hp
        obtain ⟨h3, h4⟩ := mem_filter.1 h1
        exact mem_biUnion.2 ⟨p.1.job.1, mem_procTasks.2 (hv.jobs _ (hatt p h3).2.1), mem_filter.2 ⟨h2, rfl, h4⟩⟩
      exact (card_le_card hcov).trans card_biUnion_le
    omega
  · intro i hi'
    refine (hsum i).trans ?_
    set C := (repeats R V src isArr).filter (fun p => p.1.job.1 = i) with hC
    have hCm : ∀ p ∈ C, p ∈ repeats R V src isArr ∧ p.1.job.1 = i := fun p hp => mem_filter.1 hp
    set J := C.image (fun p => p.1.job.2) with hJ
    have hJc : J.card ≤ localJobs mode (info.get i) (hi - lo) := by
      refine le_trans (card_le_card ?_) (hA i (mem_procTasks.1 hi'))
      intro p hp
      obtain ⟨s, hs', rfl⟩ := mem_image.1 hp
      obtain ⟨hs', he⟩ := hCm s hs'
      exact mem_image.2 ⟨s.1.job, mem_filter.2 ⟨(hf2 s hs').2.2.1, he⟩, rfl⟩
    have hcov : C ⊆ J.biUnion (fun p => C.filter (fun s => s.1.job.2 = p)) := by
      intro s hs
      exact mem_biUnion.2 ⟨s.1.job.2, mem_image_of_mem _ hs, mem_filter.2 ⟨hs, rfl⟩⟩
    have hG : ∀ p ∈ J, (C.filter (fun s => s.1.job.2 = p)).card ≤
        ∑ h ∈ shortTasks info k (info.get i).deadline, preemptions (info.get i) (info.get h) := by
      intro p _
      have hm : ∀ s ∈ C.filter (fun s => s.1.job.2 = p), s ∈ repeats R V src isArr ∧ s.1.job = (i, p) := by
        intro s hs
        obtain ⟨h1, h2⟩ := mem_filter.1 hs
        obtain ⟨h3, h4⟩ := hCm s h1
        exact ⟨h3, Prod.ext h4 h2⟩
      have hinj : Set.InjOn f (C.filter (fun s => s.1.job.2 = p) : Finset (Section info.length × ℕ)) := by
        intro a ha b hb' hab
        exact hf1 (mem_coe.2 (hm a (mem_coe.1 ha)).1) (mem_coe.2 (hm b (mem_coe.1 hb')).1) hab
      rw [← card_image_of_injOn hinj]
      apply short_jobs_le
      · intro j hj
        obtain ⟨s, hs, rfl⟩ := mem_image.1 hj
        obtain ⟨h1, h2⟩ := hm s hs
        obtain ⟨_, _, _, h3, h4, _⟩ := hf2 s h1
        rw [h2] at h4
        exact ⟨h3, h4⟩
      · intro h' hh'
        refine released_le h hu (a := R.work.release (i, p)) ?_
        intro p' hp'
        obtain ⟨j, hj, rfl⟩ := mem_image.1 hp'
        obtain ⟨hj, he⟩ := mem_filter.1 hj
        obtain ⟨s, hs, rfl⟩ := mem_image.1 hj
        obtain ⟨h1, h2⟩ := hm s hs
        obtain ⟨_, _, _, _, _, h3, h4⟩ := hf2 s h1
        rw [h2] at h3 h4
        have e : ((h', (f s).2) : Job info.length) = f s := Prod.ext he.symm rfl
        have hlt := (mem_shortTasks.1 hh').2
        rw [he] at h4
        rw [e]
        simp only at h4
        omega
    have := (card_le_card hcov).trans (card_biUnion_le_card_mul _ _ _ hG)
    rw [mul_comm]
    exact this.trans (Nat.mul_le_mul_right _ hJc)
  · intro i hi' q hq
    unfold cancels
    rw [card_eq_zero, filter_eq_empty_iff]
    rintro p hp ⟨h1, h2⟩
    obtain ⟨a1, a2, a3⟩ := hatt p (mem_repeats.1 hp).1
    obtain ⟨b, _, _, h8, h9⟩ := Lp.issued_num_of h.declared hu.one a1 a3
    rw [h1, h2, hq] at h8
    omega
  · intro i hi'
    refine (sum_le_sum (fun j _ => hsum j)).trans ?_
    set C := (repeats R V src isArr).filter (fun p => (info.get p.1.job.1).deadline ≤ (info.get i).deadline) with hC
    have e : ∑ j ∈ (procTasks info k).filter (fun j => (info.get j).deadline ≤ (info.get i).deadline),
        ((repeats R V src isArr).filter (fun p => p.1.job.1 = j)).card ≤ C.card := by
      rw [sum_card_fiberwise_eq_card_filter]
      apply card_le_card
      intro p hp
      obtain ⟨h1, h2⟩ := mem_filter.1 hp
      exact mem_filter.2 ⟨h1, (mem_filter.1 h2).2⟩
    refine e.trans ?_
    have hinj : Set.InjOn f (C : Finset (Section info.length × ℕ)) := by
      intro a ha b hb' hab
      exact hf1 (mem_coe.2 (mem_filter.1 (mem_coe.1 ha)).1) (mem_coe.2 (mem_filter.1 (mem_coe.1 hb')).1) hab
    rw [← card_image_of_injOn hinj]
    apply short_jobs_le
    · intro j hj
      obtain ⟨s, hs, rfl⟩ := mem_image.1 hj
      obtain ⟨h1, h2⟩ := mem_filter.1 hs
      obtain ⟨_, _, _, h3, h4, _⟩ := hf2 s h1
      exact ⟨h3, by omega⟩
    · intro h' hh'
      refine released_le h hu (a := lo) ?_
      intro p' hp'
      obtain ⟨j, hj, rfl⟩ := mem_image.1 hp'
      obtain ⟨hj, he⟩ := mem_filter.1 hj
      obtain ⟨s, hs, rfl⟩ := mem_image.1 hj
      obtain ⟨h1, h2, _⟩ := hf2 s (mem_filter.1 hs).1
      have e : ((h', (f s).2) : Job info.length) = f s := Prod.ext he.symm rfl
      rw [e]
      omega

include h hu in
/-- The slots are no more than the delay. -/
theorem PView.card_le : V.card ≤ pdelay info k (fun x q => (ofTask (dirSecs V sec isArr) x q).card)
    (c.map (fun c0 => (c0.job.1, resOf info c0))) := by
  classical
  have hfor : ∀ u ∈ V, (system info).For (sec u) (resOf info (sec u)) := by
    intro u hu'
    obtain ⟨q, hq, _⟩ := h.declared _ (hv.served u hu').issued
    rw [for_resOf ⟨q, hq, rfl⟩]
    exact ⟨q, hq, rfl⟩
  have hlen : ∀ z, (V.filter (fun u => sec u = z)).card ≤ requestLength (info.get z.job.1) (resOf info z) := by
    intro z
    rcases (V.filter (fun u => sec u = z)).eq_empty_or_nonempty with he | ⟨u0, hu0'⟩
    · rw [he]; simp
    obtain ⟨hu0, rfl⟩ := mem_filter.1 hu0'
    clear hu0'
    obtain ⟨b, hb1, hb2⟩ := for_iff.1 (hfor u0 hu0)
    have hl := h.length (sec u0) _ (hv.served u0 hu0).issued (lock_req' hb1)
    simp only at hl
    have e : requestLength (info.get (sec u0).job.1) (resOf info (sec u0)) = b.length := by
      unfold requestLength
      have : (info.get (sec u0).job.1).requests.find? (fun r => r.resId = resOf info (sec u0)) = some b := by
        rcases hf : (info.get (sec u0).job.1).requests.find? (fun r => r.resId = resOf info (sec u0)) with _ | a
        · have := List.find?_eq_none.1 hf b (List.mem_of_getElem? hb1)
          simp [hb2] at this
        · have h1 := List.mem_of_find?_eq_some hf
          have h2 : a.resId = resOf info (sec u0) := by simpa using List.find?_some hf
          rw [hf, hu.one.eq_of_mem h1 (List.mem_of_getElem? hb1) (h2.trans hb2.symm)]
      rw [this]
    rw [e]
    refine le_trans (card_le_card ?_) hl
    intro v hvv
    obtain ⟨hvv, he⟩ := mem_filter.1 hvv
    have hs := hv.served v hvv
    rw [he] at hs
    rw [mem_filter, mem_Ico]
    exact ⟨⟨hs.acquire, hs.leave⟩, hs.sched⟩
  have hres : ∀ u ∈ V, resOf info (sec u) ∈ (Lp.allResources info).toFinset := by
    intro u hu'
    obtain ⟨b, hb1, hb2⟩ := for_iff.1 (hfor u hu')
    rw [List.mem_toFinset, Lp.mem_allResources]
    exact ⟨(sec u).job.1, uses_iff.2 ⟨b, List.mem_of_getElem? hb1, hb2⟩⟩
  have hsplit : V.card = (V.filter (fun u => isArr u = true)).card + (V.filter (fun u => isArr u ≠ true)).card :=
    (card_filter_add_card_filter_not _).symm
  have hown : (V.filter (fun u => isArr u = true)).card ≤ ownLength info (c.map (fun c0 => (c0.job.1, resOf info c0))) := by
    rcases c with _ | c0
    · rw [card_eq_zero.2]
      · exact Nat.zero_le _
      · rw [filter_eq_empty_iff]
        intro u hu' ha
        cases hv.arrival u hu' ha
    · refine le_trans (card_le_card ?_) (hlen c0)
      intro u hu'
      obtain ⟨h1, h2⟩ := mem_filter.1 hu'
      have := hv.arrival u h1 h2
      cases this
      exact mem_filter.2 ⟨h1, rfl⟩
  have hrem : (V.filter (fun u => isArr u ≠ true)).card ≤ ∑ x ∈ otherTasks info k,
      ∑ q ∈ (Lp.allResources info).toFinset, requestLength (info.get x) q * (ofTask (dirSecs V sec isArr) x q).card := by
    have hcov : V.filter (fun u => isArr u ≠ true) ⊆ (otherTasks info k).biUnion (fun x =>
        (Lp.allResources info).toFinset.biUnion (fun q => (ofTask (dirSecs V sec isArr) x q).biUnion
          (fun z => V.filter (fun u => sec u = z)))) := by
      intro u hu'
      obtain ⟨h1, h2⟩ := mem_filter.1 hu'
      have hd : sec u ∈ dirSecs V sec isArr := mem_dirSecs.2 ⟨u, h1, by simpa using h2, rfl⟩
      exact mem_biUnion.2 ⟨(sec u).job.1, mem_otherTasks.2 (hv.remote hd), mem_biUnion.2 ⟨resOf info (sec u), hres u h1,
        mem_biUnion.2 ⟨sec u, mem_ofTask.2 ⟨hd, rfl, hfor u h1⟩, mem_filter.2 ⟨h1, rfl⟩⟩⟩⟩
    refine (card_le_card hcov).trans (card_biUnion_le.trans (sum_le_sum fun x _ => ?_))
    refine card_biUnion_le.trans (sum_le_sum fun q _ => ?_)
    have := card_biUnion_le_card_mul (ofTask (dirSecs V sec isArr) x q)
      (fun z => V.filter (fun u => sec u = z)) (requestLength (info.get x) q) (by
        intro z hz
        have hz' := (mem_ofTask.1 hz).2
        have := hlen z
        rw [hz'.1, for_resOf hz'.2] at this
        exact this)
    rw [mul_comm]
    exact this
  unfold pdelay
  beta_reduce
  omega

end

end Verif.SR.Pedf
