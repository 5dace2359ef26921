/-
The delays in a window of a run under partitioned EDF with the MSRP make up a solution of the linear program.
-/
import Verif.Lemmas.LpPedfDem
import Verif.Lemmas.LpSpinCount

namespace Verif.SR.Pedf
open Verif.Spec Finset
open Verif.SR.Msrp (system uses_iff)
open Verif.SR.Lp (resOf for_resOf for_iff)

variable {info : Info} {R : LockRun info.length} {k lo hi H : ℕ} {A : Finset (Job info.length)} {V : Finset ℕ}
  {sec src : ℕ → Section info.length} {isArr : ℕ → Bool} {c : Option (Section info.length)} {mode : Mode}

/-- Requests are served in FIFO order. -/
abbrev fifo (R : LockRun info.length) (s z : Section info.length) : Prop := R.enter z ≤ R.enter s

/-- Slots `V` of a window of processor `k` in which none of the jobs `A` makes progress: `sec u` is served in slot `u`.
Either `src u` of one of the jobs spins due to it, or it delays or is the section `c` of a job with a late deadline. -/
structure View (info : Info) (R : LockRun info.length) (k lo hi : ℕ) (A : Finset (Job info.length)) (V : Finset ℕ)
    (sec src : ℕ → Section info.length) (isArr : ℕ → Bool) (c : Option (Section info.length)) : Prop where
  range : ∀ u ∈ V, lo ≤ u ∧ u < hi
  jobs : ∀ j ∈ A, (info.get j.1).cluster = k
  served : ∀ u ∈ V, R.Served (sec u) u
  direct : ∀ u ∈ V, isArr u = false → R.Blocks (system info) (fifo R) (src u) (sec u) u ∧ (src u).job ∈ A
  arrival : ∀ u ∈ V, isArr u = true → ∃ c0, c = some c0 ∧ (sec u = c0 ∨ R.Blocks (system info) (fifo R) c0 (sec u) u)
  source : ∀ c0, c = some c0 → R.issued c0 ∧ (info.get c0.job.1).cluster = k ∧ hi - lo < (info.get c0.job.1).deadline ∧
    (system info).For c0 (resOf info c0) ∧ (system info).Global (resOf info c0)

/-! ### Numbers of jobs and requests -/

/-- Jobs of a task that execute in an interval. -/
theorem jobs_le_of (hr : ∀ t, ∀ j ∈ R.sched t, Ready R.work R.sched j t)
    (hs : ∀ i k, R.work.release (i, k) + (system info).period i ≤ R.work.release (i, k + 1))
    (hu : Usual info)
    (hb : BoundedBefore R.work R.sched (system info).deadline H) {x : Fin info.length} (hH : hi ≤ H) {l : ℕ}
    (hl : hi - lo ≤ l) {J : Finset ℕ} (hJ : ∀ p ∈ J, ∃ u, lo ≤ u ∧ u < hi ∧ (x, p) ∈ R.sched u) :
    J.card ≤ remoteJobs (info.get x) l := by
  have hT := hu.period (List.get_mem info x)
  rcases J.eq_empty_or_nonempty with rfl | ⟨p0, hp0⟩
  · simp
  have hJb : ∀ p ∈ J, lo < R.work.release (x, p) + (info.get x).deadline ∧ R.work.release (x, p) < hi := by
    intro p hp
    obtain ⟨u, h3, h4, h5⟩ := hJ p hp
    have hr := hr u _ h5
    have hl := lt_of_pending hb (by omega) hr.1.2
    have hrel := hr.1.1
    change u < R.work.release (x, p) + (info.get x).deadline at hl
    omega
  have hsp : Workload.Sporadic (⟨R.work.release, fun _ => 0⟩ : Workload info.length) (fun _ => 0) (system info).period :=
    ⟨hs, fun _ _ => le_rfl⟩
  have hp0' := hJb p0 hp0
  have := card_released_le hsp x hT J (a := lo + 1 - (info.get x).deadline) (b := hi - 1) (by
    intro p hp
    have := hJb p hp
    simp only
    omega) (by omega)
  refine this.trans ?_
  have hlt : lo < hi := by
    obtain ⟨u, h3, h4, _⟩ := hJ p0 hp0
    omega
  rw [remoteJobs_eq hT, ← succ_div_eq_cdiv hT (by omega)]
  have := Nat.div_le_div_right (c := (info.get x).period)
    (show hi - 1 - (lo + 1 - (info.get x).deadline) ≤ l + (info.get x).deadline - 1 by omega)
  exact Nat.succ_le_succ this

theorem jobs_le (h : SpinBase (system info) R) (hu : Usual info)
    (hb : BoundedBefore R.work R.sched (system info).deadline H) {x : Fin info.length} (hH : hi ≤ H) {l : ℕ}
    (hl : hi - lo ≤ l) {J : Finset ℕ} (hJ : ∀ p ∈ J, ∃ u, lo ≤ u ∧ u < hi ∧ (x, p) ∈ R.sched u) :
    J.card ≤ remoteJobs (info.get x) l :=
  jobs_le_of h.ready h.separated hu hb hH hl hJ

theorem filter_sum (h1 : Lp.OneEntry info) (x : Fin info.length) (q m : ℕ) :
    (((info.get x).requests.filter (fun a => a.resId = q)).map (fun a => m * a.num)).sum =
      m * Lp.numRequests (info.get x) q := by
  by_cases hr : ∃ b ∈ (info.get x).requests, b.resId = q
  · obtain ⟨b, hb, rfl⟩ := hr
    rw [h1.filter hb, h1.num hb]
    simp
  · push Not at hr
    have h1 : (info.get x).requests.filter (fun b => b.resId = q) = [] := by
      rw [List.filter_eq_nil_iff]
      intro b hb
      simpa using hr b hb
    have h2 : (info.get x).requests.find? (fun b => b.resId = q) = none := by
      rw [List.find?_eq_none]
      intro b hb
      simpa using hr b hb
    unfold Lp.numRequests
    rw [h1, h2]
    simp

/-- Requests of a task that are issued by some number of jobs. -/
theorem sections_le_of
    (hd : ∀ s, R.issued s → ∃ q, ((system info).reqs s.job.1)[s.idx]? = some q ∧ s.inst < q.num)
    (h1 : Lp.OneEntry info) {x : Fin info.length} {q m : ℕ}
    {F : Finset (Section info.length)} (hF : ∀ s ∈ F, R.issued s ∧ s.job.1 = x ∧ (system info).For s q)
    (hm : (F.image (fun s => s.job.2)).card ≤ m) : F.card ≤ m * Lp.numRequests (info.get x) q := by
  rw [← filter_sum h1]
  exact Lp.jobs_sections_of hd h1 hF hm

theorem sections_le (h : SpinBase (system info) R) (h1 : Lp.OneEntry info) {x : Fin info.length} {q m : ℕ}
    {F : Finset (Section info.length)} (hF : ∀ s ∈ F, R.issued s ∧ s.job.1 = x ∧ (system info).For s q)
    (hm : (F.image (fun s => s.job.2)).card ≤ m) : F.card ≤ m * Lp.numRequests (info.get x) q :=
  sections_le_of h.declared h1 hF hm

/-- Requests of the tasks of a processor, if the numbers of jobs are bounded. -/
theorem proc_sections_le_of
    (hd : ∀ s, R.issued s → ∃ q, ((system info).reqs s.job.1)[s.idx]? = some q ∧ s.inst < q.num)
    (h1 : Lp.OneEntry info) {q : ℕ} {m : Fin info.length → ℕ}
    {F : Finset (Section info.length)}
    (hF : ∀ s ∈ F, R.issued s ∧ (info.get s.job.1).cluster = k ∧ (system info).For s q)
    (hm : ∀ i, (info.get i).cluster = k → ((F.filter (fun s => s.job.1 = i)).image (fun s => s.job.2)).card ≤ m i) :
    F.card ≤ ∑ i ∈ procTasks info k, m i * Lp.numRequests (info.get i) q := by
  classical
  have hcov : F ⊆ (procTasks info k).biUnion (fun i => F.filter (fun s => s.job.1 = i)) := by
    intro s hs
    exact mem_biUnion.2 ⟨s.job.1, mem_procTasks.2 (hF s hs).2.1, mem_filter.2 ⟨hs, rfl⟩⟩
  refine (card_le_card hcov).trans (card_biUnion_le.trans (sum_le_sum ?_))
  intro i hi
  refine sections_le_of hd h1 ?_ (hm i (mem_procTasks.1 hi))
  intro s hs
  obtain ⟨hs, he⟩ := mem_filter.1 hs
  exact ⟨(hF s hs).1, he, (hF s hs).2.2⟩

theorem proc_sections_le (h : SpinBase (system info) R) (h1 : Lp.OneEntry info) {q : ℕ} {m : Fin info.length → ℕ}
    {F : Finset (Section info.length)}
    (hF : ∀ s ∈ F, R.issued s ∧ (info.get s.job.1).cluster = k ∧ (system info).For s q)
    (hm : ∀ i, (info.get i).cluster = k → ((F.filter (fun s => s.job.1 = i)).image (fun s => s.job.2)).card ≤ m i) :
    F.card ≤ ∑ i ∈ procTasks info k, m i * Lp.numRequests (info.get i) q :=
  proc_sections_le_of h.declared h1 hF hm

/-! ### The solution -/

open Classical in
/-- Sections that cause arrival blocking. -/
noncomputable def arrSecs (V : Finset ℕ) (sec : ℕ → Section info.length) (isArr : ℕ → Bool) : Finset (Section info.length) :=
  (V.filter (fun u => isArr u = true)).image sec

open Classical in
/-- Other sections that delay local jobs. -/
noncomputable def spinSecs (V : Finset ℕ) (sec : ℕ → Section info.length) (isArr : ℕ → Bool) : Finset (Section info.length) :=
  ((V.filter (fun u => isArr u = false)).image sec) \ arrSecs V sec isArr

open Classical in
/-- Sections of a task for a resource. -/
noncomputable def ofTask (F : Finset (Section info.length)) (x : Fin info.length) (q : ℕ) : Finset (Section info.length) :=
  F.filter (fun z => z.job.1 = x ∧ (system info).For z q)

theorem mem_ofTask {F : Finset (Section info.length)} {x : Fin info.length} {q : ℕ} {z : Section info.length} :
    z ∈ ofTask F x q ↔ z ∈ F ∧ z.job.1 = x ∧ (system info).For z q := by
  classical
  unfold ofTask
  rw [mem_filter]

theorem mem_arrSecs {z : Section info.length} : z ∈ arrSecs V sec isArr ↔ ∃ u ∈ V, isArr u = true ∧ sec u = z := by
  classical
  unfold arrSecs
  rw [mem_image]
  simp only [mem_filter, and_assoc]

theorem mem_spinSecs {z : Section info.length} :
    z ∈ spinSecs V sec isArr ↔ (∃ u ∈ V, isArr u = false ∧ sec u = z) ∧ z ∉ arrSecs V sec isArr := by
  classical
  unfold spinSecs
  rw [mem_sdiff, mem_image]
  simp only [mem_filter, and_assoc]

section
variable (h : SpinBase (system info) R) (hu : Usual info)
  (hb : BoundedBefore R.work R.sched (system info).deadline H) (hH : hi ≤ H)
  (hv : View info R k lo hi A V sec src isArr c)
  (hA : ∀ i, (info.get i).cluster = k → ((A.filter (fun j => j.1 = i)).image Prod.snd).card ≤
    localJobs mode (info.get i) (hi - lo))
  (hc : mode = .ac → c = none)
include hv

theorem same_res {s z : Section info.length} {u q : ℕ} (hbl : R.Blocks (system info) (fifo R) s z u)
    (hz : (system info).For z q) : (system info).For s q ∧ (system info).Global q := by
  obtain ⟨r, h9, h10, h11⟩ := hbl.res
  rw [← for_resOf hz, for_resOf h10]
  exact ⟨h9, h11⟩

/-- A section of another processor that is served makes a local section wait. -/
theorem View.blocked {z : Section info.length} (hz : z ∈ arrSecs V sec isArr ∨ z ∈ spinSecs V sec isArr)
    (hr : (info.get z.job.1).cluster ≠ k) : ∃ u ∈ V, sec u = z ∧ ∃ s, R.Blocks (system info) (fifo R) s z u ∧
      (info.get s.job.1).cluster = k := by
  rcases hz with hz | hz
  · obtain ⟨u, h1, h2, rfl⟩ := mem_arrSecs.1 hz
    obtain ⟨c0, hc0, h3⟩ := hv.arrival u h1 h2
    have hs := hv.source c0 hc0
    rcases h3 with h3 | h3
    · rw [h3] at hr
      exact absurd hs.2.1 hr
    · exact ⟨u, h1, rfl, c0, h3, hs.2.1⟩
  · obtain ⟨⟨u, h1, h2, rfl⟩, _⟩ := mem_spinSecs.1 hz
    obtain ⟨h3, h4⟩ := hv.direct u h1 h2
    exact ⟨u, h1, rfl, src u, h3, hv.jobs _ h4⟩

omit hv in
theorem ofTask_disjoint (x : Fin info.length) (q : ℕ) :
    Disjoint (ofTask (arrSecs V sec isArr) x q) (ofTask (spinSecs V sec isArr) x q) := by
  rw [disjoint_left]
  intro z h1 h2
  exact (mem_spinSecs.1 (mem_ofTask.1 h2).1).2 (mem_ofTask.1 h1).1

include h hu hb hH hA hc in
/-- The delays are a solution. -/
theorem View.sol : Sol info mode k (hi - lo) (fun x q => (ofTask (spinSecs V sec isArr) x q).card)
    (fun x q => (ofTask (arrSecs V sec isArr) x q).card) (c.map (fun c0 => (c0.job.1, resOf info c0))) := by
  classical
  have hboth : ∀ x q z, z ∈ ofTask (arrSecs V sec isArr) x q ∪ ofTask (spinSecs V sec isArr) x q →
      (z ∈ arrSecs V sec isArr ∨ z ∈ spinSecs V sec isArr) ∧ z.job.1 = x ∧ (system info).For z q := by
    intro x q z hz
    rcases mem_union.1 hz with hz | hz
    · obtain ⟨h2, h3⟩ := mem_ofTask.1 hz
      exact ⟨Or.inl h2, h3⟩
    · obtain ⟨h2, h3⟩ := mem_ofTask.1 hz
      exact ⟨Or.inr h2, h3⟩
  have hcard : ∀ x q, (ofTask (arrSecs V sec isArr) x q).card + (ofTask (spinSecs V sec isArr) x q).card =
      (ofTask (arrSecs V sec isArr) x q ∪ ofTask (spinSecs V sec isArr) x q).card := fun x q =>
    (card_union_of_disjoint (ofTask_disjoint x q)).symm
  refine ⟨?_, ?_, ?_, ?_, ?_, ?_, ?_⟩
  · intro x hx q
    beta_reduce
    rw [hcard]
    apply sections_le h hu.one
    · intro z hz
      obtain ⟨h2, h3, h4⟩ := hboth x q z hz
      obtain ⟨u, h5, rfl, _⟩ := hv.blocked h2 (by rw [h3]; exact mem_otherTasks.1 hx)
      exact ⟨(hv.served u h5).issued, h3, h4⟩
    · apply jobs_le h hu hb hH le_rfl
      intro p hp
      obtain ⟨z, hz, rfl⟩ := mem_image.1 hp
      obtain ⟨h2, h3, h4⟩ := hboth x q z hz
      obtain ⟨u, h5, rfl, _⟩ := hv.blocked h2 (by rw [h3]; exact mem_otherTasks.1 hx)
      refine ⟨u, (hv.range u h5).1, (hv.range u h5).2, ?_⟩
      rw [← h3]
      exact (hv.served u h5).sched
  · intro x hx q hne
    beta_reduce at hne
    obtain ⟨z, hz⟩ := card_pos.1 (Nat.pos_of_ne_zero hne)
    obtain ⟨h2, h3, h4⟩ := mem_ofTask.1 hz
    obtain ⟨u, h5, h6, rfl⟩ := mem_arrSecs.1 h2
    obtain ⟨c0, hc0, h7⟩ := hv.arrival u h5 h6
    rcases h7 with h7 | h7
    · rw [h7] at h3
      rw [← h3] at hx
      exact absurd (hv.source c0 hc0).2.1 (mem_otherTasks.1 hx)
    · refine ⟨c0.job.1, ?_⟩
      rw [hc0, Option.map_some, for_resOf (same_res hv h7 h4).1]
  · intro hm
    rw [hc hm]
    rfl
  · intro i q ha
    obtain ⟨c0, hc0, he⟩ := Option.map_eq_some_iff.1 ha
    cases he
    obtain ⟨s1, s2, s3, s4, s5⟩ := hv.source c0 hc0
    obtain ⟨b, _, _, h8, h9⟩ := Lp.issued_num h hu.one s1 s4
    exact ⟨s2, s3, by omega, s5⟩
  · intro cl hcl q
    beta_reduce
    set F := (spinSecs V sec isArr).filter (fun z => (info.get z.job.1).cluster = cl ∧ (system info).For z q) with hF
    have e : ∑ x ∈ procTasks info cl, (ofTask (spinSecs V sec isArr) x q).card = F.card := by
      rw [card_eq_sum_card_fiberwise (f := fun z => z.job.1) (t := procTasks info cl)]
      · apply sum_congr rfl
        intro x hx
        congr 1
        ext z
        rw [mem_ofTask, hF, mem_filter, mem_filter]
        constructor
        · rintro ⟨a1, a2, a3⟩
          exact ⟨⟨a1, by rw [a2]; exact mem_procTasks.1 hx, a3⟩, a2⟩
        · rintro ⟨⟨a1, _, a3⟩, a2⟩
          exact ⟨a1, a2, a3⟩
      · intro z hz
        exact mem_coe.2 (mem_procTasks.2 (mem_filter.1 (mem_coe.1 hz)).2.1)
    rw [e]
    have key : ∀ z ∈ F, ∃ u ∈ V, isArr u = false ∧ sec u = z := by
      intro z hz
      exact (mem_spinSecs.1 (mem_filter.1 hz).1).1
    choose! g hg using key
    have hinj : Set.InjOn (fun z => src (g z)) F := by
      intro z hz z' hz' he
      obtain ⟨a1, a2, a3⟩ := hg z hz
      obtain ⟨b1, b2, b3⟩ := hg z' hz'
      have x := (hv.direct _ a1 a2).1
      have y := (hv.direct _ b1 b2).1
      simp only at he
      rw [← he] at y
      rw [a3] at x
      rw [b3] at y
      have s1 := hv.served _ a1
      have s2 := hv.served _ b1
      rw [a3] at s1
      rw [b3] at s2
      exact Lp.fifo_unique h x y s1 s2
        ((mem_filter.1 (mem_coe.1 hz)).2.1.trans (mem_filter.1 (mem_coe.1 hz')).2.1.symm)
    rw [← card_image_of_injOn hinj]
    have hsrc : ∀ s ∈ F.image (fun z => src (g z)), R.issued s ∧ s.job ∈ A ∧ (system info).For s q := by
      intro s hs
      obtain ⟨z, hz, rfl⟩ := mem_image.1 hs
      obtain ⟨a1, a2, a3⟩ := hg z hz
      obtain ⟨x, y⟩ := hv.direct _ a1 a2
      refine ⟨x.issued, y, (same_res hv x ?_).1⟩
      rw [a3]
      exact (mem_filter.1 hz).2.2
    refine proc_sections_le h hu.one (fun s hs => ⟨(hsrc s hs).1, hv.jobs _ (hsrc s hs).2.1, (hsrc s hs).2.2⟩) ?_
    intro i hi
    refine le_trans (card_le_card ?_) (hA i hi)
    intro p hp
    obtain ⟨s, hs, rfl⟩ := mem_image.1 hp
    obtain ⟨hs, he⟩ := mem_filter.1 hs
    exact mem_image.2 ⟨s.job, mem_filter.2 ⟨(hsrc s hs).2.1, he⟩, rfl⟩
  · intro x hx q
    beta_reduce
    rw [hcard]
    set F := ofTask (arrSecs V sec isArr) x q ∪ ofTask (spinSecs V sec isArr) x q with hF
    have key : ∀ z ∈ F, ∃ u s, u ∈ V ∧ sec u = z ∧ R.Blocks (system info) (fifo R) s z u ∧
        (info.get s.job.1).cluster = k := by
      intro z hz
      obtain ⟨h2, h3, h4⟩ := hboth x q z hz
      obtain ⟨u, h5, h6, s, h7, h8⟩ := hv.blocked h2 (by rw [h3]; exact mem_otherTasks.1 hx)
      exact ⟨u, s, h5, h6, h7, h8⟩
    rcases F.eq_empty_or_nonempty with he | ⟨z0, hz0⟩
    · rw [he]; simp
    haveI : Nonempty (Section info.length) := ⟨z0⟩
    choose! gu gs hg using key
    set J := F.image (fun z => z.job.2) with hJ
    have hJc : J.card ≤ remoteJobs (info.get x) (hi - lo) := by
      apply jobs_le h hu hb hH le_rfl
      intro p hp
      obtain ⟨z, hz, rfl⟩ := mem_image.1 hp
      obtain ⟨h2, h3, h4⟩ := hboth x q z hz
      obtain ⟨a1, a2, a3, a4⟩ := hg z hz
      refine ⟨gu z, (hv.range _ a1).1, (hv.range _ a1).2, ?_⟩
      rw [← h3]
      have := (hv.served _ a1).sched
      rw [a2] at this
      exact this
    have hcov : F ⊆ J.biUnion (fun p => F.filter (fun z => z.job.2 = p)) := by
      intro z hz
      exact mem_biUnion.2 ⟨z.job.2, mem_image_of_mem _ hz, mem_filter.2 ⟨hz, rfl⟩⟩
    have hG : ∀ p ∈ J, (F.filter (fun z => z.job.2 = p)).card ≤ ∑ i ∈ procTasks info k,
        remoteJobs (info.get i) (info.get x).deadline * Lp.numRequests (info.get i) q := by
      intro p _
      have hz : ∀ z ∈ F.filter (fun z => z.job.2 = p), z ∈ F ∧ z.job = (x, p) ∧ R.Served z (gu z) ∧
          (system info).For z q ∧ gu z ∈ V := by
        intro z hz
        obtain ⟨hz, he⟩ := mem_filter.1 hz
        obtain ⟨h2, h3, h4⟩ := hboth x q z hz
        obtain ⟨a1, a2, _⟩ := hg z hz
        have := hv.served _ a1
        rw [a2] at this
        exact ⟨hz, Prod.ext h3 he, this, h4, a1⟩
      have hinj : Set.InjOn gs (F.filter (fun z => z.job.2 = p)) := by
        intro z hz1 z' hz2 he
        obtain ⟨a1, a2, a3, a4, _⟩ := hz z hz1
        obtain ⟨b1, b2, b3, b4, _⟩ := hz z' hz2
        have x1 := (hg z a1).2.2.1
        have y1 := (hg z' b1).2.2.1
        rw [← he] at y1
        refine Lp.fifo_unique h x1 y1 a3 b3 ?_
        rw [a2, b2]
      rw [← card_image_of_injOn hinj]
      refine proc_sections_le h hu.one ?_ ?_
      · intro s hs
        obtain ⟨z, hz1, rfl⟩ := mem_image.1 hs
        obtain ⟨a1, a2, a3, a4, _⟩ := hz z hz1
        obtain ⟨_, _, b3, b4⟩ := hg z a1
        exact ⟨b3.issued, b4, (same_res hv b3 a4).1⟩
      · intro i _
        refine jobs_le h hu hb (lo := R.work.release (x, p))
          (hi := min (R.work.release (x, p) + (info.get x).deadline) hi) ((min_le_right _ _).trans hH) (by omega) ?_
        intro p' hp'
        obtain ⟨s, hs, rfl⟩ := mem_image.1 hp'
        obtain ⟨hs, he⟩ := mem_filter.1 hs
        obtain ⟨z, hz1, rfl⟩ := mem_image.1 hs
        obtain ⟨a1, a2, a3, a4, a5⟩ := hz z hz1
        obtain ⟨_, _, b3, b4⟩ := hg z a1
        have hr := h.ready _ _ a3.sched
        rw [a2] at hr
        have hlt := lt_of_pending hb (by have := (hv.range _ a5).2; omega) hr.1.2
        refine ⟨gu z, hr.1.1, lt_min hlt (hv.range _ a5).2, ?_⟩
        rw [← he]
        exact b3.sched
    have := (card_le_card hcov).trans (card_biUnion_le_card_mul _ _ _ hG)
    rw [← sum_mul, mul_comm]
    exact this.trans (Nat.mul_le_mul_right _ hJc)
  · intro cl hcl q
    beta_reduce
    have e : ∑ x ∈ procTasks info cl, (ofTask (arrSecs V sec isArr) x q).card =
        ((arrSecs V sec isArr).filter (fun z => (info.get z.job.1).cluster = cl ∧ (system info).For z q)).card := by
      rw [card_eq_sum_card_fiberwise (f := fun z => z.job.1) (t := procTasks info cl)]
      · apply sum_congr rfl
        intro x hx
        congr 1
        ext z
        rw [mem_ofTask, mem_filter, mem_filter]
        constructor
        · rintro ⟨a1, a2, a3⟩
          exact ⟨⟨a1, by rw [a2]; exact mem_procTasks.1 hx, a3⟩, a2⟩
        · rintro ⟨⟨a1, _, a3⟩, a2⟩
          exact ⟨a1, a2, a3⟩
      · intro z hz
        exact mem_coe.2 (mem_procTasks.2 (mem_filter.1 (mem_coe.1 hz)).2.1)
    rw [e, card_le_one]
    have hz : ∀ z ∈ (arrSecs V sec isArr).filter (fun z => (info.get z.job.1).cluster = cl ∧ (system info).For z q),
        (info.get z.job.1).cluster = cl ∧ ∃ u c0, c = some c0 ∧ R.Served z u ∧
          R.Blocks (system info) (fifo R) c0 z u := by
      intro z hz
      obtain ⟨h2, h3, _⟩ := mem_filter.1 hz
      obtain ⟨u, h5, h6, rfl⟩ := mem_arrSecs.1 h2
      obtain ⟨c0, hc0, h7⟩ := hv.arrival u h5 h6
      rcases h7 with h7 | h7
      · rw [h7] at h3
        exact absurd (h3.symm.trans (hv.source c0 hc0).2.1) hcl
      · exact ⟨h3, u, c0, hc0, hv.served u h5, h7⟩
    intro z hz1 z' hz2
    obtain ⟨a1, u, c0, a2, a3, a4⟩ := hz z hz1
    obtain ⟨b1, u', c1, b2, b3, b4⟩ := hz z' hz2
    cases a2.symm.trans b2
    exact Lp.fifo_unique h a4 b4 a3 b3 (a1.trans b1.symm)

include h hu in
/-- The slots are no more than the delay. -/
theorem View.card_le : V.card ≤ delay info k (fun x q => (ofTask (spinSecs V sec isArr) x q).card)
    (fun x q => (ofTask (arrSecs V sec isArr) x q).card) (c.map (fun c0 => (c0.job.1, resOf info c0))) := by
  classical
  have hfor : ∀ u ∈ V, (system info).For (sec u) (resOf info (sec u)) := by
    intro u hu'
    obtain ⟨q, hq, _⟩ := h.declared _ (hv.served u hu').issued
    rw [for_resOf ⟨q, hq, rfl⟩]
    exact ⟨q, hq, rfl⟩
  have hlen : ∀ z, (V.filter (fun u => sec u = z)).card ≤ requestLength (info.get z.job.1) (resOf info z) := by
    intro z
    rcases (V.filter (fun u => sec u = z)).eq_empty_or_nonempty with he | ⟨u0, hu0'⟩
    · rw [he]; simp
    obtain ⟨hu0, rfl⟩ := mem_filter.1 hu0'
    clear hu0'
    obtain ⟨b, hb1, hb2⟩ := for_iff.1 (hfor u0 hu0)
    have hl := h.length (sec u0) _ (hv.served u0 hu0).issued (lock_req' hb1)
    simp only at hl
    have e : requestLength (info.get (sec u0).job.1) (resOf info (sec u0)) = b.length := by
      unfold requestLength
      have : (info.get (sec u0).job.1).requests.find? (fun r => r.resId = resOf info (sec u0)) = some b := by
        rcases hf : (info.get (sec u0).job.1).requests.find? (fun r => r.resId = resOf info (sec u0)) with _ | a
        · have := List.find?_eq_none.1 hf b (List.mem_of_getElem? hb1)
          simp [hb2] at this
        · have h1 := List.mem_of_find?_eq_some hf
          have h2 : a.resId = resOf info (sec u0) := by simpa using List.find?_some hf
          rw [hf, hu.one.eq_of_mem h1 (List.mem_of_getElem? hb1) (h2.trans hb2.symm)]
      rw [this]
    rw [e]
    refine le_trans (card_le_card ?_) hl
    intro v hvv
    obtain ⟨hvv, he⟩ := mem_filter.1 hvv
    have hs := hv.served v hvv
    rw [he] at hs
    rw [mem_filter, mem_Ico]
    exact ⟨⟨hs.acquire, hs.leave⟩, hs.sched⟩
  have hres : ∀ u ∈ V, resOf info (sec u) ∈ (Lp.allResources info).toFinset := by
    intro u hu'
    obtain ⟨b, hb1, hb2⟩ := for_iff.1 (hfor u hu')
    rw [List.mem_toFinset, Lp.mem_allResources]
    exact ⟨(sec u).job.1, uses_iff.2 ⟨b, List.mem_of_getElem? hb1, hb2⟩⟩
  set own := V.filter (fun u => (info.get (sec u).job.1).cluster = k) with hown
  have hsplit : V.card = (V.filter (fun u => (info.get (sec u).job.1).cluster ≠ k)).card + own.card := by
    rw [add_comm, hown]
    exact (card_filter_add_card_filter_not (s := V) (fun u => (info.get (sec u).job.1).cluster = k)).symm
  have hownc : own.card ≤ ownLength info (c.map (fun c0 => (c0.job.1, resOf info c0))) := by
    have hsec : ∀ u ∈ own, ∃ c0, c = some c0 ∧ sec u = c0 := by
      intro u hu'
      obtain ⟨h1, h2⟩ := mem_filter.1 hu'
      cases ha : isArr u
      · obtain ⟨h3, h4⟩ := hv.direct u h1 ha
        exact absurd (h2.trans (hv.jobs _ h4).symm) h3.remote
      · obtain ⟨c0, hc0, h3 | h3⟩ := hv.arrival u h1 ha
        · exact ⟨c0, hc0, h3⟩
        · exact absurd (h2.trans (hv.source c0 hc0).2.1.symm) h3.remote
    rcases c with _ | c0
    · rw [card_eq_zero.2]
      · exact Nat.zero_le _
      · rw [eq_empty_iff_forall_notMem]
        intro u hu'
        obtain ⟨c0, hc0, _⟩ := hsec u hu'
        cases hc0
    · refine le_trans (card_le_card ?_) (hlen c0)
      intro u hu'
      obtain ⟨c1, hc1, h3⟩ := hsec u hu'
      cases hc1
      exact mem_filter.2 ⟨(mem_filter.1 hu').1, h3⟩
  have hrem : (V.filter (fun u => (info.get (sec u).job.1).cluster ≠ k)).card ≤ ∑ x ∈ otherTasks info k,
      ∑ q ∈ (Lp.allResources info).toFinset, requestLength (info.get x) q *
        ((ofTask (spinSecs V sec isArr) x q).card + (ofTask (arrSecs V sec isArr) x q).card) := by
    have hcov : V.filter (fun u => (info.get (sec u).job.1).cluster ≠ k) ⊆ (otherTasks info k).biUnion (fun x =>
        (Lp.allResources info).toFinset.biUnion (fun q => (ofTask (arrSecs V sec isArr) x q ∪
          ofTask (spinSecs V sec isArr) x q).biUnion (fun z => V.filter (fun u => sec u = z)))) := by
      intro u hu'
      obtain ⟨h1, h2⟩ := mem_filter.1 hu'
      refine mem_biUnion.2 ⟨(sec u).job.1, mem_otherTasks.2 h2, mem_biUnion.2 ⟨resOf info (sec u), hres u h1,
        mem_biUnion.2 ⟨sec u, ?_, mem_filter.2 ⟨h1, rfl⟩⟩⟩⟩
      rw [mem_union, mem_ofTask, mem_ofTask]
      by_cases ha : sec u ∈ arrSecs V sec isArr
      · exact Or.inl ⟨ha, rfl, hfor u h1⟩
      · refine Or.inr ⟨mem_spinSecs.2 ⟨⟨u, h1, ?_, rfl⟩, ha⟩, rfl, hfor u h1⟩
        cases hb' : isArr u
        · rfl
        · exact absurd (mem_arrSecs.2 ⟨u, h1, hb', rfl⟩) ha
    refine (card_le_card hcov).trans (card_biUnion_le.trans (sum_le_sum fun x _ => ?_))
    refine card_biUnion_le.trans (sum_le_sum fun q _ => ?_)
    have := card_biUnion_le_card_mul (ofTask (arrSecs V sec isArr) x q ∪ ofTask (spinSecs V sec isArr) x q)
      (fun z => V.filter (fun u => sec u = z)) (requestLength (info.get x) q) (by
        intro z hz
        have hz' : z.job.1 = x ∧ (system info).For z q := by
          rcases mem_union.1 hz with hz | hz
          · exact (mem_ofTask.1 hz).2
          · exact (mem_ofTask.1 hz).2
        have := hlen z
        rw [hz'.1, for_resOf hz'.2] at this
        exact this)
    rw [card_union_of_disjoint (ofTask_disjoint x q)] at this
    rw [mul_comm, add_comm]
    exact this
  unfold delay
  beta_reduce
  omega

end

end Verif.SR.Pedf
