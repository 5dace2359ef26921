/-
The bounds of the analysis of the FMLP+ cover what happens in a run.
-/
import Verif.Lemmas.FmlpModel
import Verif.Lemmas.Fmlp

namespace Verif.Spec
open Finset

variable {n m : ℕ}

/-- Before `e`, the job of section `s` waits for a resource that is owned on processor `c`. -/
def BlockedBy (S : LockSystem n) (R : LockRun n) (s : Section n) (c e : ℕ) : Prop :=
  ∃ u, u < e ∧ R.Waits s u ∧ ∃ z r, R.Owns z u ∧ S.For s r ∧ S.For z r ∧ S.proc z.job.1 = c

open Classical in
/-- The requests of job `j` that are blocked from processor `c`. -/
noncomputable def blockedSet (S : LockSystem n) (R : LockRun n) (j : Job n) (c e : ℕ) : Finset (Section n) :=
  (S.sections j).filter (fun s => BlockedBy S R s c e)

/-- In slot `t`, job `j` waits for a resource that is owned on another processor. -/
def RemoteWait (S : LockSystem n) (R : LockRun n) (j : Job n) (t : ℕ) : Prop :=
  ∃ s, s.job = j ∧ R.Waits s t ∧ ¬ R.LocalWait S s t

variable {S : LockSystem n} {R : LockRun n}

/-- Requests of a job that wait for the same section are the same. -/
theorem PartRun.waits_for_inj (h : PartRun S R) {s s' z : Section n} {r r' u u' : ℕ} (hj : s.job = s'.job)
    (hw : R.Waits s u) (hw' : R.Waits s' u') (ho : R.Owns z u) (ho' : R.Owns z u') (hs : S.For s r)
    (hz : S.For z r) (hs' : S.For s' r') (hz' : S.For z r') : s = s' := by
  by_contra hne
  have ord := h.order s hw.1
  have ord' := h.order s' hw'.1
  obtain ⟨i1, a1, a2⟩ := hw
  obtain ⟨i2, b1, b2⟩ := hw'
  obtain ⟨hzi, c1, c2⟩ := ho
  obtain ⟨_, d1, d2⟩ := ho'
  have hsz : s ≠ z := by rintro rfl; omega
  have hsz' : s' ≠ z := by rintro rfl; omega
  have m1 := h.mutex s z r i1 hzi hs hz hsz
  have m2 := h.mutex s' z r' i2 hzi hs' hz' hsz'
  rcases h.serial s s' i1 i2 hj hne with h1 | h1 <;> omega

end Verif.Spec

namespace Verif.SR.Fmlp
open Verif.Spec
open Verif.SR.Msrp (system)
open Verif.SR.Rw (From events_rel boundLoop_count contention_cluster)

variable {info : Info} {R : LockRun info.length} {W : Fin info.length → ℕ} {H : ℕ}

theorem sum_requests (l : List Request) (f : Request → ℕ) : (l.map f).sum = ∑ x : Fin l.length, f (l.get x) := by
  rw [← Fin.sum_univ_fun_getElem]
  rfl

theorem totalNum_eq (tsk : TaskInfo) : totalNumRequests tsk = (tsk.requests.map Request.num).sum := by
  unfold totalNumRequests
  have : ∀ (l : List Request) (a : ℕ), l.foldl (fun c r => c + r.num) a = a + (l.map Request.num).sum := by
    intro l
    induction l with
    | nil => intro a; simp
    | cons x l ih => intro a; rw [List.foldl_cons, ih, List.map_cons, List.sum_cons]; omega
  rw [this, Nat.zero_add]

theorem sections_le (j : Job info.length) : ((system info).sections j).card ≤ totalNumRequests (info.get j.1) := by
  rw [totalNum_eq]
  refine (LockSystem.sections_card j).trans (le_of_eq ?_)
  unfold system
  simp only [List.map_map]
  rfl

theorem issued_le_total (i : Fin info.length) {c : ℕ} (hc : c < (splitByCluster info).length) :
    (issuedCounts info (info.get i)).getD c 0 ≤ totalNumRequests (info.get i) := by
  obtain ⟨acc, h1, _⟩ := issued_counts i hc
  rw [h1, totalNum_eq]
  apply List.sum_le_sum
  intro r _
  split_ifs <;> omega

/-- The requests of a job that are blocked from a processor are counted. -/
theorem blocked_count (h : PartRun (system info) R) (hb : BoundedBefore R.work R.sched W H)
    (hT : ∀ t ∈ info, 0 < t.period) (hW : ∀ i, W i ≤ (info.get i).response) (j : Job info.length)
    (hunl : totalNumRequests (info.get j.1) < unlimited) {e c : ℕ} (he : e ≤ H) :
    (blockedSet (system info) R j c e).card ≤ perTask info j.1 c := by
  classical
  set B := blockedSet (system info) R j c e with hB
  have hmem : ∀ s ∈ B, s.job = j ∧ (∃ q, ((system info).reqs j.1)[s.idx]? = some q ∧ s.inst < q.num) ∧
      ∃ z u r, u < e ∧ R.Waits s u ∧ R.Owns z u ∧ (system info).For s r ∧ (system info).For z r ∧
        (info.get z.job.1).cluster = c := by
    intro s hs
    unfold blockedSet at hB
    rw [hB] at hs
    obtain ⟨h1, u, h2, h3, z, r, h4, h5, h6, h7⟩ := Finset.mem_filter.1 hs
    obtain ⟨h8, h9⟩ := LockSystem.mem_sections.1 h1
    rw [h8] at h9
    exact ⟨h8, h9, z, u, r, h2, h3, h4, h5, h6, h7⟩
  rcases B.eq_empty_or_nonempty with he0 | ⟨s0, hs0⟩
  · rw [he0]; simp
  have hc : c < (splitByCluster info).length := by
    obtain ⟨_, _, z, _, _, _, _, _, _, _, hz⟩ := hmem s0 hs0
    rw [← hz]
    exact cluster_lt_split _
  have hz' : ∀ s ∈ B, ∃ z, ∃ u r, u < e ∧ R.Waits s u ∧ R.Owns z u ∧ (system info).For s r ∧ (system info).For z r ∧
        (info.get z.job.1).cluster = c := fun s hs => (hmem s hs).2.2
  have : Nonempty (Section info.length) := ⟨s0⟩
  choose! z hz using hz'
  -- the time of the wait
  have htime : ∀ s ∈ B, ∀ u, u < e → R.Waits s u → R.work.release j ≤ u ∧
      u < min e (R.work.release j + W j.1) := by
    intro s hs u hu hw
    have hr := h.waits_ready hw
    rw [(hmem s hs).1] at hr
    refine ⟨hr.1.1, lt_min hu (lt_of_pending hb (by omega) hr.1.2)⟩
  have hzne : ∀ s ∈ B, (z s).job.1 ≠ j.1 := by
    intro s hs heq
    obtain ⟨u, r, hu, hw, ho, _⟩ := hz s hs
    have hj : (z s).job = s.job :=
      ready_eq (h.owns_ready ho) (h.waits_ready hw) (by rw [heq, (hmem s hs).1])
    exact h.owns_not_waits ho hw hj.symm
  have hinj : ∀ s ∈ B, ∀ s' ∈ B, z s = z s' → s = s' := by
    intro s hs s' hs' heq
    obtain ⟨u, r, _, hw, ho, h1, h2, _⟩ := hz s hs
    obtain ⟨u', r', _, hw', ho', h1', h2', _⟩ := hz s' hs'
    rw [← heq] at ho' h2'
    exact h.waits_for_inj ((hmem s hs).1.trans (hmem s' hs').1.symm) hw hw' ho ho' h1 h2 h1' h2'
  set L := (info.get j.1).requests with hL
  have hfib : B.card = ∑ d : Fin L.length, (B.filter (fun s => s.idx = (d : ℕ))).card := by
    rw [← Finset.sum_range (fun d => (B.filter (fun s => s.idx = (d : ℕ))).card)]
    apply Finset.card_eq_sum_card_fiberwise
    intro s hs
    obtain ⟨_, ⟨q, hq, _⟩, _⟩ := hmem s hs
    obtain ⟨r, hr, _⟩ := lock_req hq
    obtain ⟨hlt, _⟩ := List.getElem?_eq_some_iff.1 hr
    exact Finset.mem_coe.2 (Finset.mem_range.2 hlt)
  have hLget : ∀ d : Fin L.length, L[(d : ℕ)]? = some (L.get d) := by intro d; simp
  have hnum : ∀ d : Fin L.length, (B.filter (fun s => s.idx = (d : ℕ))).card ≤ (L.get d).num := by
    intro d
    rw [← Finset.card_range (L.get d).num]
    apply Finset.card_le_card_of_injOn (fun s => s.inst)
    · intro s hs
      obtain ⟨hs, hd⟩ := Finset.mem_filter.1 (Finset.mem_coe.1 hs)
      obtain ⟨_, ⟨q, hq, hlt⟩, _⟩ := hmem s hs
      obtain ⟨r, hr, rfl⟩ := lock_req hq
      rw [hd, ← hL, hLget d] at hr
      cases hr
      exact Finset.mem_coe.2 (Finset.mem_range.2 hlt)
    · intro a ha b hb' hab
      obtain ⟨ha, hda⟩ := Finset.mem_filter.1 (Finset.mem_coe.1 ha)
      obtain ⟨hb', hdb⟩ := Finset.mem_filter.1 (Finset.mem_coe.1 hb')
      have h1 := (hmem a ha).1
      have h2 := (hmem b hb').1
      obtain ⟨aj, ai, an⟩ := a
      obtain ⟨bj, bi, bn⟩ := b
      simp only at h1 h2 hda hdb hab
      rw [h1, h2, hda, hdb, hab]
  have hres : ∀ s ∈ B, ∀ d : Fin L.length, s.idx = (d : ℕ) → ∃ r, (info.get (z s).job.1).requests[(z s).idx]? = some r ∧
      r.resId = (L.get d).resId ∧ 0 < r.num := by
    intro s hs d hd
    obtain ⟨u, r, _, hw, ho, ⟨q1, hq1, hr1⟩, ⟨q2, hq2, hr2⟩, _⟩ := hz s hs
    obtain ⟨x1, hx1, rfl⟩ := lock_req hq1
    obtain ⟨x2, hx2, rfl⟩ := lock_req hq2
    refine ⟨x2, hx2, ?_, ?_⟩
    · rw [(hmem s hs).1, hd, ← hL, hLget d] at hx1
      cases hx1
      exact hr2.trans hr1.symm
    · obtain ⟨q, hq, hlt⟩ := h.declared (z s) ho.1
      obtain ⟨x3, hx3, rfl⟩ := lock_req hq
      rw [hx2] at hx3
      cases hx3
      exact lt_of_le_of_lt (Nat.zero_le _) hlt
  unfold perTask
  rw [le_min_iff]
  constructor
  · rw [count_direct j.1 hc, ← hL, sum_requests, hfib]
    apply Finset.sum_le_sum
    intro d _
    set F := B.filter (fun s => s.idx = (d : ℕ)) with hF
    have hFB : ∀ s ∈ F, s ∈ B ∧ s.idx = (d : ℕ) := fun s hs => Finset.mem_filter.1 hs
    have hcont := contention_cluster info c (L.get d).resId
    set cont := ((clusterResources info).getD c []).getD (L.get d).resId [] with hcontd
    have hev := events_rel (α := Section info.length) (fun s r => From (z s) r) (fun _ => 0) hcont.nodup hcont.sorted
      (F := F) (interval := (info.get j.1).response) (per := (L.get d).num) (total := unlimited)
      (ok := fun r => decide (r.task ≠ (j.1 : ℕ)) && decide (r.info.priority ≥ 0))
      (fun _ _ a ha b hb h1 h2 => hcont.inj a ha b hb (h1.1.symm.trans h2.1) (h1.2.symm.trans h2.2))
      (by
        intro s hs
        obtain ⟨hsB, hd⟩ := hFB s hs
        obtain ⟨r, hr, hrr, _⟩ := hres s hsB d hd
        refine ⟨⟨(z s).job.1, info.get (z s).job.1, (z s).idx, r⟩, (hcont.mem _).2 ⟨fin_get? _, hr, ?_, hrr⟩,
          ⟨rfl, rfl⟩, ?_⟩
        · obtain ⟨_, _, _, _, _, _, _, h1⟩ := hz s hsB
          exact h1
        · have hne := hzne s hsB
          have : ((z s).job.1 : ℕ) ≠ (j.1 : ℕ) := fun hh => hne (Fin.ext hh)
          simp [this])
      (fun _ _ _ _ _ => Nat.zero_le _)
      (by
        intro r hr
        obtain ⟨hr1, hr2, hr3⟩ := (hcont.mem r).1 hr
        obtain ⟨hlt, hget⟩ := List.getElem?_eq_some_iff.1 hr1
        set i : Fin info.length := ⟨r.task, hlt⟩ with hi
        have hri : r.info = info.get i := by rw [← hget]; rfl
        rw [le_min_iff]
        constructor
        · have hc1 : (F.filter (fun s => From (z s) r)).card = ((F.filter (fun s => From (z s) r)).image z).card := by
            rw [Finset.card_image_of_injOn]
            intro a ha b hb' hab
            exact hinj a (hFB a (Finset.mem_filter.1 (Finset.mem_coe.1 ha)).1).1 b
              (hFB b (Finset.mem_filter.1 (Finset.mem_coe.1 hb')).1).1 hab
          rw [hc1]
          rw [hri] at hr2
          have := h.requests_le hb (i := i) (S := system info) (hT _ (List.get_mem info i))
            (F := (F.filter (fun s => From (z s) r)).image z)
            (lo := R.work.release j) (hi := min e (R.work.release j + W j.1)) (d := r.idx)
            (q := ⟨r.req.resId, r.req.num, r.req.length⟩) (lock_req' hr2) ((Nat.min_le_left _ _).trans he) (by
              intro y hy
              obtain ⟨s, hs, rfl⟩ := Finset.mem_image.1 hy
              obtain ⟨hsF, hfrom⟩ := Finset.mem_filter.1 hs
              obtain ⟨hsB, hd⟩ := hFB s hsF
              obtain ⟨u, r', hu, hw, ho, _⟩ := hz s hsB
              obtain ⟨t1, t2⟩ := htime s hsB u hu hw
              have hact := h.owns_active ho
              exact ⟨ho.1, Fin.ext hfrom.1, hfrom.2, u, t1, t2, hact⟩)
          refine this.trans ?_
          unfold RB.maxNumRequests TaskInfo.maxNumJobs
          rw [hri]
          apply Nat.mul_le_mul_right
          rw [Native.divideWithCeil_eq _ (hT _ (List.get_mem info i))]
          change cdiv _ _ ≤ cdiv _ _
          apply cdiv_mono (hT _ (List.get_mem info i))
          have h1 := hW i
          have h2 := hW j.1
          omega
        · exact (Finset.card_filter_le _ _).trans (hnum d))
      (by
        refine (hnum d).trans ?_
        have : (L.get d).num ≤ totalNumRequests (info.get j.1) := by
          rw [totalNum_eq]
          exact List.single_le_sum (by simp) _ (List.mem_map_of_mem (List.get_mem L d))
        omega)
    exact hev.2
  · obtain ⟨acc, h1, h2⟩ := issued_counts j.1 hc
    rw [h1, ← hL, sum_requests, hfib]
    apply Finset.sum_le_sum
    intro d _
    rcases (B.filter (fun s => s.idx = (d : ℕ))).eq_empty_or_nonempty with h0 | ⟨s, hs⟩
    · rw [h0]; simp
    · obtain ⟨hsB, hd⟩ := Finset.mem_filter.1 hs
      obtain ⟨r, hr, hrr, hr0⟩ := hres s hsB d hd
      obtain ⟨_, _, _, _, _, _, _, hcl⟩ := hz s hsB
      have := h2 (z s).job.1 hcl r (List.mem_of_getElem? hr) hr0
      rw [hrr] at this
      rw [if_pos this]
      exact hnum d

theorem perTask_le (i : Fin info.length) {c : ℕ} (hc : c < (splitByCluster info).length) :
    perTask info i c ≤ totalNumRequests (info.get i) :=
  (Nat.min_le_right _ _).trans (issued_le_total i hc)

/-- Slots in which sections of tasks are served, grouped by task. -/
theorem slots_by_task {n : ℕ} {R : LockRun n} {Y : Finset ℕ} (P : Section n → ℕ → Prop) (A : Finset (Fin n))
    (bound : Fin n → ℕ) (hY : ∀ t ∈ Y, ∃ s, P s t ∧ R.Owns s t ∧ s.job ∈ R.sched t ∧ s.job.1 ∈ A)
    (hF : ∀ x ∈ A, ∀ F : Finset (Section n), (∀ s ∈ F, s.job.1 = x ∧ ∃ t ∈ Y, P s t ∧ R.Owns s t ∧ s.job ∈ R.sched t) →
      ∑ s ∈ F, R.use s ≤ bound x) : Y.card ≤ ∑ x ∈ A, bound x := by
  classical
  rcases Y.eq_empty_or_nonempty with h0 | ⟨t0, ht0⟩
  · rw [h0]; simp
  obtain ⟨s0, _⟩ := hY t0 ht0
  have : Nonempty (Section n) := ⟨s0⟩
  choose! f hf using hY
  have h1 : Y.card ≤ ∑ s ∈ Y.image f, R.use s :=
    LockRun.slots_le (fun t ht => ⟨f t, Finset.mem_image_of_mem _ ht, (hf t ht).2.1, (hf t ht).2.2.1⟩)
  refine h1.trans ?_
  rw [← Finset.sum_fiberwise_of_maps_to (t := A) (g := fun s : Section n => s.job.1) (by
    intro s hs
    obtain ⟨t, ht, rfl⟩ := Finset.mem_image.1 hs
    exact (hf t ht).2.2.2)]
  apply Finset.sum_le_sum
  intro x hx
  apply hF x hx
  intro s hs
  obtain ⟨hs, hsx⟩ := Finset.mem_filter.1 hs
  obtain ⟨t, ht, rfl⟩ := Finset.mem_image.1 hs
  exact ⟨hsx, t, ht, (hf t ht).1, (hf t ht).2.1, (hf t ht).2.2.1⟩

variable {prio : Fin info.length → ℕ} {ticket : Section info.length → ℕ}

theorem mem_blockedSet {j : Job info.length} {s : Section info.length} {c e : ℕ} (h : PartRun (system info) R)
    (hi : R.issued s) (hj : s.job = j) (hb : BlockedBy (system info) R s c e) :
    s ∈ blockedSet (system info) R j c e := by
  classical
  unfold blockedSet
  exact Finset.mem_filter.2 ⟨LockSystem.mem_sections.2 ⟨hj, h.declared s hi⟩, hb⟩

open Classical in
/-- The remote blocking of a job. -/
theorem remote_le (h : FmlpPlus (system info) prio ticket R) (hb : BoundedBefore R.work R.sched W H)
    (hT : ∀ t ∈ info, 0 < t.period) (hW : ∀ i, W i ≤ (info.get i).response) (j : Job info.length)
    (hunl : totalNumRequests (info.get j.1) < unlimited) {e : ℕ} (he : e ≤ H) :
    ((Finset.range e).filter (RemoteWait (system info) R j)).card ≤ (remoteBlocking info j.1 (info.get j.1)).total := by
  rw [remote_total]
  apply slots_by_task (R := R) (fun s' t => ∃ s, s.job = j ∧ R.Waits s t ∧
    BlockedBy (system info) R s (info.get s'.job.1).cluster e ∧ R.enter s' ≤ R.enter s)
  · intro t ht
    obtain ⟨hte, s, hs, hw, hl⟩ := Finset.mem_filter.1 ht
    obtain ⟨s0, r, ho0, hf, hf0, hne, s', ho', hs', hp', hle⟩ := h.remote_served hw hl
    refine ⟨s', ⟨s, hs, hw, ⟨t, Finset.mem_range.1 hte, hw, s0, r, ho0, hf, hf0, hp'.symm⟩, hle⟩, ho', hs', ?_⟩
    refine Finset.mem_filter.2 ⟨Finset.mem_univ _, ?_⟩
    rw [← hs]
    change (system info).proc s'.job.1 ≠ (system info).proc s.job.1
    rw [hp']
    exact hne
  · intro x hx F hF
    have hx := (Finset.mem_filter.1 hx).2
    have := task_bound h.toRequestRun hb (i := x) (hT _ (List.get_mem info x)) (hW x) (M := 1)
      (interval := (info.get j.1).response) (total := perTask info j.1 (info.get x).cluster) (unl := unlimited)
      (exclude := j.1) (minPrio := 0) (lo := R.work.release j) (hi := min e (R.work.release j + W j.1)) le_rfl
      ((Nat.min_le_left _ _).trans he) (by have := hW j.1; omega)
      ((perTask_le _ (cluster_lt_split x)).trans hunl.le) (F := F) (by
        intro s' hs'
        obtain ⟨h1, t, ht, ⟨s, hs, hw, _⟩, ho, _⟩ := hF s' hs'
        obtain ⟨hte, _⟩ := Finset.mem_filter.1 ht
        have hte := Finset.mem_range.1 hte
        have hr := h.waits_ready hw
        rw [hs] at hr
        have hact := h.owns_active ho
        exact ⟨ho.1, h1, t, hr.1.1, lt_min hte (lt_of_pending hb (by omega) hr.1.2), hact⟩) (by
        rw [Nat.one_mul]
        refine le_trans ?_ (blocked_count h.toPartRun hb hT hW j hunl he)
        refine le_trans (h.card_le_instants (i := x)
          (I := (blockedSet (system info) R j (info.get x).cluster e).image R.enter) ?_) Finset.card_image_le
        intro s' hs'
        obtain ⟨h1, t, ht, ⟨s, hs, hw, hbl, hle⟩, ho, _⟩ := hF s' hs'
        rw [h1] at hbl
        refine ⟨ho.1, h1, R.enter s, Finset.mem_image_of_mem _ (mem_blockedSet h.toPartRun hw.1 hs hbl), hle, ?_⟩
        have := ho.2.2
        have := hw.2.1
        omega) (fun hh => hx (by rw [Fin.ext hh])) (Nat.zero_le _)
    rwa [Nat.one_mul] at this

/-- Tasks without remote blocking never wait for other processors. -/
theorem local_of_zero (h : FmlpPlus (system info) prio ticket R) (hb : BoundedBefore R.work R.sched W H)
    (hT : ∀ t ∈ info, 0 < t.period) (hW : ∀ i, W i ≤ (info.get i).response)
    (hunl : ∀ t ∈ info, totalNumRequests t < unlimited) {s : Section info.length} {u : ℕ}
    (h0 : (remoteBlocking info s.job.1 (info.get s.job.1)).total = 0) (hu : u < H) (hw : R.Waits s u) :
    R.LocalWait (system info) s u := by
  classical
  by_contra hl
  have := remote_le h hb hT hW s.job (hunl _ (List.get_mem _ _)) (e := u + 1) hu
  rw [h0, Nat.le_zero, Finset.card_eq_zero] at this
  have hm : u ∈ (Finset.range (u + 1)).filter (RemoteWait (system info) R s.job) :=
    Finset.mem_filter.2 ⟨Finset.mem_range.2 (by omega), s, rfl, hw, hl⟩
  rw [this] at hm
  simp at hm

/-- The number of requests of a job that wait for another processor. -/
theorem remote_count (h : FmlpPlus (system info) prio ticket R) (hb : BoundedBefore R.work R.sched W H)
    (hT : ∀ t ∈ info, 0 < t.period) (hW : ∀ i, W i ≤ (info.get i).response) (j : Job info.length)
    (hunl : totalNumRequests (info.get j.1) < unlimited) {e : ℕ} (he : e ≤ H) {F : Finset (Section info.length)}
    (hF : ∀ s ∈ F, s.job = j ∧ ∃ u, u < e ∧ R.Waits s u ∧ ¬ R.LocalWait (system info) s u) :
    F.card + 1 ≤ arrivals info j.1 := by
  classical
  unfold arrivals
  have h1 : F.card ≤ totalNumRequests (info.get j.1) := by
    refine (Finset.card_le_card ?_).trans (sections_le j)
    intro s hs
    obtain ⟨hj, u, _, hw, _⟩ := hF s hs
    exact LockSystem.mem_sections.2 ⟨hj, h.declared s hw.1⟩
  have h2 : F.card ≤ ((countDirect info j.1 (info.get j.1)).map Interference.count).sum := by
    have hsub : F ⊆ (Finset.range (splitByCluster info).length).biUnion
        (fun c => blockedSet (system info) R j c e) := by
      intro s hs
      obtain ⟨hj, u, hu, hw, hl⟩ := hF s hs
      obtain ⟨s0, r, ho0, hf, hf0, _, _⟩ := h.remote_served hw hl
      exact Finset.mem_biUnion.2 ⟨(info.get s0.job.1).cluster, Finset.mem_range.2 (cluster_lt_split _),
        mem_blockedSet h.toPartRun hw.1 hj ⟨u, hu, hw, s0, r, ho0, hf, hf0, rfl⟩⟩
    refine (Finset.card_le_card hsub).trans (Finset.card_biUnion_le.trans ?_)
    have hlen : (countDirect info j.1 (info.get j.1)).length = (splitByCluster info).length := by
      unfold countDirect resources; simp
    have e1 : ((countDirect info j.1 (info.get j.1)).map Interference.count).sum =
        ∑ c ∈ Finset.range (splitByCluster info).length, ((countDirect info j.1 (info.get j.1)).getD c {}).count := by
      rw [← hlen, Finset.sum_range, ← Fin.sum_univ_fun_getElem]
      apply Finset.sum_congr rfl
      intro c _
      rw [List.getD_eq_getElem?_getD, List.getElem?_eq_getElem c.isLt, Option.getD_some]
    rw [e1]
    apply Finset.sum_le_sum
    intro c _
    exact (blocked_count h.toPartRun hb hT hW j hunl he).trans (Nat.min_le_left _ _)
  omega

open Classical in
/-- The slots of a window in which other tasks execute. -/
theorem idle_le (h : FmlpPlus (system info) (fun i => (info.get i).priority) ticket R)
    (hb : BoundedBefore R.work R.sched W H) (hT : ∀ t ∈ info, 0 < t.period)
    (hW : ∀ i, W i ≤ (info.get i).response) (hWT : ∀ i, W i ≤ (info.get i).period)
    (hunl : ∀ t ∈ info, totalNumRequests t < unlimited) {k : Fin info.length}
    (hinj : ∀ i : Fin info.length, (info.get i).cluster = (info.get k).cluster →
      (info.get i).priority = (info.get k).priority → i = k)
    {Z : Fin info.length → Prop} (hZ : ∀ i, Z i → (info.get i).cluster = (info.get k).cluster ∧
      (info.get i).priority < (info.get k).priority ∧ (remoteBlocking info i (info.get i)).total = 0)
    {q0 q1 a : ℕ} (hwin : Window R.work R.sched k Z q0 q1 a (a + (q0 - q1 + 1) * W k))
    (he : a + (q0 - q1 + 1) * W k ≤ H) :
    ((Finset.Ico a (a + (q0 - q1 + 1) * W k)).filter (fun t => ∀ j ∈ R.sched t, j.1 ≠ k ∧
      ¬ ((info.get j.1).cluster = (info.get k).cluster ∧ (info.get j.1).priority < (info.get k).priority))).card ≤
    (q0 - q1 + 1) * ((remoteBlocking info k (info.get k)).total + (localBlocking info k (info.get k)).total) := by
  set M := q0 - q1 + 1 with hM
  set e := a + M * W k with hed
  have hZ1 : ∀ i, Z i → (system info).proc i = (system info).proc k ∧ (info.get i).priority < (info.get k).priority :=
    fun i hi => ⟨(hZ i hi).1, (hZ i hi).2.1⟩
  have hZ2 : ∀ s u, Z s.job.1 → u < H → R.Waits s u → R.LocalWait (system info) s u :=
    fun s u hz hu hw => local_of_zero h hb hT hW hunl (hZ _ hz).2.2 hu hw
  have hunlk := hunl _ (List.get_mem info k)
  set Y := (Finset.Ico a e).filter (fun t => ∀ j ∈ R.sched t, j.1 ≠ k ∧
      ¬ ((info.get j.1).cluster = (info.get k).cluster ∧ (info.get j.1).priority < (info.get k).priority)) with hY
  set Y1 := (Finset.Icc q1 q0).biUnion (fun q => (Finset.range e).filter (RemoteWait (system info) R (k, q))) with hY1
  set Y2 := Y \ Y1 with hY2
  have hY1c : Y1.card ≤ M * (remoteBlocking info k (info.get k)).total := by
    refine Finset.card_biUnion_le.trans ?_
    refine (Finset.sum_le_card_nsmul _ _ (remoteBlocking info k (info.get k)).total
      (fun q _ => remote_le h hb hT hW (k, q) hunlk he)).trans ?_
    rw [Nat.card_Icc, smul_eq_mul]
    have := hwin.jobs
    apply Nat.mul_le_mul_right
    omega
  have hY2c : Y2.card ≤ M * (localBlocking info k (info.get k)).total := by
    rw [local_total, Finset.mul_sum]
    have key : Y2.card ≤ ∑ x ∈ Finset.univ.filter (fun x : Fin info.length => (info.get x).cluster = (info.get k).cluster ∧
        (info.get k).priority < (info.get x).priority), M * (boundBlocking (sortByLength (pointers (x, info.get x)))
          (info.get k).response (arrivals info k) unlimited k (info.get k).priority).total := by
      apply slots_by_task (R := R) (fun s' t => ∀ s, s.job.1 = k → R.Waits s t → ticket s' < ticket s)
      · intro t ht
        obtain ⟨htY, htn⟩ := Finset.mem_sdiff.1 ht
        obtain ⟨hI, hid⟩ := Finset.mem_filter.1 htY
        obtain ⟨h1, h2⟩ := Finset.mem_Ico.1 hI
        rcases h.idle_cases hb hWT hwin he hinj hZ1 hZ2 h1 h2 hid with ⟨s, c1, c2, c3, c4, c5⟩ | ⟨s', c1, c2, c3, c4, c5⟩
        · exfalso
          apply htn
          refine Finset.mem_biUnion.2 ⟨s.job.2, Finset.mem_Icc.2 ⟨c2, c3⟩, Finset.mem_filter.2
            ⟨Finset.mem_range.2 h2, s, by rw [← c1], c4, c5⟩⟩
        · exact ⟨s', c5, c1, c2, Finset.mem_filter.2 ⟨Finset.mem_univ _, c3, c4⟩⟩
      · intro x hx F hF
        obtain ⟨_, hx1, hx2⟩ := Finset.mem_filter.1 hx
        have hM1 : 1 ≤ M := by omega
        apply task_bound h.toRequestRun hb (i := x) (hT _ (List.get_mem info x)) (hW x) (lo := a) (hi := e) hM1 he
        · rw [hed]
          have := Nat.mul_le_mul_left M (hW k)
          omega
        · unfold arrivals
          have := Nat.min_le_left (totalNumRequests (info.get k) + 1)
            (((countDirect info k (info.get k)).map Interference.count).sum + 1)
          omega
        · intro s' hs'
          obtain ⟨h1, t, ht, _, ho, _⟩ := hF s' hs'
          obtain ⟨htY, _⟩ := Finset.mem_sdiff.1 ht
          obtain ⟨h2, h3⟩ := Finset.mem_Ico.1 (Finset.mem_filter.1 htY).1
          exact ⟨ho.1, h1, t, h2, h3, h.owns_active ho⟩
        · -- arrivals
          let G : ℕ → Finset (Section info.length) := fun q => ((system info).sections (k, q)).filter
            (fun s => ∃ u, u < e ∧ R.Waits s u ∧ ¬ R.LocalWait (system info) s u)
          have hG : ∀ q, (G q).card + 1 ≤ arrivals info k := by
            intro q
            apply remote_count h hb hT hW (k, q) hunlk he
            intro s hs
            obtain ⟨hs1, hs2⟩ := Finset.mem_filter.1 hs
            exact ⟨(LockSystem.mem_sections.1 hs1).1, hs2⟩
          let I : Finset ℕ := insert a ((Finset.Icc q1 q0).biUnion (fun q => (G q).image R.acquire))
          have hI : I.card ≤ M * arrivals info k := by
            have h1 : ((Finset.Icc q1 q0).biUnion (fun q => (G q).image R.acquire)).card ≤ M * (arrivals info k - 1) := by
              refine Finset.card_biUnion_le.trans ?_
              refine (Finset.sum_le_card_nsmul _ _ (arrivals info k - 1) (fun q _ => ?_)).trans ?_
              · have h2 : ((G q).image R.acquire).card ≤ (G q).card := Finset.card_image_le
                have := hG q
                omega
              · rw [Nat.card_Icc, smul_eq_mul]
                have := hwin.jobs
                apply Nat.mul_le_mul_right
                omega
            have h3 := Finset.card_insert_le a ((Finset.Icc q1 q0).biUnion (fun q => (G q).image R.acquire))
            have h4 := hG q0
            have h5 : M * arrivals info k = M * (arrivals info k - 1) + M := by
              obtain ⟨y, hy⟩ : ∃ y, arrivals info k = y + 1 := ⟨arrivals info k - 1, by omega⟩
              rw [hy]
              simp only [Nat.add_sub_cancel]
              ring
            change (insert a _ : Finset ℕ).card ≤ _
            omega
          refine le_trans (h.card_le_instants (i := x) (I := I) ?_) hI
          intro s' hs'
          obtain ⟨h1, t, ht, htk, ho, _⟩ := hF s' hs'
          obtain ⟨htY, _⟩ := Finset.mem_sdiff.1 ht
          obtain ⟨h2, h3⟩ := Finset.mem_Ico.1 (Finset.mem_filter.1 htY).1
          rcases h.instant hb hWT hwin he hZ1 hZ2 h2 h3 ho (by rw [h1]; exact hx1) (by rw [h1]; exact hx2) htk with
            hh | ⟨s, u, c1, c2, c3, c4, c5, _, c6, c7, c8⟩
          · exact ⟨ho.1, h1, a, Finset.mem_insert_self _ _, hh⟩
          · refine ⟨ho.1, h1, R.acquire s, Finset.mem_insert_of_mem (Finset.mem_biUnion.2 ⟨s.job.2,
              Finset.mem_Icc.2 ⟨c2, c3⟩, Finset.mem_image_of_mem _ (Finset.mem_filter.2 ⟨?_, u, c6, c4, c5⟩)⟩), c7, c8⟩
            exact LockSystem.mem_sections.2 ⟨by rw [← c1], h.declared s c4.1⟩
        · intro hh
          have : x = k := Fin.ext hh
          rw [this] at hx2
          omega
        · exact hx2.le
    refine key.trans (Finset.sum_le_sum_of_subset ?_)
    intro x hx
    obtain ⟨_, hx1, _⟩ := Finset.mem_filter.1 hx
    exact Finset.mem_filter.2 ⟨Finset.mem_univ _, hx1⟩
  have hsub : Y ⊆ Y1 ∪ Y2 := by
    intro t ht
    by_cases h1 : t ∈ Y1
    · exact Finset.mem_union_left _ h1
    · exact Finset.mem_union_right _ (Finset.mem_sdiff.2 ⟨ht, h1⟩)
  refine (Finset.card_le_card hsub).trans ((Finset.card_union_le _ _).trans ?_)
  rw [Nat.mul_add]
  omega

end Verif.SR.Fmlp
