/-
C91: response-time analysis of partitioned fixed-priority scheduling with the MSRP.
-/
import Verif.Model.MsrpFp
import Verif.Lemmas.MsrpFp
import Verif.Props.Msrp
import Verif.Props.FpRta

namespace Verif.SR.Msrp
open Spec

/-- The indices of the tasks of a processor. -/
def onProc (info : Info) (k : ℕ) : List (Fin info.length) :=
  (List.finRange info.length).filter (fun i => (info.get i).cluster = k)

theorem afterMsrpBounds_eq {info : Info} {m : ℕ} (hm : ∀ t ∈ info, t.cluster < m) (k : ℕ) :
    afterMsrpBounds info m k = (onProc info k).map (fun i =>
      { cost := ((system info).inflated m i : ℚ), period := ((info.get i).period : ℚ),
        deadline := ((info.get i).deadline : ℚ),
        blocked := some ((taskBounds info m i (info.get i)).loc.total : ℚ) }) := by
  have e : info.zip (msrpBounds info m) = (List.finRange info.length).map
      (fun i => (info.get i, taskBounds info m i (info.get i))) := by
    unfold msrpBounds
    apply List.ext_getElem
    · simp
    · intro i h1 h2
      simp
  unfold afterMsrpBounds onProc
  rw [e, List.filterMap_map]
  induction (List.finRange info.length) with
  | nil => rfl
  | cons i l ih =>
    rw [List.filterMap_cons, List.filter_cons]
    simp only [Function.comp_apply]
    by_cases hc : (info.get i).cluster = k
    · simp only [hc, if_true, decide_true, List.map_cons]
      congr 1
      rw [← cost_remote]
      unfold taskBounds
      simp only
      rw [if_pos (hm _ (List.get_mem info i))]
    · simp only [hc, if_false, decide_false]
      exact ih

/-- The local blocking bound covers every section that can block the task. -/
theorem loc_covers {info : Info} {m : ℕ} (hD : ∀ t ∈ info, 0 < t.deadline)
    (hm : ∀ t ∈ info, t.cluster < m) {i a : Fin info.length}
    (hia : (system info).proc a = (system info).proc i)
    (hp : (info.get i).priority < (info.get a).priority) {q : Req} (hq : q ∈ (system info).reqs a)
    (hc : (system info).Global q.res ∨
      ∃ k, (system info).Uses k q.res ∧ (info.get k).priority ≤ (info.get i).priority) :
    (system info).sectionBound m a q ≤ (taskBounds info m i (info.get i)).loc.total := by
  classical
  change (info.get a).cluster = (info.get i).cluster at hia
  obtain ⟨q', hq', rfl⟩ := mem_reqs.1 hq
  simp only at hc
  have hmi := hm _ (List.get_mem info i)
  unfold taskBounds LockSystem.sectionBound
  simp only
  rw [if_pos hmi, if_pos hmi]
  by_cases hg : (system info).Global q'.resId
  · rw [if_pos hg]
    refine le_trans ?_ (le_max_right _ _)
    have h1 := (foldl_max_le (fun x : TaskInfo × ℕ => ¬ (x.1.cluster ≠ (info.get i).cluster ∨
      x.1.priority < (info.get i).priority ∨ (i : ℕ) = x.2)) (fun x => npBlocking info m x.1) info.zipIdx 0 _).1
      le_rfl
    have h2 := h1.2 (info.get a, a) (List.mem_zipIdx_iff_getElem?.2 (by simp)) (by
      rintro (h | h | h)
      · exact h hia
      · simp only at h; omega
      · have : i = a := Fin.ext h
        subst this; omega)
    exact (npBlocking_le (hm _ (List.get_mem info a))).1 h2 q' hq' hg
  · rw [if_neg hg]
    refine le_trans ?_ (le_max_left _ _)
    refine (localBound_le.1 le_rfl) a hia q' hq' ?_
    rcases hc with hc | ⟨x, hx, hxp⟩
    · exact absurd hc hg
    rintro (h1 | h1 | h1 | h1)
    · omega
    · exact hg (isGlobal_iff.1 h1)
    · have := ceilingOf_le_of (info := info) (r := q'.resId) ⟨x, hx, hxp⟩
      omega
    · have := hD _ (List.get_mem info a); omega

/-- **C91**: if the response-time analysis accepts the tasks of processor `k` after
`apply_msrp_bounds`, then in every run of partitioned fixed-priority scheduling with the MSRP
no job of these tasks takes longer than the computed response time, which is at most the
deadline.  The priorities on each processor decrease in the order of the tasks. -/
theorem C91_pfp_msrp_safe (info : Info) (m fuel k : ℕ) (hT : ∀ t ∈ info, 0 < t.period)
    (hD : ∀ t ∈ info, 0 < t.deadline) (hm : ∀ t ∈ info, t.cluster < m)
    (hprio : info.Pairwise (fun a b => a.cluster = b.cluster → a.priority < b.priority))
    (done : List (Fp.FpTask × ℚ))
    (h : Fp.boundResponseTimes fuel 1 (afterMsrpBounds info m k) = some (true, done)) :
    ∃ resp : Fin info.length → ℚ,
      done.map Prod.snd = ((List.finRange info.length).filter (fun i => (info.get i).cluster = k)).map resp ∧
      ∀ i, (info.get i).cluster = k → resp i ≤ (info.get i).deadline ∧
        ∀ R, MsrpFp (system info) (fun i => (info.get i).priority) R → ∀ q t : ℕ,
          (R.work.release (i, q) : ℚ) + resp i ≤ t → Completed R.work R.sched (i, q) t := by
  classical
  set idx := onProc info k with hidx
  set g : Fin info.length → Fp.FpTask := fun i =>
      { cost := ((system info).inflated m i : ℚ), period := ((info.get i).period : ℚ),
        deadline := ((info.get i).deadline : ℚ),
        blocked := some ((taskBounds info m i (info.get i)).loc.total : ℚ) } with hg
  have hts : afterMsrpBounds info m k = idx.map g := afterMsrpBounds_eq hm k
  rw [hts] at h
  have hlen : (idx.map g).length = idx.length := by simp
  let f : Fin (idx.map g).length → Fin info.length := fun a => idx.get (a.cast hlen)
  have hget : ∀ a, (idx.map g).get a = g (f a) := by
    intro a
    simp [f]
  have hnodup : idx.Nodup := (List.nodup_finRange _).filter _
  have hf : Function.Injective f := by
    intro a b hab
    have := List.nodup_iff_injective_get.1 hnodup hab
    exact Fin.ext (by simpa using congrArg Fin.val this)
  have hmem : ∀ i, i ∈ idx ↔ (info.get i).cluster = k := by
    intro i
    rw [hidx]
    unfold onProc
    simp
  have hproc : ∀ i, (system info).proc i = k ↔ ∃ a, f a = i := by
    intro i
    change (info.get i).cluster = k ↔ _
    rw [← hmem]
    constructor
    · intro hi
      obtain ⟨a, ha⟩ := List.get_of_mem hi
      exact ⟨a.cast hlen.symm, by rw [← ha]; rfl⟩
    · rintro ⟨a, rfl⟩
      exact List.get_mem _ _
  have hmono : StrictMono f := by
    have hs : idx.Pairwise (· < ·) := by
      rw [hidx]
      unfold onProc
      exact (List.sortedLT_finRange _).pairwise.filter _
    intro a b hab
    exact (List.pairwise_iff_get.1 hs) (a.cast hlen) (b.cast hlen) hab
  have hp1 : ∀ i j : Fin info.length, i < j → (info.get i).cluster = k → (info.get j).cluster = k →
      (info.get i).priority < (info.get j).priority := by
    intro i j hij h1 h2
    exact (List.pairwise_iff_get.1 hprio) i j hij (h1.trans h2.symm)
  have hfk : ∀ a, (info.get (f a)).cluster = k := fun a => (hproc (f a)).2 ⟨a, rfl⟩
  have hle : ∀ a b, a ≤ b ↔ (info.get (f a)).priority ≤ (info.get (f b)).priority := by
    intro a b
    constructor
    · intro hab
      rcases hab.lt_or_eq with hab | hab
      · exact (hp1 _ _ (hmono hab) (hfk a) (hfk b)).le
      · rw [hab]
    · intro hab
      by_contra hlt
      have := hp1 _ _ (hmono (not_le.1 hlt)) (hfk b) (hfk a)
      omega
  let p : FpParams (idx.map g).length := ⟨fun a => (system info).inflated m (f a),
    fun a => (system info).period (f a), fun _ => 0, fun _ => 0,
    fun a => (taskBounds info m (f a) (info.get (f a))).loc.total⟩
  have hmat : Fp.Matches (idx.map g) p := by
    refine ⟨fun a => by rw [hget], fun a => by rw [hget]; rfl, fun a => by rw [hget]; simp [hg, p],
      fun a => by rw [hget]; simp [hg, p], fun hno => ?_, fun _ a => ?_⟩
    · intro a
      have := hno a
      rw [hget] at this
      simp [hg] at this
    · refine ⟨(taskBounds info m (f a) (info.get (f a))).loc.total, Or.inl (by rw [hget]), le_rfl⟩
  have hTp : ∀ a, 0 < p.T a := fun a => hT _ (List.get_mem info (f a))
  obtain ⟨_, rs, hdone, hrD, hsafe⟩ := Fp.C11_no_deadline_miss fuel (idx.map g) p hmat hTp (fun _ => rfl)
    (fun a => (info.get (f a)).deadline) (fun a => by rw [hget]) done h
  refine ⟨fun i => if hi : ∃ a, f a = i then rs hi.choose else 0, ?_, ?_⟩
  · have hch : ∀ a, (if hi : ∃ b, f b = f a then rs hi.choose else 0) = rs a := by
      intro a
      have hi : ∃ b, f b = f a := ⟨a, rfl⟩
      rw [dif_pos hi]
      exact congrArg rs (hf hi.choose_spec)
    rw [hdone]
    change _ = idx.map _
    apply List.ext_getElem
    · simp
    · intro a h1 h2
      simp only [List.map_ofFn, List.getElem_ofFn, Function.comp_apply, List.getElem_map]
      rw [List.length_map, List.length_ofFn] at h1
      exact (hch ⟨a, h1⟩).symm
  · intro i hi
    obtain ⟨a, rfl⟩ := (hproc i).1 hi
    have hi' : ∃ b, f b = f a := ⟨a, rfl⟩
    have hch : hi'.choose = a := hf hi'.choose_spec
    simp only [dif_pos hi', hch]
    refine ⟨hrD a, fun R hR q t ht => ?_⟩
    have hm' : ∀ i, (system info).proc i < m := fun i => hm _ (List.get_mem info i)
    have hlegal : (restrict R f hf).Legal p := hR.legal hproc hle p.C p.B
      (fun j => exec_le_inflated hR.toSpinRun hm' (rename f j)) ((system info).sectionBound m)
      (fun s q hi hq => (section_le_bound hR.toSpinRun hm' hi hq).trans (Nat.min_le_left _ _))
      (fun a x hx hpx q hq _ hc => loc_covers hD hm (hx.trans (hfk a).symm) hpx hq hc)
    exact (completed_restrict (a, q) t).1 (hsafe _ hlegal a q t ht)

end Verif.SR.Msrp
