/-
C98: response-time analysis of partitioned fixed-priority scheduling with the MPCP.
-/
import Verif.Lemmas.MpcpCount
import Verif.Lemmas.PartAccepted

namespace Verif.SR.Mpcp
open Spec
open Verif.SR.Msrp (system)

theorem mapM_some {α β : Type} {f : α → Option β} {l : List α} : ∀ {res : List β}, l.mapM f = some res →
    ∀ d : β, res = l.map (fun x => (f x).getD d) ∧ ∀ x ∈ l, (f x).isSome := by
  induction l with
  | nil =>
    intro res h d
    simp only [List.mapM_nil] at h
    cases h
    simp
  | cons a l ih =>
    intro res h d
    rw [List.mapM_cons] at h
    obtain ⟨b, hb, h⟩ := Option.bind_eq_some_iff.1 h
    obtain ⟨bs, hbs, h⟩ := Option.bind_eq_some_iff.1 h
    cases h
    obtain ⟨h1, h2⟩ := ih hbs d
    constructor
    · rw [List.map_cons, hb, ← h1]
      rfl
    · intro x hx
      rcases List.mem_cons.1 hx with rfl | hx
      · rw [hb]; rfl
      · exact h2 x hx

theorem mapM_isSome {α β : Type} {f : α → Option β} {l : List α} (h : ∀ x ∈ l, (f x).isSome) : (l.mapM f).isSome := by
  induction l with
  | nil => rfl
  | cons a l ih =>
    rw [List.mapM_cons]
    obtain ⟨b, hb⟩ := Option.isSome_iff_exists.1 (h a List.mem_cons_self)
    obtain ⟨bs, hbs⟩ := Option.isSome_iff_exists.1 (ih (fun x hx => h x (List.mem_cons_of_mem _ hx)))
    rw [hb, hbs]
    rfl

/-- The remote blocking of task `i`. -/
def remOf (info : Info) (fuel : ℕ) (i : Fin info.length) : ℕ := (remoteBlocking info fuel (i, info.get i)).getD 0

/-- The local blocking of task `i`. -/
def locOf (info : Info) (i : Fin info.length) : ℕ :=
  arrivalBlocking (i, info.get i) ((splitByCluster info).getD (info.get i).cluster []) false

theorem zipIdx_eq (info : Info) : info.zipIdx = (List.finRange info.length).map (fun i => (info.get i, (i : ℕ))) := by
  apply List.ext_getElem
  · simp
  · intro i h1 h2
    simp

theorem afterMpcpBounds_eq {info : Info} {fuel k : ℕ} {tasks : List Fp.FpTask}
    (h : afterMpcpBounds info fuel k = some tasks) :
    tasks = partTasks info (remOf info fuel) (locOf info) k ∧
      ∀ i : Fin info.length, remoteBlocking info fuel (i, info.get i) = some (remOf info fuel i) := by
  unfold afterMpcpBounds at h
  obtain ⟨res, hres, h⟩ := Option.bind_eq_some_iff.1 h
  unfold mpcpBounds at hres
  obtain ⟨h1, h2⟩ := mapM_some hres (0, 0)
  have hsome : ∀ i : Fin info.length, remoteBlocking info fuel (i, info.get i) = some (remOf info fuel i) := by
    intro i
    have := h2 (info.get i, (i : ℕ)) (by rw [zipIdx_eq]; exact List.mem_map_of_mem (List.mem_finRange i))
    simp only at this
    unfold remOf
    cases hr : remoteBlocking info fuel (i, info.get i) with
    | none => rw [hr] at this; simp at this
    | some v => rfl
  refine ⟨?_, hsome⟩
  have e : info.zip res = (List.finRange info.length).map
      (fun i => (info.get i, (remOf info fuel i, locOf info i))) := by
    rw [h1, zipIdx_eq]
    apply List.ext_getElem
    · simp
    · intro i a1 a2
      have hi : i < info.length := by simp at a1; omega
      simp only [List.map_map, List.getElem_zip, List.getElem_map, List.getElem_finRange, Function.comp_apply]
      have hs := hsome ⟨i, hi⟩
      refine Prod.ext rfl ?_
      change Option.getD (Option.bind (remoteBlocking info fuel (i, info.get ⟨i, hi⟩)) _) _ = _
      have hs' : remoteBlocking info fuel (i, info.get ⟨i, hi⟩) = some (remOf info fuel ⟨i, hi⟩) := hs
      rw [hs']
      rfl
  rw [e, List.filterMap_map] at h
  rw [← Option.some.inj h]
  unfold partTasks
  clear h e h1 h2 hres
  induction (List.finRange info.length) with
  | nil => rfl
  | cons i l ih =>
    rw [List.filterMap_cons, List.filter_cons]
    simp only [Function.comp_apply]
    by_cases hc : (info.get i).cluster = k
    · simp only [hc, if_true, decide_true, List.map_cons]
      rw [← ih]
      rfl
    · simp only [hc, if_false, decide_false]
      exact ih

/-- **C98**: let the response-time analysis accept the tasks of each processor after `apply_mpcp_bounds`.  Then
in every run of partitioned fixed-priority scheduling with the MPCP no job takes longer than the computed
response time, which is at most the deadline.  The priorities on each processor decrease in the
order of the tasks, no two tasks have the same priority, each task has at most one request object for each
resource, and times are less than `UNLIMITED`. -/
theorem C98_mpcp_safe (info : Info) (fuel : ℕ)
    (hT : ∀ t ∈ info, 0 < t.period ∧ t.period < 4294967295 ∧ t.response < 4294967295)
    (hn : ∀ t ∈ info, (t.requests.map Request.resId).Nodup)
    (hprio : info.Pairwise (fun a b => a.cluster = b.cluster → a.priority < b.priority))
    (hdist : info.Pairwise (fun a b => a.priority ≠ b.priority))
    (done : ℕ → List (Fp.FpTask × ℚ))
    (h : ∀ t ∈ info, (afterMpcpBounds info fuel t.cluster).bind (Fp.boundResponseTimes fuel 1) =
      some (true, done t.cluster)) :
    ∃ resp : Fin info.length → ℚ,
      (∀ t ∈ info, (done t.cluster).map Prod.snd =
        ((List.finRange info.length).filter (fun i => (info.get i).cluster = t.cluster)).map resp) ∧
      (∀ i, resp i ≤ (info.get i).deadline) ∧
      (∀ R, Spec.Mpcp (system info) (fun i => (info.get i).priority) R → ∀ i (q t : ℕ),
          (R.work.release (i, q) : ℚ) + resp i ≤ t → Completed R.work R.sched (i, q) t) := by
  classical
  have hT' : ∀ t ∈ info, 0 < t.period := fun t ht => (hT t ht).1
  have hinj : Function.Injective (fun i : Fin info.length => (info.get i).priority) := by
    intro a b hab
    rcases lt_trichotomy a b with hlt | hlt | hlt
    · exact absurd hab ((List.pairwise_iff_get.1 hdist) a b hlt)
    · exact hlt
    · exact absurd hab.symm ((List.pairwise_iff_get.1 hdist) b a hlt)
  have hb : ∀ t ∈ info, Fp.boundResponseTimes fuel 1 (partTasks info (remOf info fuel) (locOf info) t.cluster) =
      some (true, done t.cluster) := by
    intro t ht
    obtain ⟨tasks, h1, h2⟩ := Option.bind_eq_some_iff.1 (h t ht)
    rw [(afterMpcpBounds_eq h1).1] at h2
    exact h2
  obtain ⟨W, hdone, hW, hsafe⟩ := part_fp_safe info (remOf info fuel) (locOf info) fuel hT' hprio done hb
  have hcov : ∀ i, Covers info i (remOf info fuel i) := by
    intro i
    have hi := hT _ (List.get_mem info i)
    obtain ⟨tasks, h1, _⟩ := Option.bind_eq_some_iff.1 (h _ (List.get_mem info i))
    have hr := (afterMpcpBounds_eq h1).2 i
    unfold remoteBlocking at hr
    rcases remoteTask_some (k := i) (by unfold unlimited; omega) _ _ _ hr with hu | ⟨B, hB, hv⟩
    · have := hW i
      unfold unlimited at hu
      omega
    · exact ⟨B, hB, by rw [hv, Nat.zero_add]⟩
  refine ⟨fun i => (W i : ℚ), hdone, fun i => by beta_reduce; exact_mod_cast (hW i).1, ?_⟩
  intro R hR i q t ht
  have hbound := hsafe _ R hR.toRequestRun (by
    intro H k q0 q1 a e hbb hwin he _
    have := idle_le hR hbb hT' hn hinj (fun i => (hW i).2.1) (remOf info fuel) hcov
      (fun i hi => ⟨(Finset.mem_filter.1 hi.1).2.1, (Finset.mem_filter.1 hi.1).2.2, hi.2⟩) hwin he
    refine le_trans (le_of_eq ?_) this
    congr 1
    ext t
    simp only [Finset.mem_filter, higher, Finset.mem_univ, true_and]) (R.work.release (i, q) + W i + 1) (i, q)
    (Nat.lt_succ_self _)
  refine hbound.mono ?_
  have : ((R.work.release (i, q) + W i : ℕ) : ℚ) ≤ t := by push_cast; exact ht
  exact_mod_cast this

/-- **C98**: in particular, no deadline is missed. -/
theorem C98_mpcp_schedulable (info : Info) (fuel : ℕ)
    (hT : ∀ t ∈ info, 0 < t.period ∧ t.period < 4294967295 ∧ t.response < 4294967295)
    (hn : ∀ t ∈ info, (t.requests.map Request.resId).Nodup)
    (hprio : info.Pairwise (fun a b => a.cluster = b.cluster → a.priority < b.priority))
    (hdist : info.Pairwise (fun a b => a.priority ≠ b.priority))
    (h : ∀ t ∈ info, ((afterMpcpBounds info fuel t.cluster).bind (Fp.boundResponseTimes fuel 1)).map Prod.fst =
      some true)
    (R : LockRun info.length) (hR : Spec.Mpcp (system info) (fun i => (info.get i).priority) R) :
    MeetsDeadlines R.work (system info).deadline R.sched := by
  obtain ⟨resp, _, h2, h3⟩ := C98_mpcp_safe info fuel hT hn hprio hdist
    (fun k => (((afterMpcpBounds info fuel k).bind (Fp.boundResponseTimes fuel 1)).getD (true, [])).2) (by
      intro t ht
      have := h t ht
      rw [Option.map_eq_some_iff] at this
      obtain ⟨⟨b, l⟩, hb, rfl⟩ := this
      rw [hb]
      rfl)
  rintro ⟨i, q⟩
  refine h3 R hR i q _ ?_
  have := h2 i
  change _ ≤ ((R.work.release (i, q) + (info.get i).deadline : ℕ) : ℚ)
  push_cast
  linarith

/-! ### Termination -/

theorem responseTimeFor_mono {q I I' : ℕ} (hI : I ≤ I') {tsk : TaskInfo} {l : List ℕ} {b : Bool} (hT : 0 < tsk.period) :
    responseTimeFor q I tsk l b ≤ responseTimeFor q I' tsk l b := by
  unfold responseTimeFor
  cases (tsk.requests.zip l).find? (fun r => decide (r.1.resId = q)) with
  | none => exact le_rfl
  | some r =>
    cases b with
    | false => exact le_rfl
    | true =>
      simp only [if_true]
      apply Nat.mul_le_mul_right
      apply Nat.mul_le_mul_right
      rw [Native.divideWithCeil_eq _ hT, Native.divideWithCeil_eq _ hT]
      exact Nat.add_le_add_right (cdiv_mono hT hI) 1

theorem remoteCluster_mono {q I I' : ℕ} (hI : I ≤ I') (tsk : ℕ × TaskInfo) (l : List ((ℕ × TaskInfo) × List ℕ))
    (hT : ∀ t ∈ l, 0 < t.1.2.period) : ∀ {a b : ℕ × ℕ}, a.1 ≤ b.1 → a.2 ≤ b.2 →
    (remoteCluster q I tsk l a).1 ≤ (remoteCluster q I' tsk l b).1 ∧
    (remoteCluster q I tsk l a).2 ≤ (remoteCluster q I' tsk l b).2 := by
  unfold remoteCluster
  induction l with
  | nil => intro a b h1 h2; exact ⟨h1, h2⟩
  | cons x l ih =>
    intro a b h1 h2
    rw [List.foldl_cons, List.foldl_cons]
    have hx := hT x List.mem_cons_self
    have m1 := responseTimeFor_mono (q := q) hI (l := x.2) (b := true) hx
    have m2 := responseTimeFor_mono (q := q) hI (l := x.2) (b := false) hx
    apply ih (fun t ht => hT t (List.mem_cons_of_mem _ ht)) <;>
    · split_ifs <;> (try simp only) <;> omega

theorem mem_clusterTimes {info : Info} {t : (ℕ × TaskInfo) × List ℕ} (h : t ∈ (clusterTimes info).flatten) :
    t.1.2 ∈ info := by
  obtain ⟨l, hl, ht⟩ := List.mem_flatten.1 h
  obtain ⟨c, hc⟩ := List.getElem?_of_mem hl
  have e := getD_clusterTimes info c
  rw [List.getD_eq_getElem?_getD, hc, Option.getD_some] at e
  rw [e] at ht
  obtain ⟨x, hx, rfl⟩ := List.mem_map.1 ht
  exact List.mem_of_getElem? (mem_indexed.1 (List.mem_filter.1 hx).1)

theorem remoteLoop_isSome {info : Info} (hT : ∀ t ∈ info, 0 < t.period) (q : ℕ) (tsk : ℕ × TaskInfo) : ∀ (fuel I : ℕ),
    I ≤ (remoteAll info q I tsk).1 + (remoteAll info q I tsk).2 → 1 ≤ fuel →
    max tsk.2.response tsk.2.period + 2 ≤ I + fuel → (remoteLoop info q tsk fuel I).isSome := by
  intro fuel
  induction fuel with
  | zero => intro I _ h; omega
  | succ fuel ih =>
    intro I h1 _ h2
    rw [remoteLoop]
    by_cases c1 : I > max tsk.2.response tsk.2.period
    · rw [if_pos c1]; rfl
    · rw [if_neg c1]
      simp only
      by_cases c2 : I ≠ (remoteAll info q I tsk).1 + (remoteAll info q I tsk).2
      · rw [if_pos c2]
        apply ih _ _ (by omega) (by omega)
        have := remoteCluster_mono (q := q) h1 tsk (clusterTimes info).flatten (fun t ht => hT _ (mem_clusterTimes ht))
          (a := (0, 0)) (b := (0, 0)) le_rfl le_rfl
        rw [← remoteAll_flatten, ← remoteAll_flatten] at this
        omega
      · rw [if_neg c2]; rfl

/-- **C98**: the computation of the bounds terminates. -/
theorem C98_mpcp_terminates (info : Info) (hT : ∀ t ∈ info, 0 < t.period) (virtualSpinning : Bool) (fuel : ℕ)
    (hf : ∀ t ∈ info, t.response + 2 ≤ fuel ∧ t.period + 2 ≤ fuel) : (mpcpBounds info virtualSpinning fuel).isSome := by
  unfold mpcpBounds
  apply mapM_isSome
  intro t ht
  rw [zipIdx_eq] at ht
  obtain ⟨i, _, rfl⟩ := List.mem_map.1 ht
  have hfi := hf _ (List.get_mem info i)
  have hloop : ∀ q, (remoteLoop info q (i, info.get i) fuel 1).isSome := by
    intro q
    by_cases h1 : 1 ≤ (remoteAll info q 1 (i, info.get i)).1 + (remoteAll info q 1 (i, info.get i)).2
    · exact remoteLoop_isSome hT q _ fuel 1 h1 (by omega) (by simp only; omega)
    · obtain ⟨f, rfl⟩ : ∃ f, fuel = f + 2 := ⟨fuel - 2, by omega⟩
      have h0 := remoteCluster_mono (q := q) (show 0 ≤ 1 by omega) (i, info.get i) (clusterTimes info).flatten
        (fun t ht => hT _ (mem_clusterTimes ht)) (a := (0, 0)) (b := (0, 0)) le_rfl le_rfl
      rw [← remoteAll_flatten, ← remoteAll_flatten] at h0
      have e1 : (remoteAll info q 1 (i, info.get i)).1 + (remoteAll info q 1 (i, info.get i)).2 = 0 := by omega
      have e0 : (remoteAll info q 0 (i, info.get i)).1 + (remoteAll info q 0 (i, info.get i)).2 = 0 := by
        omega
      rw [remoteLoop]
      simp only
      rw [e1]
      split_ifs
      · rfl
      · rw [remoteLoop]
        simp only
        rw [e0]
        simp
      · rfl
  have htask : ∀ (rs : List Request) (acc : ℕ), (remoteTask info fuel (i, info.get i) rs acc).isSome := by
    intro rs
    induction rs with
    | nil => intro acc; rfl
    | cons r rs ih =>
      intro acc
      rw [remoteTask]
      obtain ⟨b, hb⟩ := Option.isSome_iff_exists.1 (hloop r.resId)
      rw [hb]
      change Option.isSome (if b % 4294967296 ≠ unlimited then _ else _) = true
      split_ifs
      · exact ih _
      · rfl
  obtain ⟨v, hv⟩ := Option.isSome_iff_exists.1 (htask (info.get i).requests 0)
  have : remoteBlocking info fuel (i, info.get i) = some v := hv
  simp only
  rw [this]
  rfl

end Verif.SR.Mpcp
